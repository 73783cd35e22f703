import Verif.Pixel.ColorSpec
/-!
# Property C31: colour conversions
-/

set_option autoImplicit false

namespace Wz

/-- widening by repeating the top bits -/
def w4 (x : Nat) : Nat := 16 * x + x
def w5 (x : Nat) : Nat := 8 * x + x / 4
def w6 (x : Nat) : Nat := 4 * x + x / 16

theorem w5_bv : ∀ x : Fin 32, (((BitVec.ofNat 8 x.1) <<< 3) ||| ((BitVec.ofNat 8 x.1) >>> 2)).toNat = w5 x.1 := by decide
theorem w6_bv : ∀ x : Fin 64, (((BitVec.ofNat 8 x.1) <<< 2) ||| ((BitVec.ofNat 8 x.1) >>> 4)).toNat = w6 x.1 := by decide
theorem w4_bv : ∀ x : Fin 16, ((BitVec.ofNat 8 x.1) ||| ((BitVec.ofNat 8 x.1) <<< 4)).toNat = w4 x.1 ∧
    ((BitVec.ofNat 8 (16 * x.1)) ||| ((BitVec.ofNat 8 (16 * x.1)) >>> 4)).toNat = w4 x.1 := by decide

/-- a field of `k` bits at position `s` -/
theorem field_toNat {w : Nat} (v : BitVec w) (m s k : Nat) (hw : k + s ≤ w) (hm : m = (2 ^ k - 1) * 2 ^ s) :
    ((v &&& BitVec.ofNat w m) >>> s).toNat = v.toNat / 2 ^ s % 2 ^ k := by
  have h1 : (2 ^ k - 1) * 2 ^ s < 2 ^ w := by
    have : 2 ^ (k + s) ≤ 2 ^ w := Nat.pow_le_pow_right (by omega) hw
    rw [Nat.pow_add] at this
    have h2 : (2 ^ k - 1) * 2 ^ s < 2 ^ k * 2 ^ s := Nat.mul_lt_mul_of_pos_right (Nat.sub_lt (Nat.two_pow_pos k) (by omega)) (Nat.two_pow_pos s)
    omega
  subst hm
  rw [BitVec.toNat_ushiftRight, BitVec.toNat_and, BitVec.toNat_ofNat, Nat.mod_eq_of_lt h1, Nat.shiftRight_and_distrib,
    Nat.shiftRight_eq_div_pow ((2 ^ k - 1) * 2 ^ s), Nat.mul_div_cancel _ (Nat.two_pow_pos s), Nat.and_two_pow_sub_one_eq_mod,
    Nat.shiftRight_eq_div_pow]

theorem setWidth_ofNat {w : Nat} (v : BitVec w) {n : Nat} (h : v.toNat = n) : v.setWidth 8 = BitVec.ofNat 8 n := by
  apply BitVec.eq_of_toNat_eq
  rw [BitVec.toNat_setWidth, BitVec.toNat_ofNat, h]

namespace Props
open Spec

/-- C31, RGB565: the fields come from the documented bits. -/
theorem C31_rgb565_fields (r g b : Nat) (hr : r < 32) (hg : g < 64) (hb : b < 32) :
    fromRgb565 (BitVec.ofNat 16 (pack565 r g b)) = ⟨BitVec.ofNat 8 (8 * r + r / 4), BitVec.ofNat 8 (4 * g + g / 16), BitVec.ofNat 8 (8 * b + b / 4)⟩ := by
  have hn : (BitVec.ofNat 16 (pack565 r g b)).toNat = pack565 r g b := by
    rw [BitVec.toNat_ofNat]; unfold pack565; omega
  have h1 := field_toNat (BitVec.ofNat 16 (pack565 r g b)) 0xF800 11 5 (by omega) (by decide)
  have h2 := field_toNat (BitVec.ofNat 16 (pack565 r g b)) 0x07E0 5 6 (by omega) (by decide)
  have h3 := field_toNat (BitVec.ofNat 16 (pack565 r g b)) 0x001F 0 5 (by omega) (by decide)
  rw [hn] at h1 h2 h3
  rw [show pack565 r g b / 2 ^ 11 % 2 ^ 5 = r by unfold pack565; omega] at h1
  rw [show pack565 r g b / 2 ^ 5 % 2 ^ 6 = g by unfold pack565; omega] at h2
  rw [show pack565 r g b / 2 ^ 0 % 2 ^ 5 = b by unfold pack565; omega, BitVec.ushiftRight_zero] at h3
  unfold fromRgb565
  dsimp only
  rw [setWidth_ofNat _ h1, setWidth_ofNat _ h2, setWidth_ofNat _ h3]
  congr 1
  · apply BitVec.eq_of_toNat_eq
    rw [w5_bv ⟨r, hr⟩, BitVec.toNat_ofNat]; unfold w5; dsimp only; omega
  · apply BitVec.eq_of_toNat_eq
    rw [w6_bv ⟨g, hg⟩, BitVec.toNat_ofNat]; unfold w6; dsimp only; omega
  · apply BitVec.eq_of_toNat_eq
    rw [w5_bv ⟨b, hb⟩, BitVec.toNat_ofNat]; unfold w5; dsimp only; omega

/-- C31, ARGB1555. -/
theorem C31_argb1555_fields (a r g b : Nat) (ha : a < 2) (hr : r < 32) (hg : g < 32) (hb : b < 32) :
    fromArgb1555 (BitVec.ofNat 16 (pack1555 a r g b)) =
      ⟨BitVec.ofNat 8 (8 * r + r / 4), BitVec.ofNat 8 (8 * g + g / 4), BitVec.ofNat 8 (8 * b + b / 4), BitVec.ofNat 8 (255 * a)⟩ := by
  have hn : (BitVec.ofNat 16 (pack1555 a r g b)).toNat = pack1555 a r g b := by
    rw [BitVec.toNat_ofNat]; unfold pack1555; omega
  have h0 := field_toNat (BitVec.ofNat 16 (pack1555 a r g b)) 0x8000 15 1 (by omega) (by decide)
  have h1 := field_toNat (BitVec.ofNat 16 (pack1555 a r g b)) 0x7C00 10 5 (by omega) (by decide)
  have h2 := field_toNat (BitVec.ofNat 16 (pack1555 a r g b)) 0x03E0 5 5 (by omega) (by decide)
  have h3 := field_toNat (BitVec.ofNat 16 (pack1555 a r g b)) 0x001F 0 5 (by omega) (by decide)
  rw [hn] at h0 h1 h2 h3
  rw [show pack1555 a r g b / 2 ^ 15 % 2 ^ 1 = a by unfold pack1555; omega] at h0
  rw [show pack1555 a r g b / 2 ^ 10 % 2 ^ 5 = r by unfold pack1555; omega] at h1
  rw [show pack1555 a r g b / 2 ^ 5 % 2 ^ 5 = g by unfold pack1555; omega] at h2
  rw [show pack1555 a r g b / 2 ^ 0 % 2 ^ 5 = b by unfold pack1555; omega, BitVec.ushiftRight_zero] at h3
  have hand : (BitVec.ofNat 16 (pack1555 a r g b) &&& 0x8000#16).toNat = a * 2 ^ 15 := by
    rw [BitVec.toNat_ushiftRight, Nat.shiftRight_eq_div_pow] at h0
    have hm : (BitVec.ofNat 16 (pack1555 a r g b) &&& 0x8000#16).toNat % 2 ^ 15 = 0 := by
      rw [BitVec.toNat_and, Nat.and_mod_two_pow]
      simp
    have := Nat.div_add_mod (BitVec.ofNat 16 (pack1555 a r g b) &&& 0x8000#16).toNat (2 ^ 15)
    rw [h0, hm] at this
    omega
  unfold fromArgb1555
  dsimp only
  rw [setWidth_ofNat _ h1, setWidth_ofNat _ h2, setWidth_ofNat _ h3]
  congr 1
  · apply BitVec.eq_of_toNat_eq
    rw [w5_bv ⟨r, hr⟩, BitVec.toNat_ofNat]; unfold w5; dsimp only; omega
  · apply BitVec.eq_of_toNat_eq
    rw [w5_bv ⟨g, hg⟩, BitVec.toNat_ofNat]; unfold w5; dsimp only; omega
  · apply BitVec.eq_of_toNat_eq
    rw [w5_bv ⟨b, hb⟩, BitVec.toNat_ofNat]; unfold w5; dsimp only; omega
  · by_cases h : a = 0
    · rw [if_neg]
      · rw [h]
      · intro hne
        apply hne
        apply BitVec.eq_of_toNat_eq
        rw [hand, h]
        rfl
    · rw [if_pos]
      · rw [show a = 1 by omega]
      · intro he
        rw [he] at hand
        simp only [BitVec.toNat_ofNat] at hand
        omega

/-- C31, BGRA4444, from the two bytes of the little-endian value. -/
theorem C31_bgra4444_fields (a r g b : Nat) (ha : a < 16) (hr : r < 16) (hg : g < 16) (hb : b < 16) :
    fromBgra4444 (BitVec.ofNat 8 (pack4444 a r g b % 256)) (BitVec.ofNat 8 (pack4444 a r g b / 256)) =
      ⟨BitVec.ofNat 8 (17 * r), BitVec.ofNat 8 (17 * g), BitVec.ofNat 8 (17 * b), BitVec.ofNat 8 (17 * a)⟩ := by
  have e0 : pack4444 a r g b % 256 = 16 * g + b := by unfold pack4444; omega
  have e1 : pack4444 a r g b / 256 = 16 * a + r := by unfold pack4444; omega
  rw [e0, e1]
  have key : ∀ hi lo : Fin 16, (BitVec.ofNat 8 (16 * hi.1 + lo.1) &&& 0x0F#8) = BitVec.ofNat 8 lo.1 ∧
      (BitVec.ofNat 8 (16 * hi.1 + lo.1) &&& 0xF0#8) = BitVec.ofNat 8 (16 * hi.1) := by decide
  unfold fromBgra4444
  dsimp only
  rw [(key ⟨g, hg⟩ ⟨b, hb⟩).1, (key ⟨g, hg⟩ ⟨b, hb⟩).2, (key ⟨a, ha⟩ ⟨r, hr⟩).1, (key ⟨a, ha⟩ ⟨r, hr⟩).2]
  congr 1
  · apply BitVec.eq_of_toNat_eq
    rw [(w4_bv ⟨r, hr⟩).1, BitVec.toNat_ofNat]; unfold w4; dsimp only; omega
  · apply BitVec.eq_of_toNat_eq
    rw [(w4_bv ⟨g, hg⟩).2, BitVec.toNat_ofNat]; unfold w4; dsimp only; omega
  · apply BitVec.eq_of_toNat_eq
    rw [(w4_bv ⟨b, hb⟩).1, BitVec.toNat_ofNat]; unfold w4; dsimp only; omega
  · apply BitVec.eq_of_toNat_eq
    rw [(w4_bv ⟨a, ha⟩).2, BitVec.toNat_ofNat]; unfold w4; dsimp only; omega

/-- C31, R10G10B10A2: the top eight bits of each colour, alpha in steps of 85. -/
theorem C31_rgba1010102_fields (a b g r : Nat) (ha : a < 4) (hr : r < 1024) (hg : g < 1024) (hb : b < 1024) :
    fromRgba1010102 (BitVec.ofNat 32 (pack1010102 a b g r)) =
      ⟨BitVec.ofNat 8 (r / 4), BitVec.ofNat 8 (g / 4), BitVec.ofNat 8 (b / 4), BitVec.ofNat 8 (85 * a)⟩ := by
  have hn : (BitVec.ofNat 32 (pack1010102 a b g r)).toNat = pack1010102 a b g r := by
    rw [BitVec.toNat_ofNat]; unfold pack1010102; omega
  have hand : ∀ (v : BitVec 32) (k : Nat), k ≤ 32 → (v &&& BitVec.ofNat 32 (2 ^ k - 1)).toNat = v.toNat % 2 ^ k := by
    intro v k hk
    have := field_toNat v (2 ^ k - 1) 0 k hk (by omega)
    rw [BitVec.ushiftRight_zero] at this
    rw [this, Nat.pow_zero, Nat.div_one]
  have s0 := hand (BitVec.ofNat 32 (pack1010102 a b g r)) 10 (by omega)
  have s1 := hand (BitVec.ofNat 32 (pack1010102 a b g r) >>> 10) 10 (by omega)
  have s2 := hand (BitVec.ofNat 32 (pack1010102 a b g r) >>> 20) 10 (by omega)
  have s3 := hand (BitVec.ofNat 32 (pack1010102 a b g r) >>> 30) 2 (by omega)
  rw [BitVec.toNat_ushiftRight, hn, Nat.shiftRight_eq_div_pow] at s1 s2 s3
  rw [hn] at s0
  unfold fromRgba1010102
  congr 1
  · refine setWidth_ofNat _ ?_
    rw [BitVec.toNat_ushiftRight, Nat.shiftRight_eq_div_pow]
    refine (congrArg (· / 2 ^ 2) s0).trans ?_
    unfold pack1010102; omega
  · refine setWidth_ofNat _ ?_
    rw [BitVec.toNat_ushiftRight, Nat.shiftRight_eq_div_pow]
    refine (congrArg (· / 2 ^ 2) s1).trans ?_
    unfold pack1010102; omega
  · refine setWidth_ofNat _ ?_
    rw [BitVec.toNat_ushiftRight, Nat.shiftRight_eq_div_pow]
    refine (congrArg (· / 2 ^ 2) s2).trans ?_
    unfold pack1010102; omega
  · refine setWidth_ofNat _ ?_
    rw [BitVec.toNat_mul]
    refine (congrArg (fun n => n * (85#32).toNat % 2 ^ 32) s3).trans ?_
    have : pack1010102 a b g r / 2 ^ 30 % 2 ^ 2 = a := by unfold pack1010102; omega
    rw [this]
    show a * 85 % 2 ^ 32 = 85 * a
    omega

/-- C31: every 16-bit value is some `pack565` and some `pack1555`, every 32-bit value some `pack1010102`, so the theorems
above cover all pixels. -/
theorem C31_fields_cover (v : Nat) :
    (v < 2 ^ 16 → ∃ r g b, r < 32 ∧ g < 64 ∧ b < 32 ∧ v = pack565 r g b) ∧
    (v < 2 ^ 16 → ∃ a r g b, a < 2 ∧ r < 32 ∧ g < 32 ∧ b < 32 ∧ v = pack1555 a r g b) ∧
    (v < 2 ^ 16 → ∃ a r g b, a < 16 ∧ r < 16 ∧ g < 16 ∧ b < 16 ∧ v = pack4444 a r g b) ∧
    (v < 2 ^ 32 → ∃ a b g r, a < 4 ∧ b < 1024 ∧ g < 1024 ∧ r < 1024 ∧ v = pack1010102 a b g r) := by
  refine ⟨fun h => ⟨v / 2048, v / 32 % 64, v % 32, ?_⟩, fun h => ⟨v / 32768, v / 1024 % 32, v / 32 % 32, v % 32, ?_⟩,
    fun h => ⟨v / 4096, v / 256 % 16, v / 16 % 16, v % 16, ?_⟩, fun h => ⟨v / 2 ^ 30, v / 2 ^ 20 % 1024, v / 1024 % 1024, v % 1024, ?_⟩⟩
  · unfold pack565; omega
  · unfold pack1555; omega
  · unfold pack4444; omega
  · unfold pack1010102; omega

/-- C31: the widening of four, five and six bits keeps zero, full, order and value. -/
theorem C31_widening : Widens 4 (fun x => 17 * x) ∧ Widens 5 (fun x => 8 * x + x / 4) ∧ Widens 6 (fun x => 4 * x + x / 16) := by
  refine ⟨⟨rfl, rfl, ?_, ?_, ?_⟩, ⟨rfl, rfl, ?_, ?_, ?_⟩, ⟨rfl, rfl, ?_, ?_, ?_⟩⟩ <;> intros <;> omega

/-- C31: in R10G10B10A2 zero, full and (weakly) the order are kept, but two of the ten bits are lost. -/
theorem C31_ten_bits : (0 / 4 = 0 ∧ 1023 / 4 = 255) ∧ (∀ x y, x ≤ y → x / 4 ≤ y / 4) ∧ (∀ x, x < 1024 → x / 4 = x * 256 / 1024) ∧
    Widens 2 (fun x => 85 * x) := by
  refine ⟨⟨rfl, rfl⟩, ?_, ?_, ⟨rfl, rfl, ?_, ?_, ?_⟩⟩ <;> intros <;> omega

/-- C31 in full, "the original bits are recoverable", is false of R10G10B10A2: two pixels with the same colour. -/
theorem C31_ten_bits_not_recoverable : ∃ p q : BitVec 32, p ≠ q ∧ fromRgba1010102 p = fromRgba1010102 q := ⟨0#32, 1#32, by decide, by decide⟩

/-- C31: the 16-bit formats are injective: no two pixels become the same colour. -/
theorem C31_recoverable (p q : BitVec 16) :
    (fromRgb565 p = fromRgb565 q → p = q) ∧ (fromArgb1555 p = fromArgb1555 q → p = q) ∧
    (fromBgra4444 (p.setWidth 8) ((p >>> 8).setWidth 8) = fromBgra4444 (q.setWidth 8) ((q >>> 8).setWidth 8) → p = q) := by
  have inj : ∀ {x y : Nat}, x < 256 → y < 256 → BitVec.ofNat 8 x = BitVec.ofNat 8 y → x = y := by
    intro x y hx hy h
    have := congrArg BitVec.toNat h
    rw [BitVec.toNat_ofNat, BitVec.toNat_ofNat] at this
    omega
  have hp := BitVec.ofNat_toNat 16 p
  have hq := BitVec.ofNat_toNat 16 q
  rw [BitVec.setWidth_eq] at hp hq
  refine ⟨fun h => ?_, fun h => ?_, fun h => ?_⟩
  · obtain ⟨r, g, b, h1, h2, h3, e1⟩ := (C31_fields_cover p.toNat).1 p.isLt
    obtain ⟨r', g', b', h1', h2', h3', e2⟩ := (C31_fields_cover q.toNat).1 q.isLt
    rw [← hp, ← hq, e1, e2] at h ⊢
    rw [C31_rgb565_fields r g b h1 h2 h3, C31_rgb565_fields r' g' b' h1' h2' h3'] at h
    injection h with ha hb hc
    have := inj (by omega) (by omega) ha
    have := inj (by omega) (by omega) hb
    have := inj (by omega) (by omega) hc
    rw [show r = r' by omega, show g = g' by omega, show b = b' by omega]
  · obtain ⟨a, r, g, b, h0, h1, h2, h3, e1⟩ := (C31_fields_cover p.toNat).2.1 p.isLt
    obtain ⟨a', r', g', b', h0', h1', h2', h3', e2⟩ := (C31_fields_cover q.toNat).2.1 q.isLt
    rw [← hp, ← hq, e1, e2] at h ⊢
    rw [C31_argb1555_fields a r g b h0 h1 h2 h3, C31_argb1555_fields a' r' g' b' h0' h1' h2' h3'] at h
    injection h with ha hb hc hd
    have := inj (by omega) (by omega) ha
    have := inj (by omega) (by omega) hb
    have := inj (by omega) (by omega) hc
    have := inj (by omega) (by omega) hd
    rw [show a = a' by omega, show r = r' by omega, show g = g' by omega, show b = b' by omega]
  · have lo : ∀ p : BitVec 16, p.setWidth 8 = BitVec.ofNat 8 (p.toNat % 256) := by
      intro p
      apply BitVec.eq_of_toNat_eq
      rw [BitVec.toNat_setWidth, BitVec.toNat_ofNat]; omega
    have hi : ∀ p : BitVec 16, (p >>> 8).setWidth 8 = BitVec.ofNat 8 (p.toNat / 256) := by
      intro p
      apply BitVec.eq_of_toNat_eq
      rw [BitVec.toNat_setWidth, BitVec.toNat_ushiftRight, Nat.shiftRight_eq_div_pow, BitVec.toNat_ofNat]
    obtain ⟨a, r, g, b, h0, h1, h2, h3, e1⟩ := (C31_fields_cover p.toNat).2.2.1 p.isLt
    obtain ⟨a', r', g', b', h0', h1', h2', h3', e2⟩ := (C31_fields_cover q.toNat).2.2.1 q.isLt
    rw [lo, hi, lo, hi, e1, e2, C31_bgra4444_fields a r g b h0 h1 h2 h3, C31_bgra4444_fields a' r' g' b' h0' h1' h2' h3'] at h
    injection h with ha hb hc hd
    have := inj (by omega) (by omega) ha
    have := inj (by omega) (by omega) hb
    have := inj (by omega) (by omega) hc
    have := inj (by omega) (by omega) hd
    rw [← hp, ← hq, e1, e2, show a = a' by omega, show r = r' by omega, show g = g' by omega, show b = b' by omega]

/-! ### Cases that meet the hypotheses -/

example : fromRgb565 0xFFE0#16 = ⟨255#8, 255#8, 0#8⟩ := C31_rgb565_fields 31 63 0 (by decide) (by decide) (by decide)
example : fromArgb1555 0x801F#16 = ⟨0#8, 0#8, 255#8, 255#8⟩ := C31_argb1555_fields 1 0 0 31 (by decide) (by decide) (by decide) (by decide)
example : fromBgra4444 0x21#8 0x43#8 = ⟨0x33#8, 0x22#8, 0x11#8, 0x44#8⟩ := C31_bgra4444_fields 4 3 2 1 (by decide) (by decide) (by decide) (by decide)
example : fromRgba1010102 0xC00003FF#32 = ⟨255#8, 0#8, 0#8, 255#8⟩ := C31_rgba1010102_fields 3 0 0 1023 (by decide) (by decide) (by decide) (by decide)

end Props
end Wz
