import Verif.Pixel.Dxt
import Verif.Pixel.ColorProps
/-!
# Lemmas on tables and images
-/

set_option autoImplicit false

namespace Wz
variable {α β : Type}

theorem mapM_okay {f : α → Except Err β} {g : α → β} {l : List α} (h : ∀ a ∈ l, f a = .ok (g a)) : l.mapM f = .ok (l.map g) := by
  induction l with
  | nil => rfl
  | cons a l ih =>
    rw [List.mapM_cons, h a (.head _)]
    show (l.mapM f >>= _) = _
    rw [ih fun b hb => h b (.tail _ hb)]
    rfl

theorem idx_ok {l : List α} {i : Nat} (h : i < l.length) : idx l i = .ok l[i] := by
  unfold idx
  rw [List.getElem?_eq_getElem h]

theorem idx_err {l : List α} {i : Nat} (h : l.length ≤ i) : idx l i = .error .panicIndex := by
  unfold idx
  rw [List.getElem?_eq_none h]

theorem genImage_ok {w h : Nat} {f : Nat → Nat → Except Err α} {g : Nat → Nat → α} (hf : ∀ x y, x < w → y < h → f x y = .ok (g x y)) :
    genImage w h f = .ok ((List.range h).map fun y => (List.range w).map fun x => g x y) := by
  unfold genImage
  refine mapM_okay fun y hy => ?_
  exact mapM_okay fun x hx => hf x y (List.mem_range.mp hx) (List.mem_range.mp hy)

/-- the first failing pixel decides: if every pixel succeeds or fails with `e`, and one fails, the image fails with `e` -/
theorem mapM_fails {f : α → Except Err β} {e : Err} {l : List α} (h : ∀ a ∈ l, (∃ b, f a = .ok b) ∨ f a = .error e)
    (h1 : ∃ a ∈ l, f a = .error e) : l.mapM f = .error e := by
  induction l with
  | nil => obtain ⟨a, ha, _⟩ := h1; cases ha
  | cons a l ih =>
    rw [List.mapM_cons]
    rcases h a (.head _) with ⟨b, hb⟩ | he
    · rw [hb]
      show (l.mapM f >>= _) = _
      rw [ih (fun x hx => h x (.tail _ hx)) ?_]
      · rfl
      · obtain ⟨x, hx, hxe⟩ := h1
        cases hx with
        | head => rw [hb] at hxe; cases hxe
        | tail _ hx => exact ⟨x, hx, hxe⟩
    · rw [he]
      rfl

theorem mapM_isOk {f : α → Except Err β} {l : List α} (h : ∀ a ∈ l, ∃ b, f a = .ok b) : ∃ r, l.mapM f = .ok r := by
  induction l with
  | nil => exact ⟨[], rfl⟩
  | cons a l ih =>
    obtain ⟨b, hb⟩ := h a (.head _)
    obtain ⟨r, hr⟩ := ih fun x hx => h x (.tail _ hx)
    refine ⟨b :: r, ?_⟩
    rw [List.mapM_cons, hb]
    show (l.mapM f >>= _) = _
    rw [hr]
    rfl

theorem genImage_fails {w h : Nat} {f : Nat → Nat → Except Err α} {e : Err} (hf : ∀ x y, x < w → y < h → (∃ b, f x y = .ok b) ∨ f x y = .error e)
    {x0 y0 : Nat} (hx : x0 < w) (hy : y0 < h) (h0 : f x0 y0 = .error e) : genImage w h f = .error e := by
  unfold genImage
  have row : ∀ y, y < h → (∃ r, (List.range w).mapM (fun x => f x y) = .ok r) ∨ (List.range w).mapM (fun x => f x y) = .error e := by
    intro y hy
    by_cases hh : ∃ x ∈ List.range w, f x y = .error e
    · exact .inr (mapM_fails (fun x hx => hf x y (List.mem_range.mp hx) hy) hh)
    · refine .inl (mapM_isOk fun x hx => ?_)
      rcases hf x y (List.mem_range.mp hx) hy with h1 | h1
      · exact h1
      · exact absurd ⟨x, hx, h1⟩ hh
  refine mapM_fails (fun y hy => row y (List.mem_range.mp hy)) ⟨y0, List.mem_range.mpr hy, ?_⟩
  exact mapM_fails (fun x hx => hf x y0 (List.mem_range.mp hx) hy) ⟨x0, List.mem_range.mpr hx, h0⟩

theorem mapM_length {f : α → Except Err β} {l : List α} : ∀ {r : List β}, l.mapM f = .ok r → r.length = l.length := by
  induction l with
  | nil => intro r h; cases h; rfl
  | cons a l ih =>
    intro r h
    rw [List.mapM_cons] at h
    cases hf : f a with
    | error e => rw [hf] at h; cases h
    | ok b =>
      rw [hf] at h
      replace h : (l.mapM f >>= fun r => (.ok (b :: r) : Except Err (List β))) = .ok r := h
      cases hl : l.mapM f with
      | error e => rw [hl] at h; cases h
      | ok t =>
        rw [hl] at h
        cases h
        rw [List.length_cons, List.length_cons, ih hl]

/-- a list of which one element fails fails -/
theorem mapM_anyError {f : α → Except Err β} {l : List α} {a : α} (ha : a ∈ l) (h : ∃ e, f a = .error e) : ∃ e, l.mapM f = .error e := by
  induction l with
  | nil => cases ha
  | cons b l ih =>
    rw [List.mapM_cons]
    cases hf : f b with
    | error e => exact ⟨e, rfl⟩
    | ok c =>
      rcases List.mem_cons.mp ha with rfl | ha
      · obtain ⟨e, he⟩ := h
        rw [hf] at he
        cases he
      · obtain ⟨e, he⟩ := ih ha
        rw [he]
        exact ⟨e, rfl⟩

theorem genImage_error {w h : Nat} {f : Nat → Nat → Except Err α} {x y : Nat} (hx : x < w) (hy : y < h) (h0 : ∃ e, f x y = .error e) :
    ∃ e, genImage w h f = .error e :=
  mapM_anyError (List.mem_range.mpr hy) (mapM_anyError (List.mem_range.mpr hx) h0)

theorem range16_cases {P : Nat → Prop} (h : ∀ k, k < 16 → P k) : ∀ k ∈ List.range 16, P k := fun k hk => h k (List.mem_range.mp hk)

theorem list_of_length4 {l : List α} (h : l.length = 4) : ∃ a b c d, l = [a, b, c, d] := by
  match l, h with
  | [a, b, c, d], _ => exact ⟨a, b, c, d, rfl⟩

theorem list_of_length8 {l : List α} (h : l.length = 8) : ∃ a b c d e f g i, l = [a, b, c, d, e, f, g, i] := by
  match l, h with
  | [a, b, c, d, e, f, g, i], _ => exact ⟨a, b, c, d, e, f, g, i, rfl⟩

theorem list_of_length6 {l : List α} (h : l.length = 6) : ∃ a b c d e f, l = [a, b, c, d, e, f] := by
  match l, h with
  | [a, b, c, d, e, f], _ => exact ⟨a, b, c, d, e, f, rfl⟩

theorem colorIdx4_eq (c : Byte) : colorIdx4 c = [c.toNat % 4, c.toNat / 4 % 4, c.toNat / 16 % 4, c.toNat / 64 % 4] := by
  have h0 := field_toNat c 0x03 0 2 (by omega) (by decide)
  have h1 := field_toNat c 0x0C 2 2 (by omega) (by decide)
  have h2 := field_toNat c 0x30 4 2 (by omega) (by decide)
  have h3 := field_toNat c 0xC0 6 2 (by omega) (by decide)
  rw [BitVec.ushiftRight_zero, Nat.pow_zero, Nat.div_one] at h0
  unfold colorIdx4
  rw [show (0x03#8) = BitVec.ofNat 8 0x03 from rfl, h0]
  rw [show (0x0C#8) = BitVec.ofNat 8 0x0C from rfl, h1]
  rw [show (0x30#8) = BitVec.ofNat 8 0x30 from rfl, h2]
  rw [show (0xC0#8) = BitVec.ofNat 8 0xC0 from rfl, h3]

theorem colorIdxTable_eq {raw : Bytes} (h : raw.length = 4) : colorIdxTable raw = .ok ((List.range 16).map fun k => leNat raw / 4 ^ k % 4) := by
  obtain ⟨a, b, c, d, rfl⟩ := list_of_length4 h
  have ha := a.isLt; have hb := b.isLt; have hc := c.isLt; have hd := d.isLt
  show Except.ok (colorIdx4 a ++ colorIdx4 b ++ colorIdx4 c ++ colorIdx4 d) = _
  rw [colorIdx4_eq, colorIdx4_eq, colorIdx4_eq, colorIdx4_eq]
  have hl : leNat [a, b, c, d] = a.toNat + 256 * (b.toNat + 256 * (c.toNat + 256 * d.toNat)) := by simp [leNat]
  rw [hl]
  refine congrArg Except.ok ?_
  simp only [List.range, List.range.loop, List.map_cons, List.map_nil, List.cons_append, List.nil_append, List.cons.injEq, and_true]
  refine ⟨?_, ?_, ?_, ?_, ?_, ?_, ?_, ?_, ?_, ?_, ?_, ?_, ?_, ?_, ?_, ?_⟩ <;> omega

theorem alphaIdx8_eq (a b c : Byte) : alphaIdx8 a b c = (List.range 8).map fun j => (a.toNat + 256 * (b.toNat + 256 * c.toNat)) / 8 ^ j % 8 := by
  have ha := a.isLt; have hb := b.isLt; have hc := c.isLt
  have hf : (a.setWidth 32 ||| (b.setWidth 32 <<< 8) ||| (c.setWidth 32 <<< 16)).toNat = a.toNat + 256 * (b.toNat + 256 * c.toNat) := by
    rw [BitVec.toNat_or, BitVec.toNat_or, BitVec.toNat_shiftLeft, BitVec.toNat_shiftLeft, BitVec.toNat_setWidth, BitVec.toNat_setWidth, BitVec.toNat_setWidth,
      Nat.mod_eq_of_lt (a := a.toNat) (by omega), Nat.mod_eq_of_lt (a := b.toNat) (by omega), Nat.mod_eq_of_lt (a := c.toNat) (by omega),
      Nat.shiftLeft_eq, Nat.shiftLeft_eq, Nat.mod_eq_of_lt (by omega), Nat.mod_eq_of_lt (by omega)]
    have e1 : a.toNat ||| b.toNat * 2 ^ 8 = a.toNat + b.toNat * 2 ^ 8 := by
      rw [Nat.or_comm, Nat.mul_comm, ← Nat.two_pow_add_eq_or_of_lt (by omega : a.toNat < 2 ^ 8)]; omega
    rw [e1]
    have e2 : a.toNat + b.toNat * 2 ^ 8 ||| c.toNat * 2 ^ 16 = a.toNat + b.toNat * 2 ^ 8 + c.toNat * 2 ^ 16 := by
      rw [Nat.or_comm, Nat.mul_comm c.toNat, ← Nat.two_pow_add_eq_or_of_lt (by omega : a.toNat + b.toNat * 2 ^ 8 < 2 ^ 16)]; omega
    rw [e2]
    omega
  unfold alphaIdx8
  dsimp only
  apply List.map_congr_left
  intro j hj
  have hj := List.mem_range.mp hj
  have hm : 7#32 <<< (3 * j) = BitVec.ofNat 32 (7 * 2 ^ (3 * j)) := by
    apply BitVec.eq_of_toNat_eq
    rw [BitVec.toNat_shiftLeft, Nat.shiftLeft_eq, BitVec.toNat_ofNat, BitVec.toNat_ofNat]
  rw [hm, field_toNat _ _ (3 * j) 3 (by omega) rfl, hf, Nat.pow_mul]

theorem alphaIdxTable5_eq {raw : Bytes} (h : raw.length = 6) : alphaIdxTable5 raw = .ok ((List.range 16).map fun k => leNat raw / 8 ^ k % 8) := by
  obtain ⟨a, b, c, d, e, f, rfl⟩ := list_of_length6 h
  have ha := a.isLt; have hb := b.isLt; have hc := c.isLt; have hd := d.isLt; have he := e.isLt; have hf := f.isLt
  show Except.ok (alphaIdx8 a b c ++ alphaIdx8 d e f) = _
  rw [alphaIdx8_eq, alphaIdx8_eq]
  have hl : leNat [a, b, c, d, e, f] = (a.toNat + 256 * (b.toNat + 256 * c.toNat)) + 2 ^ 24 * (d.toNat + 256 * (e.toNat + 256 * f.toNat)) := by simp [leNat]; omega
  rw [hl]
  have hx : a.toNat + 256 * (b.toNat + 256 * c.toNat) < 2 ^ 24 := by omega
  have hy : d.toNat + 256 * (e.toNat + 256 * f.toNat) < 2 ^ 24 := by omega
  generalize a.toNat + 256 * (b.toNat + 256 * c.toNat) = x at hx
  generalize d.toNat + 256 * (e.toNat + 256 * f.toNat) = y at hy
  refine congrArg Except.ok ?_
  simp only [List.range, List.range.loop, List.map_cons, List.map_nil, List.cons_append, List.nil_append, List.cons.injEq, and_true]
  refine ⟨?_, ?_, ?_, ?_, ?_, ?_, ?_, ?_, ?_, ?_, ?_, ?_, ?_, ?_, ?_, ?_⟩ <;> omega

theorem nibbles (v : Byte) : (v &&& 0x0F#8) = BitVec.ofNat 8 (v.toNat % 16) ∧ (v &&& 0xF0#8) >>> 4 = BitVec.ofNat 8 (v.toNat / 16 % 16) := by
  have h0 := field_toNat v 0x0F 0 4 (by omega) (by decide)
  have h1 := field_toNat v 0xF0 4 4 (by omega) (by decide)
  rw [BitVec.ushiftRight_zero, Nat.pow_zero, Nat.div_one] at h0
  constructor
  · apply BitVec.eq_of_toNat_eq
    rw [show (0x0F#8) = BitVec.ofNat 8 0x0F from rfl, h0, BitVec.toNat_ofNat]
    omega
  · apply BitVec.eq_of_toNat_eq
    rw [show (0xF0#8) = BitVec.ofNat 8 0xF0 from rfl, h1, BitVec.toNat_ofNat]
    omega

theorem wide4 {n : Nat} (hn : n < 16) : (BitVec.ofNat 8 n ||| BitVec.ofNat 8 n <<< 4) = BitVec.ofNat 8 (17 * n) := by
  apply BitVec.eq_of_toNat_eq
  rw [(w4_bv ⟨n, hn⟩).1, BitVec.toNat_ofNat]
  unfold w4; dsimp only; omega

theorem nibbleTable (raw : Bytes) :
    (raw.flatMap fun alpha : Byte => [alpha &&& 0x0F#8, (alpha &&& 0xF0#8) >>> 4]).map (fun x : Byte => x ||| (x <<< 4)) =
      (List.range (2 * raw.length)).map fun k => BitVec.ofNat 8 (17 * (leNat raw / 16 ^ k % 16)) := by
  induction raw with
  | nil => rfl
  | cons a r ih =>
    have ha := a.isLt
    rw [List.flatMap_cons, List.map_append, ih, List.length_cons, Nat.mul_add, show 2 * r.length + 2 * 1 = 2 * r.length + 1 + 1 from rfl,
      List.range_succ_eq_map, List.range_succ_eq_map]
    simp only [List.map_cons, List.map_nil, List.map_map, List.cons_append, List.nil_append, (nibbles a).1, (nibbles a).2]
    have hl : leNat (a :: r) = a.toNat + 256 * leNat r := rfl
    rw [wide4 (by omega), wide4 (by omega), hl]
    refine congr (congrArg List.cons ?_) (congr (congrArg List.cons ?_) ?_)
    · congr 2; omega
    · show BitVec.ofNat 8 (17 * (a.toNat / 16 % 16)) = BitVec.ofNat 8 (17 * ((a.toNat + 256 * leNat r) / 16 % 16))
      congr 2; omega
    · apply List.map_congr_left
      intro k _
      show _ = BitVec.ofNat 8 (17 * ((a.toNat + 256 * leNat r) / 16 ^ (k + 1 + 1) % 16))
      rw [Nat.pow_succ, Nat.pow_succ, Nat.mul_assoc, Nat.mul_comm (16 ^ k), ← Nat.div_div_eq_div_mul,
        show (a.toNat + 256 * leNat r) / (16 * 16) = leNat r by omega]

theorem alphaTable3_eq {raw : Bytes} (h : raw.length = 8) : alphaTable3 raw = .ok ((List.range 16).map fun k => BitVec.ofNat 8 (17 * (leNat raw / 16 ^ k % 16))) := by
  have h1 : (List.range 8).mapM (idx raw) = .ok raw := by
    obtain ⟨a, b, c, d, e, f, g, i, rfl⟩ := list_of_length8 h
    rfl
  unfold alphaTable3
  rw [h1]
  have := nibbleTable raw
  rw [h] at this
  exact congrArg Except.ok this

end Wz
