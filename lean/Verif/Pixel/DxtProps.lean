import Verif.Pixel.DxtSpec
import Verif.Pixel.Lemmas
/-!
# Properties C33 (tables of a block) and C32 (placement of the pixels)
-/

set_option autoImplicit false

namespace Wz.Props
open Spec

/-! ## C33 DXT colour and alpha tables -/

theorem is565 (v : BitVec 16) : Is565 v.toNat (fromRgb565 v) := by
  obtain ⟨r, g, b, h1, h2, h3, e1⟩ := (C31_fields_cover v.toNat).1 v.isLt
  refine ⟨r, g, b, h1, h2, h3, e1, ?_⟩
  rw [← C31_rgb565_fields r g b h1 h2 h3, ← e1, BitVec.ofNat_toNat, BitVec.setWidth_eq]

/-- C33: the four colours of a block are the two stored ones and two between them (or one between them and black). -/
theorem C33_colors (c0 c1 : BitVec 16) (i : Nat) (hi : i < 4) : ∃ c, (colorTable c0 c1)[i]? = some c ∧ ColorAt c0.toNat c1.toNat i c := by
  have third : ∀ p q : Byte, Third p q (BitVec.ofNat 8 ((p.toNat * 2 + q.toNat + 1) / 3)) := by
    intro p q
    have := p.isLt; have := q.isLt
    unfold Third Nearest
    rw [BitVec.toNat_ofNat]
    omega
  have half : ∀ p q : Byte, Half p q (BitVec.ofNat 8 ((p.toNat + q.toNat) / 2)) := by
    intro p q
    have := p.isLt; have := q.isLt
    unfold Half
    rw [BitVec.toNat_ofNat]
    omega
  unfold colorTable
  dsimp only
  by_cases h : c0.toNat > c1.toNat
  · rw [if_pos h]
    match i, hi with
    | 0, _ => exact ⟨_, rfl, _, _, is565 c0, is565 c1, .inl ⟨rfl, rfl⟩⟩
    | 1, _ => exact ⟨_, rfl, _, _, is565 c0, is565 c1, .inr (.inl ⟨rfl, rfl⟩)⟩
    | 2, _ => exact ⟨_, rfl, _, _, is565 c0, is565 c1, .inr (.inr (.inl ⟨h, rfl, third _ _, third _ _, third _ _⟩))⟩
    | 3, _ => exact ⟨_, rfl, _, _, is565 c0, is565 c1, .inr (.inr (.inr (.inl ⟨h, rfl, third _ _, third _ _, third _ _⟩)))⟩
  · rw [if_neg h]
    have h := Nat.le_of_not_lt h
    match i, hi with
    | 0, _ => exact ⟨_, rfl, _, _, is565 c0, is565 c1, .inl ⟨rfl, rfl⟩⟩
    | 1, _ => exact ⟨_, rfl, _, _, is565 c0, is565 c1, .inr (.inl ⟨rfl, rfl⟩)⟩
    | 2, _ => exact ⟨_, rfl, _, _, is565 c0, is565 c1, .inr (.inr (.inr (.inr (.inl ⟨h, rfl, half _ _, half _ _, half _ _⟩))))⟩
    | 3, _ => exact ⟨_, rfl, _, _, is565 c0, is565 c1, .inr (.inr (.inr (.inr (.inr ⟨h, rfl, rfl⟩))))⟩

/-- C33: the eight alphas of a DXT5 block are the two stored ones and six between them (or four, and 0 and 255). -/
theorem C33_alphas (a0 a1 : Byte) (i : Nat) (hi : i < 8) : ∃ a, (alphaTable5 a0 a1)[i]? = some a ∧ AlphaAt a0 a1 i a := by
  have h0 := a0.isLt; have h1 := a1.isLt
  unfold alphaTable5
  by_cases h : a0.toNat > a1.toNat
  · rw [if_pos h]
    have near : ∀ i, 2 ≤ i → i < 8 → Nearest ((8 - i) * a0.toNat + (i - 1) * a1.toNat) 7 (BitVec.ofNat 8 (((8 - i) * a0.toNat + (i - 1) * a1.toNat + 3) / 7)).toNat := by
      intro i hi2 hi8
      unfold Nearest
      rw [BitVec.toNat_ofNat]
      have : (8 - i) * a0.toNat + (i - 1) * a1.toNat ≤ 7 * 255 := by
        have e1 : (8 - i) * a0.toNat ≤ (8 - i) * 255 := Nat.mul_le_mul_left _ (by omega)
        have e2 : (i - 1) * a1.toNat ≤ (i - 1) * 255 := Nat.mul_le_mul_left _ (by omega)
        omega
      generalize (8 - i) * a0.toNat + (i - 1) * a1.toNat = n at this
      omega
    match i, hi with
    | 0, _ => exact ⟨_, rfl, .inl ⟨rfl, rfl⟩⟩
    | 1, _ => exact ⟨_, rfl, .inr (.inl ⟨rfl, rfl⟩)⟩
    | 2, _ => exact ⟨_, rfl, .inr (.inr (.inl ⟨h, by decide, by decide, near 2 (by decide) (by decide)⟩))⟩
    | 3, _ => exact ⟨_, rfl, .inr (.inr (.inl ⟨h, by decide, by decide, near 3 (by decide) (by decide)⟩))⟩
    | 4, _ => exact ⟨_, rfl, .inr (.inr (.inl ⟨h, by decide, by decide, near 4 (by decide) (by decide)⟩))⟩
    | 5, _ => exact ⟨_, rfl, .inr (.inr (.inl ⟨h, by decide, by decide, near 5 (by decide) (by decide)⟩))⟩
    | 6, _ => exact ⟨_, rfl, .inr (.inr (.inl ⟨h, by decide, by decide, near 6 (by decide) (by decide)⟩))⟩
    | 7, _ => exact ⟨_, rfl, .inr (.inr (.inl ⟨h, by decide, by decide, near 7 (by decide) (by decide)⟩))⟩
  · rw [if_neg h]
    have h := Nat.le_of_not_lt h
    have near : ∀ i, 2 ≤ i → i < 6 → Nearest ((6 - i) * a0.toNat + (i - 1) * a1.toNat) 5 (BitVec.ofNat 8 (((6 - i) * a0.toNat + (i - 1) * a1.toNat + 2) / 5)).toNat := by
      intro i hi2 hi8
      unfold Nearest
      rw [BitVec.toNat_ofNat]
      have : (6 - i) * a0.toNat + (i - 1) * a1.toNat ≤ 5 * 255 := by
        have e1 : (6 - i) * a0.toNat ≤ (6 - i) * 255 := Nat.mul_le_mul_left _ (by omega)
        have e2 : (i - 1) * a1.toNat ≤ (i - 1) * 255 := Nat.mul_le_mul_left _ (by omega)
        omega
      generalize (6 - i) * a0.toNat + (i - 1) * a1.toNat = n at this
      omega
    match i, hi with
    | 0, _ => exact ⟨_, rfl, .inl ⟨rfl, rfl⟩⟩
    | 1, _ => exact ⟨_, rfl, .inr (.inl ⟨rfl, rfl⟩)⟩
    | 2, _ => exact ⟨_, rfl, .inr (.inr (.inr (.inl ⟨h, by decide, by decide, near 2 (by decide) (by decide)⟩)))⟩
    | 3, _ => exact ⟨_, rfl, .inr (.inr (.inr (.inl ⟨h, by decide, by decide, near 3 (by decide) (by decide)⟩)))⟩
    | 4, _ => exact ⟨_, rfl, .inr (.inr (.inr (.inl ⟨h, by decide, by decide, near 4 (by decide) (by decide)⟩)))⟩
    | 5, _ => exact ⟨_, rfl, .inr (.inr (.inr (.inl ⟨h, by decide, by decide, near 5 (by decide) (by decide)⟩)))⟩
    | 6, _ => exact ⟨_, rfl, .inr (.inr (.inr (.inr (.inl ⟨h, rfl, rfl⟩))))⟩
    | 7, _ => exact ⟨_, rfl, .inr (.inr (.inr (.inr (.inr ⟨h, rfl, rfl⟩))))⟩

/-- C33: the index tables hold, for every pixel, the two (three) bits that belong to it, and the lookups are in range. -/
theorem C33_indices (raw : Bytes) :
    (raw.length = 4 → ∃ t, colorIdxTable raw = .ok t ∧ t.length = 16 ∧ ∀ k, k < 16 → t[k]? = some (bitsAt 2 raw k) ∧ bitsAt 2 raw k < 4) ∧
    (raw.length = 6 → ∃ t, alphaIdxTable5 raw = .ok t ∧ t.length = 16 ∧ ∀ k, k < 16 → t[k]? = some (bitsAt 3 raw k) ∧ bitsAt 3 raw k < 8) := by
  constructor
  · intro h
    refine ⟨_, colorIdxTable_eq h, by simp, fun k hk => ⟨?_, Nat.mod_lt _ (by decide)⟩⟩
    rw [List.getElem?_map, List.getElem?_range hk]
    rfl
  · intro h
    refine ⟨_, alphaIdxTable5_eq h, by simp, fun k hk => ⟨?_, Nat.mod_lt _ (by decide)⟩⟩
    rw [List.getElem?_map, List.getElem?_range hk]
    rfl

/-- alpha of a block as the specification wants it -/
def AlphaOk (alpha : Bytes → Except Err (List Byte)) (spec : Bytes → Nat → Byte → Prop) : Prop :=
  ∀ chunk : Bytes, chunk.length = 16 → ∃ al, alpha chunk = .ok al ∧ al.length = 16 ∧ ∀ k (hk : k < al.length), spec chunk k al[k]

theorem alpha3_ok : AlphaOk blockAlpha3 Alpha3 := by
  intro chunk hc
  have hs : sliceIdx chunk 0 8 = .ok (bytesAt chunk 0 8) := by
    unfold sliceIdx
    rw [if_pos ⟨by omega, by omega⟩]
    rfl
  have hl : (bytesAt chunk 0 8).length = 8 := by unfold bytesAt; rw [List.length_take, List.length_drop]; omega
  refine ⟨(List.range 16).map fun k => BitVec.ofNat 8 (17 * (leNat (bytesAt chunk 0 8) / 16 ^ k % 16)), ?_, ?_, ?_⟩
  · unfold blockAlpha3
    rw [hs]
    exact alphaTable3_eq hl
  · simp
  · intro k hk
    simp only [List.length_map, List.length_range] at hk
    unfold Alpha3 bitsAt
    simp only [List.getElem_map, List.getElem_range, BitVec.toNat_ofNat]
    have : leNat (bytesAt chunk 0 8) / 16 ^ k % 16 < 16 := Nat.mod_lt _ (by decide)
    show 17 * (leNat (bytesAt chunk 0 8) / 16 ^ k % 16) % 2 ^ 8 = 17 * (leNat (bytesAt chunk 0 8) / 16 ^ k % 16)
    omega

theorem alpha5_ok : AlphaOk blockAlpha5 Alpha5 := by
  intro chunk hc
  have hs : sliceIdx chunk 2 8 = .ok (bytesAt chunk 2 8) := by
    unfold sliceIdx
    rw [if_pos ⟨by omega, by omega⟩]
    rfl
  have hl : (bytesAt chunk 2 8).length = 6 := by unfold bytesAt; rw [List.length_take, List.length_drop]; omega
  have h0 : 0 < chunk.length := by omega
  have h1 : 1 < chunk.length := by omega
  have hlen : (alphaTable5 chunk[0] chunk[1]).length = 8 := by unfold alphaTable5; split <;> rfl
  have hb : ∀ i, i ∈ (List.range 16).map (fun k => leNat (bytesAt chunk 2 8) / 8 ^ k % 8) → i < 8 := by
    intro i hi
    obtain ⟨k, _, rfl⟩ := List.mem_map.mp hi
    exact Nat.mod_lt _ (by decide)
  refine ⟨((List.range 16).map fun k => leNat (bytesAt chunk 2 8) / 8 ^ k % 8).map fun i => (alphaTable5 chunk[0] chunk[1]).getD i 0#8, ?_, by simp, ?_⟩
  · unfold blockAlpha5
    rw [idx_ok h0]
    show (idx chunk 1 >>= _) = _
    rw [idx_ok h1]
    show (sliceIdx chunk 2 8 >>= _) = _
    rw [hs]
    show (alphaIdxTable5 (bytesAt chunk 2 8) >>= _) = _
    rw [alphaIdxTable5_eq hl]
    refine mapM_okay fun i hi => ?_
    rw [idx_ok (by rw [hlen]; exact hb i hi), List.getD_eq_getElem?_getD, List.getElem?_eq_getElem (by rw [hlen]; exact hb i hi)]
    rfl
  · intro k hk
    simp only [List.length_map, List.length_range] at hk
    refine ⟨chunk[0], chunk[1], List.getElem?_eq_getElem h0, List.getElem?_eq_getElem h1, ?_⟩
    obtain ⟨a, ha, hA⟩ := C33_alphas chunk[0] chunk[1] (bitsAt 3 (bytesAt chunk 2 8) k) (Nat.mod_lt _ (by decide))
    simp only [List.getElem_map, List.getElem_range]
    rw [List.getD_eq_getElem?_getD]
    have : (alphaTable5 chunk[0] chunk[1])[leNat (bytesAt chunk 2 8) / 8 ^ k % 8]? = some a := ha
    rw [this]
    exact hA

theorem block_ok {alpha : Bytes → Except Err (List Byte)} {spec : Bytes → Nat → Byte → Prop} (ha : AlphaOk alpha spec) {chunk : Bytes}
    (hc : chunk.length = 16) : ∃ px, dxtBlock alpha chunk = .ok px ∧ px.length = 16 ∧ ∀ k (hk : k < px.length), Texel spec chunk k px[k] := by
  obtain ⟨al, h1, h2, h3⟩ := ha chunk hc
  have r0 : readAt chunk 2 8 = .ok (leNat (bytesAt chunk 8 10)) := if_pos (by omega)
  have r1 : readAt chunk 2 10 = .ok (leNat (bytesAt chunk 10 12)) := if_pos (by omega)
  have rs : sliceIdx chunk 12 chunk.length = .ok (bytesAt chunk 12 16) := by
    unfold sliceIdx
    rw [if_pos ⟨by omega, by omega⟩, hc]
    rfl
  have hl : (bytesAt chunk 12 16).length = 4 := by unfold bytesAt; rw [List.length_take, List.length_drop]; omega
  have hlt : ∀ n, leNat (bytesAt chunk n (n + 2)) < 2 ^ 16 := by
    intro n
    have := leNat_lt (bytesAt chunk n (n + 2))
    have h2 : (bytesAt chunk n (n + 2)).length ≤ 2 := by unfold bytesAt; rw [List.length_take]; omega
    rw [show (2 : Nat) ^ 16 = 256 ^ 2 from rfl]
    exact Nat.lt_of_lt_of_le this (Nat.pow_le_pow_right (by decide) h2)
  have hcol := fun k => C33_colors (BitVec.ofNat 16 (leNat (bytesAt chunk 8 10))) (BitVec.ofNat 16 (leNat (bytesAt chunk 10 12)))
    (bitsAt 2 (bytesAt chunk 12 16) k) (Nat.mod_lt _ (show 2 ^ 2 > 0 by decide))
  have e0 : (BitVec.ofNat 16 (leNat (bytesAt chunk 8 10))).toNat = leNat (bytesAt chunk 8 10) := by
    rw [BitVec.toNat_ofNat]; exact Nat.mod_eq_of_lt (hlt 8)
  have e1 : (BitVec.ofNat 16 (leNat (bytesAt chunk 10 12))).toNat = leNat (bytesAt chunk 10 12) := by
    rw [BitVec.toNat_ofNat]; exact Nat.mod_eq_of_lt (hlt 10)
  rw [e0, e1] at hcol
  let f : Nat → Rgba := fun k =>
    let c := ((colorTable (BitVec.ofNat 16 (leNat (bytesAt chunk 8 10))) (BitVec.ofNat 16 (leNat (bytesAt chunk 10 12))))[bitsAt 2 (bytesAt chunk 12 16) k]?).getD ⟨0#8, 0#8, 0#8⟩
    ⟨c.r, c.g, c.b, (al[k]?).getD 0#8⟩
  refine ⟨(List.range 16).map f, ?_, by simp, ?_⟩
  · unfold dxtBlock
    rw [h1]
    show (readAt chunk 2 8 >>= _) = _
    rw [r0]
    show (readAt chunk 2 10 >>= _) = _
    rw [r1]
    show (sliceIdx chunk 12 chunk.length >>= _) = _
    rw [rs]
    show (colorIdxTable (bytesAt chunk 12 16) >>= _) = _
    rw [colorIdxTable_eq hl]
    refine mapM_okay fun k hk => ?_
    have hk := List.mem_range.mp hk
    obtain ⟨c, hc1, _⟩ := hcol k
    rw [idx_ok (by simpa using hk)]
    simp only [List.getElem_map, List.getElem_range]
    show (idx _ (bitsAt 2 (bytesAt chunk 12 16) k) >>= _) = _
    unfold idx
    rw [hc1]
    have hf : f k = ⟨c.r, c.g, c.b, (al[k]?).getD 0#8⟩ := by
      show (⟨_, _, _, _⟩ : Rgba) = _
      rw [hc1]
      rfl
    rw [hf, List.getElem?_eq_getElem (show k < al.length by omega)]
    rfl
  · intro k hk
    have hk : k < 16 := by simpa using hk
    obtain ⟨c, hc1, hc2⟩ := hcol k
    rw [List.getElem_map, List.getElem_range]
    have hf : f k = ⟨c.r, c.g, c.b, (al[k]?).getD 0#8⟩ := by
      show (⟨_, _, _, _⟩ : Rgba) = _
      rw [hc1]
      rfl
    rw [hf, List.getElem?_eq_getElem (show k < al.length by omega)]
    exact ⟨hc2, h3 k (by omega)⟩

/-- C33: a whole DXT3 block decodes to the 16 pixels its bits describe. -/
theorem C33_block_dxt3 (chunk : Bytes) (hc : chunk.length = 16) :
    ∃ px, dxtBlock blockAlpha3 chunk = .ok px ∧ px.length = 16 ∧ ∀ k (hk : k < px.length), Texel Alpha3 chunk k px[k] := block_ok alpha3_ok hc

/-- C33: a whole DXT5 block. -/
theorem C33_block_dxt5 (chunk : Bytes) (hc : chunk.length = 16) :
    ∃ px, dxtBlock blockAlpha5 chunk = .ok px ∧ px.length = 16 ∧ ∀ k (hk : k < px.length), Texel Alpha5 chunk k px[k] := block_ok alpha5_ok hc

example : dxtBlock blockAlpha5 [0xFF#8, 0#8, 0x88#8, 0xC6#8, 0xFA#8, 0#8, 0#8, 0#8, 0#8, 0xF8#8, 0#8, 0#8, 0xE4#8, 0#8, 0#8, 0#8] =
    .ok ([⟨255#8, 0#8, 0#8, 255#8⟩, ⟨0#8, 0#8, 0#8, 0#8⟩, ⟨170#8, 0#8, 0#8, 219#8⟩, ⟨85#8, 0#8, 0#8, 182#8⟩,
      ⟨255#8, 0#8, 0#8, 146#8⟩, ⟨255#8, 0#8, 0#8, 109#8⟩, ⟨255#8, 0#8, 0#8, 73#8⟩, ⟨255#8, 0#8, 0#8, 36#8⟩] ++ List.replicate 8 ⟨255#8, 0#8, 0#8, 255#8⟩) := by decide +kernel

end Wz.Props
