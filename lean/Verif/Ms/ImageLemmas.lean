import Verif.Ms.EntryLemmas
import Verif.Ms.ImageSpec
/-!
# Images of MS archives: lemmas for C42
-/

set_option autoImplicit false

namespace Wz

open Wz.Spec Wz.Spec.Snow Wz.Spec.Ms

theorem digitsAux_eq (fuel : Nat) : ∀ (n : Nat) (acc : List Nat), n < 10 ^ (fuel + 1) → digitsAux (fuel + 1) n acc = decDigits n ++ acc := by
  induction fuel with
  | zero =>
    intro n acc h
    rw [digitsAux, if_pos (by simpa using h), decDigits, if_pos (by simpa using h)]
    rfl
  | succ fuel ih =>
    intro n acc h
    rw [digitsAux, decDigits]
    by_cases h10 : n < 10
    · rw [if_pos h10, if_pos h10]; rfl
    · rw [if_neg h10, if_neg h10, ih _ _ (by rw [Nat.pow_succ] at h; omega)]
      simp

theorem digits_eq (h : BitVec 32) : digits h.toNat = decDigits h.toNat := by
  have := digitsAux_eq 9 h.toNat [] (by have := h.isLt; omega)
  rwa [List.append_nil] at this

theorem decDigits_ne (n : Nat) : decDigits n ≠ [] := by
  rw [decDigits]
  split <;> simp

theorem saltHash_eq (salt : List Char) : (saltHash salt).toNat = fnv salt := by
  unfold saltHash fnv
  suffices H : ∀ (h : BitVec 32), (salt.foldl (fun h c => (h ^^^ BitVec.ofNat 32 c.toNat) * 0x1000193#32) h).toNat =
      salt.foldl (fun h c => (h ^^^ c.toNat) * 16777619 % 4294967296) h.toNat from H 0x811C9DC5#32
  induction salt with
  | nil => intro h; rfl
  | cons c cs ih =>
    intro h
    have hc : c.toNat < 4294967296 := by
      have := c.valid
      have h2 : c.toNat < 1114112 := by
        rcases this with h | h
        · exact Nat.lt_trans h (by decide)
        · exact h.2
      omega
    have step : ((h ^^^ BitVec.ofNat 32 c.toNat) * 0x1000193#32).toNat = (h.toNat ^^^ c.toNat) * 16777619 % 4294967296 := by
      rw [BitVec.toNat_mul, BitVec.toNat_xor, BitVec.toNat_ofNat, Nat.mod_eq_of_lt (a := c.toNat) hc, BitVec.toNat_ofNat]
    rw [List.foldl_cons, List.foldl_cons, ih, step]

theorem imageKeyByte_eq (ds : List Nat) (ekey : Bytes) (i : Nat) (c : Byte) (n : Nat) (hc : n % 256 = c.toNat) :
    imageKeyByte ds ekey i c = BitVec.ofNat 8 (imageKeyAt ds ekey i n) := by
  unfold imageKeyByte imageKeyAt
  dsimp only
  generalize ds.getD (i % ds.length) 0 % 2 = x
  generalize (ds.getD ((i + 1) % ds.length) 0 + i) % 5 = y
  generalize ekey.getD ((ds.getD ((i + 2) % ds.length) 0 + i) % 16) 0#8 = k
  apply BitVec.eq_of_toNat_eq
  rw [BitVec.toNat_add, BitVec.toNat_mul, BitVec.toNat_add, BitVec.toNat_add, BitVec.toNat_ofNat, BitVec.toNat_ofNat, BitVec.toNat_ofNat, BitVec.toNat_ofNat,
    ← hc]
  simp only [Nat.reducePow, Nat.add_mod_mod, Nat.mod_add_mod, Nat.mod_mul_mod, Nat.mul_mod_mod]

theorem utf8Enc_length (c : Char) : 1 ≤ (utf8Enc c).length ∧ ((utf8Enc c).length = 1 ↔ c.toNat < 128) := by
  unfold utf8Enc
  simp only
  by_cases h : c.toNat < 128
  · rw [if_pos h]; simp [h]
  · rw [if_neg h]
    repeat' split
    all_goals simp [h]

theorem utf8_ascii (name : List Char) (h : ∀ c ∈ name, c.toNat < 128) : (utf8EncStr name).length = name.length := by
  induction name with
  | nil => rfl
  | cons c cs ih =>
    have h1 := ((utf8Enc_length c).2).mpr (h c (by simp))
    have h2 := ih fun d hd => h d (by simp [hd])
    unfold utf8EncStr at h2 ⊢
    rw [List.flatMap_cons, List.length_append, List.length_cons]
    omega

theorem utf8_ge (name : List Char) : name.length ≤ (utf8EncStr name).length := by
  induction name with
  | nil => simp
  | cons c cs ih =>
    have h1 := (utf8Enc_length c).1
    unfold utf8EncStr at ih ⊢
    rw [List.flatMap_cons, List.length_append, List.length_cons]
    omega

theorem utf8_longer (name : List Char) (h : ∃ c ∈ name, 128 ≤ c.toNat) : name.length < (utf8EncStr name).length := by
  induction name with
  | nil => obtain ⟨c, hc, _⟩ := h; cases hc
  | cons c cs ih =>
    have h1 := utf8Enc_length c
    have h2 := utf8_ge cs
    by_cases hc : c.toNat < 128
    · have h3 := ih (by
        obtain ⟨d, hd, h128⟩ := h
        rcases List.mem_cons.mp hd with rfl | hd
        · omega
        · exact ⟨d, hd, h128⟩)
      unfold utf8EncStr at h3 ⊢
      rw [List.flatMap_cons, List.length_append, List.length_cons]
      omega
    · have : (utf8Enc c).length ≠ 1 := fun he => hc (h1.2.mp he)
      unfold utf8EncStr at h2 ⊢
      rw [List.flatMap_cons, List.length_append, List.length_cons]
      omega

theorem imageKeyV1_ok (salt : List Char) (e : MsEntry) (hn : e.name ≠ []) : imageKeyV1 salt e = .ok (imageKey1 salt e.name e.key) := by
  have hl : (utf8EncStr e.name).length ≠ 0 := by
    have := utf8_ge e.name
    have : e.name.length ≠ 0 := fun h => hn (List.length_eq_zero_iff.mp h)
    omega
  unfold imageKeyV1 imageKey1
  refine tabulateM_ok fun i _ => ?_
  simp only [bind, Except.bind, pure, Except.pure]
  rw [remU_ok hl]
  dsimp only
  rw [nth8_ok (Nat.mod_lt _ (by omega))]
  dsimp only
  rw [digits_eq, saltHash_eq, imageKeyByte_eq _ _ _ _ _ (Nat.mod_eq_of_lt (BitVec.isLt _))]

/-- what the key of version 2 makes of place `i` -/
def keyStep (salt : List Char) (e : MsEntry) (i : Nat) : Except Err Byte := do
  let j ← remU i (utf8EncStr e.name).length
  match e.name[j]? with
  | none => .error .panicUnwrap
  | some c => return imageKeyByte (digits (saltHash salt).toNat) e.key i (BitVec.ofNat 8 c.toNat) ^^^ msKeyBase.getD i 0#8

theorem imageKeyV2_steps (salt : List Char) (e : MsEntry) : imageKeyV2 salt e = tabulateM (keyStep salt e) 32 := rfl

theorem keyStep_eq (salt : List Char) (e : MsEntry) (hn : e.name ≠ []) (i : Nat) : keyStep salt e i =
    match e.name[i % (utf8EncStr e.name).length]? with
    | none => .error .panicUnwrap
    | some c => .ok (BitVec.ofNat 8 (imageKeyAt (decDigits (fnv salt)) e.key i c.toNat) ^^^ keyBase.getD i 0#8) := by
  have hl : (utf8EncStr e.name).length ≠ 0 := by
    have := utf8_ge e.name
    have : e.name.length ≠ 0 := fun h => hn (List.length_eq_zero_iff.mp h)
    omega
  unfold keyStep
  simp only [bind, Except.bind, pure, Except.pure]
  rw [remU_ok hl]
  dsimp only
  cases e.name[i % (utf8EncStr e.name).length]? with
  | none => rfl
  | some c =>
    dsimp only
    rw [digits_eq, saltHash_eq, imageKeyByte_eq _ _ _ _ c.toNat (by rw [BitVec.toNat_ofNat])]
    rfl

theorem imageKeyV2_ok (salt : List Char) (e : MsEntry) (hn : e.name ≠ []) (h : (∀ c ∈ e.name, c.toNat < 128) ∨ 32 ≤ e.name.length) :
    imageKeyV2 salt e = .ok (imageKey2 salt e.name e.key) := by
  have hne : e.name.length ≠ 0 := fun h => hn (List.length_eq_zero_iff.mp h)
  rw [imageKeyV2_steps, tabulateM_ok (g := fun i => BitVec.ofNat 8 (imageKeyAt (decDigits (fnv salt)) e.key i (e.name.getD (i % e.name.length) 'A').toNat) ^^^ keyBase.getD i 0#8)]
  · rfl
  · intro i hi
    rw [keyStep_eq salt e hn]
    have hj : i % (utf8EncStr e.name).length = i % e.name.length := by
      rcases h with h | h
      · rw [utf8_ascii _ h]
      · have := utf8_ge e.name
        rw [Nat.mod_eq_of_lt (by omega), Nat.mod_eq_of_lt (by omega)]
    have hlt : i % e.name.length < e.name.length := Nat.mod_lt _ (by omega)
    rw [hj, List.getD_eq_getElem?_getD (l := e.name), List.getElem?_eq_getElem hlt]
    rfl

theorem imageKeyV2_panic (salt : List Char) (e : MsEntry) (h : ∃ c ∈ e.name, 128 ≤ c.toNat) (h2 : e.name.length < 32) :
    imageKeyV2 salt e = .error .panicUnwrap := by
  have hn : e.name ≠ [] := by
    intro h0
    rw [h0] at h
    obtain ⟨c, hc, _⟩ := h
    cases hc
  have hlong := utf8_longer _ h
  rw [imageKeyV2_steps]
  obtain ⟨i, _, err, he, ht⟩ := tabulateM_error (f := keyStep salt e) (n := 32) ⟨e.name.length, h2, .panicUnwrap, by
    rw [keyStep_eq salt e hn, Nat.mod_eq_of_lt hlong, List.getElem?_eq_none (by omega)]⟩
  rw [ht]
  rw [keyStep_eq salt e hn] at he
  split at he
  · cases he; rfl
  · cases he

theorem imageKey_empty (salt : List Char) (e : MsEntry) (h : e.name = []) : imageKeyV1 salt e = .error .panicOverflow ∧ imageKeyV2 salt e = .error .panicOverflow := by
  unfold imageKeyV1 imageKeyV2
  rw [h]
  exact ⟨rfl, rfl⟩

theorem hashData_eq (h : BitVec 32) : imageNonce h = imageNonceOf h.toNat ∧ imageCounter h = imageCounterOf h.toNat := by
  have hm : hashMasks = (List.range 12).map hashMask := by decide +kernel
  have h2 : (h >>> 1).toNat = h.toNat / 2 := by rw [BitVec.toNat_ushiftRight, Nat.shiftRight_eq_div_pow]
  have h3 : ((h >>> 1) ^^^ 0x6C#32).toNat = h.toNat / 2 ^^^ 108 := by rw [BitVec.toNat_xor, h2]; rfl
  have hd : hashData h = List.zipWith (· ^^^ ·) (toLE 4 h.toNat ++ toLE 4 (h.toNat / 2) ++ toLE 4 (h.toNat / 2 ^^^ 108)) hashMasks := by
    unfold hashData
    dsimp only
    rw [h2, h3, hm]
    apply List.ext_getElem?
    intro i
    rw [List.getElem?_mapIdx, List.getElem?_zipWith, List.getElem?_map]
    by_cases hi : i < 12
    · rw [List.getElem?_range hi]
      cases (toLE 4 h.toNat ++ toLE 4 (h.toNat / 2) ++ toLE 4 (h.toNat / 2 ^^^ 108))[i]? <;> rfl
    · rw [List.getElem?_eq_none (by simp [length_toLE]; omega)]; rfl
  constructor
  · unfold imageNonce imageNonceOf
    rw [hd]
    rfl
  · unfold imageCounter imageCounterOf
    rw [hd]
    rfl

end Wz
