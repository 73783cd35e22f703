import Verif.Ms.FileLemmas
/-!
# Lemmas for the headers of MS archives
-/

set_option autoImplicit false

namespace Wz

open Wz.Spec Wz.Spec.Snow Wz.Spec.Ms

/-! ## pairs of bytes -/

theorem pairs_length {α : Type} (f g : α × Nat → Byte) (l : List α) : ∀ n, ((l.zipIdx n).flatMap fun ci => [f ci, g ci]).length = 2 * l.length := by
  induction l with
  | nil => intro n; rfl
  | cons a l ih =>
    intro n
    rw [List.zipIdx_cons, List.flatMap_cons, List.length_append, ih]
    simp only [List.length_cons, List.length_nil]
    omega

theorem pairs_get {α : Type} (f g : α × Nat → Byte) (l : List α) : ∀ (n i : Nat) (h : i < l.length),
    ((l.zipIdx n).flatMap fun ci => [f ci, g ci]).getD (i * 2) 0#8 = f (l[i], n + i) := by
  induction l with
  | nil => intro n i h; simp at h
  | cons a l ih =>
    intro n i h
    rw [List.zipIdx_cons, List.flatMap_cons]
    cases i with
    | zero => rfl
    | succ i =>
      rw [List.getD_eq_getElem?_getD, List.getElem?_append_right (by simp only [List.length_cons, List.length_nil]; omega)]
      have := ih (n + 1) i (by simpa using h)
      rw [List.getD_eq_getElem?_getD] at this
      rw [show (i + 1) * 2 - [f (a, n), g (a, n)].length = i * 2 by simp only [List.length_cons, List.length_nil]; omega, this, List.getElem_cons_succ,
        show n + 1 + i = n + (i + 1) by omega]

theorem byteText_range (l : List (Byte × Byte)) (F : Nat → Byte) (h : ∀ i (hi : i < l.length), F i = l[i].1) :
    ((List.range l.length).map fun i => Char.ofNat (F i).toNat) = byteText (l.map Prod.fst) := by
  unfold byteText
  rw [List.map_map]
  apply List.ext_getElem
  · simp
  · intro i h1 h2
    have hi : i < l.length := by simpa using h1
    simp [h i hi]

/-! ## where a piece of a file is -/

theorem slice_of_append {A B C : Bytes} {s t : Nat} (hs : s = A.length) (ht : t = A.length + B.length) : sliceIdx (A ++ B ++ C) s t = .ok B := by
  subst hs ht
  rw [sliceIdx_ok (by omega) (by simp only [List.length_append]; omega)]
  unfold sub
  rw [List.append_assoc, List.drop_left, show A.length + B.length - A.length = B.length by omega, List.take_left]

theorem byteAt_ok {buf : Bytes} {p : Nat} (h : p < buf.length) : byteAt buf p = .ok (buf.getD p 0#8) := by
  unfold byteAt
  rw [List.getElem?_eq_getElem h, List.getD_eq_getElem?_getD, List.getElem?_eq_getElem h]
  rfl

theorem i32At_ok {buf : Bytes} {p : Nat} (h : p + 4 ≤ buf.length) : Wz.readI32At buf p = .ok (Ms.i32At buf p) := by
  unfold Wz.readI32At
  rw [if_pos h]
  rfl

theorem i32_range (bs : Bytes) (p : Nat) : -2147483648 ≤ Ms.i32At bs p ∧ Ms.i32At bs p < 2147483648 := by
  unfold Ms.i32At
  have h1 := BitVec.toInt_lt (x := BitVec.ofNat 32 (leNat ((bs.drop p).take 4)))
  have h2 := BitVec.le_toInt (x := BitVec.ofNat 32 (leNat ((bs.drop p).take 4)))
  constructor <;> omega

/-! ## keys -/

theorem headerKeyV1_eq (m : Mode) (B : Bytes) (hB : B ≠ []) (h : m = .wrap ∨ NoCarry1 B 16) : headerKeyV1 m B = .ok (key1 B 16) := by
  have hl : B.length ≠ 0 := fun h => hB (List.length_eq_zero_iff.mp h)
  unfold headerKeyV1 key1
  apply tabulateM_ok
  intro i hi
  simp only [bind, Except.bind, pure, Except.pure]
  rw [remU_ok hl]
  dsimp only
  rw [nth8_ok (Nat.mod_lt _ (by omega))]
  dsimp only
  obtain ⟨v, h1, h2⟩ := u8_add (m := m) (B.getD (i % B.length) 0#8) i (h.imp id fun h => h i hi)
  rw [h1]
  exact congrArg Except.ok h2

theorem headerKeyV2_eq (m : Mode) (B : Bytes) (hB : B ≠ []) (h : m = .wrap ∨ NoCarry1 B 32) : headerKeyV2 m B = .ok (xorBase (key1 B 32)) := by
  have hl : B.length ≠ 0 := fun h => hB (List.length_eq_zero_iff.mp h)
  unfold headerKeyV2
  rw [tabulateM_ok (g := fun i => (key1 B 32).getD i 0#8 ^^^ keyBase.getD i 0#8)]
  · rfl
  intro i hi
  simp only [bind, Except.bind, pure, Except.pure]
  rw [remU_ok hl]
  dsimp only
  rw [nth8_ok (Nat.mod_lt _ (by omega))]
  dsimp only
  obtain ⟨v, h1, h2⟩ := u8_add (m := m) (B.getD (i % B.length) 0#8) i (h.imp id fun h => h i hi)
  rw [h1]
  have : (key1 B 32).getD i 0#8 = B.getD (i % B.length) 0#8 + BitVec.ofNat 8 i := by
    unfold key1
    rw [List.getD_eq_getElem?_getD, List.getElem?_map, List.getElem?_range hi]
    rfl
  rw [this, ← h2]
  rfl

theorem key1_length (B : Bytes) (n : Nat) : (key1 B n).length = n := by simp [key1]

/-! ## the hash -/

theorem ofInt_bmod (x : Int) : BitVec.ofInt 32 (Int.bmod x (2 ^ 32)) = BitVec.ofInt 32 x := by
  apply BitVec.eq_of_toInt_eq
  rw [BitVec.toInt_ofInt, BitVec.toInt_ofInt]
  exact Int.bmod_bmod

theorem addI32_mod {m : Mode} {a b : Int} (h : m = .wrap ∨ (-2147483648 ≤ a + b ∧ a + b < 2147483648)) :
    ∃ x, addI32 m a b = .ok x ∧ BitVec.ofInt 32 x = BitVec.ofInt 32 (a + b) ∧ -2147483648 ≤ x ∧ x < 2147483648 ∧ (m = .checked → x = a + b) := by
  by_cases hr : -2147483648 ≤ a + b ∧ a + b < 2147483648
  · exact ⟨a + b, by unfold addI32; rw [if_pos (by omega)], rfl, hr.1, hr.2, fun _ => rfl⟩
  · obtain h | h := h
    · subst h
      refine ⟨Int.bmod (a + b) (2 ^ 32), by unfold addI32; rw [if_neg (by omega)], ofInt_bmod _, ?_, ?_, fun h => nomatch h⟩
      · have := @Int.le_bmod (a + b) (2 ^ 32) (by decide); omega
      · have := @Int.bmod_lt (a + b) (2 ^ 32) (by decide); omega
    · exact absurd h hr

theorem ofInt_add_congr {a b : Int} (h : BitVec.ofInt 32 a = BitVec.ofInt 32 b) (c : Int) : BitVec.ofInt 32 (a + c) = BitVec.ofInt 32 (b + c) := by
  rw [BitVec.ofInt_add, BitVec.ofInt_add, h]

theorem expectedHash_eq {m : Mode} {a c d : Int} (h : m = .wrap ∨ SumsFit [a, 2, c, d]) :
    ∃ x, expectedHash m a 2 c d = .ok x ∧ BitVec.ofInt 32 x = BitVec.ofInt 32 [a, 2, c, d].sum ∧ -2147483648 ≤ x ∧ x < 2147483648 := by
  have es : [a, 2, c, d].sum = a + 2 + c + d := by simp; omega
  cases m with
  | wrap =>
    obtain ⟨x, h1, e1, _⟩ := addI32_mod (m := .wrap) (a := a) (b := 2) (.inl rfl)
    obtain ⟨y, h2, e2, _⟩ := addI32_mod (m := .wrap) (a := x) (b := c) (.inl rfl)
    obtain ⟨z, h3, e3, r1, r2, _⟩ := addI32_mod (m := .wrap) (a := y) (b := d) (.inl rfl)
    refine ⟨z, ?_, ?_, r1, r2⟩
    · show (addI32 .wrap a 2 >>= _) = _
      rw [h1]
      show (addI32 .wrap x c >>= _) = _
      rw [h2]
      exact h3
    · rw [es, e3, ofInt_add_congr e2 d, ofInt_add_congr (ofInt_add_congr e1 c) d]
  | checked =>
    have h : SumsFit [a, 2, c, d] := h.resolve_left (by simp)
    have s2 := h 2 (by omega)
    have s3 := h 3 (by omega)
    have s4 := h 4 (by omega)
    have t2 : ([a, 2, c, d].take 2).sum = a + 2 := by simp
    have t3 : ([a, 2, c, d].take 3).sum = a + 2 + c := by simp; omega
    have t4 : ([a, 2, c, d].take 4).sum = a + 2 + c + d := by simp; omega
    obtain ⟨x, h1, _, _, _, e1⟩ := addI32_mod (m := .checked) (a := a) (b := 2) (.inr (by omega))
    rw [e1 rfl] at h1
    obtain ⟨y, h2, _, _, _, e2⟩ := addI32_mod (m := .checked) (a := a + 2) (b := c) (.inr (by omega))
    rw [e2 rfl] at h2
    obtain ⟨z, h3, _, r1, r2, e3⟩ := addI32_mod (m := .checked) (a := a + 2 + c) (b := d) (.inr (by omega))
    refine ⟨z, ?_, by rw [es, e3 rfl], r1, r2⟩
    show (addI32 .checked a 2 >>= _) = _
    rw [h1]
    show (addI32 .checked (a + 2) c >>= _) = _
    rw [h2]
    exact h3

theorem eq_of_ofInt {x y : Int} (hx : -2147483648 ≤ x ∧ x < 2147483648) (hy : -2147483648 ≤ y ∧ y < 2147483648)
    (h : BitVec.ofInt 32 x = BitVec.ofInt 32 y) : x = y := by
  have := congrArg BitVec.toInt h
  rw [BitVec.toInt_ofInt, BitVec.toInt_ofInt, Int.bmod_eq_of_le (by omega) (by omega), Int.bmod_eq_of_le (by omega) (by omega)] at this
  exact this

end Wz
