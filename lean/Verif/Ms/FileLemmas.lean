import Verif.Ms.FileSpec
import Verif.Ms.SnowRdProps
/-!
# Lemmas for MS archives
-/

set_option autoImplicit false

namespace Wz

open Wz.Spec Wz.Spec.Snow

/-! ## small things -/

theorem tabulateM_ok {α : Type} {f : Nat → Except Err α} {g : Nat → α} {n : Nat} (h : ∀ i < n, f i = .ok (g i)) :
    tabulateM f n = .ok ((List.range n).map g) := by
  induction n with
  | zero => rfl
  | succ n ih =>
    show (tabulateM f n >>= _) = _
    rw [ih fun i hi => h i (by omega)]
    show (f n >>= _) = _
    rw [h n (by omega), List.range_succ, List.map_append]
    rfl

theorem tabulateM_error {α : Type} {f : Nat → Except Err α} {n : Nat} (h : ∃ i < n, ∃ e, f i = .error e) :
    ∃ i < n, ∃ e, f i = .error e ∧ tabulateM f n = .error e := by
  induction n with
  | zero => obtain ⟨i, hi, _⟩ := h; omega
  | succ n ih =>
    by_cases hs : ∃ i < n, ∃ e, f i = .error e
    · obtain ⟨i, hi, e, h1, h2⟩ := ih hs
      refine ⟨i, by omega, e, h1, ?_⟩
      show (tabulateM f n >>= _) = _
      rw [h2]; rfl
    · obtain ⟨i, hi, e, he⟩ := h
      have hin : i = n := by
        apply Classical.byContradiction
        intro hne
        exact hs ⟨i, by omega, e, he⟩
      subst hin
      refine ⟨i, hi, e, he, ?_⟩
      show (tabulateM f i >>= _) = _
      have hok : ∃ l, tabulateM f i = .ok l := by
        clear he hi ih
        induction i with
        | zero => exact ⟨[], rfl⟩
        | succ k ihk =>
          obtain ⟨l, hl⟩ := ihk fun ⟨j, hj, e, h⟩ => hs ⟨j, by omega, e, h⟩
          cases hk : f k with
          | error e => exact absurd ⟨k, by omega, e, hk⟩ hs
          | ok x =>
            refine ⟨l ++ [x], ?_⟩
            show (tabulateM f k >>= _) = _
            rw [hl]
            show (f k >>= _) = _
            rw [hk]; rfl
      obtain ⟨l, hl⟩ := hok
      rw [hl]
      show (f i >>= _) = _
      rw [he]; rfl

theorem nth8_ok {bs : Bytes} {i : Nat} (h : i < bs.length) : nth8 bs i = .ok (bs.getD i 0#8) := by
  unfold nth8
  rw [List.getElem?_eq_getElem h, List.getD_eq_getElem?_getD, List.getElem?_eq_getElem h]
  rfl

theorem nth8_end {bs : Bytes} {i : Nat} (h : ¬ i < bs.length) : nth8 bs i = .error .panicIndex := by
  unfold nth8; rw [List.getElem?_eq_none (by omega)]

theorem remU_ok {i n : Nat} (h : n ≠ 0) : remU i n = .ok (i % n) := by unfold remU; rw [if_neg h]

theorem u8_ok {m : Mode} {v : Nat} (h : v < 256) : u8 m v = .ok v := by
  unfold u8; rw [if_pos (by omega)]; simp

theorem u8_wrap {v : Nat} : u8 .wrap v = .ok (v % 256) := by
  unfold u8
  by_cases h : v < 256
  · rw [if_pos (by omega), Nat.mod_eq_of_lt h]; simp
  · rw [if_neg (by omega)]
    show Except.ok _ = _
    congr 1

/-- a byte that is the sum of two, in both kinds of build -/
theorem u8_add {m : Mode} (a : Byte) (i : Nat) (h : m = .wrap ∨ a.toNat + i < 256) :
    ∃ v, u8 m ((a.toNat : Int) + (i : Int)) = .ok v ∧ BitVec.ofNat 8 v = a + BitVec.ofNat 8 i := by
  have e : ((a.toNat : Int) + (i : Int)) = ((a.toNat + i : Nat) : Int) := by omega
  rw [e]
  rcases h with h | h
  · subst h
    refine ⟨_, u8_wrap, ?_⟩
    apply BitVec.eq_of_toNat_eq
    simp
  · refine ⟨_, u8_ok h, ?_⟩
    apply BitVec.eq_of_toNat_eq
    simp

theorem asciiLower_eq (s : List Char) : asciiLower s = Ms.lower s := by
  unfold asciiLower Ms.lower
  apply List.map_congr_left
  intro c _
  unfold Char.toLower
  have hiff : (c.val ≥ 'A'.val ∧ c.val ≤ 'Z'.val) ↔ (65 ≤ c.toNat ∧ c.toNat ≤ 90) := Iff.rfl
  by_cases h : 65 ≤ c.toNat ∧ c.toNat ≤ 90
  · rw [if_pos h, dif_pos (hiff.mpr h)]
    apply Char.ext
    apply UInt32.toNat_inj.mp
    have hc : c.val.toNat = c.toNat := rfl
    have h1 : (Char.ofNat (c.toNat + 32)).val.toNat = c.toNat + 32 := by
      unfold Char.ofNat
      rw [dif_pos (by left; omega)]
      rfl
    rw [h1]
    show (c.val + 32).toNat = _
    rw [UInt32.toNat_add, hc]
    have : (32 : UInt32).toNat = 32 := rfl
    rw [this]
    omega
  · rw [if_neg h, dif_neg fun h' => h (hiff.mp h')]

theorem sumStr_eq (name : List Char) : sumStr (asciiLower name) = Ms.nameSum name := by rw [asciiLower_eq]; rfl

end Wz
