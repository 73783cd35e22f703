import Verif.Version.Pkg2Search
import Mathlib.Data.Finite.Defs
import Mathlib.Data.Fintype.EquivFin
/-!
# PKG2 version hash candidates: C12, C13, C14

Every generator turns the two header words into a list of candidate version hashes.

* C12: every candidate solves the equation of its generation, and none is listed twice.
* C13: every solution of the equation is listed.  This holds for generations 1 and 6.  For the others the
  theorems `C13_v2_exact` ... `C13_v5_exact` say exactly which solutions are left out, and `C13_v2_misses` ...
  exhibit header words for which a solution is left out.
* C14: iterating `VersionGen` lists all candidates of all its generators.  It stops at the first generator
  which has no candidate; `C14_stops_early` shows that this happens.
-/

set_option autoImplicit false

namespace Wz.Props

open Wz.Pkg2

/-! ### C12 -/

theorem C12_v1_sound (h1 h2 t : BitVec 32) (h : t ∈ genV1 h1 h2) : Spec.Solves1 h1 h2 t := List.mem_singleton.mp h

theorem C12_v2_sound (h1 h2 t : BitVec 32) (h : t ∈ genV2 h1 h2) : Spec.Solves2 h1 h2 t :=
  (((genV2_spec h1 h2).2 t).mp h).1

theorem C12_v3_sound (h1 h2 t : BitVec 32) (h : t ∈ genV3 h1 h2) : Spec.Solves3 h1 h2 t :=
  (((genV3_spec h1 h2).2 t).mp h).1

theorem C12_v4_sound (h1 h2 t : BitVec 32) (h : t ∈ genV4 h1 h2) : Spec.Solves4 h1 h2 t :=
  (verifyV4_iff h1 h2 t).mp (((bruteForce_spec h1 h2 verifyV4).2 t).mp h).1

theorem C12_v5_sound (h1 h2 t : BitVec 32) (h : t ∈ genV5 h1 h2) : Spec.Solves5 h1 h2 t :=
  (verifyV5_iff h1 h2 t).mp (((bruteForce_spec h1 h2 verifyV5).2 t).mp h).1

theorem C12_v6_sound (h1 h2 t : BitVec 64) (h : t ∈ genV6 h1 h2) : Spec.Solves6 h1 h2 t :=
  (verifyV6_iff h1 h2 t).mp (beq_iff_eq.mpr (List.mem_singleton.mp h))

/-- No candidate is listed twice. -/
theorem C12_no_duplicates (h1 h2 : BitVec 32) (g1 g2 : BitVec 64) : (genV1 h1 h2).Nodup ∧ (genV2 h1 h2).Nodup ∧
    (genV3 h1 h2).Nodup ∧ (genV4 h1 h2).Nodup ∧ (genV5 h1 h2).Nodup ∧ (genV6 g1 g2).Nodup :=
  ⟨by simp [genV1], (genV2_spec h1 h2).1, (genV3_spec h1 h2).1, (bruteForce_spec h1 h2 _).1,
    (bruteForce_spec h1 h2 _).1, by simp [genV6]⟩

/-- The verification functions accept exactly the solutions. -/
theorem C12_verifiers (h1 h2 t : BitVec 32) (g1 g2 u : BitVec 64) :
    (verifyV1 h1 h2 t = true ↔ Spec.Solves1 h1 h2 t) ∧ (verifyV2 h1 h2 t = true ↔ Spec.Solves2 h1 h2 t) ∧
    (verifyV3 h1 h2 t = true ↔ Spec.Solves3 h1 h2 t) ∧ (verifyV4 h1 h2 t = true ↔ Spec.Solves4 h1 h2 t) ∧
    (verifyV5 h1 h2 t = true ↔ Spec.Solves5 h1 h2 t) ∧ (verifyV6 g1 g2 u = true ↔ Spec.Solves6 g1 g2 u) :=
  ⟨verifyV1_iff .., verifyV2_iff .., verifyV3_iff .., verifyV4_iff .., verifyV5_iff .., verifyV6_iff ..⟩

/-- header words with a known version hash 12345 -/
example : Spec.Solves2 0xabcd#32 0x963467b7#32 12345#32 := by unfold Spec.Solves2; decide

/-! ### C13 -/

theorem C13_v1_complete (h1 h2 t : BitVec 32) (h : Spec.Solves1 h1 h2 t) : t ∈ genV1 h1 h2 := List.mem_singleton.mpr h

theorem C13_v6_complete (h1 h2 t : BitVec 64) (h : Spec.Solves6 h1 h2 t) : t ∈ genV6 h1 h2 :=
  List.mem_singleton.mpr (beq_iff_eq.mp ((verifyV6_iff h1 h2 t).mpr h))

/-- Generation 2 lists a solution exactly when it is not a nonzero multiple of 32. -/
theorem C13_v2_exact (h1 h2 t : BitVec 32) :
    t ∈ genV2 h1 h2 ↔ Spec.Solves2 h1 h2 t ∧ (t.toNat % 32 = 0 → t = 0#32) := (genV2_spec h1 h2).2 t

/-- Generation 3 lists a solution unless both it and the first header word are multiples of 16 and it is not 0. -/
theorem C13_v3_exact (h1 h2 t : BitVec 32) :
    t ∈ genV3 h1 h2 ↔ Spec.Solves3 h1 h2 t ∧ (t.toNat % 16 = 0 → h1.toNat % 16 = 0 → t = 0#32) :=
  (genV3_spec h1 h2).2 t

/-- Generation 4 lists every solution but `0xFFFFFFFF`. -/
theorem C13_v4_exact (h1 h2 t : BitVec 32) :
    t ∈ genV4 h1 h2 ↔ Spec.Solves4 h1 h2 t ∧ t.toNat ≠ 2 ^ 32 - 1 := by
  rw [← verifyV4_iff]; exact (bruteForce_spec h1 h2 verifyV4).2 t

/-- Generation 5 lists every solution but `0xFFFFFFFF`. -/
theorem C13_v5_exact (h1 h2 t : BitVec 32) :
    t ∈ genV5 h1 h2 ↔ Spec.Solves5 h1 h2 t ∧ t.toNat ≠ 2 ^ 32 - 1 := by
  rw [← verifyV5_iff]; exact (bruteForce_spec h1 h2 verifyV5).2 t

/-- The proved part of completeness for generation 2. -/
theorem C13_v2_complete_partial (h1 h2 t : BitVec 32) (h : Spec.Solves2 h1 h2 t) (h0 : t.toNat % 32 ≠ 0) :
    t ∈ genV2 h1 h2 := (C13_v2_exact ..).mpr ⟨h, fun h => absurd h h0⟩

/-- The proved part of completeness for generation 3. -/
theorem C13_v3_complete_partial (h1 h2 t : BitVec 32) (h : Spec.Solves3 h1 h2 t)
    (h0 : t.toNat % 16 ≠ 0 ∨ h1.toNat % 16 ≠ 0) : t ∈ genV3 h1 h2 :=
  (C13_v3_exact ..).mpr ⟨h, fun e1 e2 => h0.elim (fun h => absurd e1 h) (fun h => absurd e2 h)⟩

/-- **Violation.**  Version hash 32 solves the equation of generation 2 and is not listed. -/
theorem C13_v2_misses : Spec.Solves2 0#32 0x1A2B3C4D#32 32#32 ∧ 32#32 ∉ genV2 0#32 0x1A2B3C4D#32 := by
  refine ⟨by unfold Spec.Solves2; decide, fun h => ?_⟩
  have := ((C13_v2_exact ..).mp h).2 (by decide)
  exact absurd this (by decide)

/-- **Violation.**  Version hash 16 solves the equation of generation 3 and is not listed. -/
theorem C13_v3_misses : Spec.Solves3 0#32 (~~~0x1A2B3C4D#32) 16#32 ∧ 16#32 ∉ genV3 0#32 (~~~0x1A2B3C4D#32) := by
  refine ⟨by unfold Spec.Solves3; decide, fun h => ?_⟩
  have := ((C13_v3_exact ..).mp h).2 (by decide) (by decide)
  exact absurd this (by decide)

/-- **Violation.**  For every first header word there is a second one for which the solution `0xFFFFFFFF` of
generation 4 is not listed. -/
theorem C13_v4_misses (h1 : BitVec 32) : ∃ h2, Spec.Solves4 h1 h2 0xFFFFFFFF#32 ∧ 0xFFFFFFFF#32 ∉ genV4 h1 h2 :=
  ⟨_, rfl, fun h => ((C13_v4_exact ..).mp h).2 (by decide)⟩

/-- **Violation.**  The same for generation 5. -/
theorem C13_v5_misses (h1 : BitVec 32) : ∃ h2, Spec.Solves5 h1 h2 0xFFFFFFFF#32 ∧ 0xFFFFFFFF#32 ∉ genV5 h1 h2 :=
  ⟨_, rfl, fun h => ((C13_v5_exact ..).mp h).2 (by decide)⟩

/-! ### C14 -/

/-- reading on within a generator -/
theorem collect_current (l : List (BitVec 32)) (gs : List (List (BitVec 32))) (n : Nat) :
    VGen.collect (l.length + n) ⟨some l, gs⟩ = l ++ VGen.collect n ⟨some [], gs⟩ := by
  induction l with
  | nil => simp
  | cons x xs ih =>
    rw [show (x :: xs).length + n = (xs.length + n) + 1 by simp; omega]
    show x :: VGen.collect (xs.length + n) ⟨some xs, gs⟩ = _
    rw [ih]; rfl

/-- starting the next generator -/
theorem collect_next (l : List (BitVec 32)) (gs : List (List (BitVec 32))) (c : Option (List (BitVec 32))) (n : Nat)
    (hc : c = none ∨ c = some []) (hl : l ≠ []) :
    VGen.collect (l.length + n) ⟨c, gs ++ [l]⟩ = l ++ VGen.collect n ⟨some [], gs⟩ := by
  cases l with
  | nil => exact absurd rfl hl
  | cons x xs =>
    rw [show (x :: xs).length + n = (xs.length + n) + 1 by simp; omega]
    have hnext : VGen.next ⟨c, gs ++ [x :: xs]⟩ = (some x, ⟨some xs, gs⟩) := by
      rcases hc with rfl | rfl <;> simp [VGen.next, VGen.nextGen]
    rw [VGen.collect, hnext]
    show x :: VGen.collect (xs.length + n) ⟨some xs, gs⟩ = _
    rw [collect_current]; rfl

theorem collect_end (c : Option (List (BitVec 32))) (n : Nat) (hc : c = none ∨ c = some []) :
    VGen.collect n ⟨c, []⟩ = [] := by
  cases n with
  | zero => rfl
  | succ n =>
    rw [VGen.collect]
    rcases hc with rfl | rfl <;> simp [VGen.next, VGen.nextGen]

/-- The proved part: when the third and the second generation have candidates, iterating to the end lists the
candidates of the generations 3, 2 and 1, in this order, and nothing else. -/
theorem C14_all_partial (h1 h2 : BitVec 32) (hn3 : genV3 h1 h2 ≠ []) (hn2 : genV2 h1 h2 ≠ []) (fuel : Nat)
    (hf : (genV3 h1 h2).length + (genV2 h1 h2).length + (genV1 h1 h2).length ≤ fuel) :
    VGen.collect fuel (VGen.new h1 h2) = genV3 h1 h2 ++ genV2 h1 h2 ++ genV1 h1 h2 := by
  obtain ⟨n, rfl⟩ := Nat.exists_eq_add_of_le hf
  rw [Nat.add_assoc, Nat.add_assoc]
  show VGen.collect _ ⟨none, [genV1 h1 h2, genV2 h1 h2] ++ [genV3 h1 h2]⟩ = _
  rw [collect_next _ _ _ _ (.inl rfl) hn3]
  rw [show [genV1 h1 h2, genV2 h1 h2] = [genV1 h1 h2] ++ [genV2 h1 h2] from rfl,
    collect_next _ _ _ _ (.inr rfl) hn2,
    show [genV1 h1 h2] = [] ++ [genV1 h1 h2] from rfl,
    collect_next _ _ _ _ (.inr rfl) (by simp [genV1]), collect_end _ _ (.inr rfl), List.append_nil, List.append_assoc]

/-- C14 for any generators that all have candidates: last generator first, each in its order. -/
theorem C14_any_partial (gs : List (List (BitVec 32))) (hg : ∀ l ∈ gs, l ≠ []) (fuel : Nat) (hf : gs.flatten.length ≤ fuel) :
    VGen.collect fuel ⟨none, gs⟩ = gs.reverse.flatten := by
  have key : ∀ (rs : List (List (BitVec 32))) (c : Option (List (BitVec 32))) (fuel : Nat), c = none ∨ c = some [] → (∀ l ∈ rs, l ≠ []) →
      rs.flatten.length ≤ fuel → VGen.collect fuel ⟨c, rs.reverse⟩ = rs.flatten := by
    intro rs
    induction rs with
    | nil => intro c fuel hc _ _; exact collect_end _ _ hc
    | cons l rs ih =>
      intro c fuel hc hg hf
      rw [List.flatten_cons, List.length_append] at hf
      obtain ⟨n, rfl⟩ := Nat.exists_eq_add_of_le hf
      rw [List.reverse_cons, Nat.add_assoc, collect_next _ _ _ _ hc (hg l (.head _)), List.flatten_cons,
        ih _ _ (.inr rfl) (fun l' h => hg l' (.tail _ h)) (Nat.le_add_right _ _)]
  have := key gs.reverse none fuel (.inl rfl) (fun l h => hg l (List.mem_reverse.mp h)) (by
    rw [List.length_flatten, List.map_reverse, List.sum_reverse, ← List.length_flatten]; exact hf)
  rwa [List.reverse_reverse] at this

theorem calls_current (l : List (BitVec 32)) (gs : List (List (BitVec 32))) (n : Nat) :
    VGen.calls (l.length + n) ⟨some l, gs⟩ = l.map some ++ VGen.calls n ⟨some [], gs⟩ := by
  induction l with
  | nil => simp
  | cons x xs ih =>
    rw [show (x :: xs).length + n = (xs.length + n) + 1 by simp; omega]
    show some x :: VGen.calls (xs.length + n) ⟨some xs, gs⟩ = _
    rw [ih]; rfl

/-- C14 for a caller that does not stop at `None`: the iterator is not at its end there, and going on calling it
gives every candidate of every generation, whichever have none. -/
theorem C14_past_none (gs : List (List (BitVec 32))) :
    ∃ N, ∀ n, N ≤ n → (VGen.calls n ⟨none, gs⟩).filterMap id = gs.reverse.flatten := by
  have done : ∀ (n : Nat) (c : Option (List (BitVec 32))), c = none ∨ c = some [] → (VGen.calls n ⟨c, []⟩).filterMap id = [] := by
    intro n
    induction n with
    | zero => intros; rfl
    | succ n ih =>
      intro c hc
      rcases hc with rfl | rfl
      · exact ih none (.inl rfl)
      · exact ih none (.inl rfl)
  have key : ∀ (rs : List (List (BitVec 32))) (c : Option (List (BitVec 32))), c = none ∨ c = some [] →
      ∃ N, ∀ n, N ≤ n → (VGen.calls n ⟨c, rs.reverse⟩).filterMap id = rs.flatten := by
    intro rs
    induction rs with
    | nil => intro c hc; exact ⟨0, fun n _ => done n c hc⟩
    | cons l rs ih =>
      intro c hc
      obtain ⟨N, hN⟩ := ih (some []) (.inr rfl)
      refine ⟨N + l.length + 1, fun n hn => ?_⟩
      obtain ⟨k, rfl⟩ := Nat.exists_eq_add_of_le hn
      have hnext : (VGen.mk c (rs.reverse ++ [l])).next = (match l with | [] => (none, ⟨some [], rs.reverse⟩) | x :: xs => (some x, ⟨some xs, rs.reverse⟩)) := by
        rcases hc with rfl | rfl <;> simp [VGen.next, VGen.nextGen] <;> cases l <;> rfl
      rw [List.reverse_cons, List.flatten_cons]
      rw [show N + l.length + 1 + k = (l.length + (N + k)) + 1 by omega]
      rw [VGen.calls, hnext]
      cases l with
      | nil =>
        show List.filterMap id (none :: VGen.calls (0 + (N + k)) ⟨some [], rs.reverse⟩) = _
        rw [Nat.zero_add, List.nil_append]
        exact hN (N + k) (Nat.le_add_right _ _)
      | cons x xs =>
        show List.filterMap id (some x :: VGen.calls (xs.length + 1 + (N + k)) ⟨some xs, rs.reverse⟩) = _
        rw [show xs.length + 1 + (N + k) = xs.length + (N + k + 1) by omega, calls_current]
        have h1 : ∀ l : List (BitVec 32), List.filterMap id (l.map some) = l := fun l => by simp
        show x :: List.filterMap id (xs.map some ++ _) = _
        rw [List.filterMap_append, hN (N + k + 1) (by omega), h1]
        rfl
  obtain ⟨N, hN⟩ := key gs.reverse none (.inl rfl)
  rw [List.reverse_reverse] at hN
  exact ⟨N, hN⟩

example : (VGen.calls 6 ⟨none, [[1#32], [], [2#32, 3#32]]⟩).filterMap id = [2#32, 3#32, 1#32] ∧
    VGen.collect 6 ⟨none, [[1#32], [], [2#32, 3#32]]⟩ = [2#32, 3#32] := by decide

/-- The iteration stops at the first generation without a candidate: nothing at all is listed when generation 3 has none. -/
theorem C14_stops_at_empty (h1 h2 : BitVec 32) (hn3 : genV3 h1 h2 = []) (fuel : Nat) :
    VGen.collect fuel (VGen.new h1 h2) = [] := by
  cases fuel with
  | zero => rfl
  | succ n =>
    rw [VGen.collect]
    simp [VGen.next, VGen.nextGen, VGen.new, hn3]

/-- Everything listed is a candidate of one of the generations. -/
theorem C14_sound (h1 h2 t : BitVec 32) (fuel : Nat) (h : t ∈ VGen.collect fuel (VGen.new h1 h2)) :
    Spec.Solves1 h1 h2 t ∨ Spec.Solves2 h1 h2 t ∨ Spec.Solves3 h1 h2 t := by
  have key : ∀ (fuel : Nat) (g : VGen) (P : BitVec 32 → Prop), (∀ l, g.current = some l → ∀ x ∈ l, P x) →
      (∀ l ∈ g.generators, ∀ x ∈ l, P x) → ∀ x ∈ VGen.collect fuel g, P x := by
    intro fuel
    induction fuel with
    | zero => intro g P _ _ x hx; cases hx
    | succ n ih =>
      intro g P hc hg x hx
      have hng : ∀ (g : VGen), (∀ l ∈ g.generators, ∀ x ∈ l, P x) →
          ∀ y g', g.nextGen = (some y, g') → P y ∧ (∀ l, g'.current = some l → ∀ x ∈ l, P x) ∧
            (∀ l ∈ g'.generators, ∀ x ∈ l, P x) := by
        intro g hg y g' he
        unfold VGen.nextGen at he
        split at he
        · cases he
        · rename_i l hl
          have hmem := List.mem_of_getLast? hl
          split at he
          · cases he
          · rename_i z zs
            cases he
            refine ⟨hg _ hmem _ (List.mem_cons_self ..), ?_, fun l hl' => hg l (List.dropLast_subset _ hl')⟩
            intro l hl'
            cases hl'
            exact fun x hx => hg _ hmem _ (List.mem_cons_of_mem _ hx)
      have hnx : ∀ y g', g.next = (some y, g') → P y ∧ (∀ l, g'.current = some l → ∀ x ∈ l, P x) ∧
            (∀ l ∈ g'.generators, ∀ x ∈ l, P x) := by
        intro y g' he
        unfold VGen.next at he
        split at he
        · rename_i z zs hcur
          cases he
          refine ⟨hc _ hcur _ (List.mem_cons_self ..), ?_, hg⟩
          intro l hl'
          cases hl'
          exact fun x hx => hc _ hcur _ (List.mem_cons_of_mem _ hx)
        · exact hng { g with current := none } hg y g' he
        · exact hng g hg y g' he
      rw [VGen.collect] at hx
      split at hx
      · cases hx
      · rename_i y g' he
        obtain ⟨h1, h2, h3⟩ := hnx y g' he
        rcases List.mem_cons.mp hx with rfl | hx
        · exact h1
        · exact ih g' P h2 h3 x hx
  refine key fuel _ (fun t => Spec.Solves1 h1 h2 t ∨ Spec.Solves2 h1 h2 t ∨ Spec.Solves3 h1 h2 t) ?_ ?_ t h
  · intro l hl; cases hl
  · intro l hl x hx
    simp only [VGen.new, List.mem_cons, List.not_mem_nil, or_false] at hl
    rcases hl with rfl | rfl | rfl
    · exact .inl (C12_v1_sound h1 h2 x hx)
    · exact .inr (.inl (C12_v2_sound h1 h2 x hx))
    · exact .inr (.inr (C12_v3_sound h1 h2 x hx))

/-- **Violation.**  There are header words for which generation 1 has a candidate and the iteration lists nothing. -/
theorem C14_stops_early : ∃ h2, (∃ t, t ∈ genV1 0#32 h2) ∧ ∀ fuel, VGen.collect fuel (VGen.new 0#32 h2) = [] := by
  -- for a fixed first word every hash solves the equation for one second word; two hashes share theirs, so
  -- some second word is left without a solution
  let f : BitVec 32 → BitVec 32 := fun t =>
    ~~~((0#32 ^^^ (t + 0x1A2B3C4D#32)).rotateLeft (t.toNat % 16 + (0#32).toNat % 16) ^^^ (t ^^^ 0#32))
  have hf : ∀ h2 t, Spec.Solves3 0#32 h2 t → f t = h2 := by
    intro h2 t h
    unfold Spec.Solves3 at h
    show ~~~(_ ^^^ _) = h2
    rw [h, not_eq_iff, xor_eq_iff]
  have hfin : Finite (BitVec 32) := Finite.of_injective BitVec.toFin (fun a b h => BitVec.eq_of_toFin_eq h)
  have hns : ¬Function.Surjective f := by
    intro hs
    have hi : Function.Injective f := Finite.injective_iff_surjective.mpr hs
    have hcol : f 16#32 = f 32#32 := by decide
    exact absurd (hi hcol) (by decide)
  obtain ⟨h2, hh⟩ : ∃ h2, ¬∃ t, f t = h2 := Classical.not_forall.mp hns
  refine ⟨h2, ⟨_, List.mem_singleton.mpr rfl⟩, C14_stops_at_empty 0#32 h2 ?_⟩
  apply List.eq_nil_iff_forall_not_mem.mpr
  intro t ht
  exact hh ⟨t, hf h2 t (C12_v3_sound _ _ _ ht)⟩

/-- the header words of the tests of the library have candidates of the generations 3 and 2 -/
example : genV3 0xabcd#32 0x12340000#32 ≠ [] ∧ genV2 0xabcd#32 0x12340000#32 ≠ [] := by
  have h3 : (0x30e71fed#32 : BitVec 32) ∈ genV3 0xabcd#32 0x12340000#32 :=
    C13_v3_complete_partial _ _ _ (by unfold Spec.Solves3; decide) (by decide)
  have h2 : (0xb1c4cbf0#32 : BitVec 32) ∈ genV2 0xabcd#32 0x12340000#32 :=
    C13_v2_complete_partial _ _ _ (by unfold Spec.Solves2; decide) (by decide)
  exact ⟨List.ne_nil_of_mem h3, List.ne_nil_of_mem h2⟩

end Wz.Props
