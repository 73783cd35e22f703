import Verif.Node.SpoilSpec
import Verif.Node.PathLemmas
import Verif.Node.PlaceLemmas

/-!
# Lemmas: calls on nodes after a panic
-/

set_option autoImplicit false

namespace Wz

open Spec

theorem firstKid_iff {h : NHeap} {i j : Nat} {n : List Char} : FirstKid h i n j ↔ h.at i n = some j := by
  unfold FirstKid NHeap.at kidAt
  cases hc : h.cell i with
  | none => simp
  | some c =>
    simp only [Option.map_eq_some_iff, List.find?_eq_some_iff_append]
    constructor
    · rintro ⟨c', pre, post, h1, h2, h3⟩
      cases h1
      exact ⟨(n, j), ⟨by simp, pre, post, h2, fun x hx => by simpa using h3 x hx⟩, rfl⟩
    · rintro ⟨⟨n', j'⟩, ⟨h1, pre, post, h2, h3⟩, rfl⟩
      have : n' = n := by simpa using h1
      subst this
      exact ⟨c, pre, post, rfl, h2, fun x hx => by simpa using h3 x hx⟩

theorem FirstKid.unique {h : NHeap} {i j k : Nat} {n : List Char} (hj : FirstKid h i n j) (hk : FirstKid h i n k) : j = k :=
  Option.some.inj ((firstKid_iff.1 hj).symm.trans (firstKid_iff.1 hk))

theorem Spec.ReadHistory.append {content : Content} {h g g' : NHeap} (h1 : ReadHistory content h g)
    (h2 : ReadHistory content g g') : ReadHistory content h g' := by
  induction h2 with
  | start => exact h1
  | call a b _ hc ih => exact .call a b ih hc

theorem Spec.ReadHistory.parse {content : Content} {h : NHeap} (i : Nat) : ReadHistory content h (h.parse content i).2 :=
  .call h _ .start (.parse h i)

/-- what is known of a call that gave `r` from `st`, if it gives `r0` soundly and `L` are the nodes it locks -/
structure CallOk {α : Type} (content : Content) (st : Locked) (r : Except Err α × Locked) (r0 : Except Err α × NHeap)
    (L : Nat → Prop) : Prop where
  right : (r.1 = r0.1 ∧ r.2.heap = r0.2) ∨ (r.1 = .error .panicUnwrap ∧ ∃ k, L k ∧ st.bad k = true)
  stuck : ∀ k, L k → st.bad k = true → r.1 = .error .panicUnwrap
  kept : ∀ k, st.bad k = true → r.2.bad k = true
  marks : ∀ e, r.1 = .error e → e.isPanic = true → ∃ k, L k ∧ r.2.bad k = true
  past : ReadHistory content st.heap r.2.heap

/-- every lock that is poisoned now, and was not before, is that of a node that panics by itself -/
def OnlyDamaged (content : Content) (st st' : Locked) : Prop :=
  ∀ k, st'.bad k = true → st.bad k = true ∨ PanicsAlone content st.heap k

theorem mark_heap (st : Locked) (i : Nat) : (st.mark i).heap = st.heap := rfl

theorem mark_bad (st : Locked) (i k : Nat) : (st.mark i).bad k = true ↔ k = i ∨ st.bad k = true := by
  unfold Locked.mark
  by_cases h : k = i <;> simp [h]

theorem parse_bad {content : Content} {st : Locked} {i : Nat} (hb : st.bad i = true) :
    st.parse content i = (.error .panicUnwrap, st) := if_pos hb

theorem parse_good {content : Content} {st : Locked} {i : Nat} {g : NHeap} (hb : st.bad i = false)
    (hp : st.heap.parse content i = (.ok (), g)) : st.parse content i = (.ok (), { st with heap := g }) := by
  unfold Locked.parse
  rw [hb, hp]
  rfl

theorem parse_fails {content : Content} {st : Locked} {i : Nat} {g : NHeap} {e : Err} (hb : st.bad i = false)
    (hp : st.heap.parse content i = (.error e, g)) : st.parse content i =
      (.error e, if e.isPanic then Locked.mark { st with heap := g } i else { st with heap := g }) := by
  unfold Locked.parse
  rw [hb, hp]
  rfl

theorem parse_ok {content : Content} (st : Locked) (i : Nat) :
    CallOk content st (st.parse content i) (st.heap.parse content i) (fun k => k = i) ∧
    OnlyDamaged content st (st.parse content i).2 := by
  cases hb : st.bad i with
  | true =>
    rw [parse_bad hb]
    exact ⟨⟨.inr ⟨rfl, i, rfl, hb⟩, fun _ _ _ => rfl, fun _ h => h, fun _ _ _ => ⟨i, rfl, hb⟩, .start⟩,
      fun _ h => .inl h⟩
  | false =>
    have hh := Spec.ReadHistory.parse (content := content) (h := st.heap) i
    rcases hp : st.heap.parse content i with ⟨r, g⟩
    rw [hp] at hh
    have hno : ∀ k, k = i → st.bad k = true → False := fun k hk h => by rw [hk, hb] at h; cases h
    cases r with
    | ok u =>
      rw [parse_good hb hp]
      exact ⟨⟨.inl ⟨rfl, rfl⟩, fun k hk h => (hno k hk h).elim, fun _ h => h, fun _ h => (by cases h), hh⟩,
        fun _ h => .inl h⟩
    | error e =>
      rw [parse_fails hb hp]
      cases he : e.isPanic with
      | true =>
        refine ⟨⟨.inl ⟨rfl, rfl⟩, fun k hk h => (hno k hk h).elim, fun k h => (mark_bad _ _ _).2 (.inr h),
          fun _ _ _ => ⟨i, rfl, (mark_bad _ _ _).2 (.inl rfl)⟩, hh⟩, fun k h => ?_⟩
        rcases (mark_bad _ _ _).1 h with rfl | h
        · exact .inr ⟨st.heap, e, .start, by rw [hp], he⟩
        · exact .inl h
      | false =>
        refine ⟨⟨.inl ⟨rfl, rfl⟩, fun k hk h => (hno k hk h).elim, fun k h => h, fun e' h h' => ?_, hh⟩, fun k h => .inl h⟩
        cases h
        rw [he] at h'
        cases h'

theorem OnlyDamaged.trans {content : Content} {a b c : Locked} (h1 : OnlyDamaged content a b)
    (hp : ReadHistory content a.heap b.heap) (h2 : OnlyDamaged content b c) : OnlyDamaged content a c := by
  intro k hk
  rcases h2 k hk with h | ⟨g, e, h, h'⟩
  · exact h1 k h
  · exact .inr ⟨g, e, hp.append h, h'⟩

/-- the nodes `at_path_parsed` locks after the first piece -/
def foldLocks (content : Content) (held : Nat) (h : NHeap) (i : Nat) (xs : List (List Char)) (k : Nat) : Prop :=
  ∃ ns ms, xs = ns ++ ms ∧ ms ≠ [] ∧ ParsedTrail content held h i ns k

theorem foldLocks_head {content : Content} {held i : Nat} {h : NHeap} {x : List Char} {xs : List (List Char)} :
    foldLocks content held h i (x :: xs) i := ⟨[], x :: xs, rfl, by simp, .here h i⟩

theorem foldLocks_tail {content : Content} {held i j k : Nat} {h g : NHeap} {x : List Char} {xs : List (List Char)}
    (hi : i ≠ held) (hp : h.parse content i = (.ok (), g)) (hx : g.at i x = some j) (hk : foldLocks content held g j xs k) :
    foldLocks content held h i (x :: xs) k := by
  obtain ⟨ns, ms, h1, h2, h3⟩ := hk
  exact ⟨x :: ns, ms, by rw [h1]; rfl, h2, .on h g i j k x ns hi hp (firstKid_iff.2 hx) h3⟩

theorem foldLocks_cases {content : Content} {held i k : Nat} {h : NHeap} {x : List Char} {xs : List (List Char)}
    (hk : foldLocks content held h i (x :: xs) k) : k = i ∨ ∃ g j, i ≠ held ∧ h.parse content i = (.ok (), g) ∧
      g.at i x = some j ∧ foldLocks content held g j xs k := by
  obtain ⟨ns, ms, h1, h2, h3⟩ := hk
  cases h3 with
  | here => exact .inl rfl
  | on h g i j k n ns hi hp hx ht =>
    simp only [List.cons_append, List.cons.injEq] at h1
    obtain ⟨rfl, h1⟩ := h1
    exact .inr ⟨g, j, hi, hp, firstKid_iff.1 hx, ns, ms, h1, h2, ht⟩

theorem fold_ok {content : Content} {held : Nat} : ∀ (xs : List (List Char)) (st : Locked) (i : Nat), st.bad held = false →
    CallOk content st (st.fold content held i xs) (st.heap.foldParsed content held i xs)
      (foldLocks content held st.heap i xs) ∧
    OnlyDamaged content st (st.fold content held i xs).2
  | [], st, i, _ => by
    refine ⟨⟨.inl ⟨rfl, rfl⟩, fun k hk _ => ?_, fun _ h => h, fun _ h => (by cases h), .start⟩, fun _ h => .inl h⟩
    obtain ⟨ns, ms, h1, h2, _⟩ := hk
    exact absurd (List.append_eq_nil_iff.1 h1.symm).2 h2
  | x :: xs, st, i, hheld => by
    by_cases hi : i = held
    · rw [show st.fold content held i (x :: xs) = (.error (.lib "deadlock"), st) from if_pos hi,
        show st.heap.foldParsed content held i (x :: xs) = (.error (.lib "deadlock"), st.heap) from if_pos hi]
      refine ⟨⟨.inl ⟨rfl, rfl⟩, fun k hk hb => ?_, fun _ h => h, fun _ h h' => (by cases h; cases h'), .start⟩,
        fun _ h => .inl h⟩
      rcases foldLocks_cases hk with rfl | ⟨_, _, h, _⟩
      · rw [hi, hheld] at hb; cases hb
      · exact absurd hi h
    · obtain ⟨⟨p1, p2, p3, p4, p5⟩, p6⟩ := parse_ok (content := content) st i
      have e1 : st.fold content held i (x :: xs) = match st.parse content i with
          | (.error e, st') => (.error e, st')
          | (.ok _, st') => match st'.heap.at i x with
            | none => (.error (.lib "NodeNotFound"), st')
            | some j => Locked.fold content held st' j xs := if_neg hi
      have e2 : st.heap.foldParsed content held i (x :: xs) = match st.heap.parse content i with
          | (.error e, h') => (.error e, h')
          | (.ok _, h') => match h'.at i x with
            | none => (.error (.lib "NodeNotFound"), h')
            | some j => NHeap.foldParsed content held h' j xs := if_neg hi
      cases hb : st.bad i with
      | true =>
        rw [e1, parse_bad hb]
        exact ⟨⟨.inr ⟨rfl, i, foldLocks_head, hb⟩, fun _ _ _ => rfl, fun _ h => h,
          fun _ _ _ => ⟨i, foldLocks_head, hb⟩, .start⟩, fun _ h => .inl h⟩
      | false =>
        rcases hp : st.heap.parse content i with ⟨r, g⟩
        cases r with
        | error e =>
          have hq := parse_fails hb hp
          rw [hq] at p1 p2 p3 p4 p5 p6
          rw [e1, hq, e2, hp]
          refine ⟨⟨.inl ⟨rfl, ?_⟩, fun k hk hk' => ?_, p3, fun e' h h' => ?_, p5⟩, p6⟩
          · cases e.isPanic <;> rfl
          · rcases foldLocks_cases hk with rfl | ⟨g', j, _, h, _⟩
            · rw [hb] at hk'; cases hk'
            · rw [hp] at h; cases h
          · obtain ⟨k, rfl, hk⟩ := p4 e' (by cases h; rfl) h'
            exact ⟨k, foldLocks_head, hk⟩
        | ok u =>
          have hq := parse_good hb hp
          rw [hq] at p5
          rw [e1, hq, e2, hp]
          dsimp only
          cases ha : g.at i x with
          | none =>
            refine ⟨⟨.inl ⟨rfl, rfl⟩, fun k hk hk' => ?_, fun _ h => h, fun e' h h' => (by cases h; cases h'), p5⟩,
              fun _ h => .inl h⟩
            rcases foldLocks_cases hk with rfl | ⟨g', j, _, h, h2, _⟩
            · rw [hb] at hk'; cases hk'
            · rw [hp] at h; cases h
              rw [ha] at h2; cases h2
          | some j =>
            dsimp only
            obtain ⟨⟨q1, q2, q3, q4, q5⟩, q6⟩ := fold_ok xs { st with heap := g } j hheld
            refine ⟨⟨?_, fun k hk hk' => ?_, q3, fun e' h h' => ?_, p5.append q5⟩, OnlyDamaged.trans (b := { st with heap := g }) (fun _ h => .inl h) p5 q6⟩
            · rcases q1 with q1 | ⟨q1, k, hk, hk'⟩
              · exact .inl q1
              · exact .inr ⟨q1, k, foldLocks_tail hi hp ha hk, hk'⟩
            · rcases foldLocks_cases hk with rfl | ⟨g', j', _, h, h2, h3⟩
              · rw [hb] at hk'; cases hk'
              · rw [hp] at h; cases h
                rw [ha] at h2; cases h2
                exact q2 k h3 hk'
            · obtain ⟨k, hk, hk'⟩ := q4 e' h h'
              exact ⟨k, foldLocks_tail hi hp ha hk, hk'⟩

theorem findLocks_iff {content : Content} {h : NHeap} {i k : Nat} {path : List Char} {x : List Char} {xs : List (List Char)}
    (hs : splitSlash path = x :: xs) :
    FindLocks content h i path k ↔ ∃ j, h.at i x = some j ∧ foldLocks content i h j xs k := by
  constructor
  · rintro ⟨n, ns, ms, j, h1, h2, h3, h4⟩
    rw [pieces_iff, hs] at h1
    simp only [List.cons.injEq] at h1
    obtain ⟨rfl, h1⟩ := h1
    exact ⟨j, firstKid_iff.1 h3, ns, ms, h1, h2, h4⟩
  · rintro ⟨j, h3, ns, ms, rfl, h2, h4⟩
    exact ⟨x, ns, ms, j, pieces_iff.2 hs, h2, firstKid_iff.2 h3, h4⟩

theorem splitSlash_cons (path : List Char) : ∃ x xs, splitSlash path = x :: xs := by
  cases hs : splitSlash path with
  | nil => exact absurd rfl (pieces_iff.2 hs).some
  | cons x xs => exact ⟨x, xs, rfl⟩

theorem findIn_ok {content : Content} (st : Locked) (i : Nat) (path : List Char) (hb : st.bad i = false) :
    CallOk content st (st.findIn content i path) (st.heap.atPathParsed content i path) (FindLocks content st.heap i path) ∧
    OnlyDamaged content st (st.findIn content i path).2 := by
  obtain ⟨x, xs, hs⟩ := splitSlash_cons path
  have hl := fun k => findLocks_iff (content := content) (h := st.heap) (i := i) (k := k) hs
  unfold Locked.findIn NHeap.atPathParsed
  rw [hs]
  dsimp only
  cases ha : st.heap.at i x with
  | none =>
    refine ⟨⟨.inl ⟨rfl, rfl⟩, fun k hk _ => ?_, fun _ h => h, fun e' h h' => (by cases h; cases h'), .start⟩, fun _ h => .inl h⟩
    obtain ⟨j, h, _⟩ := (hl k).1 hk
    rw [ha] at h; cases h
  | some j =>
    dsimp only
    obtain ⟨⟨q1, q2, q3, q4, q5⟩, q6⟩ := fold_ok (content := content) xs st j hb
    refine ⟨⟨?_, fun k hk => ?_, q3, fun e' h h' => ?_, q5⟩, q6⟩
    · rcases q1 with q1 | ⟨q1, k, hk, hk'⟩
      · exact .inl q1
      · exact .inr ⟨q1, k, (hl k).2 ⟨j, ha, hk⟩, hk'⟩
    · obtain ⟨j', h, h2⟩ := (hl k).1 hk
      rw [ha] at h; cases h
      exact q2 k h2
    · obtain ⟨k, hk, hk'⟩ := q4 e' h h'
      exact ⟨k, (hl k).2 ⟨j, ha, hk⟩, hk'⟩

theorem find_ok {content : Content} (st : Locked) (i : Nat) (path : List Char) :
    CallOk content st (st.find content i path) (st.heap.atPathParsed content i path)
      (fun k => k = i ∨ FindLocks content st.heap i path k) ∧
    OnlyDamaged content st (st.find content i path).2 := by
  cases hb : st.bad i with
  | true =>
    rw [show st.find content i path = (.error .panicUnwrap, st) from if_pos hb]
    exact ⟨⟨.inr ⟨rfl, i, .inl rfl, hb⟩, fun _ _ _ => rfl, fun _ h => h, fun _ _ _ => ⟨i, .inl rfl, hb⟩, .start⟩,
      fun _ h => .inl h⟩
  | false =>
    rw [show st.find content i path = st.findIn content i path from if_neg (by rw [hb]; decide)]
    obtain ⟨⟨q1, q2, q3, q4, q5⟩, q6⟩ := findIn_ok (content := content) st i path hb
    refine ⟨⟨?_, fun k hk hk' => ?_, q3, fun e' h h' => ?_, q5⟩, q6⟩
    · rcases q1 with q1 | ⟨q1, k, hk, hk'⟩
      · exact .inl q1
      · exact .inr ⟨q1, k, .inr hk, hk'⟩
    · rcases hk with rfl | hk
      · rw [hb] at hk'; cases hk'
      · exact q2 k hk hk'
    · obtain ⟨k, hk, hk'⟩ := q4 e' h h'
      exact ⟨k, .inr hk, hk'⟩

theorem lookFold_ok (st : Locked) : ∀ (xs : List (List Char)) (i : Nat),
    (st.lookFold i xs = .ok (foldPath st.heap.at i xs) ∨ (st.lookFold i xs = .error .panicUnwrap ∧ ∃ k ns ms, xs = ns ++ ms ∧
      ms ≠ [] ∧ Trail st.heap i ns k ∧ st.bad k = true)) ∧
    ∀ k ns ms, xs = ns ++ ms → ms ≠ [] → Trail st.heap i ns k → st.bad k = true → st.lookFold i xs = .error .panicUnwrap
  | [], i => ⟨.inl rfl, fun k ns ms h1 h2 => absurd (List.append_eq_nil_iff.1 h1.symm).2 h2⟩
  | x :: xs, i => by
    cases hb : st.bad i with
    | true =>
      rw [show st.lookFold i (x :: xs) = .error .panicUnwrap from if_pos hb]
      exact ⟨.inr ⟨rfl, i, [], x :: xs, rfl, by simp, .here i, hb⟩, fun _ _ _ _ _ _ _ => rfl⟩
    | false =>
      have e : st.lookFold i (x :: xs) = match st.heap.at i x with
          | none => .ok none
          | some j => st.lookFold j xs := if_neg (by rw [hb]; decide)
      rw [e]
      have hc : ∀ k ns ms, x :: xs = ns ++ ms → Trail st.heap i ns k → st.bad k = true →
          ∃ j ns', st.heap.at i x = some j ∧ xs = ns' ++ ms ∧ Trail st.heap j ns' k := by
        intro k ns ms h1 h2 h3
        cases h2 with
        | here => rw [hb] at h3; cases h3
        | on i j k n ns hx ht =>
          simp only [List.cons_append, List.cons.injEq] at h1
          obtain ⟨rfl, h1⟩ := h1
          exact ⟨j, ns, firstKid_iff.1 hx, h1, ht⟩
      unfold foldPath
      cases ha : st.heap.at i x with
      | none =>
        refine ⟨.inl rfl, fun k ns ms h1 _ h2 h3 => ?_⟩
        obtain ⟨j, _, h, _⟩ := hc k ns ms h1 h2 h3
        rw [ha] at h; cases h
      | some j =>
        dsimp only
        obtain ⟨q1, q2⟩ := lookFold_ok st xs j
        refine ⟨?_, fun k ns ms h1 hm h2 h3 => ?_⟩
        · rcases q1 with q1 | ⟨q1, k, ns, ms, h1, h2, h3, h4⟩
          · exact .inl q1
          · exact .inr ⟨q1, k, x :: ns, ms, by rw [h1]; rfl, h2, .on i j k x ns (firstKid_iff.2 ha) h3, h4⟩
        · obtain ⟨j', ns', h, h5, h6⟩ := hc k ns ms h1 h2 h3
          rw [ha] at h; cases h
          exact q2 k ns' ms h5 hm h6 h3

theorem look_ok (st : Locked) (i : Nat) (path : List Char) :
    (st.look i path = .ok (st.heap.atPath i path) ∨ (st.look i path = .error .panicUnwrap ∧ ∃ k ns ms, Pieces path (ns ++ ms) ∧
      ms ≠ [] ∧ Trail st.heap i ns k ∧ st.bad k = true)) ∧
    ∀ k ns ms, Pieces path (ns ++ ms) → ms ≠ [] → Trail st.heap i ns k → st.bad k = true → st.look i path = .error .panicUnwrap := by
  obtain ⟨x, xs, hs⟩ := splitSlash_cons path
  have e : st.look i path = st.lookFold i (x :: xs) := by
    unfold Locked.look
    rw [hs]
    rfl
  have e' : st.heap.atPath i path = foldPath st.heap.at i (x :: xs) := by
    unfold NHeap.atPath
    rw [hs]
    rfl
  have hp : ∀ ns, Pieces path ns ↔ x :: xs = ns := fun ns => by rw [pieces_iff, hs]
  simp only [e, e', hp]
  exact lookFold_ok st (x :: xs) i

theorem climb_ok (st : Locked) : ∀ (fuel i : Nat) (path : List Char),
    (st.climb fuel (st.heap.up i) path = .ok (st.heap.fullLoop fuel (st.heap.up i) path) ∨
      (st.climb fuel (st.heap.up i) path = .error .panicUnwrap ∧ ∃ k, Over st.heap fuel i k ∧ st.bad k = true)) ∧
    ∀ k, Over st.heap fuel i k → k ≠ i → st.bad k = true → st.climb fuel (st.heap.up i) path = .error .panicUnwrap := by
  intro fuel
  induction fuel with
  | zero =>
    intro i path
    refine ⟨.inl ?_, fun k hk hi => ?_⟩
    · cases st.heap.up i <;> rfl
    · cases hk; exact absurd rfl hi
  | succ fuel ih =>
    intro i path
    cases hu : st.heap.up i with
    | none =>
      refine ⟨.inl rfl, fun k hk hi => ?_⟩
      cases hk with
      | here => exact absurd rfl hi
      | up _ _ p _ hp _ => rw [up_eq_some.2 hp] at hu; cases hu
    | some p =>
      have hpar := up_eq_some.1 hu
      cases hb : st.bad p with
      | true =>
        rw [show st.climb (fuel + 1) (some p) path = .error .panicUnwrap from if_pos hb]
        exact ⟨.inr ⟨rfl, p, .up _ _ _ _ hpar (.here _ _), hb⟩, fun _ _ _ _ => rfl⟩
      | false =>
        rw [show st.climb (fuel + 1) (some p) path = st.climb fuel (st.heap.up p) (st.heap.nameOf p ++ '/' :: path) from
          if_neg (by rw [hb]; decide), show st.heap.fullLoop (fuel + 1) (some p) path =
          st.heap.fullLoop fuel (st.heap.up p) (st.heap.nameOf p ++ '/' :: path) from rfl]
        obtain ⟨q1, q2⟩ := ih p (st.heap.nameOf p ++ '/' :: path)
        refine ⟨?_, fun k hk hi hk' => ?_⟩
        · rcases q1 with q1 | ⟨q1, k, hk, hk'⟩
          · exact .inl q1
          · exact .inr ⟨q1, k, .up _ _ _ _ hpar hk, hk'⟩
        · cases hk with
          | here => exact absurd rfl hi
          | up _ _ p' _ hp ho =>
            rw [up_eq_some.2 hp] at hu; cases hu
            by_cases hkp : k = p
            · rw [hkp, hb] at hk'; cases hk'
            · exact q2 k ho hkp hk'

theorem fullPath_ok (st : Locked) (fuel i : Nat) :
    (st.fullPath fuel i = .ok (st.heap.fullPath fuel i) ∨
      (st.fullPath fuel i = .error .panicUnwrap ∧ ∃ k, Over st.heap fuel i k ∧ st.bad k = true)) ∧
    ∀ k, Over st.heap fuel i k → st.bad k = true → st.fullPath fuel i = .error .panicUnwrap := by
  cases hb : st.bad i with
  | true =>
    rw [show st.fullPath fuel i = .error .panicUnwrap from if_pos hb]
    exact ⟨.inr ⟨rfl, i, .here _ _, hb⟩, fun _ _ _ => rfl⟩
  | false =>
    rw [show st.fullPath fuel i = st.climb fuel (st.heap.up i) (st.heap.nameOf i) from if_neg (by rw [hb]; decide)]
    obtain ⟨q1, q2⟩ := climb_ok st fuel i (st.heap.nameOf i)
    refine ⟨q1, fun k hk hk' => q2 k hk (fun h => ?_) hk'⟩
    rw [h, hb] at hk'; cases hk'

theorem baseFile_iff {h : NHeap} {i : Nat} {c : NCell} (hc : h.cell i = some c) : BaseFile h i ↔ c.isBase = true := by
  unfold BaseFile NCell.isBase
  constructor
  · rintro ⟨c', p, s, h1, h2, h3⟩
    rw [hc] at h1; cases h1
    rw [h2]; simp [h3]
  · intro h
    cases hk : c.kind with
    | file p s => exact ⟨c, p, s, hc, hk, by rw [hk] at h; simpa using h⟩
    | _ => rw [hk] at h; exact absurd h (by simp)

/-- the nodes locked on the way to the base -/
def baseLocks (h : NHeap) (fuel i k : Nat) : Prop := ∃ f p, fuel = f + 1 ∧ ParentOf h i p ∧ OverToBase h f p k

theorem baseLoop_ok (st : Locked) : ∀ (fuel i : Nat),
    ((match st.heap.filterLoop NCell.isBase fuel (st.heap.up i) with
      | none => st.baseLoop fuel (st.heap.up i) = .error .fuel
      | some none => st.baseLoop fuel (st.heap.up i) = .ok none
      | some (some b) => st.baseLoop fuel (st.heap.up i) = .ok (some b) ∧ st.bad b = false ∧ baseLocks st.heap fuel i b ∧
          BaseFile st.heap b) ∧ ∀ k, baseLocks st.heap fuel i k → st.bad k = false) ∨
    (st.baseLoop fuel (st.heap.up i) = .error .panicUnwrap ∧ ∃ k, baseLocks st.heap fuel i k ∧ st.bad k = true) := by
  intro fuel
  induction fuel with
  | zero =>
    intro i
    refine .inl ⟨?_, fun k ⟨f, p, h, _⟩ => (by cases h)⟩
    cases st.heap.up i <;> rfl
  | succ fuel ih =>
    intro i
    cases hu : st.heap.up i with
    | none =>
      refine .inl ⟨rfl, fun k ⟨f, p, h, h2, _⟩ => ?_⟩
      rw [up_eq_some.2 h2] at hu; cases hu
    | some p =>
      have hpar := up_eq_some.1 hu
      have hone : baseLocks st.heap (fuel + 1) i p := ⟨fuel, p, rfl, hpar, .here _ _⟩
      cases hb : st.bad p with
      | true =>
        refine .inr ⟨if_pos hb, p, hone, hb⟩
      | false =>
        have hpar' := hpar
        obtain ⟨c0, d, h1, h2, hd⟩ := hpar
        have e1 : st.baseLoop (fuel + 1) (some p) = if d.isBase then .ok (some p) else st.baseLoop fuel (st.heap.up p) := by
          rw [Locked.baseLoop, hb, hd]
          rfl
        have e2 : st.heap.filterLoop NCell.isBase (fuel + 1) (some p) =
            if d.isBase then some (some p) else st.heap.filterLoop NCell.isBase fuel (st.heap.up p) := by
          rw [NHeap.filterLoop, hd]
        have hstep : ∀ k, baseLocks st.heap (fuel + 1) i k → k = p ∨ (d.isBase = false ∧ baseLocks st.heap fuel p k) := by
          rintro k ⟨f, p', hf, hp', ho⟩
          cases hf
          rw [up_eq_some.2 hp'] at hu; cases hu
          cases ho with
          | here => exact .inl rfl
          | up f' _ q _ hn hq ho =>
            refine .inr ⟨?_, f', q, rfl, hq, ho⟩
            cases hdb : d.isBase with
            | false => rfl
            | true => exact absurd ((baseFile_iff hd).2 hdb) hn
        rw [e1, e2]
        cases hdb : d.isBase with
        | true =>
          refine .inl ⟨⟨rfl, hb, hone, (baseFile_iff hd).2 hdb⟩, fun k hk => ?_⟩
          rcases hstep k hk with rfl | ⟨h, _⟩
          · exact hb
          · rw [hdb] at h; cases h
        | false =>
          rw [if_neg Bool.false_ne_true, if_neg Bool.false_ne_true]
          have hup : ∀ k, baseLocks st.heap fuel p k → baseLocks st.heap (fuel + 1) i k := by
            rintro k ⟨f, q, rfl, hq, ho⟩
            exact ⟨f + 1, p, rfl, hpar', .up _ _ _ _ (fun h => by rw [(baseFile_iff hd), hdb] at h; cases h) hq ho⟩
          rcases ih p with ⟨q1, q2⟩ | ⟨q1, k, hk, hk'⟩
          · refine .inl ⟨?_, fun k hk => ?_⟩
            · rcases hf : st.heap.filterLoop NCell.isBase fuel (st.heap.up p) with _ | _ | b
              · rw [hf] at q1; exact q1
              · rw [hf] at q1; exact q1
              · rw [hf] at q1; exact ⟨q1.1, q1.2.1, hup b q1.2.2.1, q1.2.2.2⟩
            · rcases hstep k hk with rfl | ⟨_, h⟩
              · exact hb
              · exact q2 k h
          · exact .inr ⟨q1, k, hup k hk, hk'⟩

theorem filterLoop_base {h : NHeap} : ∀ {fuel i b : Nat} {o : Option (Option Nat)}, baseLocks h fuel i b → BaseFile h b →
    h.filterLoop NCell.isBase fuel (h.up i) = o → (∀ b', o ≠ some (some b')) → False := by
  intro fuel
  induction fuel with
  | zero => rintro i b o ⟨f, p, h, _⟩; cases h
  | succ fuel ih =>
    rintro i b o ⟨f, p, hf, hp, ho⟩ hB rfl hno
    cases hf
    have hp' := hp
    obtain ⟨c, d, h1, h2, hd⟩ := hp
    have e : h.filterLoop NCell.isBase (fuel + 1) (h.up i) =
        if d.isBase then some (some p) else h.filterLoop NCell.isBase fuel (h.up p) := by
      rw [up_eq_some.2 hp', NHeap.filterLoop, hd]
    cases hdb : d.isBase with
    | true =>
      rw [hdb, if_pos rfl] at e
      exact hno p e
    | false =>
      rw [hdb, if_neg Bool.false_ne_true] at e
      cases ho with
      | here => rw [baseFile_iff hd, hdb] at hB; cases hB
      | up f' _ q _ hn hq ho => exact ih ⟨f', q, rfl, hq, ho⟩ hB e.symm hno

theorem overToBase_unique {h : NHeap} {f p b b' : Nat} (hb : OverToBase h f p b) (hB : BaseFile h b)
    (hb' : OverToBase h f p b') (hB' : BaseFile h b') : b = b' := by
  induction hb with
  | here f i =>
    cases hb' with
    | here => rfl
    | up _ _ _ _ hn => exact absurd hB hn
  | up f i p k hn hp _ ih =>
    cases hb' with
    | here => exact absurd hB' hn
    | up _ _ p' _ _ hp' ho =>
      have : p = p' := Option.some.inj ((up_eq_some.2 hp).symm.trans (up_eq_some.2 hp'))
      subst this
      exact ih hB ho

theorem baseLocks_unique {h : NHeap} {fuel i b b' : Nat} (hb : baseLocks h fuel i b) (hB : BaseFile h b)
    (hb' : baseLocks h fuel i b') (hB' : BaseFile h b') : b = b' := by
  obtain ⟨f, p, rfl, hp, ho⟩ := hb
  obtain ⟨f', p', hf, hp', ho'⟩ := hb'
  cases hf
  have : p = p' := Option.some.inj ((up_eq_some.2 hp).symm.trans (up_eq_some.2 hp'))
  subst this
  exact overToBase_unique ho hB ho' hB'

theorem CallOk.map {α β : Type} {content : Content} {st : Locked} {r : Except Err α × Locked} {r0 : Except Err α × NHeap}
    {L L' : Nat → Prop} (f : α → β) (hL : ∀ k, L k ↔ L' k) (h : CallOk content st r r0 L) :
    CallOk content st (r.1.map f, r.2) (r0.1.map f, r0.2) L' := by
  refine ⟨?_, fun k hk hb => ?_, h.kept, fun e he hp => ?_, h.past⟩
  · rcases h.right with ⟨h1, h2⟩ | ⟨h1, k, hk, hb⟩
    · exact .inl ⟨by rw [h1], h2⟩
    · exact .inr ⟨by rw [h1]; rfl, k, (hL k).1 hk, hb⟩
  · rw [h.stuck k ((hL k).2 hk) hb]; rfl
  · have : r.1 = .error e := by
      rcases hr : r.1 with e' | a
      · rw [hr] at he
        have he : (Except.error e' : Except Err β) = .error e := he
        cases he
        rfl
      · rw [hr] at he; cases he
    obtain ⟨k, hk, hb⟩ := h.marks e this hp
    exact ⟨k, (hL k).1 hk, hb⟩

/-- the nodes a forced outlink locks -/
def outLocks (content : Content) (h : NHeap) (fuel i : Nat) (path : List Char) (k : Nat) : Prop :=
  k = i ∨ baseLocks h fuel i k ∨ ∃ b, baseLocks h fuel i b ∧ BaseFile h b ∧ FindLocks content h b path k

/-- what a forced outlink gives where no lock is poisoned -/
def outSound (content : Content) (h : NHeap) (fuel i : Nat) (path : List Char) : Except Err (Option Nat) × NHeap :=
  match h.filterParent NCell.isBase fuel i with
  | none => (.error .fuel, h)
  | some none => (.ok none, h)
  | some (some b) =>
    match h.atPathParsed content b path with
    | (.ok j, g) => (.ok (some j), g)
    | (.error e, g) => (if e.isPanic ∨ e = .lib "deadlock" then .error e else .ok none, g)

theorem outlink_ok {content : Content} (st : Locked) (fuel i : Nat) (path : List Char) :
    CallOk content st (st.outlink content fuel i path) (outSound content st.heap fuel i path)
      (outLocks content st.heap fuel i path) ∧
    ∀ k, (st.outlink content fuel i path).2.bad k = true → st.bad k = true ∨ PanicsAlone content st.heap k ∨
      (BaseFile st.heap k ∧ ∃ k', st.bad k' = true ∨ PanicsAlone content st.heap k') := by
  cases hb : st.bad i with
  | true =>
    rw [show st.outlink content fuel i path = (.error .panicUnwrap, st) from if_pos hb]
    exact ⟨⟨.inr ⟨rfl, i, .inl rfl, hb⟩, fun _ _ _ => rfl, fun _ h => h, fun _ _ _ => ⟨i, .inl rfl, hb⟩, .start⟩,
      fun _ h => .inl h⟩
  | false =>
    have e1 : st.outlink content fuel i path = match st.baseLoop fuel (st.heap.up i) with
        | .error e => (.error e, st)
        | .ok none => (.ok none, st)
        | .ok (some b) =>
          if st.bad b then (.error .panicUnwrap, st)
          else match st.findIn content b path with
            | (.ok j, st') => (.ok (some j), st')
            | (.error e, st') =>
              if e.isPanic then (.error e, st'.mark b)
              else if e = .lib "deadlock" then (.error e, st')
              else (.ok none, st') := if_neg (by rw [hb]; decide)
    rcases baseLoop_ok st fuel i with ⟨q1, q2⟩ | ⟨q1, k, hk, hk'⟩
    · unfold outSound NHeap.filterParent
      rcases hf : st.heap.filterLoop NCell.isBase fuel (st.heap.up i) with _ | _ | b
      · rw [hf] at q1
        rw [e1, q1]
        refine ⟨⟨.inl ⟨rfl, rfl⟩, fun k hk hk' => ?_, fun _ h => h, fun _ h h' => (by cases h; cases h'), .start⟩,
          fun _ h => .inl h⟩
        rcases hk with rfl | hk | ⟨b, hk, hB, _⟩
        · rw [hb] at hk'; cases hk'
        · rw [q2 k hk] at hk'; cases hk'
        · exact (filterLoop_base hk hB hf (fun _ h => by cases h)).elim
      · rw [hf] at q1
        rw [e1, q1]
        refine ⟨⟨.inl ⟨rfl, rfl⟩, fun k hk hk' => ?_, fun _ h => h, fun _ h h' => (by cases h), .start⟩,
          fun _ h => .inl h⟩
        rcases hk with rfl | hk | ⟨b, hk, hB, _⟩
        · rw [hb] at hk'; cases hk'
        · rw [q2 k hk] at hk'; cases hk'
        · exact (filterLoop_base hk hB hf (fun _ h => by cases h)).elim
      · rw [hf] at q1
        obtain ⟨q1, q3, q4, q5⟩ := q1
        rw [e1, q1]
        dsimp only
        rw [if_neg (by rw [q3]; decide)]
        obtain ⟨⟨p1, p2, p3, p4, p5⟩, p6⟩ := findIn_ok (content := content) st b path q3
        have hst : ∀ k, outLocks content st.heap fuel i path k → st.bad k = true → FindLocks content st.heap b path k := by
          rintro k (rfl | hk | ⟨b', hk, hB, h⟩) hk'
          · rw [hb] at hk'; cases hk'
          · rw [q2 k hk] at hk'; cases hk'
          · rw [baseLocks_unique q4 q5 hk hB]; exact h
        have hlk : ∀ k, FindLocks content st.heap b path k → outLocks content st.heap fuel i path k :=
          fun k hk => .inr (.inr ⟨b, q4, q5, hk⟩)
        rcases hr : st.findIn content b path with ⟨r, st'⟩
        rw [hr] at p1 p2 p3 p4 p5 p6
        rcases hr0 : st.heap.atPathParsed content b path with ⟨r0, g⟩
        rw [hr0] at p1
        dsimp only at p1 p2 p3 p4 p5 p6
        cases r with
        | ok j =>
          dsimp only
          refine ⟨⟨?_, fun k hk hk' => ?_, p3, fun _ h _ => (by cases h), p5⟩, fun k h => ?_⟩
          · rcases p1 with ⟨h1, h2⟩ | ⟨h1, _⟩
            · rw [← h1]; exact .inl ⟨rfl, h2⟩
            · cases h1
          · cases p2 k (hst k hk hk') hk'
          · rcases p6 k h with h | h
            · exact .inl h
            · exact .inr (.inl h)
        | error e =>
          dsimp only
          cases he : e.isPanic with
          | true =>
            rw [if_pos rfl]
            refine ⟨⟨?_, fun k hk hk' => ?_, fun k h => (mark_bad _ _ _).2 (.inr (p3 k h)),
              fun _ _ _ => ⟨b, .inr (.inl q4), (mark_bad _ _ _).2 (.inl rfl)⟩, p5⟩, fun k h => ?_⟩
            · rcases p1 with ⟨h1, h2⟩ | ⟨h1, k, hk, hk'⟩
              · rw [← h1]
                dsimp only
                rw [if_pos (.inl he)]
                exact .inl ⟨rfl, h2⟩
              · exact .inr ⟨by cases h1; rfl, k, hlk k hk, hk'⟩
            · have := p2 k (hst k hk hk') hk'
              cases this
              rfl
            · obtain ⟨k', _, hk'⟩ := p4 e rfl he
              rcases (mark_bad _ _ _).1 h with rfl | h
              · exact .inr (.inr ⟨q5, k', p6 k' hk'⟩)
              · rcases p6 k h with h | h
                · exact .inl h
                · exact .inr (.inl h)
          | false =>
            rw [if_neg Bool.false_ne_true]
            have h1 : Except.error e = r0 ∧ st'.heap = g := by
              rcases p1 with h | ⟨h1, _⟩
              · exact h
              · cases h1; cases he
            have hno : ∀ k, outLocks content st.heap fuel i path k → st.bad k = true → False := fun k hk hk' => by
              cases p2 k (hst k hk hk') hk'; cases he
            have hdm : ∀ k, st'.bad k = true → st.bad k = true ∨ PanicsAlone content st.heap k ∨
                (BaseFile st.heap k ∧ ∃ k', st.bad k' = true ∨ PanicsAlone content st.heap k') := fun k h => by
              rcases p6 k h with h | h
              · exact .inl h
              · exact .inr (.inl h)
            rw [← h1.1]
            dsimp only
            by_cases hd : e = .lib "deadlock"
            · rw [if_pos hd, if_pos (.inr hd)]
              exact ⟨⟨.inl ⟨rfl, h1.2⟩, fun k hk hk' => (hno k hk hk').elim, p3,
                fun _ h h' => (by cases h; rw [he] at h'; cases h'), p5⟩, hdm⟩
            · rw [if_neg hd, if_neg (by rw [he]; simp [hd])]
              exact ⟨⟨.inl ⟨rfl, h1.2⟩, fun k hk hk' => (hno k hk hk').elim, p3, fun _ h => (by cases h), p5⟩, hdm⟩
    · rw [e1, q1]
      exact ⟨⟨.inr ⟨rfl, k, .inr (.inl hk), hk'⟩, fun _ _ _ => rfl, fun _ h => h, fun _ _ _ => ⟨k, .inr (.inl hk), hk'⟩, .start⟩,
        fun _ h => .inl h⟩

theorem overLocks_iff {content : Content} {h : NHeap} {fuel i k : Nat} {path : List Char} :
    outLocks content h fuel i path k ↔ CallLocks content h (.outlink fuel i path) k := by
  constructor
  · rintro (rfl | ⟨f, p, rfl, hp, ho⟩ | ⟨b, ⟨f, p, rfl, hp, ho⟩, hB, hF⟩)
    · exact .outStart _ _ _
    · exact .outUp _ _ p _ _ hp ho
    · exact .outFind _ _ p b _ _ hp ho hB hF
  · intro hk
    cases hk with
    | outStart => exact .inl rfl
    | outUp f _ p _ _ hp ho => exact .inr (.inl ⟨f, p, rfl, hp, ho⟩)
    | outFind f _ p b _ _ hp ho hB hF => exact .inr (.inr ⟨b, ⟨f, p, rfl, hp, ho⟩, hB, hF⟩)

theorem call_ok {content : Content} (st : Locked) (c : LockCall) :
    CallOk content st (st.call content c) (soundly content st.heap c) (CallLocks content st.heap c) := by
  cases c with
  | parse i =>
    exact (parse_ok st i).1.map _ fun k => ⟨fun h => by rw [h]; exact .parse i, fun h => by cases h; rfl⟩
  | forget i =>
    show CallOk content st ((st.unparse i).1.map fun _ => LockReply.done, (st.unparse i).2) (.ok LockReply.done, st.heap.unparse i) _
    cases hb : st.bad i with
    | true =>
      rw [show st.unparse i = (.error .panicUnwrap, st) from if_pos hb]
      exact ⟨.inr ⟨rfl, i, .forget i, hb⟩, fun _ _ _ => rfl, fun _ h => h, fun _ _ _ => ⟨i, .forget i, hb⟩, .start⟩
    | false =>
      rw [show st.unparse i = (.ok (), { st with heap := st.heap.unparse i }) from if_neg (by rw [hb]; decide)]
      refine ⟨.inl ⟨rfl, rfl⟩, fun k hk hk' => ?_, fun _ h => h, fun _ h => (by cases h), .call _ _ .start (.unparse _ i)⟩
      cases hk; rw [hb] at hk'; cases hk'
  | find i path =>
    refine (find_ok st i path).1.map _ fun k => ⟨fun h => ?_, fun h => ?_⟩
    · rcases h with rfl | h
      · exact .findStart _ _
      · exact .find _ _ _ h
    · cases h with
      | findStart => exact .inl rfl
      | find _ _ _ h => exact .inr h
  | look i path =>
    obtain ⟨q1, q2⟩ := look_ok st i path
    show CallOk content st ((st.look i path).map LockReply.node, st) (.ok (LockReply.node (st.heap.atPath i path)), st.heap) _
    refine ⟨?_, fun k hk hk' => ?_, fun _ h => h, fun e he hp => ?_, .start⟩
    · rcases q1 with q1 | ⟨q1, k, ns, ms, h1, h2, h3, h4⟩
      · rw [q1]; exact .inl ⟨rfl, rfl⟩
      · rw [q1]; exact .inr ⟨rfl, k, .look i k path ns ms h1 h2 h3, h4⟩
    · cases hk with
      | look _ _ _ ns ms h1 h2 h3 => rw [q2 k ns ms h1 h2 h3 hk']; rfl
    · rcases q1 with q1 | ⟨q1, k, ns, ms, h1, h2, h3, h4⟩
      · rw [q1] at he; cases he
      · exact ⟨k, .look i k path ns ms h1 h2 h3, h4⟩
  | fullPath fuel i =>
    obtain ⟨q1, q2⟩ := fullPath_ok st fuel i
    show CallOk content st ((st.fullPath fuel i).map LockReply.path, st) (.ok (LockReply.path (st.heap.fullPath fuel i)), st.heap) _
    refine ⟨?_, fun k hk hk' => ?_, fun _ h => h, fun e he hp => ?_, .start⟩
    · rcases q1 with q1 | ⟨q1, k, h1, h2⟩
      · rw [q1]; exact .inl ⟨rfl, rfl⟩
      · rw [q1]; exact .inr ⟨rfl, k, .fullPath fuel i k h1, h2⟩
    · cases hk with
      | fullPath _ _ _ h1 => rw [q2 k h1 hk']; rfl
    · rcases q1 with q1 | ⟨q1, k, h1, h2⟩
      · rw [q1] at he; cases he
      · exact ⟨k, .fullPath fuel i k h1, h2⟩
  | outlink fuel i path =>
    have e : soundly content st.heap (.outlink fuel i path) =
        ((outSound content st.heap fuel i path).1.map .node, (outSound content st.heap fuel i path).2) := by
      unfold soundly outSound
      dsimp only
      rcases st.heap.filterParent NCell.isBase fuel i with _ | _ | b
      · rfl
      · rfl
      · dsimp only
        rcases st.heap.atPathParsed content b path with ⟨e | j, g⟩
        · dsimp only
          split <;> rfl
        · rfl
    rw [e]
    exact (outlink_ok st fuel i path).1.map _ fun k => overLocks_iff

/-- is this a forced outlink? -/
def LockCall.isOutlink : LockCall → Bool
  | .outlink _ _ _ => true
  | _ => false

theorem call_damage {content : Content} (st : Locked) (c : LockCall) (k : Nat) (hk : (st.call content c).2.bad k = true) :
    st.bad k = true ∨ PanicsAlone content st.heap k ∨ (c.isOutlink = true ∧ BaseFile st.heap k ∧
      ∃ k', st.bad k' = true ∨ PanicsAlone content st.heap k') := by
  have h2 : ∀ st', OnlyDamaged content st st' → st'.bad k = true → st.bad k = true ∨ PanicsAlone content st.heap k ∨
      (c.isOutlink = true ∧ BaseFile st.heap k ∧ ∃ k', st.bad k' = true ∨ PanicsAlone content st.heap k') := by
    intro st' h h'
    rcases h k h' with h | h
    · exact .inl h
    · exact .inr (.inl h)
  cases c with
  | parse i => exact h2 _ (parse_ok st i).2 hk
  | forget i =>
    left
    change (st.unparse i).2.bad k = true at hk
    unfold Locked.unparse at hk
    cases hb : st.bad i with
    | true => rw [hb, if_pos rfl] at hk; exact hk
    | false => rw [hb, if_neg Bool.false_ne_true] at hk; exact hk
  | find i path => exact h2 _ (find_ok st i path).2 hk
  | look i path => exact .inl hk
  | fullPath fuel i => exact .inl hk
  | outlink fuel i path =>
    rcases (outlink_ok st fuel i path).2 k hk with h | h | h
    · exact .inl h
    · exact .inr (.inl h)
    · exact .inr (.inr ⟨rfl, h⟩)

theorem calls_past {content : Content} : ∀ (cs : List LockCall) (st : Locked),
    ReadHistory content st.heap (st.calls content cs).2.heap
  | [], _ => .start
  | c :: cs, st => (call_ok st c).past.append (calls_past cs _)

theorem calls_kept {content : Content} : ∀ (cs : List LockCall) (st : Locked) (k : Nat), st.bad k = true →
    (st.calls content cs).2.bad k = true
  | [], _, _, h => h
  | c :: cs, st, k, h => calls_kept cs _ k ((call_ok st c).kept k h)

theorem kept_history {content : Content} {h g : NHeap} (hh : ReadHistory content h g) : Kept h g := by
  induction hh with
  | start => exact .refl h
  | call a b _ hc ih =>
    refine ih.trans ?_
    cases hc with
    | parse => exact kept_parse _ _ _
    | unparse => exact kept_unparse _ _
    | find => exact (kept_carried content).atPathParsed _ _ _
    | walk i fuel vs g hw => exact (kept_carried content).walkForce _ _ _ _ _ _ hw
    | picture png text fuel i => exact (kept_carried content).getImage _ _ _ _ _ _

theorem panicsAlone_of {content : Content} {h g : NHeap} {k : Nat} (hp : ReadHistory content h g)
    (hk : PanicsAlone content g k) : PanicsAlone content h k := by
  obtain ⟨g', e, h1, h2⟩ := hk
  exact ⟨g', e, hp.append h1, h2⟩

end Wz
