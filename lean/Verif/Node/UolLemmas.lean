import Verif.Node.UolSpec
import Verif.Node.PathLemmas

set_option autoImplicit false

namespace Wz

open Spec

/-! ## resolved path -/

theorem uolLoop_goes {loc us r : List (List Char)} (hg : Goes loc us r) : uolLoop loc.reverse us = r.reverse := by
  induction hg with
  | done => rfl
  | name loc n us r hn _ ih =>
    rw [dots_eq] at hn
    rw [uolLoop, if_neg (fun h => hn h.1)]
    rw [List.reverse_append] at ih
    exact ih
  | up loc x us r _ ih =>
    rw [uolLoop, dots_eq, if_pos ⟨rfl, by simp⟩]
    rw [List.reverse_append]
    exact ih

/-! ## the way of a link -/

theorem uolStep_fold {h : NHeap} (hm : MapsOk h) (lock : Option Nat) : ∀ (ns : List (List Char)) (i k : Nat),
    foldPath (h.uolStep lock) i ns = some k ↔ LockedSteps h lock i ns k
  | [], i, k => by
    simp only [foldPath]
    constructor
    · intro h1; cases h1; exact .here i
    · intro h1; cases h1; rfl
  | n :: ns, i, k => by
    simp only [foldPath]
    by_cases hl : some i = lock
    · have hs : h.uolStep lock i n = h.at i n := by rw [NHeap.uolStep, if_pos hl]
      rw [hs]
      constructor
      · intro h1
        cases ha : h.at i n with
        | none => rw [ha] at h1; cases h1
        | some j =>
          rw [ha] at h1
          exact .down i j k n ns (.inr hl.symm) ((at_eq hm).1 ha) ((uolStep_fold hm lock ns j k).1 h1)
      · intro h1
        cases h1 with
        | down _ j _ _ _ _ hc hr => rw [(at_eq hm).2 hc]; exact (uolStep_fold hm lock ns j k).2 hr
        | up _ p _ _ hne _ _ => exact absurd hl.symm hne
    · have hs : h.uolStep lock i n = h.atRel i n := by rw [NHeap.uolStep, if_neg hl]
      rw [hs]
      by_cases hn : n = ['.', '.']
      · subst hn
        rw [atRel_dots]
        constructor
        · intro h1
          cases ha : h.up i with
          | none => rw [ha] at h1; cases h1
          | some p =>
            rw [ha] at h1
            have := LockedSteps.up (lock := lock) i p k ns (fun e => hl e.symm) (up_eq_some.1 ha)
              ((uolStep_fold hm lock ns p k).1 h1)
            rwa [dots_eq] at this
        · intro h1
          cases h1 with
          | down _ j _ _ _ hd hc hr =>
            rcases hd with hd | hd
            · exact absurd dots_eq.symm hd
            · exact absurd hd.symm hl
          | up _ p _ _ hne hp hr => rw [up_eq_some.2 hp]; exact (uolStep_fold hm lock ns p k).2 hr
      · have hr : h.atRel i n = h.at i n := by simp [NHeap.atRel, hn]
        rw [hr]
        constructor
        · intro h1
          cases ha : h.at i n with
          | none => rw [ha] at h1; cases h1
          | some j =>
            rw [ha] at h1
            exact .down i j k n ns (.inl (by rw [dots_eq]; exact hn)) ((at_eq hm).1 ha)
              ((uolStep_fold hm lock ns j k).1 h1)
        · intro h1
          cases h1 with
          | down _ j _ _ _ hd hc hr => rw [(at_eq hm).2 hc]; exact (uolStep_fold hm lock ns j k).2 hr
          | up => exact absurd dots_eq hn

theorem uolTarget_iff {h : NHeap} (hm : MapsOk h) {lock : Option Nat} {u p k : Nat} (hp : ParentOf h u p)
    (text : List Char) : h.uolTarget lock u text = some k ↔ ∃ ns, Pieces text ns ∧ LockedSteps h lock p ns k := by
  rw [NHeap.uolTarget, atRel_dots, up_eq_some.2 hp]
  dsimp only
  rw [uolStep_fold hm]
  constructor
  · intro h1; exact ⟨_, pieces_iff.2 rfl, h1⟩
  · rintro ⟨ns, h1, h2⟩; rw [pieces_iff.1 h1]; exact h2

theorem cell_set {h : NHeap} {p j : Nat} {c : NCell} (hp : p < h.length) :
    NHeap.cell (h.set p (some c)) j = if j = p then some c else h.cell j := by
  unfold NHeap.cell
  by_cases hj : j = p
  · subst hj; simp [hp]
  · rw [List.getElem?_set_ne (fun e => hj e.symm), if_neg hj]

theorem cell_lt {h : NHeap} {p : Nat} {c : NCell} (hc : h.cell p = some c) : p < h.length := by
  unfold NHeap.cell at hc
  by_cases hp : p < h.length
  · exact hp
  · rw [List.getElem?_eq_none (by omega)] at hc; cases hc

theorem childInsert_fst {ν : Type} (m : List (List Char × ν)) (k : List Char) (v : ν)
    (hk : m.any (fun p => p.1 == k) = true) : (childInsert m k v).map Prod.fst = m.map Prod.fst := by
  unfold childInsert
  rw [if_pos hk, List.map_map]
  refine List.map_congr_left fun x _ => ?_
  by_cases h : x.1 == k
  · simp only [Function.comp, h, if_true]; exact (eq_of_beq h).symm
  · simp only [Function.comp, h, if_false]; rfl

theorem mem_childInsert_same {ν : Type} {m : List (List Char × ν)} {k : List Char} {v w : ν}
        : (k, w) ∈ childInsert m k v ↔ w = v := by
  unfold childInsert
  split
  · rename_i hk
    simp only [List.any_eq_true] at hk
    obtain ⟨x, hx, hxk⟩ := hk
    constructor
    · intro h1
      obtain ⟨y, hy, hyk⟩ := List.mem_map.1 h1
      by_cases h : y.1 == k
      · rw [if_pos h] at hyk; exact (Prod.mk.inj hyk).2.symm
      · rw [if_neg h] at hyk; subst hyk; simp at h
    · rintro rfl
      exact List.mem_map.2 ⟨x, hx, by rw [if_pos hxk]⟩
  · rename_i hk
    simp only [List.any_eq_true, not_exists, not_and] at hk
    simp only [List.mem_append, List.mem_singleton]
    constructor
    · rintro (h1 | h1)
      · exact absurd (by simp) (hk _ h1)
      · exact (Prod.mk.inj h1).2
    · rintro rfl; exact .inr rfl

theorem mem_childInsert_other {ν : Type} {m : List (List Char × ν)} {k n : List Char} {v w : ν} (hn : n ≠ k) :
    (n, w) ∈ childInsert m k v ↔ (n, w) ∈ m := by
  unfold childInsert
  split
  · constructor
    · intro h1
      obtain ⟨y, hy, hyk⟩ := List.mem_map.1 h1
      by_cases h : y.1 == k
      · rw [if_pos h] at hyk; exact absurd (Prod.mk.inj hyk).1.symm hn
      · rw [if_neg h] at hyk; subst hyk; exact hy
    · intro h1
      refine List.mem_map.2 ⟨_, h1, ?_⟩
      rw [if_neg (by simpa using hn)]
  · simp only [List.mem_append, List.mem_singleton]
    constructor
    · rintro (h1 | h1)
      · exact h1
      · exact absurd (Prod.mk.inj h1).1 hn
    · exact .inl

theorem replaceKid_redirected {h : NHeap} {p u : Nat} {n : List Char} (t : Nat)
    (hc : ChildOf h p n u) : Redirected h (h.replaceKid p n t) p n t := by
  obtain ⟨c, hc, hmem⟩ := hc
  have hany : c.kids.any (fun x => x.1 == n) = true :=
    List.any_eq_true.2 ⟨_, hmem, by simp⟩
  unfold NHeap.replaceKid
  rw [hc]
  dsimp only
  rw [if_pos hany]
  have hl := cell_lt hc
  constructor
  · intro j hj
    rw [cell_set hl, if_neg hj]
  · intro c' hc'
    rw [hc] at hc'; cases hc'
    refine ⟨{ c with kids := childInsert c.kids n t }, by rw [cell_set hl, if_pos rfl], rfl, rfl, rfl,
      childInsert_fst _ _ _ hany⟩
  · exact ⟨{ c with kids := childInsert c.kids n t }, by rw [cell_set hl, if_pos rfl], mem_childInsert_same.2 rfl⟩
  · intro m k hmn
    constructor
    · rintro ⟨d, h1, h2⟩
      rw [cell_set hl, if_pos rfl] at h1
      cases h1
      exact ⟨c, hc, (mem_childInsert_other hmn).1 h2⟩
    · rintro ⟨d, h1, h2⟩
      rw [hc] at h1; cases h1
      exact ⟨{ c with kids := childInsert c.kids n t }, by rw [cell_set hl, if_pos rfl], (mem_childInsert_other hmn).2 h2⟩

/-! ## first ".img" -/

theorem startsWith_iff : ∀ (pre s r : List Char), startsWith s pre = some r ↔ s = pre ++ r
  | [], s, r => by
    cases s <;> simp [startsWith]
  | x :: pre, [], r => by simp [startsWith]
  | x :: pre, c :: s, r => by
    simp only [startsWith]
    by_cases h : c = x
    · rw [if_pos h, startsWith_iff pre s r]; simp [h]
    · rw [if_neg h]; simp [h]

theorem img_eq : ".img".toList = ['.', 'i', 'm', 'g'] := by decide

theorem endsImg_cons {c : Char} {a : List Char} (h : EndsImg a) : EndsImg (c :: a) := by
  obtain ⟨t, rfl⟩ := h; exact ⟨c :: t, rfl⟩

theorem endsImg_length {a : List Char} (h : EndsImg a) : 4 ≤ a.length := by
  obtain ⟨t, rfl⟩ := h; rw [img_eq]; simp

theorem endsImg_uncons {c : Char} {a : List Char} (h : EndsImg (c :: a)) :
    EndsImg a ∨ c :: a = ['.', 'i', 'm', 'g'] := by
  obtain ⟨t, ht⟩ := h
  cases t with
  | nil => right; rw [ht, img_eq]; rfl
  | cons d t => left; exact ⟨t, (List.cons.inj ht).2⟩

theorem cutImg_some : ∀ (s a b : List Char), cutImg s = some (a, b) → FirstImg s a b
  | [], a, b, h => by simp [cutImg] at h
  | c :: s, a, b, h => by
    unfold cutImg at h
    cases hs : startsWith (c :: s) ['.', 'i', 'm', 'g'] with
    | some r =>
      rw [hs] at h
      dsimp only at h
      obtain ⟨rfl, rfl⟩ := Prod.mk.inj (Option.some.inj h)
      refine ⟨(startsWith_iff _ _ _).1 hs, ⟨[], by rw [img_eq]; rfl⟩, ?_⟩
      intro a' x hax hx hend
      have h4 := endsImg_length hend
      have : ['.', 'i', 'm', 'g'].length = a'.length + x.length := by rw [hax, List.length_append]
      cases x with
      | nil => exact hx rfl
      | cons => simp at this; omega
    | none =>
      rw [hs] at h
      dsimp only at h
      cases hc : cutImg s with
      | none => rw [hc] at h; cases h
      | some ab =>
        obtain ⟨a1, b1⟩ := ab
        rw [hc] at h
        dsimp only at h
        obtain ⟨rfl, rfl⟩ := Prod.mk.inj (Option.some.inj h)
        have ih := cutImg_some s a1 b1 hc
        refine ⟨by rw [ih.text]; rfl, endsImg_cons ih.ends, ?_⟩
        intro a' x hax hx hend
        cases a' with
        | nil => have := endsImg_length hend; simp at this
        | cons d a' =>
          obtain ⟨hcd, ha1⟩ := List.cons.inj hax
          rcases endsImg_uncons hend with he | he
          · exact ih.first a' x ha1 hx he
          · have : startsWith (c :: s) ['.', 'i', 'm', 'g'] = some (x ++ b1) := by
              rw [startsWith_iff, ← he, ← hcd, ih.text, ha1]; simp
            rw [hs] at this; cases this

theorem cutImg_none : ∀ (s : List Char), cutImg s = none → ¬ HasImg s
  | [], _ => by
    rintro ⟨a, b, h⟩
    have := congrArg List.length h
    rw [img_eq] at this
    simp at this
  | c :: s, h => by
    unfold cutImg at h
    cases hs : startsWith (c :: s) ['.', 'i', 'm', 'g'] with
    | some r => rw [hs] at h; cases h
    | none =>
      rw [hs] at h
      dsimp only at h
      cases hc : cutImg s with
      | some ab => rw [hc] at h; cases h
      | none =>
        rintro ⟨a, b, hab⟩
        cases a with
        | nil =>
          have : startsWith (c :: s) ['.', 'i', 'm', 'g'] = some b := by
            rw [startsWith_iff, hab, img_eq]; rfl
          rw [hs] at this; cases this
        | cons d a =>
          exact cutImg_none s hc ⟨a, b, (List.cons.inj hab).2⟩

theorem firstImg_has {s a b : List Char} (h : FirstImg s a b) : HasImg s := by
  obtain ⟨t, ht⟩ := h.ends
  exact ⟨t, b, by rw [h.text, ht]⟩

theorem firstImg_unique {s a b a' b' : List Char} (h : FirstImg s a b) (h' : FirstImg s a' b') : a = a' ∧ b = b' := by
  have key : ∀ {a b a' b' : List Char}, FirstImg s a b → FirstImg s a' b' → a.length ≤ a'.length := by
    intro a b a' b' h h'
    by_cases hl : a.length ≤ a'.length
    · exact hl
    · exfalso
      have he : a ++ b = a' ++ b' := by rw [← h.text, ← h'.text]
      have ht : a' = a.take a'.length := by
        have := congrArg (List.take a'.length) he
        rw [List.take_append_of_le_length (by omega), List.take_left] at this
        exact this.symm
      refine h.first a' (a.drop a'.length) ?_ ?_ h'.ends
      · conv => lhs; rw [← List.take_append_drop a'.length a]
        rw [← ht]
      · intro h0
        have := congrArg List.length h0
        simp at this; omega
  have hl : a.length = a'.length := Nat.le_antisymm (key h h') (key h' h)
  have he : a ++ b = a' ++ b' := by rw [← h.text, ← h'.text]
  exact List.append_inj he hl

theorem cutImg_iff {s a b : List Char} : cutImg s = some (a, b) ↔ FirstImg s a b := by
  constructor
  · exact cutImg_some s a b
  · intro h
    cases hc : cutImg s with
    | none => exact absurd (firstImg_has h) (cutImg_none s hc)
    | some ab =>
      obtain ⟨a', b'⟩ := ab
      obtain ⟨rfl, rfl⟩ := firstImg_unique (cutImg_some s a' b' hc) h
      rfl

theorem hasImg_iff {s : List Char} : HasImg s ↔ ∃ a b, FirstImg s a b := by
  constructor
  · intro h
    cases hc : cutImg s with
    | none => exact absurd h (cutImg_none s hc)
    | some ab => exact ⟨ab.1, ab.2, cutImg_iff.1 hc⟩
  · rintro ⟨a, b, h⟩; exact firstImg_has h

/-! ## `split_at` -/

theorem charBytes_pos (c : Char) : 0 < charBytes c := Char.utf8Size_pos c

theorem strBytes_append : ∀ a b : List Char, strBytes (a ++ b) = strBytes a + strBytes b
  | [], b => by simp [strBytes]
  | c :: a, b => by simp [strBytes, strBytes_append a b]; omega

theorem splitAt1_append : ∀ a b : List Char, splitAt1 (a ++ b) (strBytes a) = some b
  | [], b => by cases b <;> simp [splitAt1, strBytes]
  | c :: a, b => by
    have hp := charBytes_pos c
    have hs : strBytes (c :: a) = charBytes c + strBytes a := rfl
    rw [hs]
    obtain ⟨m, hm⟩ : ∃ m, charBytes c + strBytes a = m + 1 := ⟨charBytes c + strBytes a - 1, by omega⟩
    rw [hm, List.cons_append, splitAt1, if_pos (by omega)]
    have : m + 1 - charBytes c = strBytes a := by omega
    rw [this, splitAt1_append a b]

theorem splitAt1_behind : ∀ s : List Char, splitAt1 s (strBytes s + 1) = none
  | [] => rfl
  | c :: s => by
    have hs : strBytes (c :: s) = charBytes c + strBytes s := rfl
    rw [hs, splitAt1, if_pos (by omega)]
    have : charBytes c + strBytes s + 1 - charBytes c = strBytes s + 1 := by omega
    rw [this, splitAt1_behind s]

/-! ## loop over the pieces -/

/-- the pieces already passed, each with its slash -/
def passed (a : List (List Char)) : List Char := (a.map (· ++ ['/'])).flatten

theorem slashed_passed : ∀ (a : List (List Char)) (x : List Char) (b : List (List Char)),
    slashed (a ++ x :: b) = passed a ++ slashed (x :: b)
  | [], x, b => rfl
  | [y], x, b => by simp [slashed_cons, passed]
  | y :: z :: a, x, b => by
    have ih := slashed_passed (z :: a) x b
    simp only [List.cons_append] at ih ⊢
    rw [slashed_cons, ih]
    simp [passed]

theorem strBytes_slash : strBytes ['/'] = 1 := by decide

theorem passed_append (a : List (List Char)) (x : List Char) : passed (a ++ [x]) = passed a ++ x ++ ['/'] := by
  simp [passed]

/-- the loop meets an image: the rest of the path behind it -/
theorem imgLoop_found {h : NHeap} (hm : MapsOk h) (path : List Char) : ∀ (a : List (List Char)) (i j k : Nat)
    (done : List (List Char)) (x y : List Char) (b : List (List Char)), Steps h i a j →
    (∀ a' j', a' <+: a → a' ≠ [] → Steps h i a' j' → ¬ Image h j') → ChildOf h j x k → Image h k →
    path = slashed (done ++ a ++ x :: y :: b) →
    h.imgLoop path i (strBytes (passed done)) (a ++ x :: y :: b) = .ok (some (k, slashed (y :: b)))
  | [], i, j, k, done, x, y, b, hs, _, hc, hk, hp => by
    cases hs
    rw [List.nil_append, NHeap.imgLoop, (at_eq hm).2 hc]
    dsimp only
    rw [if_pos (isImage_iff.2 hk)]
    have h1 : path = (passed done ++ x ++ ['/']) ++ slashed (y :: b) := by
      rw [hp, List.append_nil, slashed_passed, slashed_cons]; simp
    have h2 : strBytes (passed done) + strBytes x + 1 = strBytes (passed done ++ x ++ ['/']) := by
      rw [strBytes_append, strBytes_append, strBytes_slash]
    rw [h2, h1, splitAt1_append]
  | z :: a, i, j, k, done, x, y, b, hs, hno, hc, hk, hp => by
    cases hs with
    | step _ m _ _ _ hcm hs' =>
      have hni : ¬ Image h m := hno [z] m ⟨a, rfl⟩ (by simp) (.step _ _ _ _ _ hcm (.here m))
      rw [List.cons_append, NHeap.imgLoop, (at_eq hm).2 hcm]
      dsimp only
      rw [if_neg (fun hh => hni (isImage_iff.1 hh))]
      have h2 : strBytes (passed done) + strBytes z + 1 = strBytes (passed (done ++ [z])) := by
        rw [passed_append, strBytes_append, strBytes_append, strBytes_slash]
      rw [h2]
      refine imgLoop_found hm path a m j k (done ++ [z]) x y b hs' ?_ hc hk (by rw [hp]; simp)
      intro a' j' hpre hne hst
      obtain ⟨t, ht⟩ := hpre
      exact hno (z :: a') j' ⟨t, by rw [List.cons_append, ht]⟩ (by simp) (.step _ _ _ _ _ hcm hst)

/-- the loop meets an image at the last piece -/
theorem imgLoop_last {h : NHeap} (hm : MapsOk h) (path : List Char) : ∀ (a : List (List Char)) (i j k : Nat)
    (done : List (List Char)) (x : List Char), Steps h i a j →
    (∀ a' j', a' <+: a → a' ≠ [] → Steps h i a' j' → ¬ Image h j') → ChildOf h j x k → Image h k →
    path = slashed (done ++ a ++ [x]) →
    h.imgLoop path i (strBytes (passed done)) (a ++ [x]) = .error .panicIndex
  | [], i, j, k, done, x, hs, _, hc, hk, hp => by
    cases hs
    rw [List.nil_append, NHeap.imgLoop, (at_eq hm).2 hc]
    dsimp only
    rw [if_pos (isImage_iff.2 hk)]
    have h1 : path = passed done ++ x := by
      rw [hp, List.append_nil, slashed_passed, slashed_one]
    have h2 : strBytes (passed done) + strBytes x + 1 = strBytes (passed done ++ x) + 1 := by
      rw [strBytes_append]
    rw [h2, h1, splitAt1_behind]
  | z :: a, i, j, k, done, x, hs, hno, hc, hk, hp => by
    cases hs with
    | step _ m _ _ _ hcm hs' =>
      have hni : ¬ Image h m := hno [z] m ⟨a, rfl⟩ (by simp) (.step _ _ _ _ _ hcm (.here m))
      rw [List.cons_append, NHeap.imgLoop, (at_eq hm).2 hcm]
      dsimp only
      rw [if_neg (fun hh => hni (isImage_iff.1 hh))]
      have h2 : strBytes (passed done) + strBytes z + 1 = strBytes (passed (done ++ [z])) := by
        rw [passed_append, strBytes_append, strBytes_append, strBytes_slash]
      rw [h2]
      refine imgLoop_last hm path a m j k (done ++ [z]) x hs' ?_ hc hk (by rw [hp]; simp)
      intro a' j' hpre hne hst
      obtain ⟨t, ht⟩ := hpre
      exact hno (z :: a') j' ⟨t, by rw [List.cons_append, ht]⟩ (by simp) (.step _ _ _ _ _ hcm hst)

/-- no image on the way -/
theorem imgLoop_none {h : NHeap} (hm : MapsOk h) (path : List Char) : ∀ (ns : List (List Char)) (i n : Nat),
    (∀ a j, a <+: ns → a ≠ [] → Steps h i a j → ¬ Image h j) → h.imgLoop path i n ns = .ok none
  | [], i, n, _ => rfl
  | x :: xs, i, n, hno => by
    rw [NHeap.imgLoop]
    cases ha : h.at i x with
    | none => rfl
    | some j =>
      have hc := (at_eq hm).1 ha
      dsimp only
      rw [if_neg (fun hh => hno [x] j ⟨xs, rfl⟩ (by simp) (.step _ _ _ _ _ hc (.here j)) (isImage_iff.1 hh))]
      refine imgLoop_none hm path xs j _ ?_
      intro a k hpre hne hst
      obtain ⟨t, ht⟩ := hpre
      exact hno (x :: a) k ⟨t, by rw [List.cons_append, ht]⟩ (by simp) (.step _ _ _ _ _ hc hst)

end Wz
