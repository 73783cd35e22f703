import Verif.Node.TreeSpec
import Verif.Node.UolLemmas

set_option autoImplicit false

namespace Wz

open Spec

/-! ## changing one cell -/

theorem setKids_cell {h : NHeap} {i j : Nat} {ks : List (List Char × Nat)} :
    (h.setKids i ks).cell j = if j = i then (h.cell i).map (fun c => { c with kids := ks }) else h.cell j := by
  unfold NHeap.setKids
  cases hc : h.cell i with
  | none =>
    dsimp only
    by_cases hj : j = i
    · rw [if_pos hj, hj, hc]; rfl
    · rw [if_neg hj]
  | some c => dsimp only; rw [cell_set (cell_lt hc)]; rfl

theorem setParent_cell {h : NHeap} {i j p : Nat} :
    (h.setParent i p).cell j = if j = i then (h.cell i).map (fun c => { c with parent := some p }) else h.cell j := by
  unfold NHeap.setParent
  cases hc : h.cell i with
  | none =>
    dsimp only
    by_cases hj : j = i
    · rw [if_pos hj, hj, hc]; rfl
    · rw [if_neg hj]
  | some c => dsimp only; rw [cell_set (cell_lt hc)]; rfl

theorem SameValues.refl (h : NHeap) : SameValues h h := fun _ => rfl

theorem SameValues.trans {a b c : NHeap} (h1 : SameValues a b) (h2 : SameValues b c) : SameValues a c :=
  fun i => (h1 i).trans (h2 i)

theorem setKids_same (h : NHeap) (i : Nat) (ks : List (List Char × Nat)) : SameValues h (h.setKids i ks) := by
  intro j
  rw [setKids_cell]
  split
  · rename_i e; subst e; cases h.cell j <;> rfl
  · rfl

theorem setParent_same (h : NHeap) (i p : Nat) : SameValues h (h.setParent i p) := by
  intro j
  rw [setParent_cell]
  split
  · rename_i e; subst e; cases h.cell j <;> rfl
  · rfl

/-- the heaps agree on these nodes -/
def Agree (h g : NHeap) (l : List Nat) : Prop := ∀ i ∈ l, g.cell i = h.cell i

theorem drawn_agree {h g : NHeap} : ∀ f : IdForest, Agree h g f.ids → Drawn h f → Drawn g f
  | .nil, _, _ => trivial
  | .cons n i ks rest, ha, ⟨⟨c, h1, h2⟩, h3, h4⟩ => by
    refine ⟨⟨c, by rw [ha i (by simp [IdForest.ids]), h1], h2⟩, ?_, ?_⟩
    · exact drawn_agree ks (fun j hj => ha j (by simp [IdForest.ids, hj])) h3
    · exact drawn_agree rest (fun j hj => ha j (by simp [IdForest.ids, hj])) h4

theorem linked_agree {h g : NHeap} : ∀ (f : IdForest) (p : Nat), Agree h g f.ids → Linked h p f → Linked g p f
  | .nil, _, _, _ => trivial
  | .cons n i ks rest, p, ha, ⟨⟨c, h1, h2⟩, h3, h4⟩ => by
    refine ⟨⟨c, by rw [ha i (by simp [IdForest.ids]), h1], h2⟩, ?_, ?_⟩
    · exact linked_agree ks i (fun j hj => ha j (by simp [IdForest.ids, hj])) h3
    · exact linked_agree rest p (fun j hj => ha j (by simp [IdForest.ids, hj])) h4

/-! ## looking into a drawing -/

/-- child by name -/
def Spec.IdForest.find : IdForest → List Char → Option (Nat × IdForest)
  | .nil, _ => none
  | .cons m i ks rest, n => if m = n then some (i, ks) else rest.find n

theorem kidAt_roots : ∀ (f : IdForest) (n : List Char), kidAt f.roots n = (f.find n).map Prod.fst
  | .nil, n => rfl
  | .cons m i ks rest, n => by
    have ih := kidAt_roots rest n
    unfold kidAt at ih ⊢
    by_cases hm : m = n
    · subst hm; simp [IdForest.roots, IdForest.find]
    · have : (m == n) = false := by simpa using hm
      simp only [IdForest.roots, IdForest.find, List.find?_cons, this, if_neg hm]
      exact ih

/-- from node to node in a drawing -/
def Spec.IdForest.follow : IdForest → Nat → List (List Char) → Option Nat
  | _, p, [] => some p
  | f, _, n :: ns => match f.find n with
    | none => none
    | some (j, ks) => ks.follow j ns

theorem find_drawn {h : NHeap} : ∀ (f : IdForest) (n : List Char) (j : Nat) (ks : IdForest), Drawn h f →
    f.find n = some (j, ks) → Below h j ks
  | .nil, n, j, ks, _, hf => by cases hf
  | .cons m i k rest, n, j, ks, ⟨h1, h2, h3⟩, hf => by
    unfold IdForest.find at hf
    split at hf
    · cases hf; exact ⟨h1, h2⟩
    · exact find_drawn rest n j ks h3 hf

theorem at_below {h : NHeap} {p : Nat} {f : IdForest} (hb : Below h p f) (n : List Char) :
    h.at p n = (f.find n).map Prod.fst := by
  obtain ⟨⟨c, h1, h2⟩, _⟩ := hb
  rw [NHeap.at, h1]
  dsimp only
  rw [h2, kidAt_roots]

theorem follow_steps {h : NHeap} (hm : MapsOk h) : ∀ (ns : List (List Char)) (f : IdForest) (p k : Nat),
    Below h p f → (f.follow p ns = some k ↔ Steps h p ns k)
  | [], f, p, k, _ => by
    simp only [IdForest.follow]
    constructor
    · intro e; cases e; exact .here _
    · intro e; cases e; rfl
  | n :: ns, f, p, k, hb => by
    have ha := at_below hb n
    simp only [IdForest.follow]
    cases hf : f.find n with
    | none =>
      rw [hf] at ha
      dsimp only
      constructor
      · intro e; cases e
      · intro e
        cases e with
        | step _ j _ _ _ hc _ => rw [(at_eq hm).2 hc] at ha; cases ha
    | some jk =>
      obtain ⟨j, ks⟩ := jk
      rw [hf] at ha
      have hbj := find_drawn f n j ks hb.2 hf
      dsimp only
      rw [follow_steps hm ns ks j k hbj]
      constructor
      · intro e; exact .step _ _ _ _ _ ((at_eq hm).1 ha) e
      · intro e
        cases e with
        | step _ j' _ _ _ hc hs =>
          rw [(at_eq hm).2 hc] at ha
          cases ha; exact hs

/-- names differ at every level -/
def Spec.IdForest.Distinct : IdForest → Prop
  | .nil => True
  | .cons n _ ks rest => rest.find n = none ∧ ks.Distinct ∧ rest.Distinct

theorem find_none_iff : ∀ (f : IdForest) (n : List Char), f.find n = none ↔ n ∉ f.roots.map Prod.fst
  | .nil, n => by simp [IdForest.find, IdForest.roots]
  | .cons m i ks rest, n => by
    have ih := find_none_iff rest n
    by_cases hm : m = n
    · subst hm; simp [IdForest.find, IdForest.roots]
    · simp only [IdForest.find, if_neg hm, ih, IdForest.roots, List.map_cons, List.mem_cons, not_or]
      exact ⟨fun e => ⟨fun e' => hm e'.symm, e⟩, fun e => e.2⟩

theorem distinct_of {h : NHeap} (hm : MapsOk h) : ∀ (f : IdForest), Drawn h f →
    (f.roots.map Prod.fst).Nodup → f.Distinct
  | .nil, _, _ => trivial
  | .cons n i ks rest, ⟨⟨c, h1, h2⟩, h3, h4⟩, hd => by
    simp only [IdForest.roots, List.map_cons, List.nodup_cons] at hd
    refine ⟨(find_none_iff rest n).2 hd.1, ?_, distinct_of hm rest h4 hd.2⟩
    have := hm i c h1
    rw [h2] at this
    exact distinct_of hm ks h3 this

theorem below_distinct {h : NHeap} (hm : MapsOk h) {p : Nat} {f : IdForest} (hb : Below h p f) : f.Distinct := by
  obtain ⟨⟨c, h1, h2⟩, h3⟩ := hb
  have := hm p c h1
  rw [h2] at this
  exact distinct_of hm f h3 this

/-! ## merging drawings -/

/-- change the children of the child `n`, or add a new child -/
def Spec.IdForest.upd : IdForest → List Char → (IdForest → IdForest) → Nat → IdForest → IdForest
  | .nil, n, _, i, ks => .cons n i ks .nil
  | .cons m j kj rest, n, F, i, ks =>
    if m = n then .cons m j (F kj) rest else .cons m j kj (rest.upd n F i ks)

/-- the children of the first drawing given to the second -/
def Spec.IdForest.merge : IdForest → IdForest → IdForest
  | .nil, d => d
  | .cons n i ks rest, d => rest.merge (d.upd n ks.merge i ks)

theorem find_upd (n : List Char) (F : IdForest → IdForest) (i : Nat) (ks : IdForest) : ∀ (d : IdForest) (m : List Char),
    (d.upd n F i ks).find m =
      if m = n then (match d.find n with
        | none => some (i, ks)
        | some (j, kj) => some (j, F kj))
      else d.find m
  | .nil, m => by
    by_cases h : m = n
    · subst h; simp [IdForest.upd, IdForest.find]
    · have h' : ¬ n = m := fun e => h e.symm
      simp [IdForest.upd, IdForest.find, h, h']
  | .cons l j kj rest, m => by
    have ih := find_upd n F i ks rest m
    unfold IdForest.upd
    by_cases hl : l = n
    · subst hl
      rw [if_pos rfl]
      by_cases h : m = l
      · subst h; simp [IdForest.find]
      · have h' : ¬ l = m := fun e => h e.symm
        simp [IdForest.find, h, h']
    · rw [if_neg hl]
      by_cases h : m = n
      · subst h
        simp only [IdForest.find, if_neg hl, if_true] at ih ⊢
        exact ih
      · rw [if_neg h] at ih ⊢
        simp only [IdForest.find]
        split
        · rfl
        · exact ih

theorem find_merge : ∀ (s d : IdForest) (m : List Char), s.Distinct →
    (s.merge d).find m = match d.find m, s.find m with
      | some (j, kj), some (_, ki) => some (j, ki.merge kj)
      | some x, none => some x
      | none, y => y
  | .nil, d, m, _ => by
    simp only [IdForest.merge, IdForest.find]
    cases d.find m <;> rfl
  | .cons n i ks rest, d, m, ⟨h1, h2, h3⟩ => by
    rw [IdForest.merge, find_merge rest _ m h3, find_upd]
    by_cases hm : m = n
    · subst hm
      rw [if_pos rfl, h1]
      simp only [IdForest.find, if_true]
      cases d.find m <;> rfl
    · rw [if_neg hm]
      simp only [IdForest.find, if_neg (fun e : n = m => hm e.symm)]

theorem find_distinct : ∀ (f : IdForest) (n : List Char) (j : Nat) (ks : IdForest), f.Distinct →
    f.find n = some (j, ks) → ks.Distinct
  | .nil, _, _, _, _, h => by cases h
  | .cons m i k rest, n, j, ks, ⟨_, h2, h3⟩, h => by
    unfold IdForest.find at h
    split at h
    · cases h; exact h2
    · exact find_distinct rest n j ks h3 h

theorem follow_merge : ∀ (ns : List (List Char)) (s d : IdForest) (p q : Nat), s.Distinct → ns ≠ [] →
    (s.merge d).follow p ns = match d.follow p ns with
      | some k => some k
      | none => s.follow q ns
  | [], _, _, _, _, _, h => absurd rfl h
  | n :: ns, s, d, p, q, hs, _ => by
    simp only [IdForest.follow]
    rw [find_merge s d n hs]
    cases hd : d.find n with
    | none => rfl
    | some jk =>
      obtain ⟨j, kj⟩ := jk
      cases hsn : s.find n with
      | none =>
        dsimp only
        cases kj.follow j ns <;> rfl
      | some ik =>
        obtain ⟨i, ki⟩ := ik
        dsimp only
        have hdi := find_distinct s n i ki hs hsn
        cases ns with
        | nil => rfl
        | cons m ns => exact follow_merge (m :: ns) ki kj j i hdi (by simp)

/-! ## the heap after a merge -/

theorem ids_upd_sub (n : List Char) (F : IdForest → IdForest) (i : Nat) (ks : IdForest)
    (hF : ∀ d x, x ∈ (F d).ids → x ∈ ks.ids ∨ x ∈ d.ids) : ∀ (d : IdForest) (x : Nat),
    x ∈ (d.upd n F i ks).ids → x = i ∨ x ∈ ks.ids ∨ x ∈ d.ids
  | .nil, x, h => by
    simp only [IdForest.upd, IdForest.ids, List.append_nil, List.mem_cons] at h
    rcases h with h | h
    · exact .inl h
    · exact .inr (.inl h)
  | .cons m j kj rest, x, h => by
    unfold IdForest.upd at h
    split at h
    · simp only [IdForest.ids, List.mem_cons, List.mem_append] at h ⊢
      rcases h with h | h | h
      · exact .inr (.inr (.inl h))
      · rcases hF kj x h with h | h
        · exact .inr (.inl h)
        · exact .inr (.inr (.inr (.inl h)))
      · exact .inr (.inr (.inr (.inr h)))
    · simp only [IdForest.ids, List.mem_cons, List.mem_append] at h ⊢
      rcases h with h | h | h
      · exact .inr (.inr (.inl h))
      · exact .inr (.inr (.inr (.inl h)))
      · rcases ids_upd_sub n F i ks hF rest x h with h | h | h
        · exact .inl h
        · exact .inr (.inl h)
        · exact .inr (.inr (.inr (.inr h)))

theorem ids_merge_sub : ∀ (s d : IdForest) (x : Nat), x ∈ (s.merge d).ids → x ∈ s.ids ∨ x ∈ d.ids
  | .nil, d, x, h => .inr h
  | .cons n i ks rest, d, x, h => by
    rw [IdForest.merge] at h
    simp only [IdForest.ids, List.mem_cons, List.mem_append]
    rcases ids_merge_sub rest _ x h with h | h
    · exact .inl (.inr (.inr h))
    · rcases ids_upd_sub n ks.merge i ks (fun d y hy => ids_merge_sub ks d y hy) d x h with h | h | h
      · exact .inl (.inl h)
      · exact .inl (.inr (.inl h))
      · exact .inr h

theorem ids_upd_nodup (n : List Char) (F : IdForest → IdForest) (i : Nat) (ks : IdForest)
    (hF : ∀ d x, x ∈ (F d).ids → x ∈ ks.ids ∨ x ∈ d.ids)
    (hN : ∀ d, (ks.ids ++ d.ids).Nodup → (F d).ids.Nodup) : ∀ (d : IdForest),
    (i :: (ks.ids ++ d.ids)).Nodup → (d.upd n F i ks).ids.Nodup
  | .nil, h => by simpa [IdForest.upd, IdForest.ids] using h
  | .cons m j kj rest, h => by
    simp only [IdForest.ids, List.nodup_cons, List.nodup_append, List.mem_cons, List.mem_append] at h
    obtain ⟨hi, hks, ⟨⟨hj, hkj, hrest, hdis⟩, hdd⟩⟩ := h
    unfold IdForest.upd
    split
    · simp only [IdForest.ids, List.nodup_cons, List.nodup_append, List.mem_append]
      refine ⟨?_, hN kj ?_, hrest, ?_⟩
      · rintro (h1 | h1)
        · rcases hF kj j h1 with h2 | h2
          · exact hdd j h2 j (.inl rfl) rfl
          · exact hj (.inl h2)
        · exact hj (.inr h1)
      · rw [List.nodup_append]
        exact ⟨hks, hkj, fun a ha b hb => hdd a ha b (.inr (.inl hb))⟩
      · intro a ha b hb e
        subst e
        rcases hF kj a ha with h2 | h2
        · exact hdd a h2 a (.inr (.inr hb)) rfl
        · exact hdis a h2 a hb rfl
    · have ih := ids_upd_nodup n F i ks hF hN rest (by
        rw [List.nodup_cons, List.nodup_append]
        refine ⟨?_, hks, hrest, fun a ha b hb => hdd a ha b (.inr (.inr hb))⟩
        intro h1
        rcases List.mem_append.1 h1 with h1 | h1
        · exact hi (.inl h1)
        · exact hi (.inr (.inr (.inr h1))))
      simp only [IdForest.ids, List.nodup_cons, List.nodup_append, List.mem_append]
      refine ⟨?_, hkj, ih, ?_⟩
      · rintro (h1 | h1)
        · exact hj (.inl h1)
        · rcases ids_upd_sub n F i ks hF rest j h1 with h2 | h2 | h2
          · exact hi (.inr (.inl h2.symm))
          · exact hdd j h2 j (.inl rfl) rfl
          · exact hj (.inr h2)
      · intro a ha b hb e
        subst e
        rcases ids_upd_sub n F i ks hF rest a hb with h2 | h2 | h2
        · subst h2; exact hi (.inr (.inr (.inl ha)))
        · exact hdd a h2 a (.inr (.inl ha)) rfl
        · exact hdis a ha a h2 rfl

theorem ids_merge_nodup : ∀ (s d : IdForest), (s.ids ++ d.ids).Nodup → (s.merge d).ids.Nodup
  | .nil, d, h => by simpa [IdForest.ids, IdForest.merge] using h
  | .cons n i ks rest, d, h => by
    rw [IdForest.merge]
    refine ids_merge_nodup rest _ ?_
    have hsub := ids_upd_sub n ks.merge i ks (fun d y hy => ids_merge_sub ks d y hy) d
    simp only [IdForest.ids, List.cons_append, List.append_assoc, List.nodup_cons, List.nodup_append,
      List.mem_append] at h
    obtain ⟨hi, hks, ⟨hrest, hd, hrd⟩, hall⟩ := h
    rw [List.nodup_append]
    refine ⟨hrest, ids_upd_nodup n ks.merge i ks (fun d y hy => ids_merge_sub ks d y hy)
      (fun d hd => ids_merge_nodup ks d hd) d ?_, ?_⟩
    · rw [List.nodup_cons, List.nodup_append]
      refine ⟨?_, hks, hd, fun a ha b hb => hall a ha b (.inr hb)⟩
      intro h1
      rcases List.mem_append.1 h1 with h1 | h1
      · exact hi (.inl h1)
      · exact hi (.inr (.inr h1))
    · intro a ha b hb e
      subst e
      rcases hsub a hb with h1 | h1 | h1
      · subst h1; exact hi (.inr (.inl ha))
      · exact hall a h1 a (.inl ha) rfl
      · exact hrd a ha a h1 rfl

/-- the children of a drawing after a change of one of them -/
theorem roots_upd_some (n : List Char) (F : IdForest → IdForest) (i : Nat) (ks : IdForest) : ∀ (d : IdForest),
    d.find n ≠ none → (d.upd n F i ks).roots = d.roots
  | .nil, h => absurd rfl h
  | .cons m j kj rest, h => by
    unfold IdForest.upd
    by_cases hm : m = n
    · rw [if_pos hm]; rfl
    · rw [if_neg hm]
      simp only [IdForest.roots]
      rw [roots_upd_some n F i ks rest (by simpa [IdForest.find, hm] using h)]

theorem roots_upd_none (n : List Char) (F : IdForest → IdForest) (i : Nat) (ks : IdForest) : ∀ (d : IdForest),
    d.find n = none → (d.upd n F i ks).roots = d.roots ++ [(n, i)]
  | .nil, h => rfl
  | .cons m j kj rest, h => by
    unfold IdForest.find at h
    split at h
    · cases h
    · rename_i hm
      unfold IdForest.upd
      rw [if_neg hm]
      simp only [IdForest.roots, List.cons_append]
      rw [roots_upd_none n F i ks rest h]

theorem drawn_upd_none {h : NHeap} (n : List Char) (F : IdForest → IdForest) (i : Nat) (ks : IdForest) :
    ∀ (d : IdForest), d.find n = none → Drawn h d → Below h i ks → Drawn h (d.upd n F i ks)
  | .nil, _, _, hb => ⟨hb.1, hb.2, trivial⟩
  | .cons m j kj rest, hf, ⟨h1, h2, h3⟩, hb => by
    unfold IdForest.find at hf
    split at hf
    · cases hf
    · rename_i hm
      unfold IdForest.upd
      rw [if_neg hm]
      exact ⟨h1, h2, drawn_upd_none n F i ks rest hf h3 hb⟩

theorem linked_upd_none {h : NHeap} (n : List Char) (F : IdForest → IdForest) (i p : Nat) (ks : IdForest) :
    ∀ (d : IdForest), d.find n = none → Linked h p d → (∃ c, h.cell i = some c ∧ c.parent = some p) →
    Linked h i ks → Linked h p (d.upd n F i ks)
  | .nil, _, _, hb, hl => ⟨hb, hl, trivial⟩
  | .cons m j kj rest, hf, ⟨h1, h2, h3⟩, hb, hl => by
    unfold IdForest.find at hf
    split at hf
    · cases hf
    · rename_i hm
      unfold IdForest.upd
      rw [if_neg hm]
      exact ⟨h1, h2, linked_upd_none n F i p ks rest hf h3 hb hl⟩

/-- one child of the drawing has been changed, everything outside of it is as before -/
theorem drawn_upd_some {h g : NHeap} (n : List Char) (F : IdForest → IdForest) (i : Nat) (ks : IdForest) (j : Nat)
    (kj : IdForest) : ∀ (d : IdForest), d.find n = some (j, kj) → Drawn h d → d.ids.Nodup →
    (∀ x ∈ d.ids, x ≠ j → x ∉ kj.ids → g.cell x = h.cell x) → Below g j (F kj) → Drawn g (d.upd n F i ks)
  | .nil, hf, _, _, _, _ => by cases hf
  | .cons m l kl rest, hf, ⟨h1, h2, h3⟩, hd, ha, hb => by
    simp only [IdForest.ids, List.nodup_cons, List.nodup_append, List.mem_append] at hd
    obtain ⟨hl, hkl, hrest, hdis⟩ := hd
    unfold IdForest.find at hf
    unfold IdForest.upd
    split at hf
    · rename_i hm
      rw [if_pos hm]
      obtain ⟨rfl, rfl⟩ := Prod.mk.inj (Option.some.inj hf)
      refine ⟨hb.1, hb.2, drawn_agree rest ?_ h3⟩
      intro x hx
      refine ha x (by simp [IdForest.ids, hx]) (fun e => hl (.inr (e ▸ hx))) (fun e => hdis x e x hx rfl)
    · rename_i hm
      rw [if_neg hm]
      have hmem : ∀ (r : IdForest), r.find n = some (j, kj) → j ∈ r.ids ∧ ∀ x ∈ kj.ids, x ∈ r.ids := by
        intro r
        induction r with
        | nil => intro hr; cases hr
        | cons m' l' kl' r' _ ih =>
          intro hr
          unfold IdForest.find at hr
          simp only [IdForest.ids, List.mem_cons, List.mem_append]
          split at hr
          · obtain ⟨rfl, rfl⟩ := Prod.mk.inj (Option.some.inj hr)
            exact ⟨.inl rfl, fun x hx => .inr (.inl hx)⟩
          · obtain ⟨a, b⟩ := ih hr
            exact ⟨.inr (.inr a), fun x hx => .inr (.inr (b x hx))⟩
      obtain ⟨hj, hsub⟩ := hmem rest hf
      obtain ⟨c, hc1, hc2⟩ := h1
      refine ⟨⟨c, ?_, hc2⟩, drawn_agree kl ?_ h2, ?_⟩
      · rw [ha l (by simp [IdForest.ids]) (fun e => hl (.inr (e ▸ hj))) (fun e => hl (.inr (hsub l e))), hc1]
      · intro x hx
        exact ha x (by simp [IdForest.ids, hx]) (fun e => hdis x hx j hj e) (fun e => hdis x hx x (hsub x e) rfl)
      · exact drawn_upd_some n F i ks j kj rest hf h3 hrest
          (fun x hx => ha x (by simp [IdForest.ids, hx])) hb

theorem linked_upd_some {h g : NHeap} (n : List Char) (F : IdForest → IdForest) (i p : Nat) (ks : IdForest) (j : Nat)
    (kj : IdForest) : ∀ (d : IdForest), d.find n = some (j, kj) → Linked h p d → d.ids.Nodup →
    (∀ x ∈ d.ids, x ≠ j → x ∉ kj.ids → g.cell x = h.cell x) →
    (∀ c, h.cell j = some c → ∃ c', g.cell j = some c' ∧ c'.parent = c.parent) → Linked g j (F kj) →
    Linked g p (d.upd n F i ks)
  | .nil, hf, _, _, _, _, _ => by cases hf
  | .cons m l kl rest, hf, ⟨h1, h2, h3⟩, hd, ha, hp, hb => by
    simp only [IdForest.ids, List.nodup_cons, List.nodup_append, List.mem_append] at hd
    obtain ⟨hl, hkl, hrest, hdis⟩ := hd
    unfold IdForest.find at hf
    unfold IdForest.upd
    split at hf
    · rename_i hm
      rw [if_pos hm]
      obtain ⟨rfl, rfl⟩ := Prod.mk.inj (Option.some.inj hf)
      obtain ⟨c, hc1, hc2⟩ := h1
      obtain ⟨c', hc3, hc4⟩ := hp c hc1
      refine ⟨⟨c', hc3, by rw [hc4, hc2]⟩, hb, linked_agree rest p ?_ h3⟩
      intro x hx
      refine ha x (by simp [IdForest.ids, hx]) (fun e => hl (.inr (e ▸ hx))) (fun e => hdis x e x hx rfl)
    · rename_i hm
      rw [if_neg hm]
      have hmem : ∀ (r : IdForest), r.find n = some (j, kj) → j ∈ r.ids ∧ ∀ x ∈ kj.ids, x ∈ r.ids := by
        intro r
        induction r with
        | nil => intro hr; cases hr
        | cons m' l' kl' r' _ ih =>
          intro hr
          unfold IdForest.find at hr
          simp only [IdForest.ids, List.mem_cons, List.mem_append]
          split at hr
          · obtain ⟨rfl, rfl⟩ := Prod.mk.inj (Option.some.inj hr)
            exact ⟨.inl rfl, fun x hx => .inr (.inl hx)⟩
          · obtain ⟨a, b⟩ := ih hr
            exact ⟨.inr (.inr a), fun x hx => .inr (.inr (b x hx))⟩
      obtain ⟨hj, hsub⟩ := hmem rest hf
      obtain ⟨c, hc1, hc2⟩ := h1
      refine ⟨⟨c, ?_, hc2⟩, linked_agree kl l ?_ h2, ?_⟩
      · rw [ha l (by simp [IdForest.ids]) (fun e => hl (.inr (e ▸ hj))) (fun e => hl (.inr (hsub l e))), hc1]
      · intro x hx
        exact ha x (by simp [IdForest.ids, hx]) (fun e => hdis x hx j hj e) (fun e => hdis x hx x (hsub x e) rfl)
      · exact linked_upd_some n F i p ks j kj rest hf h3 hrest
          (fun x hx => ha x (by simp [IdForest.ids, hx])) hp hb

end Wz
