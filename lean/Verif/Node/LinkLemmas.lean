import Verif.Node.LinkSpec
import Verif.Node.UolLemmas
import Verif.Node.FindLemmas

/-!
# The links of an image, one after the other
-/

set_option autoImplicit false

namespace Wz

open Spec

/-- the children of a node are the trees of a forest that starts at `b` -/
def Kids70 (h : NHeap) (p b : Nat) (f : Forest) : Prop :=
  (∃ c, h.cell p = some c ∧ c.kids = childInsertAll [] (f.roots b)) ∧ Placed h p b f

theorem kids70_at {h : NHeap} {p b : Nat} {f : Forest} (K : Kids70 h p b f) (n : List Char) :
    h.at p n = lastOf (f.roots b) n := by
  obtain ⟨⟨c, hc, hk⟩, _⟩ := K
  unfold NHeap.at
  rw [hc]
  dsimp only
  rw [hk, kidAt_childInsertAll]
  cases lastOf (f.roots b) n <;> rfl

theorem lastOf_roots_le : ∀ (f : Forest) (b j : Nat) (n : List Char), lastOf (f.roots b) n = some j → b ≤ j
  | .nil, b, j, n, h => by cases h
  | .node m k ks rest, b, j, n, h => by
    simp only [Forest.roots, lastOf] at h
    cases hr : lastOf (rest.roots (b + 1 + ks.size)) n with
    | some x =>
      rw [hr] at h
      cases h
      have := lastOf_roots_le rest _ _ n hr
      omega
    | none =>
      rw [hr] at h
      dsimp only at h
      split at h
      · cases h; omega
      · cases h

/-- a child of a node of the tree -/
theorem kids70_child {h : NHeap} {p b x : Nat} {f : Forest} (K : Kids70 h p b f) {n : List Char} (hx : h.at p n = some x) :
    ∃ k ks, Spec.Forest.shows f n = some (k, ks) ∧ b ≤ x ∧
      h.cell x = some ⟨n, k, some p, childInsertAll [] (ks.roots (x + 1))⟩ ∧ Kids70 h x (x + 1) ks := by
  rw [kids70_at K] at hx
  have := placed_shows f b n K.2
  cases hs : Spec.Forest.shows f n with
  | none => rw [hs] at this; dsimp only at this; rw [hx] at this; cases this
  | some y =>
    obtain ⟨k, ks⟩ := y
    rw [hs] at this
    obtain ⟨j, h1, h2, h3⟩ := this
    rw [hx] at h1
    cases h1
    exact ⟨k, ks, rfl, lastOf_roots_le f b x n hx, h2, ⟨_, h2, rfl⟩, h3⟩

theorem kids70_walk {h : NHeap} : ∀ (d : List (List Char)) {i b p : Nat} {f : Forest}, Kids70 h i b f →
    foldPath h.at i d = some p → ∃ b' f', b ≤ b' ∧ Kids70 h p b' f'
  | [], i, b, p, f, K, hp => by cases hp; exact ⟨b, f, Nat.le_refl _, K⟩
  | n :: d, i, b, p, f, K, hp => by
    simp only [foldPath] at hp
    cases hx : h.at i n with
    | none => rw [hx] at hp; cases hp
    | some x =>
      rw [hx] at hp
      obtain ⟨k, ks, _, h1, _, h2⟩ := kids70_child K hx
      obtain ⟨b', f', h3, h4⟩ := kids70_walk d h2 hp
      exact ⟨b', f', by omega, h4⟩

theorem fold_snoc (step : Nat → List Char → Option Nat) (i : Nat) (d : List (List Char)) (n : List Char) :
    foldPath step i (d ++ [n]) = (foldPath step i d).bind fun p => step p n := by
  rw [foldPath_append53]
  congr 1
  funext p
  simp only [foldPath]
  cases step p n <;> rfl

/-! ### the list of links -/

theorem placed_rest {h : NHeap} {p b : Nat} {n : List Char} {k : NKind} {ks rest : Forest} (hp : Placed h p b (.node n k ks rest)) :
    Placed h p (b + 1 + ks.size) rest := by
  intro q hq
  have := hp (1 + ks.size + q) (by simp [Forest.size]; omega)
  rw [show b + (1 + ks.size + q) = b + 1 + ks.size + q by omega] at this
  rw [this]
  simp only [Forest.cells]
  rw [show 1 + ks.size + q = (ks.size + q) + 1 by omega, List.getElem?_cons_succ,
    List.getElem?_append_right (by rw [cells_length]; omega), cells_length]
  congr 2
  omega

theorem uols_placed {h : NHeap} {u : Nat} : ∀ (f : Forest) (p b : Nat), Placed h p b f → Spec.Forest.Distinct f → u ∈ f.uols b →
    ∃ n d j, lastOf (f.roots b) n = some j ∧ foldPath h.at j d = some u ∧ ∃ c, h.cell u = some c ∧ c.kind.isUol = true
  | .nil, p, b, _, _, hu => by cases hu
  | .node n k ks rest, p, b, hp, hd, hu => by
    obtain ⟨d1, d2, d3⟩ := hd
    have hs : Spec.Forest.shows (.node n k ks rest) n = some (k, ks) := by
      simp only [Spec.Forest.shows, (shows_none rest n).2 d1, if_true]
    have h1 := placed_shows (.node n k ks rest) b n hp
    rw [hs] at h1
    obtain ⟨j, h2, h3, h4⟩ := h1
    have hj : j = b := by
      have hrest := placed_rest hp
      have h5 := placed_shows rest (b + 1 + ks.size) n hrest
      rw [(shows_none rest n).2 d1] at h5
      dsimp only at h5
      simp only [Forest.roots, lastOf, h5, if_true, Option.some.injEq] at h2
      exact h2.symm
    subst hj
    have K : Kids70 h j (j + 1) ks := ⟨⟨_, h3, rfl⟩, h4⟩
    simp only [Forest.uols, List.mem_append] at hu
    rcases hu with (hu | hu) | hu
    · cases hk : k.isUol with
      | false => rw [hk] at hu; simp at hu
      | true =>
        rw [hk] at hu
        simp only [if_true, List.mem_singleton] at hu
        subst hu
        exact ⟨n, [], u, h2, rfl, _, h3, hk⟩
    · obtain ⟨n', d', j', a1, a2, a3⟩ := uols_placed ks j (j + 1) h4 d2 hu
      refine ⟨n, n' :: d', j, h2, ?_, a3⟩
      simp only [foldPath]
      rw [kids70_at K, a1]
      exact a2
    · have hrest := placed_rest hp
      obtain ⟨n', d', j', a1, a2, a3⟩ := uols_placed rest p (j + 1 + ks.size) hrest d3 hu
      refine ⟨n', d', j', ?_, a2, a3⟩
      simp only [Forest.roots, lastOf, a1]

theorem placed_uols {h : NHeap} {u : Nat} {c : NCell} (hc : h.cell u = some c) (hk : c.kind.isUol = true) :
    ∀ (f : Forest) (p b j : Nat) (n : List Char) (d : List (List Char)), Placed h p b f →
    lastOf (f.roots b) n = some j → foldPath h.at j d = some u → u ∈ f.uols b
  | .nil, p, b, j, n, d, _, hl, _ => by cases hl
  | .node m k ks rest, p, b, j, n, d, hp, hl, hf => by
    simp only [Forest.uols, List.mem_append]
    have h1 := placed_shows (.node m k ks rest) b n hp
    simp only [Forest.roots, lastOf] at hl h1
    have hr := placed_shows rest _ n (placed_rest hp)
    cases hrl : lastOf (rest.roots (b + 1 + ks.size)) n with
    | some x =>
      rw [hrl] at hl
      cases hl
      exact .inr (placed_uols hc hk rest p _ _ n d (placed_rest hp) hrl hf)
    | none =>
      rw [hrl] at hl h1
      dsimp only at hl
      split at hl
      · rename_i hm
        cases hl
        have hsr : Spec.Forest.shows rest n = none := by
          cases hs : Spec.Forest.shows rest n with
          | none => rfl
          | some y =>
            rw [hs] at hr
            obtain ⟨j, h2, _⟩ := hr
            rw [hrl] at h2
            cases h2
        simp only [Spec.Forest.shows, hsr, if_pos hm] at h1
        obtain ⟨j, h2, h3, h4⟩ := h1
        cases h2
        have K : Kids70 h b (b + 1) ks := ⟨⟨_, h3, rfl⟩, h4⟩
        cases d with
        | nil =>
          cases hf
          rw [hc] at h3
          cases h3
          left; left
          dsimp only at hk
          rw [hk]
          simp
        | cons n' d' =>
          simp only [foldPath] at hf
          rw [kids70_at K] at hf
          cases hx : lastOf (ks.roots (b + 1)) n' with
          | none => rw [hx] at hf; cases hf
          | some x =>
            rw [hx] at hf
            exact .inl (.inr (placed_uols hc hk ks b _ x n' d' h4 hx hf))
      · cases hl

/-! ### one link -/

theorem at_replaceKid {g : NHeap} {p u t : Nat} {n : List Char} (h : g.at p n = some u) (q : Nat) (m : List Char) :
    (g.replaceKid p n t).at q m = if q = p ∧ m = n then some t else g.at q m := by
  unfold NHeap.at at h
  unfold NHeap.replaceKid
  cases hc : g.cell p with
  | none => rw [hc] at h; cases h
  | some c =>
    rw [hc] at h
    dsimp only at h ⊢
    have hany : (c.kids.any fun x => x.1 == n) = true := by
      unfold kidAt at h
      cases hf : c.kids.find? (fun x => x.1 == n) with
      | none => rw [hf] at h; cases h
      | some y =>
        rw [List.any_eq_true]
        exact ⟨y, List.mem_of_find?_eq_some hf, by have := List.find?_some hf; simpa using this⟩
    rw [if_pos hany]
    unfold NHeap.at
    rw [cell_set (cell_lt hc)]
    by_cases e : q = p
    · subst e
      rw [if_pos rfl, hc]
      dsimp only
      rw [kidAt_childInsert]
      by_cases e' : m = n
      · subst e'; simp
      · rw [if_neg (fun h => e' h.symm), if_neg (fun h => e' h.2)]
    · rw [if_neg e, if_neg (fun h => e h.1)]

/-- the tree as it was read, before the links -/
structure Read70 (h0 : NHeap) (i b : Nat) (f : Forest) : Prop where
  top : i < b
  kids : Kids70 h0 i b f
  tree : TreeAt h0 i f

theorem Read70.shown {h0 : NHeap} {i b p : Nat} {f : Forest} (R : Read70 h0 i b f) {d : List (List Char)} {n : List Char}
    (hp : foldPath h0.at i d = some p) :
    (h0.at p n).map (fun j => (h0.cell j).map fun c => (c.name, c.kind)) = (Spec.Forest.showsAt f (d ++ [n])).map some := by
  have := R.tree (d ++ [n]) (by simp)
  rw [fold_snoc, hp] at this
  exact this

theorem Read70.nothing {h0 : NHeap} {i b p : Nat} {f : Forest} (R : Read70 h0 i b f) {d : List (List Char)} {n : List Char}
    (hp : foldPath h0.at i d = some p) (hl : f.places (d ++ [n]) = none) : h0.at p n = none := by
  have := R.shown (n := n) hp
  unfold Forest.places at hl
  rw [Option.map_eq_none_iff] at hl
  rw [hl] at this
  cases hx : h0.at p n with
  | none => rfl
  | some x => rw [hx] at this; cases this

theorem Read70.something {h0 : NHeap} {i b p : Nat} {f : Forest} (R : Read70 h0 i b f) {d : List (List Char)} {n : List Char}
    {v : Option (List Char)} (hp : foldPath h0.at i d = some p) (hl : f.places (d ++ [n]) = some v) :
    ∃ x c, h0.at p n = some x ∧ h0.cell x = some c ∧ c.name = n ∧ c.parent = some p ∧ b ≤ x ∧
      (∀ s, v = some s → c.kind = .uol (some s)) := by
  have h1 := R.shown (n := n) hp
  unfold Forest.places at hl
  rw [Option.map_eq_some_iff] at hl
  obtain ⟨y, hy, hv⟩ := hl
  rw [hy] at h1
  cases hx : h0.at p n with
  | none => rw [hx] at h1; cases h1
  | some x =>
    rw [hx] at h1
    obtain ⟨b', f', hb, K⟩ := kids70_walk d R.kids hp
    obtain ⟨k, ks, _, a1, a2, _⟩ := kids70_child K hx
    rw [Option.map_some, Option.map_some, a2] at h1
    simp only [Option.map_some, Option.some.injEq] at h1
    subst h1
    refine ⟨x, _, rfl, a2, rfl, rfl, by omega, ?_⟩
    rintro s rfl
    dsimp only at hv ⊢
    split at hv
    · rw [hv]
    · cases hv

theorem Read70.child {h0 : NHeap} {i b p x : Nat} {f : Forest} (R : Read70 h0 i b f) {d : List (List Char)} {n : List Char}
    (hp : foldPath h0.at i d = some p) (hx : h0.at p n = some x) :
    ∃ c, h0.cell x = some c ∧ c.name = n ∧ c.parent = some p ∧ b ≤ x ∧
      (∀ s, c.kind = .uol (some s) → f.places (d ++ [n]) = some (some s)) := by
  have h1 := R.shown (n := n) hp
  obtain ⟨b', f', hb, K⟩ := kids70_walk d R.kids hp
  obtain ⟨k, ks, _, a1, a2, _⟩ := kids70_child K hx
  refine ⟨_, a2, rfl, rfl, by omega, ?_⟩
  intro s hs
  dsimp only at hs
  subst hs
  rw [hx, Option.map_some, a2, Option.map_some] at h1
  unfold Forest.places
  cases hy : Spec.Forest.showsAt f (d ++ [n]) with
  | none => rw [hy] at h1; cases h1
  | some y =>
    rw [hy] at h1
    simp only [Option.map_some, Option.some.injEq] at h1
    subst h1
    rfl

/-- the tree while the links are followed; those in `S` are done -/
structure Resolved70 (h0 : NHeap) (i : Nat) (f : Forest) (S : Nat → Prop) (g : NHeap) : Prop where
  heads : SameHeads h0 g
  plain : ∀ d p n, foldPath h0.at i d = some p → (∀ s, f.places (d ++ [n]) ≠ some (some s)) → g.at p n = h0.at p n
  link : ∀ d p n s us u r, foldPath h0.at i d = some p → f.places (d ++ [n]) = some (some s) → Pieces s us →
    h0.at p n = some u → LinkWay f.places d us r →
    (S u → g.at p n = match r with
      | some t => foldPath h0.at i t
      | none => some u) ∧ (¬ S u → g.at p n = some u)

theorem sameHeads_cell {h g : NHeap} (H : SameHeads h g) {x : Nat} {c : NCell} (hc : h.cell x = some c) :
    ∃ c', g.cell x = some c' ∧ c'.name = c.name ∧ c'.kind = c.kind ∧ c'.parent = c.parent := by
  have := H x
  rw [hc] at this
  cases hg : g.cell x with
  | none => rw [hg] at this; cases this
  | some c' =>
    rw [hg] at this
    simp only [Option.map_some, Option.some.injEq, NCell.head, Prod.mk.injEq] at this
    exact ⟨c', rfl, this⟩

theorem Read70.up {h0 g : NHeap} {i b p x : Nat} {f : Forest} (R : Read70 h0 i b f) (H : SameHeads h0 g) {d : List (List Char)}
    (hp : foldPath h0.at i d = some p) {c : NCell} (hx : h0.cell x = some c) (hpar : c.parent = some p) : g.up x = some p := by
  obtain ⟨c', h1, _, _, h2⟩ := sameHeads_cell H hx
  obtain ⟨b', f', _, ⟨cp, hcp, _⟩, _⟩ := kids70_walk d R.kids hp
  obtain ⟨cp', h3, _⟩ := sameHeads_cell H hcp
  unfold NHeap.up
  rw [h1]
  dsimp only
  rw [h2, hpar]
  dsimp only
  rw [h3]

/-- the way of a link, in the tree as it is at that time -/
theorem way_fold {h0 g : NHeap} {i b : Nat} {f : Forest} {S : Nat → Prop} (R : Read70 h0 i b f) (G : Resolved70 h0 i f S g)
    {d us : List (List Char)} {r : Option (List (List Char))} (W : LinkWay f.places d us r) : ∀ {p : Nat}, foldPath h0.at i d = some p →
    foldPath (g.uolStep (some i)) p us = r.bind (foldPath h0.at i) ∧ ∀ t, r = some t → ∃ x, foldPath h0.at i t = some x := by
  induction W with
  | done d =>
    intro p hp
    exact ⟨hp.symm, fun t ht => by cases ht; exact ⟨p, hp⟩⟩
  | up d x us r _ ih =>
    intro p hp
    rw [fold_snoc] at hp
    cases hq : foldPath h0.at i d with
    | none => rw [hq] at hp; cases hp
    | some q =>
      rw [hq] at hp
      obtain ⟨c, h1, h2, h3, h4, _⟩ := R.child hq hp
      have hpi : ¬ some p = some i := by
        intro e
        cases e
        have := R.top
        omega
      have hst : g.uolStep (some i) p "..".toList = some q := by
        unfold NHeap.uolStep NHeap.atRel
        rw [if_neg hpi, if_pos (by decide)]
        exact R.up G.heads hq h1 h3
      simp only [foldPath]
      rw [hst]
      exact ih hq
  | down d n us r hn hl _ ih =>
    intro p hp
    obtain ⟨x, c, h1, h2, h3, h4, h5, _⟩ := R.something hp hl
    have hg := G.plain d p n hp (by intro s; rw [hl]; simp)
    have hst : g.uolStep (some i) p n = some x := by
      unfold NHeap.uolStep NHeap.atRel
      split
      · rw [hg, h1]
      · rename_i hpi
        rw [if_neg, hg, h1]
        intro e
        have hd := hn (by rw [e]; decide)
        subst hd
        cases hp
        exact hpi rfl
    simp only [foldPath]
    rw [hst]
    exact ih (by rw [fold_snoc, hp]; exact h1)
  | missing d n us hn hl =>
    intro p hp
    have h1 := R.nothing hp hl
    have hg := G.plain d p n hp (by intro s; rw [hl]; simp)
    have hst : g.uolStep (some i) p n = none := by
      unfold NHeap.uolStep NHeap.atRel
      split
      · rw [hg, h1]
      · rename_i hpi
        rw [if_neg, hg, h1]
        intro e
        have hd := hn (by rw [e]; decide)
        subst hd
        cases hp
        exact hpi rfl
    simp only [foldPath]
    rw [hst]
    exact ⟨rfl, fun t ht => by cases ht⟩

theorem resolve_one {h0 g : NHeap} {i b u : Nat} {f : Forest} {S : Nat → Prop} (R : Read70 h0 i b f) (D : DirectLinks f.places)
    (G : Resolved70 h0 i f S g) {d : List (List Char)} {p : Nat} {n : List Char} {c : NCell} (hp : foldPath h0.at i d = some p)
    (hu : h0.at p n = some u) (hc : h0.cell u = some c) (hk : c.kind.isUol = true) :
    ∃ g', g.resolveUol (some i) u = .ok g' ∧ Resolved70 h0 i f (fun x => S x ∨ x = u) g' := by
  obtain ⟨c0, a1, a2, a3, a4, a5⟩ := R.child hp hu
  rw [hc] at a1
  cases a1
  have hup := R.up G.heads hp hc a3
  obtain ⟨⟨cn, ck, cp, cks⟩, b1, b2, b3, b4⟩ := sameHeads_cell G.heads hc
  dsimp only at b2 b3 b4
  subst b2 b3 b4
  -- every place of a link `u` is this one
  have uniq : ∀ d' p' n', foldPath h0.at i d' = some p' → h0.at p' n' = some u → p' = p ∧ n' = n := by
    intro d' p' n' hp' hu'
    obtain ⟨c1, e1, e2, e3, _⟩ := R.child hp' hu'
    rw [hc] at e1
    cases e1
    rw [a3] at e3
    cases e3
    exact ⟨rfl, e2.symm.trans a2⟩
  cases hck : c.kind with
  | uol t =>
    cases t with
    | none =>
      refine ⟨g, ?_, G.heads, G.plain, fun d' p' n' s us u' r hp' hl hs hu' W => ⟨fun hS => ?_, fun hS => ?_⟩⟩
      · unfold NHeap.resolveUol
        rw [hup, b1, hck]
      · rcases hS with hS | rfl
        · exact (G.link d' p' n' s us u' r hp' hl hs hu' W).1 hS
        · obtain ⟨x, c1, e1, e2, _, _, _, e3⟩ := R.something hp' hl
          rw [hu'] at e1
          cases e1
          rw [hc] at e2
          cases e2
          have := e3 s rfl
          rw [hck] at this
          cases this
      · exact (G.link d' p' n' s us u' r hp' hl hs hu' W).2 (fun h => hS (.inl h))
    | some s =>
      have hl := a5 s hck
      obtain ⟨us, hs⟩ : ∃ us, Pieces s us := ⟨_, pieces_iff.2 rfl⟩
      obtain ⟨r, W⟩ := D d n s us hl hs
      obtain ⟨w1, w2⟩ := way_fold R G W hp
      have htgt : g.uolTarget (some i) u s = r.bind (foldPath h0.at i) := by
        unfold NHeap.uolTarget NHeap.atRel
        rw [if_pos rfl, hup]
        dsimp only
        rw [pieces_iff.1 hs]
        exact w1
      have hat : ∃ v, g.at p n = some v := by
        by_cases hS : S u
        · have := (G.link d p n s us u r hp hl hs hu W).1 hS
          cases r with
          | none => exact ⟨u, this⟩
          | some t =>
            obtain ⟨x, hx⟩ := w2 t rfl
            exact ⟨x, this.trans hx⟩
        · exact ⟨u, (G.link d p n s us u r hp hl hs hu W).2 hS⟩
      -- the text of the link at this place
      have text : ∀ d' s', foldPath h0.at i d' = some p → f.places (d' ++ [n]) = some (some s') → s' = s := by
        intro d' s' hp' hl'
        obtain ⟨x, c1, e1, e2, _, _, _, e3⟩ := R.something hp' hl'
        rw [hu] at e1
        cases e1
        rw [hc] at e2
        cases e2
        have := e3 s' rfl
        rw [hck] at this
        cases this
        rfl
      cases r with
      | none =>
        refine ⟨g, ?_, G.heads, G.plain, fun d' p' n' s' us' u' r' hp' hl' hs' hu' W' => ⟨fun hS => ?_, fun hS => ?_⟩⟩
        · unfold NHeap.resolveUol
          rw [hup, b1, hck]
          dsimp only
          rw [htgt]
          rfl
        · by_cases hS' : S u'
          · exact (G.link d' p' n' s' us' u' r' hp' hl' hs' hu' W').1 hS'
          · rcases hS with hS | rfl
            · exact absurd hS hS'
            · obtain ⟨rfl, rfl⟩ := uniq d' p' n' hp' hu'
              have := text d' s' hp' hl'
              subst this
              have : us' = us := (pieces_iff.1 hs').symm.trans (pieces_iff.1 hs)
              subst this
              obtain ⟨w3, w4⟩ := way_fold R G W' hp'
              rw [w1] at w3
              cases r' with
              | none => exact (G.link d' p' n' s' us' u' none hp' hl' hs' hu' W').2 hS'
              | some t =>
                obtain ⟨x, hx⟩ := w4 t rfl
                simp only [Option.bind_none, Option.bind_some] at w3
                rw [hx] at w3
                cases w3
        · exact (G.link d' p' n' s' us' u' r' hp' hl' hs' hu' W').2 (fun h => hS (.inl h))
      | some t =>
        obtain ⟨x, hx⟩ := w2 t rfl
        obtain ⟨v, hv⟩ := hat
        simp only [Option.bind_some] at htgt w1
        rw [hx] at htgt
        refine ⟨g.replaceKid p n x, ?_, ?_, fun d' p' n' hp' hn => ?_,
          fun d' p' n' s' us' u' r' hp' hl' hs' hu' W' => ?_⟩
        · unfold NHeap.resolveUol
          rw [hup, b1, hck]
          dsimp only
          rw [htgt]
          dsimp only
          rw [a2]
        · intro y
          rw [replaceKid_heads g p x n y]
          exact G.heads y
        · rw [at_replaceKid hv, if_neg]
          · exact G.plain d' p' n' hp' hn
          · rintro ⟨rfl, rfl⟩
            obtain ⟨c1, e1, _, _, _, e2⟩ := R.child hp' hu
            rw [hc] at e1
            cases e1
            exact hn s (e2 s hck)
        · by_cases e : p' = p ∧ n' = n
          · obtain ⟨rfl, rfl⟩ := e
            rw [hu] at hu'
            cases hu'
            have := text d' s' hp' hl'
            subst this
            have : us' = us := (pieces_iff.1 hs').symm.trans (pieces_iff.1 hs)
            subst this
            refine ⟨fun _ => ?_, fun hS => absurd (.inr rfl) hS⟩
            rw [at_replaceKid hv, if_pos ⟨rfl, rfl⟩]
            obtain ⟨w3, w4⟩ := way_fold R G W' hp'
            rw [w1, hx] at w3
            cases r' with
            | none => cases w3
            | some t' => exact w3
          · have hne : u' ≠ u := by
              rintro rfl
              exact e (uniq d' p' n' hp' hu')
            rw [at_replaceKid hv, if_neg e]
            obtain ⟨l1, l2⟩ := G.link d' p' n' s' us' u' r' hp' hl' hs' hu' W'
            refine ⟨fun hS => l1 ?_, fun hS => l2 (fun h => hS (.inl h))⟩
            rcases hS with hS | hS
            · exact hS
            · exact absurd hS hne
  | _ => rw [hck] at hk; cases hk

theorem resolve_all {h0 : NHeap} {i b : Nat} {f : Forest} (R : Read70 h0 i b f) (D : DirectLinks f.places) :
    ∀ (us : List Nat) (g : NHeap) (S : Nat → Prop), Resolved70 h0 i f S g →
    (∀ u ∈ us, ∃ d p n c, foldPath h0.at i d = some p ∧ h0.at p n = some u ∧ h0.cell u = some c ∧ c.kind.isUol = true) →
    ∃ g', NHeap.resolveUols (some i) g us = .ok g' ∧ Resolved70 h0 i f (fun x => S x ∨ x ∈ us) g'
  | [], g, S, G, _ => ⟨g, rfl, by simpa using G⟩
  | u :: us, g, S, G, hu => by
    obtain ⟨d, p, n, c, h1, h2, h3, h4⟩ := hu u (by simp)
    obtain ⟨g1, h5, G1⟩ := resolve_one R D G h1 h2 h3 h4
    obtain ⟨g2, h6, G2⟩ := resolve_all R D us g1 _ G1 (fun u' hu' => hu u' (by simp [hu']))
    refine ⟨g2, ?_, ?_⟩
    · unfold NHeap.resolveUols
      rw [h5]
      exact h6
    · have : (fun x => (S x ∨ x = u) ∨ x ∈ us) = fun x => S x ∨ x ∈ u :: us := by
        funext x
        simp only [List.mem_cons, or_assoc]
      rw [← this]
      exact G2

/-! ### the tree with its links -/

/-- one node for each place, and the children of each -/
structure LinkNodes (h : NHeap) (i : Nat) (f : Forest) (node : List (List Char) → Nat) : Prop where
  top : node [] = i
  cells : ∀ t x, t ≠ [] → Spec.Forest.showsAt f t = some x → ∃ c, h.cell (node t) = some c ∧ c.name = x.1 ∧ c.kind = x.2
  nothing : ∀ d n, d = [] ∨ (∃ v, f.places d = some v) → f.places (d ++ [n]) = none → h.at (node d) n = none
  value : ∀ d n, d = [] ∨ (∃ v, f.places d = some v) → f.places (d ++ [n]) = some none →
    h.at (node d) n = some (node (d ++ [n]))
  link : ∀ d n s us t, d = [] ∨ (∃ v, f.places d = some v) → f.places (d ++ [n]) = some (some s) → Pieces s us →
    LinkWay f.places d us (some t) → h.at (node d) n = some (node t)
  dead : ∀ d n s us, d = [] ∨ (∃ v, f.places d = some v) → f.places (d ++ [n]) = some (some s) → Pieces s us →
    LinkWay f.places d us none → h.at (node d) n = some (node (d ++ [n]))

theorem places_some {f : Forest} {d : List (List Char)} {v : Option (List Char)} (h : f.places d = some v) :
    ∃ x, Spec.Forest.showsAt f d = some x := by
  unfold Forest.places at h
  rw [Option.map_eq_some_iff] at h
  obtain ⟨x, hx, _⟩ := h
  exact ⟨x, hx⟩

theorem some_places {f : Forest} {d : List (List Char)} {x : List Char × NKind} (h : Spec.Forest.showsAt f d = some x) :
    ∃ v, f.places d = some v := by
  unfold Forest.places
  rw [h]
  exact ⟨_, rfl⟩

theorem Read70.place {h0 : NHeap} {i b : Nat} {f : Forest} (R : Read70 h0 i b f) {d : List (List Char)}
    (hd : d = [] ∨ ∃ v, f.places d = some v) : ∃ p, foldPath h0.at i d = some p := by
  by_cases hne : d = []
  · subst hne; exact ⟨i, rfl⟩
  · rcases hd with hd | ⟨v, hv⟩
    · exact absurd hd hne
    · obtain ⟨x, hx⟩ := places_some hv
      have := R.tree d hne
      rw [hx] at this
      cases hf : foldPath h0.at i d with
      | none => rw [hf] at this; cases this
      | some p => exact ⟨p, rfl⟩

theorem resolved_nodes {h0 g : NHeap} {i b : Nat} {f : Forest} {S : Nat → Prop} (R : Read70 h0 i b f)
    (G : Resolved70 h0 i f S g) (hS : ∀ d p n s u, foldPath h0.at i d = some p → f.places (d ++ [n]) = some (some s) →
      h0.at p n = some u → S u) : LinkNodes g i f (fun d => (foldPath h0.at i d).getD 0) := by
  refine ⟨rfl, ?_, ?_, ?_, ?_, ?_⟩
  · intro t x hne hx
    have := R.tree t hne
    rw [hx] at this
    cases hf : foldPath h0.at i t with
    | none => rw [hf] at this; cases this
    | some p =>
      rw [hf] at this
      cases hc : h0.cell p with
      | none => rw [Option.map_some, hc] at this; cases this
      | some c =>
        rw [Option.map_some, hc] at this
        simp only [Option.map_some, Option.some.injEq] at this
        subst this
        obtain ⟨c', h1, h2, h3, _⟩ := sameHeads_cell G.heads hc
        exact ⟨c', h1, h2, h3⟩
  · intro d n hd hl
    obtain ⟨p, hp⟩ := R.place hd
    rw [hp, Option.getD_some, G.plain d p n hp (by intro s; rw [hl]; simp)]
    exact R.nothing hp hl
  · intro d n hd hl
    obtain ⟨p, hp⟩ := R.place hd
    obtain ⟨x, c, h1, _⟩ := R.something hp hl
    rw [hp, Option.getD_some, G.plain d p n hp (by intro s; rw [hl]; simp), fold_snoc, hp, Option.bind_some, h1]
    rfl
  · intro d n s us t hd hl hs W
    obtain ⟨p, hp⟩ := R.place hd
    obtain ⟨u, c, h1, _⟩ := R.something hp hl
    obtain ⟨_, w⟩ := way_fold R G W hp
    obtain ⟨x, hx⟩ := w t rfl
    have := (G.link d p n s us u (some t) hp hl hs h1 W).1 (hS d p n s u hp hl h1)
    dsimp only at this
    rw [hp, Option.getD_some, this, hx]
    rfl
  · intro d n s us hd hl hs W
    obtain ⟨p, hp⟩ := R.place hd
    obtain ⟨u, c, h1, _⟩ := R.something hp hl
    have := (G.link d p n s us u none hp hl hs h1 W).1 (hS d p n s u hp hl h1)
    dsimp only at this
    rw [hp, Option.getD_some, this, fold_snoc, hp, Option.bind_some, h1]
    rfl

/-- where a way ends there is something -/
theorem way_there {look : Places} {d us : List (List Char)} {r : Option (List (List Char))} (W : LinkWay look d us r)
    (hpre : ∀ d x v, look (d ++ [x]) = some v → d = [] ∨ ∃ w, look d = some w) :
    ∀ t, r = some t → (d = [] ∨ ∃ v, look d = some v) → t = [] ∨ ∃ v, look t = some v := by
  induction W with
  | done d => intro t ht hd; cases ht; exact hd
  | up d x us r _ ih =>
    intro t ht hd
    refine ih t ht ?_
    rcases hd with hd | ⟨v, hv⟩
    · simp at hd
    · exact hpre d x v hv
  | down d n us r _ hl _ ih => intro t ht _; exact ih t ht (.inr ⟨_, hl⟩)
  | missing d n us _ _ => intro t ht _; cases ht

theorem showsAt_prefix : ∀ (d : List (List Char)) (f : Forest) (n : List Char) (x : List Char × NKind), d ≠ [] →
    Spec.Forest.showsAt f (d ++ [n]) = some x → ∃ y, Spec.Forest.showsAt f d = some y
  | [], _, _, _, h, _ => absurd rfl h
  | [a], f, n, x, _, h => by
    simp only [List.cons_append, List.nil_append, Spec.Forest.showsAt] at h ⊢
    cases hs : Spec.Forest.shows f a with
    | none => rw [hs] at h; cases h
    | some y => exact ⟨_, rfl⟩
  | a :: b :: d, f, n, x, _, h => by
    simp only [List.cons_append, Spec.Forest.showsAt] at h ⊢
    cases hs : Spec.Forest.shows f a with
    | none => rw [hs] at h; cases h
    | some y =>
      rw [hs] at h
      exact showsAt_prefix (b :: d) y.2 n x (by simp) h

theorem places_prefix {f : Forest} : ∀ d x v, f.places (d ++ [x]) = some v → d = [] ∨ ∃ w, f.places d = some w := by
  intro d x v h
  by_cases hne : d = []
  · exact .inl hne
  · obtain ⟨y, hy⟩ := places_some h
    obtain ⟨z, hz⟩ := showsAt_prefix d f x y hne hy
    exact .inr (some_places hz)

theorem nodes_fold {h : NHeap} {i : Nat} {f : Forest} {node : List (List Char) → Nat} (L : LinkNodes h i f node)
    {d ns : List (List Char)} {r : Option (List (List Char))} (V : SeenAt f.places d ns r) :
    (d = [] ∨ ∃ v, f.places d = some v) → foldPath h.at (node d) ns = r.map node ∧
      ∀ t, r = some t → t = [] ∨ ∃ v, f.places t = some v := by
  induction V with
  | here d => intro hd; exact ⟨rfl, fun t ht => by cases ht; exact hd⟩
  | missing d n ns hl =>
    intro hd
    simp only [foldPath]
    rw [L.nothing d n hd hl]
    exact ⟨rfl, fun t ht => by cases ht⟩
  | plain d n ns r hl _ ih =>
    intro hd
    simp only [foldPath]
    rw [L.value d n hd hl]
    exact ih (.inr ⟨_, hl⟩)
  | link d n ns s us t r hl hs W _ ih =>
    intro hd
    simp only [foldPath]
    rw [L.link d n s us t hd hl hs W]
    exact ih (way_there W places_prefix t rfl hd)
  | dead d n ns s us r hl hs W _ ih =>
    intro hd
    simp only [foldPath]
    rw [L.dead d n s us hd hl hs W]
    exact ih (.inr ⟨_, hl⟩)

/-- reading a node that has no children: the tree below it with its links -/
theorem parse_reads_links {content : Content} {h : NHeap} {i s : Nat} {c : NCell} {f : Forest}
    (hc : h.cell i = some c) (hk : ReadsFrom c.kind s) (hs : content s = .ok f) (hkids : c.kids = [])
    (hd : Spec.Forest.Distinct f) (hl : DirectLinks f.places) :
    ∃ g node, h.parse content i = (.ok (), g) ∧ LinkNodes g i f node ∧ ∃ c', g.cell i = some c' ∧ c'.name = c.name ∧
      c'.kind = parsedKind c.kind := by
  have hpl := parsedKind_plan hk hs
  let c1 : NCell := { c with kind := parsedKind c.kind, kids := childInsertAll c.kids (f.roots h.length) }
  have hcell : (fresh h i c1 f).cell i = some c1 := by rw [fresh_old (cell_lt hc) (cell_lt hc), if_pos rfl]
  have hkids' : ∃ c, (fresh h i c1 f).cell i = some c ∧ c.kids = childInsertAll [] (f.roots h.length) :=
    ⟨_, hcell, by show childInsertAll c.kids _ = _; rw [hkids]⟩
  have K : Kids70 (fresh h i c1 f) i h.length f := ⟨hkids', placed_fresh f⟩
  have R : Read70 (fresh h i c1 f) i h.length f :=
    ⟨cell_lt hc, K, fun ns hne => placed_path ns i h.length f hne hkids' (placed_fresh f)⟩
  have G0 : Resolved70 (fresh h i c1 f) i f (fun _ => False) (fresh h i c1 f) :=
    ⟨fun _ => rfl, fun _ _ _ _ _ => rfl, fun d p n s us u r _ _ _ hu _ => ⟨fun h => h.elim, fun _ => hu⟩⟩
  have hall : ∀ u ∈ f.uols h.length, ∃ d p n c, foldPath (fresh h i c1 f).at i d = some p ∧ (fresh h i c1 f).at p n = some u ∧
      (fresh h i c1 f).cell u = some c ∧ c.kind.isUol = true := by
    intro u hu
    obtain ⟨n, d, j, h1, h2, c2, h3, h4⟩ := uols_placed f i h.length (placed_fresh f) hd hu
    have hf : foldPath (fresh h i c1 f).at i (n :: d) = some u := by
      simp only [foldPath]
      rw [kids70_at K, h1]
      exact h2
    obtain ⟨d', n', hdn⟩ : ∃ d' n', n :: d = d' ++ [n'] :=
      ⟨(n :: d).dropLast, (n :: d).getLast (by simp), (List.dropLast_concat_getLast (by simp)).symm⟩
    rw [hdn, fold_snoc] at hf
    cases hp : foldPath (fresh h i c1 f).at i d' with
    | none => rw [hp] at hf; cases hf
    | some p =>
      rw [hp] at hf
      exact ⟨d', p, n', c2, hp, hf, h3, h4⟩
  obtain ⟨g, hg, G⟩ := resolve_all R hl (f.uols h.length) _ _ G0 hall
  refine ⟨g, _, ?_, resolved_nodes R G ?_, ?_⟩
  · rw [parse_eq hc, hpl]
    dsimp only
    rw [show NHeap.resolveUols (some i) (fresh h i { c with kind := parsedKind c.kind, kids := childInsertAll c.kids (f.roots h.length) } f)
      (f.uols h.length) = .ok g from hg]
  · intro d p n s u hp hpl hu
    right
    obtain ⟨x, c2, e1, e2, _, _, _, e3⟩ := R.something hp hpl
    rw [hu] at e1
    cases e1
    have hf : foldPath (fresh h i c1 f).at i (d ++ [n]) = some u := by rw [fold_snoc, hp]; exact hu
    have hisu : c2.kind.isUol = true := by rw [e3 s rfl]; rfl
    cases hdn : d ++ [n] with
    | nil => simp at hdn
    | cons m ms =>
      rw [hdn] at hf
      simp only [foldPath] at hf
      rw [kids70_at K] at hf
      cases hx : lastOf (f.roots h.length) m with
      | none => rw [hx] at hf; cases hf
      | some x =>
        rw [hx] at hf
        exact placed_uols e2 hisu f i h.length x m ms (placed_fresh f) hx hf
  · obtain ⟨c', h1, h2, h3, _⟩ := sameHeads_cell G.heads hcell
    exact ⟨c', h1, h2, h3⟩

/-! ### images -/

theorem all_showsAt70 {P : NKind → Prop} : ∀ (d : List (List Char)) (f : Forest) (x : List Char × NKind), Spec.Forest.All P f →
    Spec.Forest.showsAt f d = some x → P x.2 := by
  have one : ∀ (f : Forest) (n : List Char) (k : NKind) (ks : Forest), Spec.Forest.All P f → Spec.Forest.shows f n = some (k, ks) →
      P k ∧ Spec.Forest.All P ks := by
    intro f
    induction f with
    | nil => intro n k ks _ h; cases h
    | node m k' ks' rest _ ih =>
      intro n k ks ha h
      obtain ⟨a1, a2, a3⟩ := ha
      simp only [Spec.Forest.shows] at h
      cases hr : Spec.Forest.shows rest n with
      | some y => rw [hr] at h; cases h; exact ih n k ks a3 hr
      | none =>
        rw [hr] at h
        dsimp only at h
        split at h
        · cases h; exact ⟨a1, a2⟩
        · cases h
  intro d
  induction d with
  | nil => intro f x _ h; cases h
  | cons n d ih =>
    intro f x ha h
    cases d with
    | nil =>
      simp only [Spec.Forest.showsAt] at h
      cases hs : Spec.Forest.shows f n with
      | none => rw [hs] at h; cases h
      | some y =>
        rw [hs] at h
        cases h
        exact (one f n y.1 y.2 ha hs).1
    | cons m d =>
      simp only [Spec.Forest.showsAt] at h
      cases hs : Spec.Forest.shows f n with
      | none => rw [hs] at h; cases h
      | some y =>
        rw [hs] at h
        exact ih y.2 x (one f n y.1 y.2 ha hs).2 h

/-- without links it is a tree -/
theorem treeAt_nodes {h : NHeap} {i : Nat} {f : Forest} (T : TreeAt h i f) (hl : Spec.Forest.All NoLink f) :
    ∃ node, LinkNodes h i f node := by
  have hno : ∀ d s, f.places d ≠ some (some s) := by
    intro d s hd
    unfold Forest.places at hd
    rw [Option.map_eq_some_iff] at hd
    obtain ⟨x, hx, hs⟩ := hd
    have := all_showsAt70 d f x hl hx
    split at hs
    · rename_i t ht
      exact this t ht
    · cases hs
  have there : ∀ d, d = [] ∨ (∃ v, f.places d = some v) → ∃ p, foldPath h.at i d = some p := by
    intro d hd
    by_cases hne : d = []
    · subst hne; exact ⟨i, rfl⟩
    · rcases hd with hd | ⟨v, hv⟩
      · exact absurd hd hne
      · obtain ⟨x, hx⟩ := places_some hv
        have := T d hne
        rw [hx] at this
        cases hf : foldPath h.at i d with
        | none => rw [hf] at this; cases this
        | some p => exact ⟨p, rfl⟩
  refine ⟨fun d => (foldPath h.at i d).getD 0, rfl, ?_, ?_, ?_, fun d n s us t _ hs => absurd hs (hno _ _),
    fun d n s us _ hs => absurd hs (hno _ _)⟩
  · intro t x hne hx
    have := T t hne
    rw [hx] at this
    cases hf : foldPath h.at i t with
    | none => rw [hf] at this; cases this
    | some p =>
      rw [hf] at this
      cases hc : h.cell p with
      | none => rw [Option.map_some, hc] at this; cases this
      | some c =>
        rw [Option.map_some, hc] at this
        simp only [Option.map_some, Option.some.injEq] at this
        subst this
        exact ⟨c, hc, rfl, rfl⟩
  · intro d n hd hl
    obtain ⟨p, hp⟩ := there d hd
    rw [hp, Option.getD_some]
    have := T (d ++ [n]) (by simp)
    rw [fold_snoc, hp] at this
    unfold Forest.places at hl
    rw [Option.map_eq_none_iff] at hl
    rw [hl] at this
    cases hx : h.at p n with
    | none => rfl
    | some x => rw [Option.bind_some, hx] at this; cases this
  · intro d n hd hl
    obtain ⟨p, hp⟩ := there d hd
    obtain ⟨q, hq⟩ := there (d ++ [n]) (.inr ⟨_, hl⟩)
    rw [hp, hq, Option.getD_some, Option.getD_some]
    rw [fold_snoc, hp] at hq
    exact hq

/-- what a read image is like: without links a tree, with links that can be followed a tree with links -/
def ImgAt (h : NHeap) (i : Nat) (f : Forest) : Prop :=
  (Spec.Forest.All NoLink f → TreeAt h i f) ∧
  (Spec.Forest.Distinct f → DirectLinks f.places → ∃ node, LinkNodes h i f node)

/-- the links of an image can be followed -/
def Followable (f : Forest) : Prop := Spec.Forest.All NoLink f ∨ (Spec.Forest.Distinct f ∧ DirectLinks f.places)

theorem ImgAt.nodes {h : NHeap} {i : Nat} {f : Forest} (I : ImgAt h i f) (hf : Followable f) : ∃ node, LinkNodes h i f node := by
  rcases hf with hl | ⟨h1, h2⟩
  · exact treeAt_nodes (I.1 hl) hl
  · exact I.2 h1 h2

theorem linkNodes_values {h g : NHeap} (hag : ∀ x c, h.cell x = some c → InImage c.kind → g.cell x = h.cell x) {i : Nat} {f : Forest}
    {node : List (List Char) → Nat} (L : LinkNodes h i f node) (A : Spec.Forest.All InImage f) (hi : g.cell i = h.cell i) :
    LinkNodes g i f node := by
  have same : ∀ d, d = [] ∨ (∃ v, f.places d = some v) → g.cell (node d) = h.cell (node d) := by
    intro d hd
    by_cases hne : d = []
    · subst hne; rw [L.top]; exact hi
    · rcases hd with hd | ⟨v, hv⟩
      · exact absurd hd hne
      · obtain ⟨x, hx⟩ := places_some hv
        obtain ⟨c, h1, _, h3⟩ := L.cells d x hne hx
        exact hag _ c h1 (by rw [h3]; exact all_showsAt70 d f x A hx)
  refine ⟨L.top, fun t x hne hx => ?_, fun d n hd hl => ?_, fun d n hd hl => ?_, fun d n s us t hd hl hs W => ?_,
    fun d n s us hd hl hs W => ?_⟩
  · obtain ⟨c, h1, h2⟩ := L.cells t x hne hx
    exact ⟨c, by rw [same t (.inr (some_places hx)), h1], h2⟩
  · rw [at_cell (same d hd)]; exact L.nothing d n hd hl
  · rw [at_cell (same d hd)]; exact L.value d n hd hl
  · rw [at_cell (same d hd)]; exact L.link d n s us t hd hl hs W
  · rw [at_cell (same d hd)]; exact L.dead d n s us hd hl hs W

/-- reading a node that has no children -/
theorem parse_reads_img {content : Content} {h : NHeap} {i s : Nat} {c : NCell} {f : Forest}
    (hc : h.cell i = some c) (hk : ReadsFrom c.kind s) (hs : content s = .ok f) (hkids : c.kids = [])
    (hf : Followable f) : ∃ g, h.parse content i = (.ok (), g) ∧ ImgAt g i f ∧ ∃ c', g.cell i = some c' ∧ c'.name = c.name ∧
      c'.kind = parsedKind c.kind := by
  by_cases hl : Spec.Forest.All NoLink f
  · obtain ⟨g, hg, T⟩ := parse_reads_tree hc hk hs hkids hl
    refine ⟨g, hg, ⟨fun _ => T, fun _ _ => treeAt_nodes T hl⟩, ?_⟩
    have := congrArg Prod.snd hg
    rw [parse_eq hc, parsedKind_plan hk hs] at this
    dsimp only at this
    rw [uols_linkFree f _ hl] at this
    dsimp only [NHeap.resolveUols] at this
    rw [← this, fresh_old (cell_lt hc) (cell_lt hc), if_pos rfl]
    exact ⟨_, rfl, rfl, rfl⟩
  · rcases hf with hf | ⟨h1, h2⟩
    · exact absurd hf hl
    · obtain ⟨g, node, hg, L, hcell⟩ := parse_reads_links hc hk hs hkids h1 h2
      exact ⟨g, hg, ⟨fun h => absurd h hl, fun _ _ => ⟨node, L⟩⟩, hcell⟩

/-! ### where paths lead -/

/-- from every place every path leads somewhere or nowhere -/
theorem seen_total {look : Places} (D : DirectLinks look) : ∀ (ns d : List (List Char)), ∃ r, SeenAt look d ns r
  | [], d => ⟨_, .here d⟩
  | n :: ns, d => by
    cases hl : look (d ++ [n]) with
    | none => exact ⟨_, .missing d n ns hl⟩
    | some v =>
      cases v with
      | none =>
        obtain ⟨r, hr⟩ := seen_total D ns (d ++ [n])
        exact ⟨r, .plain d n ns r hl hr⟩
      | some s =>
        obtain ⟨us, hs⟩ : ∃ us, Pieces s us := ⟨_, pieces_iff.2 rfl⟩
        obtain ⟨w, W⟩ := D d n s us hl hs
        cases w with
        | none =>
          obtain ⟨r, hr⟩ := seen_total D ns (d ++ [n])
          exact ⟨r, .dead d n ns s us r hl hs W hr⟩
        | some t =>
          obtain ⟨r, hr⟩ := seen_total D ns t
          exact ⟨r, .link d n ns s us t r hl hs W hr⟩

theorem linkWay_unique {look : Places} {d us : List (List Char)} {r : Option (List (List Char))} (W : LinkWay look d us r) :
    ∀ {r'}, LinkWay look d us r' → r = r' := by
  induction W with
  | done d => intro r' W'; cases W'; rfl
  | up d x us r _ ih =>
    intro r' W'
    generalize hd : d ++ [x] = d' at W'
    cases W' with
    | up d2 y _ _ W2 =>
      have := List.append_inj' hd rfl
      obtain ⟨rfl, _⟩ := this
      exact ih W2
    | down _ _ _ _ hn => have := hn rfl; subst this; simp at hd
    | missing _ _ _ hn => have := hn rfl; subst this; simp at hd
  | down d n us r hn hl _ ih =>
    intro r' W'
    cases W' with
    | up d2 y _ _ W2 => have := hn rfl; simp at this
    | down _ _ _ _ _ _ W2 => exact ih W2
    | missing _ _ _ _ hl2 => rw [hl] at hl2; cases hl2
  | missing d n us hn hl =>
    intro r' W'
    cases W' with
    | up d2 y _ _ W2 => have := hn rfl; simp at this
    | down _ _ _ _ _ hl2 => rw [hl] at hl2; cases hl2
    | missing => rfl

theorem pieces_unique70 {s : List Char} {a b : List (List Char)} (ha : Pieces s a) (hb : Pieces s b) : a = b :=
  (pieces_iff.1 ha).symm.trans (pieces_iff.1 hb)

theorem seen_unique {look : Places} {d ns : List (List Char)} {r : Option (List (List Char))} (V : SeenAt look d ns r) :
    ∀ {r'}, SeenAt look d ns r' → r = r' := by
  induction V with
  | here d => intro r' V'; cases V'; rfl
  | missing d n ns hl =>
    intro r' V'
    cases V' with
    | missing => rfl
    | plain _ _ _ _ h => rw [hl] at h; cases h
    | link _ _ _ _ _ _ _ h => rw [hl] at h; cases h
    | dead _ _ _ _ _ _ h => rw [hl] at h; cases h
  | plain d n ns r hl _ ih =>
    intro r' V'
    cases V' with
    | missing _ _ _ h => rw [hl] at h; cases h
    | plain _ _ _ _ _ V2 => exact ih V2
    | link _ _ _ _ _ _ _ h => rw [hl] at h; cases h
    | dead _ _ _ _ _ _ h => rw [hl] at h; cases h
  | link d n ns s us t r hl hs W _ ih =>
    intro r' V'
    cases V' with
    | missing _ _ _ h => rw [hl] at h; cases h
    | plain _ _ _ _ h => rw [hl] at h; cases h
    | link _ _ _ s2 us2 t2 _ h hs2 W2 V2 =>
      rw [hl] at h
      cases h
      have := pieces_unique70 hs hs2
      subst this
      have := linkWay_unique W W2
      cases this
      exact ih V2
    | dead _ _ _ s2 us2 _ h hs2 W2 =>
      rw [hl] at h
      cases h
      have := pieces_unique70 hs hs2
      subst this
      have := linkWay_unique W W2
      cases this
  | dead d n ns s us r hl hs W _ ih =>
    intro r' V'
    cases V' with
    | missing _ _ _ h => rw [hl] at h; cases h
    | plain _ _ _ _ h => rw [hl] at h; cases h
    | link _ _ _ s2 us2 t2 _ h hs2 W2 V2 =>
      rw [hl] at h
      cases h
      have := pieces_unique70 hs hs2
      subst this
      have := linkWay_unique W W2
      cases this
    | dead _ _ _ s2 us2 _ h hs2 W2 V2 => exact ih V2

theorem atPath_eq70 {h : NHeap} {i : Nat} {path : List Char} {ns : List (List Char)} (hp : Pieces path ns) :
    h.atPath i path = foldPath h.at i ns := by
  unfold NHeap.atPath
  rw [pieces_iff.1 hp]
  cases ns with
  | nil => exact absurd rfl hp.some
  | cons n ns =>
    rw [foldPath]

end Wz
