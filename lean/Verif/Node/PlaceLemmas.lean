import Verif.Node.PlaceSpec
import Verif.Node.HistoryLemmas

set_option autoImplicit false

namespace Wz

open Wz.Spec

/-! ### the places of a forest -/

/-- the places of the nodes of a forest, in the order of their numbers -/
def Forest.spots : Forest → List (List (List Char))
  | .nil => []
  | .node n _ ks rest => [n] :: (ks.spots.map (n :: ·) ++ rest.spots)

theorem places_length : ∀ f : Forest, f.spots.length = f.size
  | .nil => rfl
  | .node n k ks rest => by
    simp only [Forest.spots, Forest.size, List.length_cons, List.length_append, List.length_map, places_length ks, places_length rest]
    omega

theorem roots_at : ∀ (f : Forest) (p b : Nat) (live : Bool) (n : List Char) (j : Nat), (n, j) ∈ f.roots b →
    b ≤ j ∧ j < b + f.size ∧ ∀ d, (f.cells p b live)[j - b]? = some (some d) → d.name = n ∧ d.parent = some p
  | .nil, _, _, _, _, _, h => by cases h
  | .node m k ks rest, p, b, live, n, j, h => by
    simp only [Forest.roots, List.mem_cons] at h
    simp only [Forest.size]
    rcases h with h | h
    · cases h
      refine ⟨Nat.le_refl _, by omega, fun d hd => ?_⟩
      rw [Nat.sub_self] at hd
      simp only [Forest.cells, List.getElem?_cons_zero, Option.some.injEq] at hd
      split at hd
      · cases hd; exact ⟨rfl, rfl⟩
      · cases hd
    · obtain ⟨h1, h2, h3⟩ := roots_at rest p _ live n j h
      refine ⟨by omega, by omega, fun d hd => h3 d ?_⟩
      simp only [Forest.cells] at hd
      rw [show j - b = (j - (b + 1 + ks.size) + ks.size) + 1 by omega, List.getElem?_cons_succ,
        List.getElem?_append_right (by rw [cells_length]; omega), cells_length] at hd
      rw [show j - (b + 1 + ks.size) + ks.size - ks.size = j - (b + 1 + ks.size) by omega] at hd
      exact hd

/-- what is overwritten is dropped, except links -/
theorem cells_dead : ∀ (f : Forest) (p b : Nat) (x : Nat) (c : NCell), (f.cells p b false)[x]? = some (some c) → c.kind.isUol = true
  | .nil, _, _, _, _, h => by cases h
  | .node n k ks rest, p, b, x, c, h => by
    cases x with
    | zero =>
      simp only [Forest.cells, List.getElem?_cons_zero, Option.some.injEq, Bool.false_and, Bool.false_or] at h
      split at h
      · rename_i hk; cases h; exact hk
      · cases h
    | succ x =>
      simp only [Forest.cells, List.getElem?_cons_succ, Bool.false_and] at h
      by_cases hx : x < ks.size
      · rw [List.getElem?_append_left (by rw [cells_length]; exact hx)] at h
        exact cells_dead ks _ _ x c h
      · rw [List.getElem?_append_right (by rw [cells_length]; omega)] at h
        exact cells_dead rest _ _ _ c h

/-- what is known of the node with the number `x` of a forest -/
structure CellAt (f : Forest) (p b : Nat) (live : Bool) (x : Nat) (c : NCell) : Prop where
  has : ∃ ms, f.spots[x]? = some ms ∧ ForestHas f ms c.kind ∧
    ((c.parent = some p ∧ ms = [c.name]) ∨ ∃ y ms', c.parent = some (b + y) ∧ f.spots[y]? = some ms' ∧ ms = ms' ++ [c.name])
  kids : ∀ n j, (n, j) ∈ c.kids → b ≤ j ∧ j < b + f.size ∧
    ∀ d, (f.cells p b live)[j - b]? = some (some d) → d.name = n ∧ d.parent = some (b + x)

theorem cells_at : ∀ (f : Forest) (p b : Nat) (live : Bool) (x : Nat) (c : NCell), (f.cells p b live)[x]? = some (some c) →
    CellAt f p b live x c
  | .nil, _, _, _, _, _, h => by cases h
  | .node n k ks rest, p, b, live, x, c, h => by
    have hsz : (Forest.node n k ks rest).size = 1 + ks.size + rest.size := rfl
    cases x with
    | zero =>
      simp only [Forest.cells, List.getElem?_cons_zero, Option.some.injEq] at h
      split at h
      · rename_i hl
        have hl' : n ∉ rest.names ∨ k.isUol = true := by
          rw [Bool.or_eq_true, Bool.and_eq_true, Bool.not_eq_true'] at hl
          rcases hl with ⟨-, hl⟩ | hl
          · refine .inl fun hm => ?_
            rw [List.any_eq_false] at hl
            exact hl n hm (by simp)
          · exact .inr hl
        cases h
        refine ⟨⟨[n], rfl, .here _ _ _ _ hl', .inl ⟨rfl, rfl⟩⟩, fun m j hm => ?_⟩
        rcases mem_childInsertAll hm with hm | hm
        · cases hm
        · obtain ⟨h1, h2, h3⟩ := roots_at ks b (b + 1) (live && !(rest.names.any (· == n))) m j hm
          refine ⟨by omega, by omega, fun d hd => ?_⟩
          simp only [Forest.cells] at hd
          rw [show j - b = (j - (b + 1)) + 1 by omega, List.getElem?_cons_succ,
            List.getElem?_append_left (by rw [cells_length]; omega)] at hd
          exact h3 d hd
      · cases h
    | succ x =>
      simp only [Forest.cells, List.getElem?_cons_succ] at h
      by_cases hx : x < ks.size
      · rw [List.getElem?_append_left (by rw [cells_length]; exact hx)] at h
        obtain ⟨⟨ms, h1, h2, h3⟩, h4⟩ := cells_at ks b (b + 1) _ x c h
        have hp : ∀ (y : Nat) (ms' : List (List Char)), ks.spots[y]? = some ms' →
            (Forest.node n k ks rest).spots[y + 1]? = some (n :: ms') := by
          intro y ms' hy
          have hlt : y < ks.spots.length := (List.getElem?_eq_some_iff.mp hy).1
          simp only [Forest.spots, List.getElem?_cons_succ]
          rw [List.getElem?_append_left (by simpa using hlt), List.getElem?_map, hy]
          rfl
        have hl' : n ∉ rest.names ∨ c.kind.isUol = true := by
          by_cases hm : n ∈ rest.names
          · have hany : (rest.names.any (· == n)) = true := List.any_eq_true.mpr ⟨n, hm, by simp⟩
            rw [hany, Bool.not_true, Bool.and_false] at h
            exact .inr (cells_dead ks _ _ x c h)
          · exact .inl hm
        refine ⟨⟨n :: ms, hp x ms h1, .deeper _ _ _ _ _ _ hl' h2, ?_⟩, fun m j hm => ?_⟩
        · rcases h3 with ⟨e1, e2⟩ | ⟨y, ms', e1, e2, e3⟩
          · exact .inr ⟨0, [n], by rw [e1]; rfl, rfl, by rw [e2]; rfl⟩
          · exact .inr ⟨y + 1, n :: ms', by rw [e1]; congr 1; omega, hp y ms' e2, by rw [e3]; rfl⟩
        · obtain ⟨g1, g2, g3⟩ := h4 m j hm
          refine ⟨by omega, by omega, fun d hd => ?_⟩
          simp only [Forest.cells] at hd
          rw [show j - b = (j - (b + 1)) + 1 by omega, List.getElem?_cons_succ,
            List.getElem?_append_left (by rw [cells_length]; omega)] at hd
          obtain ⟨q1, q2⟩ := g3 d hd
          exact ⟨q1, by rw [q2]; congr 1; omega⟩
      · rw [List.getElem?_append_right (by rw [cells_length]; omega), cells_length] at h
        obtain ⟨⟨ms, h1, h2, h3⟩, h4⟩ := cells_at rest p (b + 1 + ks.size) live (x - ks.size) c h
        have hp : ∀ (y : Nat) (ms' : List (List Char)), rest.spots[y]? = some ms' →
            (Forest.node n k ks rest).spots[y + ks.size + 1]? = some ms' := by
          intro y ms' hy
          simp only [Forest.spots, List.getElem?_cons_succ]
          rw [List.getElem?_append_right (by rw [List.length_map, places_length]; omega), List.length_map, places_length,
            Nat.add_sub_cancel]
          exact hy
        refine ⟨⟨ms, ?_, .next _ _ _ _ _ _ h2, ?_⟩, fun m j hm => ?_⟩
        · have := hp _ _ h1
          rwa [Nat.sub_add_cancel (by omega)] at this
        · rcases h3 with ⟨e1, e2⟩ | ⟨y, ms', e1, e2, e3⟩
          · exact .inl ⟨e1, e2⟩
          · exact .inr ⟨y + ks.size + 1, ms', by rw [e1]; congr 1; omega, hp y ms' e2, e3⟩
        · obtain ⟨g1, g2, g3⟩ := h4 m j hm
          refine ⟨by omega, by omega, fun d hd => ?_⟩
          simp only [Forest.cells] at hd
          rw [show j - b = (j - (b + 1 + ks.size) + ks.size) + 1 by omega, List.getElem?_cons_succ,
            List.getElem?_append_right (by rw [cells_length]; omega), cells_length, Nat.add_sub_cancel] at hd
          obtain ⟨q1, q2⟩ := g3 d hd
          exact ⟨q1, by rw [q2]; congr 1; omega⟩

/-! ### sources -/

theorem Spec.HasSource.became {k k' : NKind} {s : Nat} (h : HasSource k s) (hb : Became k k') : HasSource k' s := by
  cases hb with
  | dir => cases h; exact .dir _ _ _
  | file => cases h; exact .file _ _
  | msFile => cases h; exact .msFile _ _
  | image => cases h; exact .image _ _
  | msImage => exact h
  | msRead => cases h; exact .image _ _
  | link => exact h
  | value => exact h

theorem Spec.ComesFrom.became {content : Content} {k0 k k' : NKind} {ns : List (List Char)} (h : ComesFrom content k0 ns k)
    (hb : Became k k') : ComesFrom content k0 ns k' := by
  cases h with
  | first _ h1 => exact .first _ (h1.trans hb)
  | given ns ms k1 k2 _ s f h1 h2 h3 h4 h5 => exact .given ns ms k1 k2 _ s f h1 h2 h3 h4 (h5.trans hb)

theorem plan_source {content : Content} {k k' : NKind} {f : Forest} (h : k.plan content = some (.ok (f, k'))) :
    f = .nil ∨ ∃ s, HasSource k s ∧ content s = .ok f := by
  cases k with
  | dir a b s =>
    simp only [NKind.plan] at h
    split at h
    · cases h
    · split at h
      · cases h; exact .inl rfl
      · cases hc : content s <;> rw [hc] at h <;> cases h
        exact .inr ⟨s, .dir _ _ _, hc⟩
  | file a s =>
    simp only [NKind.plan] at h
    split at h
    · cases h
    · cases hc : content s <;> rw [hc] at h <;> cases h
      exact .inr ⟨s, .file _ _, hc⟩
  | msFile a s =>
    simp only [NKind.plan] at h
    split at h
    · cases h
    · cases hc : content s <;> rw [hc] at h <;> cases h
      exact .inr ⟨s, .msFile _ _, hc⟩
  | image a s =>
    simp only [NKind.plan] at h
    split at h
    · cases h
    · cases hc : content s <;> rw [hc] at h <;> cases h
      exact .inr ⟨s, .image _ _, hc⟩
  | msImage s =>
    simp only [NKind.plan] at h
    cases hc : content s <;> rw [hc] at h <;> cases h
    exact .inr ⟨s, .msImage _, hc⟩
  | uol t => cases h
  | other v => cases h

/-! ### the invariant -/

/-- name and parent of a node -/
def NHeap.tie (h : NHeap) (i : Nat) : Option (List Char × Option Nat) := (h.cell i).map fun c => (c.name, c.parent)

theorem tie_of {h : NHeap} {i : Nat} {c : NCell} (hc : h.cell i = some c) : h.tie i = some (c.name, c.parent) := by
  unfold NHeap.tie; rw [hc]; rfl

theorem tie_inv {h : NHeap} {i : Nat} {x : List Char × Option Nat} (ht : h.tie i = some x) :
    ∃ c, h.cell i = some c ∧ c.name = x.1 ∧ c.parent = x.2 := by
  unfold NHeap.tie at ht
  cases hc : h.cell i with
  | none => rw [hc] at ht; cases ht
  | some c => rw [hc] at ht; cases ht; exact ⟨c, rfl, rfl, rfl⟩

/-- the node is somewhere below node 0 -/
def Tied (h : NHeap) (i : Nat) : Prop := ∃ ns, PlacedAt h 0 i ns

/-- every value comes from somewhere, and what is listed under a name is what is placed there, or a link is placed there -/
structure Grounded (content : Content) (k0 : NKind) (h : NHeap) : Prop where
  top : ∃ c, h.cell 0 = some c ∧ c.parent = none
  loc : ∃ loc : Nat → List (List Char), loc 0 = [] ∧ ∀ j c, h.cell j = some c → ComesFrom content k0 (loc j) c.kind ∧
    (j ≠ 0 → ∃ p, c.parent = some p ∧ p < h.length ∧ loc j = loc p ++ [c.name])
  inside : ∀ i c n j, h.cell i = some c → (n, j) ∈ c.kids → j < h.length
  kids : ∀ i c n j d, h.cell i = some c → (n, j) ∈ c.kids → h.cell j = some d →
    ((d.name = n ∧ d.parent = some i) ∨ ∃ u e t, h.cell u = some e ∧ e.name = n ∧ e.parent = some i ∧ e.kind = .uol (some t)) ∧
    (Tied h i → Tied h j)

theorem Grounded.parent_lt {content : Content} {k0 : NKind} {h : NHeap} (G : Grounded content k0 h) {j p : Nat} {c : NCell}
    (hc : h.cell j = some c) (hp : c.parent = some p) : p < h.length := by
  obtain ⟨loc, -, hl⟩ := G.loc
  by_cases hj : j = 0
  · subst hj
    obtain ⟨c', h1, h2⟩ := G.top
    rw [hc] at h1
    cases h1
    rw [hp] at h2
    cases h2
  · obtain ⟨q, h1, h2, -⟩ := (hl j c hc).2 hj
    rw [hp] at h1
    cases h1
    exact h2

theorem tied_of_parent {h : NHeap} {i j : Nat} {d : NCell} (hd : h.cell j = some d) (hp : d.parent = some i) (ht : Tied h i) : Tied h j := by
  obtain ⟨ns, hns⟩ := ht
  have : ∃ c, h.cell i = some c := by
    cases hns with
    | top c hc => exact ⟨c, hc⟩
    | under _ _ _ _ hpa _ _ => obtain ⟨c, _, hc, _⟩ := hpa; exact ⟨c, hc⟩
  obtain ⟨c, hc⟩ := this
  exact ⟨_, .under j i d.name ns ⟨d, c, hd, hp, hc⟩ ⟨d, hd, rfl⟩ hns⟩

theorem Tied.up {h : NHeap} {i p : Nat} (h0 : ∃ c, h.cell 0 = some c ∧ c.parent = none) (ht : Tied h i) (hp : h.up i = some p) : Tied h p := by
  have hp' : ParentOf h i p := by
    unfold NHeap.up at hp
    split at hp
    · cases hp
    · rename_i c hc
      split at hp
      · cases hp
      · rename_i q hq
        split at hp
        · cases hp
        · rename_i d hd
          cases hp
          exact ⟨c, d, hc, hq, hd⟩
  obtain ⟨c, d, hc, hpar, hd⟩ := hp'
  obtain ⟨ns, hns⟩ := ht
  cases hns with
  | top c' hc' =>
    obtain ⟨c0, e1, e2⟩ := h0
    rw [hc] at e1
    cases e1
    rw [hpar] at e2
    cases e2
  | under _ q _ ns' hpa _ hq =>
    obtain ⟨c1, d1, f1, f2, -⟩ := hpa
    rw [hc] at f1
    cases f1
    rw [hpar] at f2
    cases f2
    exact ⟨_, hq⟩

theorem placed_mono {h g : NHeap} (hs : ∀ i x, h.tie i = some x → g.tie i = some x) {r i : Nat} {ns : List (List Char)}
    (hp : PlacedAt h r i ns) : PlacedAt g r i ns := by
  induction hp with
  | top c hc =>
    obtain ⟨d, h1, -, -⟩ := tie_inv (hs _ _ (tie_of hc))
    exact .top d h1
  | under j p n ns hpa hca _ ih =>
    obtain ⟨c, d, h1, h2, h3⟩ := hpa
    obtain ⟨c', h1', rfl⟩ := hca
    rw [h1] at h1'
    cases h1'
    obtain ⟨x, g1, g2, g3⟩ := tie_inv (hs _ _ (tie_of h1))
    obtain ⟨y, g4, -, -⟩ := tie_inv (hs _ _ (tie_of h3))
    exact .under j p _ ns ⟨x, y, g1, by rw [g3]; exact h2, g4⟩ ⟨x, g1, g2⟩ ih

/-- and back, for nodes that were there -/
theorem placed_back {h g : NHeap} (hs : ∀ i, i < h.length → g.tie i = h.tie i)
    (hp : ∀ j p c, h.cell j = some c → c.parent = some p → p < h.length) {r i : Nat} {ns : List (List Char)}
    (hpl : PlacedAt g r i ns) : i < h.length → PlacedAt h r i ns := by
  induction hpl with
  | top c hc =>
    intro hi
    obtain ⟨d, h1, -, -⟩ := tie_inv ((hs _ hi).symm.trans (tie_of hc))
    exact .top d h1
  | under j p n ns hpa hca _ ih =>
    intro hj
    obtain ⟨c, d, h1, h2, h3⟩ := hpa
    obtain ⟨c', h1', rfl⟩ := hca
    rw [h1] at h1'
    cases h1'
    obtain ⟨x, g1, g2, g3⟩ := tie_inv ((hs _ hj).symm.trans (tie_of h1))
    have hlt := hp j p x g1 (by rw [g3]; exact h2)
    obtain ⟨y, g4, -, -⟩ := tie_inv ((hs _ hlt).symm.trans (tie_of h3))
    exact .under j p _ ns ⟨x, y, g1, by rw [g3]; exact h2, g4⟩ ⟨x, g1, g2⟩ (ih hlt)

/-! ### steps -/

/-- changing children and marks -/
theorem Grounded.set {content : Content} {k0 : NKind} {h : NHeap} (G : Grounded content k0 h) {i : Nat} {c c' : NCell}
    (hc : h.cell i = some c) (hn : c'.name = c.name) (hp : c'.parent = c.parent) (hk : Became c.kind c'.kind)
    (hi : ∀ n j, (n, j) ∈ c'.kids → j < h.length)
    (hkid : ∀ n j d, (n, j) ∈ c'.kids → h.cell j = some d →
      ((d.name = n ∧ d.parent = some i) ∨ ∃ u e t, h.cell u = some e ∧ e.name = n ∧ e.parent = some i ∧ e.kind = .uol (some t)) ∧
      (Tied h i → Tied h j)) :
    Grounded content k0 (h.set i (some c')) := by
  have hlt := cell_lt hc
  have hlen : (h.set i (some c')).length = h.length := List.length_set ..
  have hcell : ∀ x d, NHeap.cell (h.set i (some c')) x = some d →
      ∃ d0, h.cell x = some d0 ∧ d.name = d0.name ∧ d.parent = d0.parent ∧ Became d0.kind d.kind ∧ (x = i → d = c') ∧ (x ≠ i → d = d0) := by
    intro x d hx
    rw [cell_set hlt] at hx
    split at hx
    · rename_i e
      subst e
      cases hx
      exact ⟨c, hc, hn, hp, hk, fun _ => rfl, fun h => absurd rfl h⟩
    · rename_i e
      exact ⟨d, hx, rfl, rfl, Became.refl _, fun h => absurd h e, fun _ => rfl⟩
  have hfwd : ∀ x d0, h.cell x = some d0 → ∃ d, NHeap.cell (h.set i (some c')) x = some d ∧ d.name = d0.name ∧ d.parent = d0.parent ∧
      Became d0.kind d.kind := by
    intro x d0 hx
    rw [cell_set hlt]
    split
    · rename_i e
      subst e
      rw [hc] at hx
      cases hx
      exact ⟨c', rfl, hn, hp, hk⟩
    · exact ⟨d0, hx, rfl, rfl, Became.refl _⟩
  have htie : ∀ x, NHeap.tie (h.set i (some c')) x = h.tie x := by
    intro x
    unfold NHeap.tie
    rw [cell_set hlt]
    split
    · rename_i e
      subst e
      rw [hc]
      simp only [Option.map_some, hn, hp]
    · rfl
  have hT : ∀ x, Tied (h.set i (some c')) x → Tied h x := fun x ⟨ns, hx⟩ => ⟨ns, placed_mono (fun y z hy => by rw [← htie y]; exact hy) hx⟩
  have hT' : ∀ x, Tied h x → Tied (h.set i (some c')) x := fun x ⟨ns, hx⟩ => ⟨ns, placed_mono (fun y z hy => by rw [htie y]; exact hy) hx⟩
  have hlink : ∀ (x : Nat) (n : List Char) (d0 d : NCell), d.name = d0.name → d.parent = d0.parent →
      ((d0.name = n ∧ d0.parent = some x) ∨ ∃ u e t, h.cell u = some e ∧ e.name = n ∧ e.parent = some x ∧ e.kind = .uol (some t)) →
      ((d.name = n ∧ d.parent = some x) ∨ ∃ u e t, NHeap.cell (h.set i (some c')) u = some e ∧ e.name = n ∧ e.parent = some x ∧ e.kind = .uol (some t)) := by
    intro x n d0 d e1 e2 hh
    rcases hh with ⟨a, b⟩ | ⟨u, e, t, a, b, c1, d1⟩
    · exact .inl ⟨e1.trans a, e2.trans b⟩
    · obtain ⟨e', f1, f2, f3, f4⟩ := hfwd u e a
      refine .inr ⟨u, e', t, f1, f2.trans b, f3.trans c1, ?_⟩
      rw [d1] at f4
      generalize e'.kind = kk at f4
      cases f4
      rfl
  constructor
  · obtain ⟨t, h1, h2⟩ := G.top
    obtain ⟨t', g1, -, g3, -⟩ := hfwd 0 t h1
    exact ⟨t', g1, g3.trans h2⟩
  · obtain ⟨loc, h1, h2⟩ := G.loc
    refine ⟨loc, h1, fun x d hx => ?_⟩
    obtain ⟨d0, e1, e2, e3, e4, -, -⟩ := hcell x d hx
    obtain ⟨f1, f2⟩ := h2 x d0 e1
    refine ⟨f1.became e4, fun hne => ?_⟩
    obtain ⟨p, q1, q2, q3⟩ := f2 hne
    exact ⟨p, e3.trans q1, by rw [hlen]; exact q2, by rw [e2]; exact q3⟩
  · intro x d n j hx hm
    rw [hlen]
    obtain ⟨d0, e1, -, -, -, e5, e6⟩ := hcell x d hx
    by_cases hxi : x = i
    · rw [e5 hxi] at hm; exact hi n j hm
    · rw [e6 hxi] at hm; exact G.inside x d0 n j e1 hm
  · intro x d n j dj hx hm hj
    obtain ⟨d0, e1, e2, e3, -, e5, e6⟩ := hcell x d hx
    obtain ⟨dj0, j1, j2, j3, -, -, -⟩ := hcell j dj hj
    have : ((dj0.name = n ∧ dj0.parent = some x) ∨ ∃ u e t, h.cell u = some e ∧ e.name = n ∧ e.parent = some x ∧ e.kind = .uol (some t)) ∧
        (Tied h x → Tied h j) := by
      by_cases hxi : x = i
      · rw [e5 hxi] at hm; subst hxi; exact hkid n j dj0 hm j1
      · rw [e6 hxi] at hm; exact G.kids x d0 n j dj0 e1 hm j1
    exact ⟨hlink x n dj0 dj j2 j3 this.1, fun ht => hT' _ (this.2 (hT _ ht))⟩

theorem Grounded.unparse {content : Content} {k0 : NKind} {h : NHeap} (G : Grounded content k0 h) (i : Nat) :
    Grounded content k0 (h.unparse i) := by
  unfold NHeap.unparse
  cases hc : h.cell i with
  | none => exact G
  | some c =>
    dsimp only
    cases hk : c.kind.unparsed with
    | none => exact G
    | some k => exact G.set hc rfl rfl (unparsed_became hk) (fun _ _ hm => by cases hm) (fun _ _ _ hm => by cases hm)

theorem up_parent {h : NHeap} {i p : Nat} (hp : h.up i = some p) : ParentOf h i p := by
  unfold NHeap.up at hp
  split at hp
  · cases hp
  · rename_i c hc
    split at hp
    · cases hp
    · rename_i q hq
      split at hp
      · cases hp
      · rename_i d hd
        cases hp
        exact ⟨c, d, hc, hq, hd⟩

/-- steps to children and parents stay inside -/
theorem target_tied {content : Content} {k0 : NKind} {h : NHeap} (G : Grounded content k0 h) (l : Option Nat) (T : Prop) :
    ∀ (ns : List (List Char)) (i t : Nat), i < h.length → (T → Tied h i ∨ h.cell i = none) →
      foldPath (h.uolStep l) i ns = some t → t < h.length ∧ (T → Tied h t ∨ h.cell t = none)
  | [], i, t, hi, ht, hf => by cases hf; exact ⟨hi, ht⟩
  | n :: ns, i, t, hi, ht, hf => by
    unfold foldPath at hf
    have hat : ∀ j, h.at i n = some j → j < h.length ∧ (T → Tied h j ∨ h.cell j = none) := by
      intro j hj
      unfold NHeap.at at hj
      cases hc : h.cell i with
      | none => rw [hc] at hj; cases hj
      | some c =>
        rw [hc] at hj
        have hm := kidAt_mem hj
        refine ⟨G.inside i c n j hc hm, fun hT => ?_⟩
        cases hd : h.cell j with
        | none => exact .inr rfl
        | some d =>
          refine .inl ((G.kids i c n j d hc hm hd).2 ?_)
          rcases ht hT with ht | ht
          · exact ht
          · rw [hc] at ht; cases ht
    have hstep : ∀ j, h.uolStep l i n = some j → j < h.length ∧ (T → Tied h j ∨ h.cell j = none) := by
      intro j hj
      unfold NHeap.uolStep at hj
      split at hj
      · exact hat j hj
      · unfold NHeap.atRel at hj
        split at hj
        · have hpa := up_parent hj
          obtain ⟨c, d, h1, -, h3⟩ := hpa
          refine ⟨cell_lt h3, fun hT => .inl (Tied.up G.top ?_ hj)⟩
          rcases ht hT with ht | ht
          · exact ht
          · rw [h1] at ht; cases ht
        · exact hat j hj
    cases hs : h.uolStep l i n with
    | none => rw [hs] at hf; cases hf
    | some j =>
      rw [hs] at hf
      obtain ⟨h1, h2⟩ := hstep j hs
      exact target_tied G l T ns j t h1 h2 hf

theorem Grounded.resolveUol {content : Content} {k0 : NKind} {h g : NHeap} (G : Grounded content k0 h) {l : Option Nat} {u : Nat}
    (hr : h.resolveUol l u = .ok g) : Grounded content k0 g := by
  unfold NHeap.resolveUol at hr
  split at hr
  · cases hr
  · rename_i p hp
    split at hr
    · rename_i name text par ks hu
      split at hr
      · cases hr; exact G
      · rename_i t ht
        cases hr
        obtain ⟨cu, cp, q1, q2, q3⟩ := up_parent hp
        rw [hu] at q1
        cases q1
        unfold NHeap.uolTarget at ht
        have hfirst : h.atRel u ['.', '.'] = some p := by
          unfold NHeap.atRel
          rw [if_pos (by rfl)]
          exact hp
        rw [hfirst] at ht
        obtain ⟨t1, t2⟩ := target_tied G l (Tied h p) _ p t (cell_lt q3) (fun h => .inl h) ht
        unfold NHeap.replaceKid
        rw [q3]
        dsimp only
        split
        · refine G.set q3 rfl rfl (Became.refl _) (fun n j hm => ?_) (fun n j d hm hd => ?_)
          · rcases childInsert_from hm with hm | ⟨rfl, rfl⟩
            · exact G.inside p cp n j q3 hm
            · exact t1
          · rcases childInsert_from hm with hm | ⟨rfl, rfl⟩
            · exact G.kids p cp n j d q3 hm hd
            · refine ⟨.inr ⟨u, _, text, hu, rfl, q2, rfl⟩, fun hT => ?_⟩
              rcases t2 hT with h1 | h1
              · exact h1
              · rw [hd] at h1; cases h1
        · exact G
    · cases hr; exact G

theorem Grounded.resolveUols {content : Content} {k0 : NKind} {l : Option Nat} : ∀ (us : List Nat) (h g : NHeap), Grounded content k0 h →
    NHeap.resolveUols l h us = .ok g → Grounded content k0 g
  | [], h, g, G, hr => by cases hr; exact G
  | u :: us, h, g, G, hr => by
    simp only [NHeap.resolveUols] at hr
    split at hr
    · cases hr
    · rename_i h' h1
      exact Grounded.resolveUols us h' g (G.resolveUol h1) hr

theorem forestHas_nil {ms : List (List Char)} {k : NKind} (h : ForestHas .nil ms k) : False := by cases h

theorem Grounded.fresh {content : Content} {k0 : NKind} {h : NHeap} (G : Grounded content k0 h) {i : Nat} {c : NCell} {f : Forest} {k : NKind}
    (hc : h.cell i = some c) (hk : Became c.kind k) (hf : f = .nil ∨ ∃ s, HasSource c.kind s ∧ content s = .ok f) :
    Grounded content k0 (fresh h i { c with kind := k, kids := childInsertAll c.kids (f.roots h.length) } f) := by
  generalize hc' : { c with kind := k, kids := childInsertAll c.kids (f.roots h.length) } = c'
  have hi := cell_lt hc
  have hlen : (Wz.fresh h i c' f).length = h.length + f.size := fresh_length
  have hn : c'.name = c.name := by rw [← hc']
  have hp : c'.parent = c.parent := by rw [← hc']
  have hkk : c'.kind = k := by rw [← hc']
  -- old nodes
  have hold : ∀ x, x < h.length → (Wz.fresh h i c' f).cell x = if x = i then some c' else h.cell x := fun x hx => fresh_old hi hx
  have hfwd : ∀ x d0, h.cell x = some d0 → ∃ d, (Wz.fresh h i c' f).cell x = some d ∧ d.name = d0.name ∧ d.parent = d0.parent ∧
      Became d0.kind d.kind := by
    intro x d0 hx
    rw [hold x (cell_lt hx)]
    split
    · rename_i e
      subst e
      rw [hc] at hx
      cases hx
      exact ⟨c', rfl, hn, hp, by rw [hkk]; exact hk⟩
    · exact ⟨d0, hx, rfl, rfl, Became.refl _⟩
  have hback : ∀ x d, x < h.length → (Wz.fresh h i c' f).cell x = some d → ∃ d0, h.cell x = some d0 ∧ d.name = d0.name ∧
      d.parent = d0.parent ∧ Became d0.kind d.kind ∧ (x = i → d = c') ∧ (x ≠ i → d = d0) := by
    intro x d hx hd
    rw [hold x hx] at hd
    split at hd
    · rename_i e
      subst e
      cases hd
      exact ⟨c, hc, hn, hp, by rw [hkk]; exact hk, fun _ => rfl, fun h => absurd rfl h⟩
    · rename_i e
      exact ⟨d, hd, rfl, rfl, Became.refl _, fun h => absurd h e, fun _ => rfl⟩
  -- new nodes
  have hnew : ∀ x d, ¬ x < h.length → (Wz.fresh h i c' f).cell x = some d → CellAt f i h.length true (x - h.length) d := by
    intro x d hx hd
    obtain ⟨y, rfl⟩ : ∃ y, x = h.length + y := ⟨x - h.length, by omega⟩
    rw [fresh_new] at hd
    rw [Nat.add_sub_cancel_left]
    refine cells_at f i h.length true y d ?_
    cases hy : (f.cells i h.length true)[y]? with
    | none => rw [hy] at hd; cases hd
    | some o => rw [hy] at hd; cases o <;> cases hd; rfl
  have hget : ∀ j d, ¬ j < h.length → (Wz.fresh h i c' f).cell j = some d → (f.cells i h.length true)[j - h.length]? = some (some d) := by
    intro j d hj hd
    obtain ⟨y, rfl⟩ : ∃ y, j = h.length + y := ⟨j - h.length, by omega⟩
    rw [fresh_new] at hd
    rw [Nat.add_sub_cancel_left]
    cases hy : (f.cells i h.length true)[y]? with
    | none => rw [hy] at hd; cases hd
    | some o => rw [hy] at hd; cases o <;> cases hd; rfl
  have htie : ∀ x, x < h.length → (Wz.fresh h i c' f).tie x = h.tie x := by
    intro x hx
    unfold NHeap.tie
    rw [hold x hx]
    split
    · rename_i e
      subst e
      rw [hc]
      simp only [Option.map_some, hn, hp]
    · rfl
  have hT' : ∀ x, Tied h x → Tied (Wz.fresh h i c' f) x := fun x ⟨ns, hx⟩ =>
    ⟨ns, placed_mono (fun y z hy => by
      obtain ⟨q, e1, -, -⟩ := tie_inv hy
      rw [htie y (cell_lt e1)]; exact hy) hx⟩
  have hT : ∀ x, x < h.length → Tied (Wz.fresh h i c' f) x → Tied h x := fun x hx ⟨ns, hpl⟩ =>
    ⟨ns, placed_back htie (fun j p cc h1 h2 => G.parent_lt h1 h2) hpl hx⟩
  constructor
  · obtain ⟨t, h1, h2⟩ := G.top
    obtain ⟨t', g1, -, g3, -⟩ := hfwd 0 t h1
    exact ⟨t', g1, g3.trans h2⟩
  · obtain ⟨loc, h1, h2⟩ := G.loc
    have h0 : 0 < h.length := by obtain ⟨t, h1, -⟩ := G.top; exact cell_lt h1
    refine ⟨fun x => if x < h.length then loc x else loc i ++ (f.spots[x - h.length]?).getD [], by dsimp only; rw [if_pos h0]; exact h1,
      fun x d hx => ?_⟩
    dsimp only
    by_cases hxl : x < h.length
    · obtain ⟨d0, e1, e2, e3, e4, -, -⟩ := hback x d hxl hx
      obtain ⟨f1, f2⟩ := h2 x d0 e1
      rw [if_pos hxl]
      refine ⟨f1.became e4, fun hne => ?_⟩
      obtain ⟨p, q1, q2, q3⟩ := f2 hne
      exact ⟨p, e3.trans q1, by rw [hlen]; omega, by rw [e2, if_pos q2]; exact q3⟩
    · obtain ⟨⟨ms, a1, a2, a3⟩, -⟩ := hnew x d hxl hx
      rw [if_neg hxl, a1]
      have hfs : ∃ s, HasSource c.kind s ∧ content s = .ok f := by
        rcases hf with rfl | hf
        · exact (forestHas_nil a2).elim
        · exact hf
      obtain ⟨s, s1, s2⟩ := hfs
      refine ⟨.given (loc i) ms c.kind d.kind d.kind s f (h2 i c hc).1 s1 s2 a2 (Became.refl _), fun _ => ?_⟩
      rcases a3 with ⟨b1, b2⟩ | ⟨y, ms', b1, b2, b3⟩
      · exact ⟨i, b1, by rw [hlen]; omega, by rw [if_pos hi, b2]; rfl⟩
      · have hy : y < f.size := by
          have := (List.getElem?_eq_some_iff.mp b2).1
          rwa [places_length] at this
        refine ⟨h.length + y, b1, by rw [hlen]; omega, ?_⟩
        rw [if_neg (by omega), Nat.add_sub_cancel_left, b2, b3]
        simp only [Option.getD_some, List.append_assoc]
  · intro x d n j hx hm
    rw [hlen]
    by_cases hxl : x < h.length
    · obtain ⟨d0, e1, -, -, -, e5, e6⟩ := hback x d hxl hx
      by_cases hxi : x = i
      · rw [e5 hxi, ← hc'] at hm
        rcases mem_childInsertAll hm with hm | hm
        · have := G.inside i c n j hc hm; omega
        · exact (roots_at f i h.length true n j hm).2.1
      · rw [e6 hxi] at hm
        have := G.inside x d0 n j e1 hm; omega
    · exact ((hnew x d hxl hx).kids n j hm).2.1
  · intro x d n j dj hx hm hj
    have own : dj.name = n → dj.parent = some x →
        ((dj.name = n ∧ dj.parent = some x) ∨ ∃ u e t, (Wz.fresh h i c' f).cell u = some e ∧ e.name = n ∧ e.parent = some x ∧ e.kind = .uol (some t)) ∧
        (Tied (Wz.fresh h i c' f) x → Tied (Wz.fresh h i c' f) j) := fun a b => ⟨.inl ⟨a, b⟩, fun ht => tied_of_parent hj b ht⟩
    by_cases hxl : x < h.length
    · obtain ⟨d0, e1, -, -, -, e5, e6⟩ := hback x d hxl hx
      have viaOld : (n, j) ∈ d0.kids → 
          ((dj.name = n ∧ dj.parent = some x) ∨ ∃ u e t, (Wz.fresh h i c' f).cell u = some e ∧ e.name = n ∧ e.parent = some x ∧ e.kind = .uol (some t)) ∧
          (Tied (Wz.fresh h i c' f) x → Tied (Wz.fresh h i c' f) j) := by
        intro hm
        have hjl := G.inside x d0 n j e1 hm
        obtain ⟨dj0, j1, j2, j3, -, -, -⟩ := hback j dj hjl hj
        obtain ⟨k1, k2⟩ := G.kids x d0 n j dj0 e1 hm j1
        refine ⟨?_, fun ht => hT' j (k2 (hT x hxl ht))⟩
        rcases k1 with ⟨a, b⟩ | ⟨u, e, t, a, b, cc, dd⟩
        · exact .inl ⟨j2.trans a, j3.trans b⟩
        · obtain ⟨e', f1, f2, f3, f4⟩ := hfwd u e a
          refine .inr ⟨u, e', t, f1, f2.trans b, f3.trans cc, ?_⟩
          rw [dd] at f4
          generalize e'.kind = kk at f4
          cases f4
          rfl
      by_cases hxi : x = i
      · rw [e5 hxi, ← hc'] at hm
        subst hxi
        rw [hc] at e1
        cases e1
        rcases mem_childInsertAll hm with hm | hm
        · exact viaOld hm
        · obtain ⟨r1, r2, r3⟩ := roots_at f x h.length true n j hm
          obtain ⟨a, b⟩ := r3 dj (hget j dj (by omega) hj)
          exact own a b
      · rw [e6 hxi] at hm
        exact viaOld hm
    · obtain ⟨r1, r2, r3⟩ := (hnew x d hxl hx).kids n j hm
      obtain ⟨a, b⟩ := r3 dj (hget j dj (by omega) hj)
      exact own a (by rw [b]; congr 1; omega)

theorem Grounded.parse {content : Content} {k0 : NKind} {h : NHeap} (G : Grounded content k0 h) (i : Nat) :
    Grounded content k0 (h.parse content i).2 := by
  cases hc : h.cell i with
  | none => unfold NHeap.parse; rw [hc]; exact G
  | some c =>
    rw [parse_eq hc]
    cases hpl : c.kind.plan content with
    | none => exact G
    | some r =>
      cases r with
      | error e => exact G
      | ok fk =>
        obtain ⟨f, k⟩ := fk
        dsimp only
        have hfr := G.fresh hc (plan_became hpl) (plan_source hpl)
        cases hr : NHeap.resolveUols (some i)
            (Wz.fresh h i { c with kind := k, kids := childInsertAll c.kids (f.roots h.length) } f) (f.uols h.length) with
        | error e => exact hfr
        | ok g => exact Grounded.resolveUols _ _ g hfr hr

theorem grounded_carried (content : Content) (k0 : NKind) : Carried content (fun h g => Grounded content k0 h → Grounded content k0 g) :=
  ⟨fun _ G => G, fun _ _ _ h1 h2 G => h2 (h1 G), fun _ i G => G.parse i, fun _ i G => G.unparse i⟩

theorem Grounded.history {content : Content} {k0 : NKind} {h g : NHeap} (G : Grounded content k0 h) (hh : ReadHistory content h g) :
    Grounded content k0 g := by
  induction hh with
  | start => exact G
  | call g g' _ hc ih =>
    have K := grounded_carried content k0
    cases hc with
    | parse i => exact ih.parse i
    | unparse i => exact ih.unparse i
    | find i path => exact Carried.atPathParsed K g i path ih
    | walk i fuel vs g' hw => exact Carried.walkForce K fuel g [] i vs g' hw ih
    | picture png text fuel i => exact Carried.getImage K png text fuel g [] i ih

/-- a node on its own -/
theorem grounded_one (content : Content) (name : List Char) (k0 : NKind) : Grounded content k0 [some ⟨name, k0, none, []⟩] := by
  have hone : ∀ j c, NHeap.cell [some (⟨name, k0, none, []⟩ : NCell)] j = some c → j = 0 ∧ c = ⟨name, k0, none, []⟩ := by
    intro j c hj
    cases j with
    | zero => cases hj; exact ⟨rfl, rfl⟩
    | succ j => cases hj
  refine ⟨⟨_, rfl, rfl⟩, ⟨fun _ => [], rfl, fun j c hc => ?_⟩, fun i c n j hc hm => ?_, fun i c n j d hc hm => ?_⟩
  · obtain ⟨rfl, rfl⟩ := hone j c hc
    exact ⟨.first _ (Became.refl _), fun h => absurd rfl h⟩
  · obtain ⟨rfl, rfl⟩ := hone i c hc
    cases hm
  · obtain ⟨rfl, rfl⟩ := hone i c hc
    cases hm

/-! ### what it gives -/

theorem Grounded.comes {content : Content} {k0 : NKind} {h : NHeap} (G : Grounded content k0 h) {j : Nat} {ns : List (List Char)} {c : NCell}
    (hp : PlacedAt h 0 j ns) (hc : h.cell j = some c) : ComesFrom content k0 ns c.kind := by
  obtain ⟨loc, h0, hl⟩ := G.loc
  have key : ∀ j ns, PlacedAt h 0 j ns → loc j = ns := by
    intro j ns hp
    induction hp with
    | top c hc => exact h0
    | under j p n ns hpa hca hpp ih =>
      obtain ⟨c, d, h1, h2, -⟩ := hpa
      obtain ⟨c', h1', rfl⟩ := hca
      rw [h1] at h1'
      cases h1'
      by_cases hj : j = 0
      · subst hj
        obtain ⟨t, t1, t2⟩ := G.top
        rw [h1] at t1
        cases t1
        rw [h2] at t2
        cases t2
      · obtain ⟨q, q1, -, q3⟩ := (hl j c h1).2 hj
        rw [h2] at q1
        cases q1
        rw [q3, ih]
  rw [← key j ns hp]
  exact (hl j c hc).1

theorem Grounded.listed {content : Content} {k0 : NKind} {h : NHeap} (G : Grounded content k0 h) {i j : Nat} {n : List Char}
    {ns : List (List Char)} {d : NCell} (hp : PlacedAt h 0 i ns) (hm : ChildOf h i n j) (hd : h.cell j = some d) :
    (∃ ms, PlacedAt h 0 j ms) ∧ (PlacedAt h 0 j (ns ++ [n]) ∨ ∃ t, ComesFrom content k0 (ns ++ [n]) (.uol (some t))) := by
  obtain ⟨c, hc, hm⟩ := hm
  obtain ⟨k1, k2⟩ := G.kids i c n j d hc hm hd
  refine ⟨k2 ⟨ns, hp⟩, ?_⟩
  rcases k1 with ⟨rfl, b⟩ | ⟨u, e, t, a, rfl, b, b2⟩
  · exact .inl (.under j i _ ns ⟨d, c, hd, b, hc⟩ ⟨d, hd, rfl⟩ hp)
  · refine .inr ⟨t, ?_⟩
    rw [← b2]
    exact G.comes (.under u i _ ns ⟨e, c, a, b, hc⟩ ⟨e, a, rfl⟩ hp) a

theorem Grounded.reached {content : Content} {k0 : NKind} {h : NHeap} (G : Grounded content k0 h) {i j : Nat} {ps : List (List Char)}
    (hs : Steps h i ps j) : ∀ {ns : List (List Char)} {d : NCell}, PlacedAt h 0 i ns → h.cell j = some d → ∃ ms, PlacedAt h 0 j ms := by
  induction hs with
  | here i => intro ns d hp _; exact ⟨ns, hp⟩
  | step i j k n ps hm hs ih =>
    intro ns d hp hd
    have hj : ∃ dj, h.cell j = some dj := by
      cases hs with
      | here => exact ⟨d, hd⟩
      | step _ j' _ n' _ hm' _ => obtain ⟨c, hc, _⟩ := hm'; exact ⟨c, hc⟩
    obtain ⟨dj, hdj⟩ := hj
    obtain ⟨⟨ms, hms⟩, -⟩ := G.listed hp hm hdj
    exact ih hms hd

end Wz
