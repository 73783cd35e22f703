import Verif.Node.ParseSpec
import Verif.Node.MergeLemmas
import Verif.Directory.Errs

/-!
Two heaps that look the same from a node down.
-/

set_option autoImplicit false

namespace Wz

open Spec

/-- other numbers for the nodes -/
def NCell.ren (σ : Nat → Nat) (c : NCell) : NCell :=
  { c with parent := c.parent.map σ, kids := c.kids.map fun x => (x.1, σ x.2) }

/-- `D` are the nodes below `i1`, with `i1`; under `σ` they look like the nodes below `i2` -/
structure Iso (σ : Nat → Nat) (D : Nat → Prop) (i1 i2 : Nat) (g1 g2 : NHeap) : Prop where
  inj : ∀ x y, D x → D y → σ x = σ y → x = y
  top : D i1
  topσ : σ i1 = i2
  cells : ∀ x, D x → x ≠ i1 → g2.cell (σ x) = (g1.cell x).map (NCell.ren σ)
  topcell : ∃ c1 c2, g1.cell i1 = some c1 ∧ g2.cell i2 = some c2 ∧ c2.name = c1.name ∧ c2.kind = c1.kind ∧
    c2.kids = c1.kids.map fun x => (x.1, σ x.2)
  kids : ∀ x c, D x → g1.cell x = some c → ∀ y ∈ c.kids, D y.2
  parents : ∀ x c, D x → x ≠ i1 → g1.cell x = some c → ∃ p, c.parent = some p ∧ D p

theorem kidAt_map (σ : Nat → Nat) (ks : List (List Char × Nat)) (n : List Char) :
    kidAt (ks.map fun x => (x.1, σ x.2)) n = (kidAt ks n).map σ := by
  unfold kidAt
  induction ks with
  | nil => rfl
  | cons x xs ih =>
    simp only [List.map_cons, List.find?_cons]
    by_cases hx : x.1 == n
    · simp [hx]
    · simp only [hx]; exact ih

theorem kidAt_mem {ks : List (List Char × Nat)} {n : List Char} {j : Nat} (h : kidAt ks n = some j) : (n, j) ∈ ks := by
  unfold kidAt at h
  cases hf : ks.find? (fun x => x.1 == n) with
  | none => rw [hf] at h; cases h
  | some x =>
    rw [hf] at h
    have h1 := List.find?_some hf
    have h2 := List.mem_of_find?_eq_some hf
    obtain ⟨a, b⟩ := x
    simp only [Option.map_some, Option.some.injEq] at h
    have : a = n := by simpa using h1
    subst this h
    exact h2

variable {σ : Nat → Nat} {D : Nat → Prop} {i1 i2 : Nat} {g1 g2 : NHeap}

theorem Iso.atD (I : Iso σ D i1 i2 g1 g2) {x : Nat} (hx : D x) {n : List Char} {y : Nat} (ha : g1.at x n = some y) :
    D y := by
  unfold NHeap.at at ha
  cases hc : g1.cell x with
  | none => rw [hc] at ha; cases ha
  | some c => rw [hc] at ha; exact I.kids x c hx hc _ (kidAt_mem ha)

theorem Iso.at (I : Iso σ D i1 i2 g1 g2) {x : Nat} (hx : D x) (n : List Char) :
    g2.at (σ x) n = (g1.at x n).map σ := by
  unfold NHeap.at
  by_cases hx1 : x = i1
  · subst hx1
    obtain ⟨c1, c2, h1, h2, _, _, h3⟩ := I.topcell
    rw [I.topσ, h1, h2]
    dsimp only
    rw [h3, kidAt_map]
  · rw [I.cells x hx hx1]
    cases hc : g1.cell x with
    | none => rfl
    | some c =>
      simp only [Option.map_some, NCell.ren]
      rw [kidAt_map]

theorem Iso.alive (I : Iso σ D i1 i2 g1 g2) {x : Nat} (hx : D x) : (g2.cell (σ x)).isSome = (g1.cell x).isSome := by
  by_cases hx1 : x = i1
  · subst hx1
    obtain ⟨c1, c2, h1, h2, _⟩ := I.topcell
    rw [I.topσ, h1, h2]; rfl
  · rw [I.cells x hx hx1]; simp

theorem up_def (h : NHeap) (i : Nat) : h.up i = match h.cell i with
    | none => none
    | some c => match c.parent with
      | none => none
      | some p => if (h.cell p).isSome then some p else none := by
  unfold NHeap.up
  cases h.cell i with
  | none => rfl
  | some c =>
    dsimp only
    cases c.parent with
    | none => rfl
    | some p =>
      dsimp only
      cases h.cell p <;> rfl

theorem Iso.up (I : Iso σ D i1 i2 g1 g2) {x : Nat} (hx : D x) (hx1 : x ≠ i1) :
    g2.up (σ x) = (g1.up x).map σ ∧ ∀ y, g1.up x = some y → D y := by
  rw [up_def, up_def, I.cells x hx hx1]
  cases hc : g1.cell x with
  | none => exact ⟨rfl, fun y hy => by cases hy⟩
  | some c =>
    obtain ⟨p, hp, hDp⟩ := I.parents x c hx hx1 hc
    simp only [Option.map_some, NCell.ren, hp, I.alive hDp]
    by_cases ha : (g1.cell p).isSome
    · simp only [ha, if_true]
      refine ⟨rfl, fun y hy => ?_⟩
      cases hy; exact hDp
    · simp only [ha]
      exact ⟨rfl, fun y hy => by simp at hy⟩

theorem Iso.step (I : Iso σ D i1 i2 g1 g2) {x : Nat} (hx : D x) (n : List Char) :
    g2.uolStep (some i2) (σ x) n = (g1.uolStep (some i1) x n).map σ ∧
    ∀ y, g1.uolStep (some i1) x n = some y → D y := by
  unfold NHeap.uolStep
  by_cases hx1 : x = i1
  · subst hx1
    rw [if_pos (by rw [I.topσ]), if_pos rfl]
    exact ⟨I.at hx n, fun y => I.atD hx⟩
  · have h2 : σ x ≠ i2 := by
      intro e
      rw [← I.topσ] at e
      exact hx1 (I.inj x i1 hx I.top e)
    rw [if_neg (fun e => h2 (Option.some.inj e)), if_neg (fun e => hx1 (Option.some.inj e))]
    unfold NHeap.atRel
    by_cases hn : n = ['.', '.']
    · rw [if_pos hn, if_pos hn]; exact I.up hx hx1
    · rw [if_neg hn, if_neg hn]; exact ⟨I.at hx n, fun y => I.atD hx⟩

theorem iso_fold {s1 s2 : Nat → List Char → Option Nat}
    (hs : ∀ x n, D x → s2 (σ x) n = (s1 x n).map σ ∧ ∀ y, s1 x n = some y → D y) :
    ∀ (ns : List (List Char)) (x : Nat), D x →
    foldPath s2 (σ x) ns = (foldPath s1 x ns).map σ ∧ ∀ y, foldPath s1 x ns = some y → D y
  | [], x, hx => ⟨rfl, fun y hy => by cases hy; exact hx⟩
  | n :: ns, x, hx => by
    obtain ⟨h1, h2⟩ := hs x n hx
    simp only [foldPath]
    rw [h1]
    cases ha : s1 x n with
    | none => exact ⟨rfl, fun y hy => by cases hy⟩
    | some y => exact iso_fold hs ns y (h2 y ha)

theorem Iso.looks (I : Iso σ D i1 i2 g1 g2) : LooksLike g1 i1 g2 i2 := by
  intro path
  unfold valueAt
  rw [atPath_fold, atPath_fold]
  obtain ⟨h1, h2⟩ := iso_fold (s1 := g1.at) (s2 := g2.at) (fun x n hx => ⟨I.at hx n, fun y => I.atD hx⟩)
    (splitSlash path) i1 I.top
  rw [I.topσ] at h1
  rw [h1]
  cases hf : foldPath g1.at i1 (splitSlash path) with
  | none => rfl
  | some y =>
    have hy := h2 y hf
    simp only [Option.map_some, Option.some.injEq]
    by_cases hy1 : y = i1
    · subst hy1
      obtain ⟨c1, c2, h3, h4, h5, h6, _⟩ := I.topcell
      rw [I.topσ, h3, h4]
      simp [h5, h6]
    · rw [I.cells y hy hy1]
      cases g1.cell y <;> rfl

theorem childInsert_map {ν μ : Type} (F : ν → μ) (m : List (List Char × ν)) (k : List Char) (v : ν) :
    childInsert (m.map fun x => (x.1, F x.2)) k (F v) = (childInsert m k v).map fun x => (x.1, F x.2) := by
  unfold childInsert
  have h1 : (m.map fun x => (x.1, F x.2)).any (fun p => p.1 == k) = m.any (fun p => p.1 == k) := by
    rw [List.any_map]; rfl
  rw [h1]
  split
  · rw [List.map_map, List.map_map]
    refine List.map_congr_left fun x _ => ?_
    simp only [Function.comp]
    split <;> rfl
  · rw [List.map_append]; rfl

theorem any_map_fst {ν μ : Type} (F : ν → μ) (m : List (List Char × ν)) (k : List Char) :
    (m.map fun x => (x.1, F x.2)).any (fun p => p.1 == k) = m.any (fun p => p.1 == k) := by
  rw [List.any_map]; rfl

theorem replaceKid_cell {h : NHeap} {p t x : Nat} {n : List Char} :
    (h.replaceKid p n t).cell x = if x = p then (h.cell p).map (fun c =>
      if c.kids.any (fun y => y.1 == n) then { c with kids := childInsert c.kids n t } else c) else h.cell x := by
  unfold NHeap.replaceKid
  cases hc : h.cell p with
  | none =>
    dsimp only
    by_cases hx : x = p
    · rw [if_pos hx, hx, hc]; rfl
    · rw [if_neg hx]
  | some c =>
    dsimp only [Option.map_some]
    split
    · rename_i hk
      rw [cell_set (cell_lt hc)]
    · by_cases hx : x = p
      · rw [if_pos hx, hx, hc]
      · rw [if_neg hx]

theorem Iso.replaceKid (I : Iso σ D i1 i2 g1 g2) {p t : Nat} (hp : D p) (ht : D t) (n : List Char) :
    Iso σ D i1 i2 (g1.replaceKid p n t) (g2.replaceKid (σ p) n (σ t)) := by
  refine ⟨I.inj, I.top, I.topσ, ?_, ?_, ?_, ?_⟩
  · intro x hx hx1
    rw [replaceKid_cell, replaceKid_cell]
    by_cases hxp : x = p
    · subst hxp
      rw [if_pos rfl, if_pos rfl, I.cells x hx hx1]
      cases g1.cell x with
      | none => rfl
      | some c =>
        simp only [Option.map_some, NCell.ren, any_map_fst]
        split
        · simp only [NCell.ren, childInsert_map]
        · rfl
    · have : σ x ≠ σ p := fun e => hxp (I.inj x p hx hp e)
      rw [if_neg hxp, if_neg this, I.cells x hx hx1]
  · obtain ⟨c1, c2, h1, h2, h3, h4, h5⟩ := I.topcell
    rw [replaceKid_cell, replaceKid_cell]
    by_cases hxp : i1 = p
    · have hs : i2 = σ p := by rw [← hxp, I.topσ]
      rw [if_pos hxp, if_pos hs, ← hxp, I.topσ, h1, h2]
      refine ⟨_, _, rfl, rfl, ?_⟩
      dsimp only
      rw [h5, any_map_fst]
      split
      · exact ⟨h3, h4, by simp only [childInsert_map]⟩
      · exact ⟨h3, h4, h5⟩
    · have : i2 ≠ σ p := fun e => hxp (I.inj i1 p I.top hp (by rw [I.topσ, e]))
      rw [if_neg hxp, if_neg this]
      exact ⟨c1, c2, h1, h2, h3, h4, h5⟩
  · intro x c hx hc y hy
    rw [replaceKid_cell] at hc
    split at hc
    · rename_i hxp
      cases hg : g1.cell p with
      | none => rw [hg] at hc; cases hc
      | some c0 =>
        rw [hg] at hc
        simp only [Option.map_some, Option.some.injEq] at hc
        split at hc
        · subst hc
          rcases mem_childInsert hy with hy | hy
          · exact I.kids p c0 hp hg y hy
          · rw [hy]; exact ht
        · subst hc; exact I.kids p c0 hp hg y hy
    · exact I.kids x c hx hc y hy
  · intro x c hx hx1 hc
    rw [replaceKid_cell] at hc
    split at hc
    · rename_i hxp
      cases hg : g1.cell p with
      | none => rw [hg] at hc; cases hc
      | some c0 =>
        rw [hg] at hc
        simp only [Option.map_some, Option.some.injEq] at hc
        have := I.parents p c0 hp (hxp ▸ hx1) hg
        split at hc <;> subst hc <;> exact this
    · exact I.parents x c hx hx1 hc

theorem Iso.target (I : Iso σ D i1 i2 g1 g2) {u : Nat} (hu : D u) (hu1 : u ≠ i1) (text : List Char) :
    g2.uolTarget (some i2) (σ u) text = (g1.uolTarget (some i1) u text).map σ ∧
    ∀ y, g1.uolTarget (some i1) u text = some y → D y := by
  unfold NHeap.uolTarget
  rw [atRel_dots, atRel_dots]
  obtain ⟨h1, h2⟩ := I.up hu hu1
  rw [h1]
  cases hup : g1.up u with
  | none => exact ⟨rfl, fun y hy => by cases hy⟩
  | some p => exact iso_fold (fun x n hx => I.step hx n) (splitSlash text) p (h2 p hup)

/-- both fail with the same error, or both succeed with heaps that look the same -/
def IsoR (σ : Nat → Nat) (D : Nat → Prop) (i1 i2 : Nat) : Except Err NHeap → Except Err NHeap → Prop
  | .ok a, .ok b => Iso σ D i1 i2 a b
  | .error e, .error f => e = f
  | _, _ => False

theorem Iso.resolve (I : Iso σ D i1 i2 g1 g2) {u : Nat} (hu : D u) (hu1 : u ≠ i1) :
    IsoR σ D i1 i2 (g1.resolveUol (some i1) u) (g2.resolveUol (some i2) (σ u)) := by
  unfold NHeap.resolveUol
  obtain ⟨h1, h2⟩ := I.up hu hu1
  rw [h1]
  cases hup : g1.up u with
  | none => rfl
  | some p =>
    have hp := h2 p hup
    simp only [Option.map_some]
    rw [I.cells u hu hu1]
    cases hc : g1.cell u with
    | none => exact I
    | some c =>
      obtain ⟨name, kind, par, ks⟩ := c
      simp only [Option.map_some, NCell.ren]
      cases kind with
      | uol text =>
        cases text with
        | none => exact I
        | some text =>
          dsimp only
          obtain ⟨h3, h4⟩ := I.target hu hu1 text
          rw [h3]
          cases ht : g1.uolTarget (some i1) u text with
          | none => exact I
          | some t => exact I.replaceKid hp (h4 t ht) name
      | _ => exact I

theorem Iso.resolves : ∀ (us : List Nat) {g1 g2 : NHeap}, Iso σ D i1 i2 g1 g2 → (∀ u ∈ us, D u ∧ u ≠ i1) →
    IsoR σ D i1 i2 (NHeap.resolveUols (some i1) g1 us) (NHeap.resolveUols (some i2) g2 (us.map σ))
  | [], g1, g2, I, _ => I
  | u :: us, g1, g2, I, hu => by
    have h1 := I.resolve (hu u List.mem_cons_self).1 (hu u List.mem_cons_self).2
    simp only [List.map_cons, NHeap.resolveUols]
    cases ha : g1.resolveUol (some i1) u with
    | error e =>
      cases hb : g2.resolveUol (some i2) (σ u) with
      | error f => rw [ha, hb] at h1; exact h1
      | ok b => rw [ha, hb] at h1; exact h1.elim
    | ok a =>
      cases hb : g2.resolveUol (some i2) (σ u) with
      | error f => rw [ha, hb] at h1; exact h1.elim
      | ok b =>
        rw [ha, hb] at h1
        exact Iso.resolves us h1 (fun v hv => hu v (List.mem_cons_of_mem _ hv))

/-! ## fresh nodes -/

theorem cells_length : ∀ (f : Forest) (p i : Nat) (live : Bool), (f.cells p i live).length = f.size
  | .nil, _, _, _ => rfl
  | .node n k ks rest, p, i, live => by
    simp only [Forest.cells, Forest.size, List.length_cons, List.length_append, cells_length ks, cells_length rest]
    omega

theorem roots_ren : ∀ (f : Forest) (b b' : Nat), (∀ k < f.size, σ (b + k) = b' + k) →
    f.roots b' = (f.roots b).map fun x => (x.1, σ x.2)
  | .nil, _, _, _ => rfl
  | .node n k ks rest, b, b', hσ => by
    have h0 := hσ 0 (by simp [Forest.size]; omega)
    simp only [Nat.add_zero] at h0
    simp only [Forest.roots, List.map_cons, h0]
    rw [roots_ren rest (b + 1 + ks.size) (b' + 1 + ks.size) (fun k hk => by
      have := hσ (1 + ks.size + k) (by simp [Forest.size]; omega)
      rw [show b + 1 + ks.size + k = b + (1 + ks.size + k) by omega, this]; omega)]

theorem childInsertAll_map {ν μ : Type} (F : ν → μ) : ∀ (l m : List (List Char × ν)),
    childInsertAll (m.map fun x => (x.1, F x.2)) (l.map fun x => (x.1, F x.2)) =
      (childInsertAll m l).map fun x => (x.1, F x.2)
  | [], m => rfl
  | x :: l, m => by
    have := childInsertAll_map F l (childInsert m x.1 x.2)
    simp only [childInsertAll, List.map_cons, List.foldl_cons] at this ⊢
    rw [childInsert_map, this]

theorem cells_ren : ∀ (f : Forest) (p p' b b' : Nat) (live : Bool), σ p = p' →
    (∀ k < f.size, σ (b + k) = b' + k) →
    f.cells p' b' live = (f.cells p b live).map (Option.map (NCell.ren σ))
  | .nil, _, _, _, _, _, _, _ => rfl
  | .node n k ks rest, p, p', b, b', live, hp, hσ => by
    have h0 := hσ 0 (by simp [Forest.size]; omega)
    simp only [Nat.add_zero] at h0
    have hk : ∀ k < ks.size, σ (b + 1 + k) = b' + 1 + k := fun k hk => by
      have := hσ (1 + k) (by simp [Forest.size]; omega)
      rw [show b + 1 + k = b + (1 + k) by omega, this]; omega
    have hr : ∀ k < rest.size, σ (b + 1 + ks.size + k) = b' + 1 + ks.size + k := fun k hk => by
      have := hσ (1 + ks.size + k) (by simp [Forest.size]; omega)
      rw [show b + 1 + ks.size + k = b + (1 + ks.size + k) by omega, this]; omega
    simp only [Forest.cells, List.map_cons, List.map_append]
    rw [cells_ren ks b b' (b + 1) (b' + 1) _ h0 hk, cells_ren rest p p' _ (b' + 1 + ks.size) live hp hr]
    congr 1
    split
    · simp only [Option.map_some, NCell.ren, hp]
      rw [roots_ren ks (b + 1) (b' + 1) hk]
      rw [← childInsertAll_map]
      rfl
    · rfl

theorem uols_ren : ∀ (f : Forest) (b b' : Nat), (∀ k < f.size, σ (b + k) = b' + k) →
    f.uols b' = (f.uols b).map σ
  | .nil, _, _, _ => rfl
  | .node n k ks rest, b, b', hσ => by
    have h0 := hσ 0 (by simp [Forest.size]; omega)
    simp only [Nat.add_zero] at h0
    have hk : ∀ k < ks.size, σ (b + 1 + k) = b' + 1 + k := fun k hk => by
      have := hσ (1 + k) (by simp [Forest.size]; omega)
      rw [show b + 1 + k = b + (1 + k) by omega, this]; omega
    have hr : ∀ k < rest.size, σ (b + 1 + ks.size + k) = b' + 1 + ks.size + k := fun k hk => by
      have := hσ (1 + ks.size + k) (by simp [Forest.size]; omega)
      rw [show b + 1 + ks.size + k = b + (1 + ks.size + k) by omega, this]; omega
    simp only [Forest.uols, List.map_append]
    rw [uols_ren ks (b + 1) (b' + 1) hk, uols_ren rest _ (b' + 1 + ks.size) hr]
    split <;> simp [h0]

theorem roots_range : ∀ (f : Forest) (b : Nat), ∀ y ∈ f.roots b, b ≤ y.2 ∧ y.2 < b + f.size
  | .nil, _, _, hy => by cases hy
  | .node n k ks rest, b, y, hy => by
    simp only [Forest.roots, List.mem_cons] at hy
    simp only [Forest.size]
    rcases hy with rfl | hy
    · dsimp only; omega
    · have := roots_range rest _ y hy; omega

theorem uols_range : ∀ (f : Forest) (b : Nat), ∀ u ∈ f.uols b, b ≤ u ∧ u < b + f.size
  | .nil, _, _, hy => by cases hy
  | .node n k ks rest, b, u, hy => by
    simp only [Forest.uols, List.mem_append] at hy
    simp only [Forest.size]
    rcases hy with (hy | hy) | hy
    · split at hy
      · simp only [List.mem_singleton] at hy; omega
      · cases hy
    · have := uols_range ks _ u hy; omega
    · have := uols_range rest _ u hy; omega

theorem cells_closed : ∀ (f : Forest) (p b : Nat) (live : Bool) (c : NCell), some c ∈ f.cells p b live →
    (∀ y ∈ c.kids, b ≤ y.2 ∧ y.2 < b + f.size) ∧
    ∃ q, c.parent = some q ∧ (q = p ∨ (b ≤ q ∧ q < b + f.size))
  | .nil, _, _, _, _, h => by cases h
  | .node n k ks rest, p, b, live, c, h => by
    simp only [Forest.cells, List.mem_cons, List.mem_append] at h
    simp only [Forest.size]
    rcases h with h | h | h
    · split at h
      · cases h
        refine ⟨?_, p, rfl, .inl rfl⟩
        intro y hy
        rcases mem_childInsertAll hy with hy | hy
        · cases hy
        · have := roots_range ks _ y hy; omega
      · cases h
    · obtain ⟨h1, q, h2, h3⟩ := cells_closed ks b (b + 1) _ c h
      refine ⟨fun y hy => ?_, q, h2, ?_⟩
      · have := h1 y hy; omega
      · rcases h3 with h3 | h3 <;> exact .inr (by omega)
    · obtain ⟨h1, q, h2, h3⟩ := cells_closed rest p _ live c h
      refine ⟨fun y hy => ?_, q, h2, ?_⟩
      · have := h1 y hy; omega
      · rcases h3 with h3 | h3
        · exact .inl h3
        · exact .inr (by omega)

theorem cell_append_left {h l : NHeap} {x : Nat} (hx : x < h.length) : NHeap.cell (h ++ l) x = h.cell x := by
  unfold NHeap.cell; rw [List.getElem?_append_left hx]

theorem cell_append_right {h l : NHeap} {k : Nat} : NHeap.cell (h ++ l) (h.length + k) = (l[k]?).join := by
  unfold NHeap.cell; rw [List.getElem?_append_right (by omega)]; congr 2; omega

/-- the renaming between two places where the same forest was put -/
def shift (i1 i2 b1 b2 : Nat) (x : Nat) : Nat := if x = i1 then i2 else x - b1 + b2

/-- the two heaps after the children of a parse were inserted, before the links are resolved -/
theorem iso_fresh {h1 h2 : NHeap} {i1 i2 : Nat} {c1 c2 : NCell} (f : Forest) (hi1 : i1 < h1.length)
    (hi2 : i2 < h2.length) (hn : c2.name = c1.name) (hk : c2.kind = c1.kind)
    (hk1 : c1.kids = childInsertAll [] (f.roots h1.length)) (hk2 : c2.kids = childInsertAll [] (f.roots h2.length)) :
    Iso (shift i1 i2 h1.length h2.length) (fun x => x = i1 ∨ (h1.length ≤ x ∧ x < h1.length + f.size)) i1 i2
      (h1.set i1 (some c1) ++ f.cells i1 h1.length true) (h2.set i2 (some c2) ++ f.cells i2 h2.length true) := by
  have hσ : ∀ k < f.size, shift i1 i2 h1.length h2.length (h1.length + k) = h2.length + k := by
    intro k _; unfold shift; rw [if_neg (by omega)]; omega
  have hσi : shift i1 i2 h1.length h2.length i1 = i2 := by unfold shift; rw [if_pos rfl]
  have ht1 : NHeap.cell (h1.set i1 (some c1) ++ f.cells i1 h1.length true) i1 = some c1 := by
    rw [cell_append_left (by simpa using hi1), cell_set hi1, if_pos rfl]
  have ht2 : NHeap.cell (h2.set i2 (some c2) ++ f.cells i2 h2.length true) i2 = some c2 := by
    rw [cell_append_left (by simpa using hi2), cell_set hi2, if_pos rfl]
  have hb1 : ∀ k, NHeap.cell (h1.set i1 (some c1) ++ f.cells i1 h1.length true) (h1.length + k) =
      ((f.cells i1 h1.length true)[k]?).join := by
    intro k
    have := cell_append_right (h := h1.set i1 (some c1)) (l := f.cells i1 h1.length true) (k := k)
    rwa [List.length_set] at this
  have hb2 : ∀ k, NHeap.cell (h2.set i2 (some c2) ++ f.cells i2 h2.length true) (h2.length + k) =
      ((f.cells i2 h2.length true)[k]?).join := by
    intro k
    have := cell_append_right (h := h2.set i2 (some c2)) (l := f.cells i2 h2.length true) (k := k)
    rwa [List.length_set] at this
  have hmem : ∀ (k : Nat) (c : NCell), ((f.cells i1 h1.length true)[k]?).join = some c → some c ∈ f.cells i1 h1.length true := by
    intro k c hkc
    cases hg : (f.cells i1 h1.length true)[k]? with
    | none => rw [hg] at hkc; cases hkc
    | some o =>
      rw [hg] at hkc
      have : o = some c := hkc
      subst this
      exact List.mem_of_getElem? hg
  refine ⟨?_, .inl rfl, hσi, ?_, ⟨c1, c2, ht1, ht2, hn, hk, ?_⟩, ?_, ?_⟩
  · intro x y hx hy e
    unfold shift at e
    rcases hx with hx | hx <;> rcases hy with hy | hy
    · omega
    · rw [if_pos hx, if_neg (by omega)] at e; omega
    · rw [if_neg (by omega), if_pos hy] at e; omega
    · rw [if_neg (by omega), if_neg (by omega)] at e; omega
  · intro x hx hx1
    rcases hx with hx | ⟨hx, hx'⟩
    · exact absurd hx hx1
    · obtain ⟨k, rfl⟩ : ∃ k, x = h1.length + k := ⟨x - h1.length, by omega⟩
      rw [hσ k (by omega), hb1, hb2, cells_ren f i1 i2 h1.length h2.length true hσi hσ, List.getElem?_map]
      cases (f.cells i1 h1.length true)[k]? with
      | none => rfl
      | some o => cases o <;> rfl
  · rw [hk1, hk2, roots_ren f _ _ hσ]
    exact childInsertAll_map _ _ []
  · intro x c hx hc y hy
    right
    rcases hx with hx | ⟨hx, hx'⟩
    · subst hx
      rw [ht1] at hc; cases hc
      rw [hk1] at hy
      rcases mem_childInsertAll hy with hy | hy
      · cases hy
      · exact roots_range f _ y hy
    · obtain ⟨k, rfl⟩ : ∃ k, x = h1.length + k := ⟨x - h1.length, by omega⟩
      rw [hb1] at hc
      exact (cells_closed f _ _ _ c (hmem k c hc)).1 y hy
  · intro x c hx hx1 hc
    rcases hx with hx | ⟨hx, hx'⟩
    · exact absurd hx hx1
    · obtain ⟨k, rfl⟩ : ∃ k, x = h1.length + k := ⟨x - h1.length, by omega⟩
      rw [hb1] at hc
      exact (cells_closed f _ _ _ c (hmem k c hc)).2

end Wz
