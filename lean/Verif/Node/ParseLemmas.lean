import Verif.Node.IsoLemmas

/-!
Lemmas about parsing and forgetting.
-/

set_option autoImplicit false

namespace Wz

open Spec

/-! ## what a parse shows -/

/-- the last pointer with a name -/
def lastOf : List (List Char × Nat) → List Char → Option Nat
  | [], _ => none
  | x :: l, n => match lastOf l n with
    | some j => some j
    | none => if x.1 = n then some x.2 else none

theorem kidAt_childInsert (m : List (List Char × Nat)) (k : List Char) (v : Nat) (n : List Char) :
    kidAt (childInsert m k v) n = if k = n then some v else kidAt m n := by
  unfold childInsert kidAt
  split
  · rename_i hk
    induction m with
    | nil => simp at hk
    | cons x m ih =>
      simp only [List.map_cons, List.find?_cons]
      by_cases hx : x.1 = k
      · subst hx
        by_cases hn : x.1 = n
        · simp [hn]
        · have hb : (x.1 == n) = false := by simpa using hn
          simp only [beq_self_eq_true, if_true, hb, if_neg hn]
          by_cases hm : m.any (fun p => p.1 == x.1)
          · have := ih hm
            rw [if_neg hn] at this
            exact this
          · have hid : m.map (fun p => if (p.1 == x.1) = true then (x.1, v) else p) = m := by
              rw [List.map_congr_left (g := id), List.map_id]
              intro y hy
              have : ¬ (y.1 == x.1) = true := fun e => hm (List.any_eq_true.2 ⟨y, hy, e⟩)
              simp [this]
            rw [hid]
      · have hb : (x.1 == k) = false := by simpa using hx
        simp only [hb, List.any_cons, Bool.false_or] at hk ⊢
        have := ih hk
        by_cases hn : x.1 = n
        · have hkn : ¬ k = n := fun e => hx (hn.trans e.symm)
          simp [hn, hkn]
        · have hb2 : (x.1 == n) = false := by simpa using hn
          simp only [Bool.false_eq_true, if_false, hb2]
          exact this
  · rename_i hk
    rw [List.find?_append]
    by_cases hn : k = n
    · subst hn
      have : m.find? (fun x => x.1 == k) = none := by
        rw [List.find?_eq_none]
        intro y hy e
        exact hk (List.any_eq_true.2 ⟨y, hy, e⟩)
      rw [this]
      simp
    · have hb : (k == n) = false := by simpa using hn
      simp [if_neg hn, hb]

theorem kidAt_childInsertAll : ∀ (l m : List (List Char × Nat)) (n : List Char),
    kidAt (childInsertAll m l) n = match lastOf l n with
      | some j => some j
      | none => kidAt m n
  | [], m, n => rfl
  | x :: l, m, n => by
    have h := kidAt_childInsertAll l (childInsert m x.1 x.2) n
    have e : childInsertAll m (x :: l) = childInsertAll (childInsert m x.1 x.2) l := rfl
    rw [e, h, kidAt_childInsert]
    simp only [lastOf]
    cases lastOf l n with
    | some j => rfl
    | none =>
      dsimp only
      by_cases hn : x.1 = n
      · rw [if_pos hn, if_pos hn]
      · rw [if_neg hn, if_neg hn]

/-- the nodes of a forest are in the heap -/
def Placed (h : NHeap) (p b : Nat) (f : Forest) : Prop :=
  ∀ k < f.size, h.cell (b + k) = ((f.cells p b true)[k]?).join

theorem shows_none : ∀ (f : Forest) (n : List Char), Spec.Forest.shows f n = none ↔ n ∉ f.names
  | .nil, n => by simp [Spec.Forest.shows, Forest.names]
  | .node m k ks rest, n => by
    have ih := shows_none rest n
    simp only [Spec.Forest.shows, Forest.names, List.mem_cons]
    cases h : Spec.Forest.shows rest n with
    | some x =>
      have : n ∈ rest.names := by
        apply Classical.byContradiction
        intro hn
        rw [ih.2 hn] at h
        cases h
      simp [this]
    | none =>
      have h1 := ih.1 h
      by_cases hm : m = n
      · subst hm; simp
      · have : ¬ n = m := fun e => hm e.symm
        simp [hm, h1, this]

theorem placed_shows {h : NHeap} {p : Nat} : ∀ (f : Forest) (b : Nat) (n : List Char), Placed h p b f →
    match Spec.Forest.shows f n with
    | none => lastOf (f.roots b) n = none
    | some (k, ks) => ∃ j, lastOf (f.roots b) n = some j ∧
        h.cell j = some ⟨n, k, some p, childInsertAll [] (ks.roots (j + 1))⟩ ∧ Placed h j (j + 1) ks
  | .nil, b, n, _ => rfl
  | .node m k ks rest, b, n, hp => by
    have hrest : Placed h p (b + 1 + ks.size) rest := by
      intro q hq
      have := hp (1 + ks.size + q) (by simp [Forest.size]; omega)
      rw [show b + (1 + ks.size + q) = b + 1 + ks.size + q by omega] at this
      rw [this]
      simp only [Forest.cells]
      rw [show 1 + ks.size + q = (ks.size + q) + 1 by omega, List.getElem?_cons_succ,
        List.getElem?_append_right (by rw [cells_length]; omega), cells_length]
      congr 2
      omega
    have ih := placed_shows rest (b + 1 + ks.size) n hrest
    simp only [Spec.Forest.shows, Forest.roots, lastOf]
    cases hs : Spec.Forest.shows rest n with
    | some x =>
      rw [hs] at ih
      obtain ⟨j, h1, h2⟩ := ih
      exact ⟨j, by rw [h1], h2⟩
    | none =>
      rw [hs] at ih
      dsimp only at ih ⊢
      rw [ih]
      by_cases hm : m = n
      · subst hm
        rw [if_pos rfl, if_pos rfl]
        have hl : (rest.names.any (· == m)) = false := by
          rw [Bool.eq_false_iff]
          intro e
          obtain ⟨y, hy, e⟩ := List.any_eq_true.1 e
          have : y = m := by simpa using e
          exact (shows_none rest m).1 hs (this ▸ hy)
        refine ⟨b, rfl, ?_, ?_⟩
        · have := hp 0 (by simp [Forest.size]; omega)
          rw [Nat.add_zero] at this
          rw [this]
          simp [Forest.cells, hl]
        · intro q hq
          have := hp (1 + q) (by simp [Forest.size]; omega)
          rw [show b + (1 + q) = b + 1 + q by omega] at this
          rw [this]
          simp only [Forest.cells, hl]
          rw [show 1 + q = q + 1 by omega, List.getElem?_cons_succ,
            List.getElem?_append_left (by rw [cells_length]; omega)]
          simp
      · rw [if_neg hm, if_neg hm]

theorem placed_path {h : NHeap} : ∀ (ns : List (List Char)) (i : Nat) (b : Nat) (f : Forest), ns ≠ [] →
    (∃ c, h.cell i = some c ∧ c.kids = childInsertAll [] (f.roots b)) → Placed h i b f →
    (foldPath h.at i ns).map (fun j => (h.cell j).map fun c => (c.name, c.kind)) =
      (Spec.Forest.showsAt f ns).map some
  | [], _, _, _, hne, _, _ => absurd rfl hne
  | n :: ns, i, b, f, _, ⟨c, hc, hk⟩, hp => by
    have h1 := placed_shows f b n hp
    have h2 : h.at i n = lastOf (f.roots b) n := by
      unfold NHeap.at
      rw [hc]
      dsimp only
      rw [hk, kidAt_childInsertAll]
      cases lastOf (f.roots b) n <;> rfl
    simp only [foldPath]
    rw [h2]
    cases hs : Spec.Forest.shows f n with
    | none =>
      rw [hs] at h1
      dsimp only at h1
      rw [h1]
      cases ns <;> simp [Spec.Forest.showsAt, hs]
    | some x =>
      obtain ⟨k, ks⟩ := x
      rw [hs] at h1
      obtain ⟨j, h3, h4, h5⟩ := h1
      rw [h3]
      dsimp only
      cases ns with
      | nil => simp [foldPath, Spec.Forest.showsAt, hs, h4]
      | cons m ns =>
        rw [placed_path (m :: ns) j (j + 1) ks (by simp) ⟨_, h4, rfl⟩ h5]
        simp [Spec.Forest.showsAt, hs]

theorem placed_fresh {h : NHeap} {i : Nat} {c : NCell} (f : Forest) :
    Placed (h.set i (some c) ++ f.cells i h.length true) i h.length f := by
  intro k _
  have := cell_append_right (h := h.set i (some c)) (l := f.cells i h.length true) (k := k)
  rwa [List.length_set] at this

/-! ## errors -/

theorem resolveUol_error {h : NHeap} {l : Option Nat} {u : Nat} {e : Err} (hr : h.resolveUol l u = .error e) :
    e = .panicUnwrap := by
  unfold NHeap.resolveUol at hr
  split at hr
  · cases hr; rfl
  · split at hr
    · split at hr <;> cases hr
    · cases hr

theorem resolveUols_error {l : Option Nat} {e : Err} : ∀ (us : List Nat) (h : NHeap),
    NHeap.resolveUols l h us = .error e → e = .panicUnwrap
  | [], h, hr => by cases hr
  | u :: us, h, hr => by
    simp only [NHeap.resolveUols] at hr
    split at hr
    · rename_i e' h1
      cases hr
      exact resolveUol_error h1
    · exact resolveUols_error us _ hr

/-! ## what a parse leaves alone -/

theorem replaceKid_length (h : NHeap) (p t : Nat) (n : List Char) : (h.replaceKid p n t).length = h.length := by
  unfold NHeap.replaceKid
  split
  · rfl
  · split <;> simp

theorem resolveUol_length {h g : NHeap} {l : Option Nat} {u : Nat} (hr : h.resolveUol l u = .ok g) :
    g.length = h.length := by
  unfold NHeap.resolveUol at hr
  split at hr
  · cases hr
  · split at hr
    · split at hr
      · cases hr; rfl
      · cases hr; exact replaceKid_length _ _ _ _
    · cases hr; rfl

theorem resolveUols_length {l : Option Nat} : ∀ (us : List Nat) (h g : NHeap),
    NHeap.resolveUols l h us = .ok g → g.length = h.length
  | [], h, g, hr => by cases hr; rfl
  | u :: us, h, g, hr => by
    simp only [NHeap.resolveUols] at hr
    split at hr
    · cases hr
    · rename_i h' h1
      rw [resolveUols_length us h' g hr, resolveUol_length h1]

/-- name, kind and parent of a node -/
def NCell.head (c : NCell) : List Char × NKind × Option Nat := (c.name, c.kind, c.parent)

/-- names, kinds and parents are the same in both heaps -/
def SameHeads (h g : NHeap) : Prop := ∀ x, (g.cell x).map NCell.head = (h.cell x).map NCell.head

theorem replaceKid_heads (h : NHeap) (p t : Nat) (n : List Char) : SameHeads h (h.replaceKid p n t) := by
  intro x
  rw [replaceKid_cell]
  split
  · rename_i hx
    subst hx
    cases h.cell x with
    | none => rfl
    | some c =>
      simp only [Option.map_some]
      split <;> rfl
  · rfl

theorem resolveUol_heads {h g : NHeap} {l : Option Nat} {u : Nat} (hr : h.resolveUol l u = .ok g) :
    SameHeads h g := by
  unfold NHeap.resolveUol at hr
  split at hr
  · cases hr
  · split at hr
    · split at hr
      · cases hr; exact fun _ => rfl
      · cases hr; exact replaceKid_heads _ _ _ _
    · cases hr; exact fun _ => rfl

theorem resolveUols_heads {l : Option Nat} : ∀ (us : List Nat) (h g : NHeap),
    NHeap.resolveUols l h us = .ok g → SameHeads h g
  | [], h, g, hr => by cases hr; exact fun _ => rfl
  | u :: us, h, g, hr => by
    simp only [NHeap.resolveUols] at hr
    split at hr
    · cases hr
    · rename_i h' h1
      intro x
      rw [resolveUols_heads us h' g hr x, resolveUol_heads h1 x]

/-- the parents of the nodes of `D` other than `i` are in `D` -/
def ParentsIn (D : Nat → Prop) (i : Nat) (h : NHeap) : Prop :=
  ∀ x c p, D x → x ≠ i → h.cell x = some c → c.parent = some p → D p

theorem parentsIn_heads {D : Nat → Prop} {i : Nat} {h g : NHeap} (I : ParentsIn D i h) (hh : SameHeads h g) :
    ParentsIn D i g := by
  intro x c p hx hxi hc hp
  have h1 := hh x
  rw [hc] at h1
  cases hc' : h.cell x with
  | none => rw [hc'] at h1; cases h1
  | some c' =>
    rw [hc'] at h1
    have h2 : c.head = c'.head := Option.some.inj h1
    have h3 : c.parent = c'.parent := congrArg (fun t => t.2.2) h2
    exact I x c' p hx hxi hc' (by rw [← h3, hp])

theorem resolveUol_frame {D : Nat → Prop} {i u : Nat} {h g : NHeap} {l : Option Nat} (I : ParentsIn D i h) (hu : D u)
    (hu1 : u ≠ i) (hr : h.resolveUol l u = .ok g) : ∀ x, ¬ D x → g.cell x = h.cell x := by
  intro x hx
  unfold NHeap.resolveUol at hr
  split at hr
  · cases hr
  · rename_i p hup
    have hp : D p := by
      rw [up_def] at hup
      cases hc : h.cell u with
      | none => rw [hc] at hup; cases hup
      | some c =>
        rw [hc] at hup
        dsimp only at hup
        cases hcp : c.parent with
        | none => rw [hcp] at hup; cases hup
        | some q =>
          rw [hcp] at hup
          dsimp only at hup
          split at hup
          · cases hup; exact I u c p hu hu1 hc hcp
          · cases hup
    split at hr
    · split at hr
      · cases hr; rfl
      · cases hr
        rw [replaceKid_cell, if_neg (fun e => hx (by rw [e]; exact hp))]
    · cases hr; rfl

theorem resolveUols_frame {D : Nat → Prop} {i : Nat} {l : Option Nat} : ∀ (us : List Nat) (h g : NHeap),
    ParentsIn D i h → (∀ u ∈ us, D u ∧ u ≠ i) → NHeap.resolveUols l h us = .ok g → ∀ x, ¬ D x → g.cell x = h.cell x
  | [], h, g, _, _, hr => by cases hr; exact fun _ _ => rfl
  | u :: us, h, g, I, hu, hr => by
    simp only [NHeap.resolveUols] at hr
    split at hr
    · cases hr
    · rename_i h' h1
      have hf := resolveUol_frame I (hu u List.mem_cons_self).1 (hu u List.mem_cons_self).2 h1
      intro x hx
      rw [resolveUols_frame us h' g (parentsIn_heads I (resolveUol_heads h1))
        (fun v hv => hu v (List.mem_cons_of_mem _ hv)) hr x hx, hf x hx]

/-- the heap before the links are resolved -/
def fresh (h : NHeap) (i : Nat) (c : NCell) (f : Forest) : NHeap := h.set i (some c) ++ f.cells i h.length true

theorem fresh_length {h : NHeap} {i : Nat} {c : NCell} {f : Forest} :
    (fresh h i c f).length = h.length + f.size := by
  unfold fresh; rw [List.length_append, List.length_set, cells_length]

theorem fresh_old {h : NHeap} {i : Nat} {c : NCell} {f : Forest} (hi : i < h.length) {x : Nat} (hx : x < h.length) :
    (fresh h i c f).cell x = if x = i then some c else h.cell x := by
  unfold fresh; rw [cell_append_left (by simpa using hx), cell_set hi]

theorem fresh_new {h : NHeap} {i : Nat} {c : NCell} {f : Forest} (k : Nat) :
    (fresh h i c f).cell (h.length + k) = ((f.cells i h.length true)[k]?).join := by
  have := cell_append_right (h := h.set i (some c)) (l := f.cells i h.length true) (k := k)
  rwa [List.length_set] at this

theorem fresh_mem {h : NHeap} {i : Nat} {c : NCell} {f : Forest} {k : Nat} {d : NCell}
    (hd : (fresh h i c f).cell (h.length + k) = some d) : some d ∈ f.cells i h.length true := by
  rw [fresh_new] at hd
  cases hg : (f.cells i h.length true)[k]? with
  | none => rw [hg] at hd; cases hd
  | some o =>
    rw [hg] at hd
    have : o = some d := hd
    subst this
    exact List.mem_of_getElem? hg

theorem parse_eq {h : NHeap} {content : Content} {i : Nat} {c : NCell} (hc : h.cell i = some c) :
    h.parse content i = match c.kind.plan content with
      | none => (.ok (), h)
      | some (.error e) => (.error e, h)
      | some (.ok (f, k)) =>
        match NHeap.resolveUols (some i)
            (fresh h i { c with kind := k, kids := childInsertAll c.kids (f.roots h.length) } f) (f.uols h.length) with
        | .error e => (.error e, fresh h i { c with kind := k, kids := childInsertAll c.kids (f.roots h.length) } f)
        | .ok h'' => (.ok (), h'') := by
  unfold NHeap.parse
  rw [hc]
  rfl

theorem fresh_parentsIn {h : NHeap} {i : Nat} {c : NCell} {f : Forest} :
    ParentsIn (fun x => x = i ∨ h.length ≤ x) i (fresh h i c f) := by
  intro x d p hx hxi hd hp
  rcases hx with hx | hx
  · exact absurd hx hxi
  · obtain ⟨k, rfl⟩ : ∃ k, x = h.length + k := ⟨x - h.length, by omega⟩
    obtain ⟨q, h1, h2⟩ := (cells_closed f _ _ _ d (fresh_mem hd)).2
    rw [hp] at h1
    cases h1
    rcases h2 with h2 | h2
    · exact .inl h2
    · exact .inr h2.1

/-- a parse changes no node but the one parsed -/
theorem parse_frame {h : NHeap} {content : Content} {i x : Nat} (hx : x < h.length) (hxi : x ≠ i) :
    (h.parse content i).2.cell x = h.cell x := by
  cases hc : h.cell i with
  | none => unfold NHeap.parse; rw [hc]
  | some c =>
    rw [parse_eq hc]
    have hi := cell_lt hc
    cases hpl : c.kind.plan content with
    | none => rfl
    | some r =>
      cases r with
      | error e => rfl
      | ok fk =>
        obtain ⟨f, k⟩ := fk
        dsimp only
        split
        · rw [fresh_old hi hx, if_neg hxi]
        · rename_i g hg
          have := resolveUols_frame (f.uols h.length) _ g (fresh_parentsIn (h := h) (i := i)
            (c := { c with kind := k, kids := childInsertAll c.kids (f.roots h.length) }) (f := f))
            (fun u hu => by
              have := uols_range f _ u hu
              exact ⟨.inr this.1, by omega⟩) hg x (by omega)
          dsimp only
          rw [this, fresh_old hi hx, if_neg hxi]

theorem parse_length {h : NHeap} {content : Content} {i : Nat} : h.length ≤ (h.parse content i).2.length := by
  cases hc : h.cell i with
  | none => unfold NHeap.parse; rw [hc]; exact Nat.le_refl _
  | some c =>
    rw [parse_eq hc]
    cases hpl : c.kind.plan content with
    | none => exact Nat.le_refl _
    | some r =>
      cases r with
      | error e => exact Nat.le_refl _
      | ok fk =>
        obtain ⟨f, k⟩ := fk
        dsimp only
        split
        · rw [fresh_length]; omega
        · rename_i g hg
          dsimp only
          rw [resolveUols_length _ _ _ hg, fresh_length]; omega

theorem unparse_frame {h : NHeap} {i x : Nat} (hxi : x ≠ i) : (h.unparse i).cell x = h.cell x := by
  unfold NHeap.unparse
  cases hc : h.cell i with
  | none => rfl
  | some c =>
    dsimp only
    cases c.kind.unparsed with
    | none => rfl
    | some k => dsimp only; rw [cell_set (cell_lt hc), if_neg hxi]

theorem unparse_length {h : NHeap} {i : Nat} : (h.unparse i).length = h.length := by
  unfold NHeap.unparse
  split
  · rfl
  · split
    · rfl
    · simp

theorem unparse_cell {h : NHeap} {i : Nat} {c : NCell} {k : NKind} (hc : h.cell i = some c)
    (hk : c.kind.unparsed = some k) : (h.unparse i).cell i = some { c with kind := k, kids := [] } := by
  unfold NHeap.unparse
  rw [hc]
  dsimp only
  rw [hk]
  dsimp only
  rw [cell_set (cell_lt hc), if_pos rfl]

/-! ## the same parse twice -/

/-- Two nodes with one name and kind and no children: `parse` gives the same result, and after a success they
look the same. -/
theorem parse_iso {h1 h2 : NHeap} {content : Content} {i1 i2 : Nat} {c1 c2 : NCell} {f : Forest} {k : NKind}
    (hc1 : h1.cell i1 = some c1) (hc2 : h2.cell i2 = some c2) (hn : c2.name = c1.name) (hk : c2.kind = c1.kind)
    (hk1 : c1.kids = []) (hk2 : c2.kids = []) (hp : c1.kind.plan content = some (.ok (f, k))) :
    (h1.parse content i1).1 = (h2.parse content i2).1 ∧
    ((h1.parse content i1).1 = .ok () →
      Iso (shift i1 i2 h1.length h2.length) (fun x => x = i1 ∨ (h1.length ≤ x ∧ x < h1.length + f.size)) i1 i2
        (h1.parse content i1).2 (h2.parse content i2).2 ∧
      (h1.parse content i1).2.length = h1.length + f.size ∧ (h2.parse content i2).2.length = h2.length + f.size) := by
  have hi1 := cell_lt hc1
  have hi2 := cell_lt hc2
  have hp2 : c2.kind.plan content = some (.ok (f, k)) := by rw [hk]; exact hp
  rw [parse_eq hc1, parse_eq hc2, hp, hp2]
  dsimp only
  have I := iso_fresh (h1 := h1) (h2 := h2) (i1 := i1) (i2 := i2)
    (c1 := { c1 with kind := k, kids := childInsertAll c1.kids (f.roots h1.length) })
    (c2 := { c2 with kind := k, kids := childInsertAll c2.kids (f.roots h2.length) }) f hi1 hi2 hn rfl
    (by dsimp only; rw [hk1]) (by dsimp only; rw [hk2])
  have hσ : ∀ q < f.size, shift i1 i2 h1.length h2.length (h1.length + q) = h2.length + q := by
    intro q _; unfold shift; rw [if_neg (by omega)]; omega
  have R := Iso.resolves (f.uols h1.length) I (fun u hu => by
    have := uols_range f _ u hu
    exact ⟨.inr this, by omega⟩)
  rw [← uols_ren f h1.length h2.length hσ] at R
  revert R
  show IsoR _ _ _ _ (NHeap.resolveUols _ (fresh h1 i1 _ f) _) (NHeap.resolveUols _ (fresh h2 i2 _ f) _) → _
  cases ha : NHeap.resolveUols (some i1) (fresh h1 i1 { c1 with kind := k, kids := childInsertAll c1.kids (f.roots h1.length) } f) (f.uols h1.length) with
  | error e =>
    cases hb : NHeap.resolveUols (some i2) (fresh h2 i2 { c2 with kind := k, kids := childInsertAll c2.kids (f.roots h2.length) } f) (f.uols h2.length) with
    | error e' =>
      intro R
      have : e = e' := R
      subst this
      exact ⟨rfl, fun h => by cases h⟩
    | ok b => intro R; exact R.elim
  | ok a =>
    cases hb : NHeap.resolveUols (some i2) (fresh h2 i2 { c2 with kind := k, kids := childInsertAll c2.kids (f.roots h2.length) } f) (f.uols h2.length) with
    | error e' => intro R; exact R.elim
    | ok b =>
      intro R
      refine ⟨rfl, fun _ => ⟨R, ?_, ?_⟩⟩
      · dsimp only; rw [resolveUols_length _ _ _ ha, fresh_length]
      · dsimp only; rw [resolveUols_length _ _ _ hb, fresh_length]

/-- name, kind and parent of the parsed node -/
theorem parse_top {h : NHeap} {content : Content} {i : Nat} {c : NCell} {f : Forest} {k : NKind}
    (hc : h.cell i = some c) (hp : c.kind.plan content = some (.ok (f, k))) :
    ((h.parse content i).2.cell i).map NCell.head = some (c.name, k, c.parent) := by
  have hi := cell_lt hc
  rw [parse_eq hc, hp]
  dsimp only
  split
  · rw [fresh_old hi hi, if_pos rfl]; rfl
  · rename_i g hg
    rw [resolveUols_heads _ _ _ hg i, fresh_old hi hi, if_pos rfl]; rfl

theorem plan_reads {content : Content} {k : NKind} {s : Nat} {f : Forest} (hk : ReadsFrom k s)
    (hs : content s = .ok f) : ∃ k', k.plan content = some (.ok (f, k')) ∧
    ((∃ sp s, k' = .dir true sp s) ∨ (∃ s, k' = .file true s) ∨ (∃ s, k' = .msFile true s) ∨ ∃ s, k' = .image true s) := by
  cases hk
  · exact ⟨.dir true true s, by simp [NKind.plan, hs, Except.map], .inl ⟨_, _, rfl⟩⟩
  · exact ⟨.file true s, by simp [NKind.plan, hs, Except.map], .inr (.inl ⟨_, rfl⟩)⟩
  · exact ⟨.msFile true s, by simp [NKind.plan, hs, Except.map], .inr (.inr (.inl ⟨_, rfl⟩))⟩
  · exact ⟨.image true s, by simp [NKind.plan, hs, Except.map], .inr (.inr (.inr ⟨_, rfl⟩))⟩
  · exact ⟨.image true s, by simp [NKind.plan, hs, Except.map], .inr (.inr (.inr ⟨_, rfl⟩))⟩

theorem uols_linkFree : ∀ (f : Forest) (b : Nat), Spec.Forest.All NoLink f → f.uols b = []
  | .nil, _, _ => rfl
  | .node n k ks rest, b, ⟨h1, h2, h3⟩ => by
    simp only [Forest.uols, uols_linkFree ks _ h2, uols_linkFree rest _ h3]
    cases k <;> simp [NKind.isUol] <;> exact absurd rfl (h1 _)

end Wz
