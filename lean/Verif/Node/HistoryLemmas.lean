import Verif.Node.HistorySpec
import Verif.Node.MapsLemmas
import Verif.Node.FindLemmas
import Verif.Node.WalkLemmas
import Verif.Directory.Errs

/-!
# Lemmas for C59
-/

set_option autoImplicit false

namespace Wz

open Wz.Spec

/-! ### what becomes of values -/

theorem Spec.Became.refl (k : NKind) : Became k k := by
  cases k with
  | dir a b s => exact .dir _ _ _ _ _ id
  | file a s => exact .file _ _ _
  | msFile a s => exact .msFile _ _ _ id
  | image a s => exact .image _ _ _
  | msImage s => exact .msImage _
  | uol t => exact .link _
  | other v => exact .value _

theorem Spec.Became.trans {a b c : NKind} (h1 : Became a b) (h2 : Became b c) : Became a c := by
  cases h1 with
  | dir p q r s t hq => cases h2 with | dir _ _ u v _ hv => exact .dir _ _ _ _ _ fun h => hv (hq h)
  | file => cases h2 with | file => exact .file _ _ _
  | msFile p q r hq => cases h2 with | msFile _ _ _ hv => exact .msFile _ _ _ fun h => hv (hq h)
  | image => cases h2 with | image => exact .image _ _ _
  | msImage => exact h2
  | msRead => cases h2 with | image => exact .msRead _ _
  | link => exact h2
  | value => exact h2

theorem Spec.Kept.refl (h : NHeap) : Kept h h := fun _ c hc => ⟨c, hc, rfl, Became.refl _⟩

theorem Spec.Kept.trans {a b c : NHeap} (h1 : Kept a b) (h2 : Kept b c) : Kept a c := by
  intro i x hx
  obtain ⟨y, hy, e1, k1⟩ := h1 i x hx
  obtain ⟨z, hz, e2, k2⟩ := h2 i y hy
  exact ⟨z, hz, e2.trans e1, k1.trans k2⟩

theorem kept_same {h g : NHeap} (hs : SameValues h g) : Kept h g := by
  intro i c hc
  have := hs i
  rw [hc] at this
  cases hg : g.cell i with
  | none => rw [hg] at this; cases this
  | some d =>
    rw [hg] at this
    simp only [Option.map_some, Option.some.injEq, Prod.mk.injEq] at this
    exact ⟨d, rfl, this.1.symm, this.2 ▸ Became.refl _⟩

theorem kept_heads {h g : NHeap} (hs : SameHeads h g) : Kept h g := by
  intro i c hc
  have := hs i
  rw [hc] at this
  cases hg : g.cell i with
  | none => rw [hg] at this; cases this
  | some d =>
    rw [hg] at this
    simp only [Option.map_some, Option.some.injEq, NCell.head, Prod.mk.injEq] at this
    exact ⟨d, rfl, this.1, this.2.1 ▸ Became.refl _⟩

theorem plan_became {content : Content} {k k' : NKind} {f : Forest} (h : k.plan content = some (.ok (f, k'))) : Became k k' := by
  cases k with
  | dir a b s =>
    simp only [NKind.plan] at h
    split at h
    · cases h
    · split at h
      · cases h; exact .dir _ _ _ _ _ fun _ => rfl
      · cases hc : content s <;> rw [hc] at h <;> cases h
        exact .dir _ _ _ _ _ fun _ => rfl
  | file a s =>
    simp only [NKind.plan] at h
    split at h
    · cases h
    · cases hc : content s <;> rw [hc] at h <;> cases h
      exact .file _ _ _
  | msFile a s =>
    simp only [NKind.plan] at h
    split at h
    · cases h
    · cases hc : content s <;> rw [hc] at h <;> cases h
      exact .msFile _ _ _ fun _ => rfl
  | image a s =>
    simp only [NKind.plan] at h
    split at h
    · cases h
    · cases hc : content s <;> rw [hc] at h <;> cases h
      exact .image _ _ _
  | msImage s =>
    simp only [NKind.plan] at h
    cases hc : content s <;> rw [hc] at h <;> cases h
    exact .msRead _ _
  | uol t => cases h
  | other v => cases h

theorem kept_fresh {h : NHeap} {i : Nat} {c c' : NCell} {f : Forest} (hc : h.cell i = some c) (hn : c'.name = c.name)
    (hk : Became c.kind c'.kind) : Kept h (fresh h i c' f) := by
  intro x d hd
  rw [fresh_old (cell_lt hc) (cell_lt hd)]
  split
  · rename_i e
    subst e
    rw [hc] at hd
    cases hd
    exact ⟨c', rfl, hn, hk⟩
  · exact ⟨d, hd, rfl, Became.refl _⟩

theorem kept_parse (h : NHeap) (content : Content) (i : Nat) : Kept h (h.parse content i).2 := by
  cases hc : h.cell i with
  | none => unfold NHeap.parse; rw [hc]; exact Kept.refl _
  | some c =>
    rw [parse_eq hc]
    cases hpl : c.kind.plan content with
    | none => exact Kept.refl _
    | some r =>
      cases r with
      | error e => exact Kept.refl _
      | ok fk =>
        obtain ⟨f, k⟩ := fk
        dsimp only
        have hk := kept_fresh (c' := { c with kind := k, kids := childInsertAll c.kids (f.roots h.length) }) (f := f)
          hc rfl (plan_became hpl)
        split
        · exact hk
        · rename_i g hg
          exact hk.trans (kept_heads (resolveUols_heads _ _ _ hg))

theorem kept_set {h : NHeap} {i : Nat} {c d : NCell} (hc : h.cell i = some c) (hn : d.name = c.name) (hk : Became c.kind d.kind) :
    Kept h (h.set i (some d)) := by
  intro x e he
  rw [cell_set (cell_lt hc)]
  split
  · rename_i e1
    subst e1
    rw [hc] at he
    cases he
    exact ⟨d, rfl, hn, hk⟩
  · exact ⟨e, he, rfl, Became.refl _⟩

theorem unparsed_became {k k' : NKind} (h : k.unparsed = some k') : Became k k' := by
  cases k with
  | dir => cases h; exact .dir _ _ _ _ _ id
  | file => cases h; exact .file _ _ _
  | image => cases h; exact .image _ _ _
  | _ => cases h

theorem kept_unparse (h : NHeap) (i : Nat) : Kept h (h.unparse i) := by
  unfold NHeap.unparse
  cases hc : h.cell i with
  | none => exact Kept.refl _
  | some c =>
    dsimp only
    cases hk : c.kind.unparsed with
    | none => exact Kept.refl _
    | some k => exact kept_set hc rfl (unparsed_became hk)

/-- A fact about the heap before and after, kept by every call that reads nodes, given that it is kept by `parse` and
`unparse`. -/
structure Carried (content : Content) (R : NHeap → NHeap → Prop) : Prop where
  refl : ∀ h, R h h
  trans : ∀ a b c, R a b → R b c → R a c
  parse : ∀ h i, R h (h.parse content i).2
  unparse : ∀ h i, R h (h.unparse i)

section
variable {content : Content} {R : NHeap → NHeap → Prop} (K : Carried content R)
include K

theorem Carried.foldParsed {held : Nat} : ∀ (ns : List (List Char)) (h : NHeap) (i : Nat),
    R h (NHeap.foldParsed content held h i ns).2
  | [], h, _ => K.refl h
  | n :: ns, h, i => by
    simp only [NHeap.foldParsed]
    split
    · exact K.refl h
    · have hp := K.parse h i
      split
      · rename_i e h' he
        rw [he] at hp; exact hp
      · rename_i u h' he
        rw [he] at hp
        split
        · exact hp
        · exact K.trans _ _ _ hp (Carried.foldParsed ns h' _)

theorem Carried.atPathParsed (h : NHeap) (i : Nat) (path : List Char) : R h (h.atPathParsed content i path).2 := by
  unfold NHeap.atPathParsed
  cases splitSlash path with
  | nil => exact K.refl h
  | cons n ns =>
    dsimp only
    split
    · exact K.refl h
    · exact Carried.foldParsed K ns h _

theorem Carried.foldHeld {held : List Nat} : ∀ (ns : List (List Char)) (h : NHeap) (i : Nat),
    R h (NHeap.foldHeld content held h i ns).2
  | [], h, _ => K.refl h
  | n :: ns, h, i => by
    simp only [NHeap.foldHeld]
    split
    · exact K.refl h
    · have hp := K.parse h i
      split
      · rename_i e h' he
        rw [he] at hp; exact hp
      · rename_i u h' he
        rw [he] at hp
        split
        · exact hp
        · exact K.trans _ _ _ hp (Carried.foldHeld ns h' _)

theorem Carried.atPathHeld (h : NHeap) (held : List Nat) (i : Nat) (path : List Char) :
    R h (h.atPathHeld content held i path).2 := by
  unfold NHeap.atPathHeld
  cases splitSlash path with
  | nil => exact K.refl h
  | cons n ns =>
    dsimp only
    split
    · exact K.refl h
    · exact Carried.foldHeld K ns h _

theorem Carried.outTarget (h : NHeap) (text : Nat → Option (List Char)) (held : List Nat) (fuel i : Nat) :
    R h (h.outTarget content text held fuel i).2 := by
  unfold NHeap.outTarget
  split
  · exact K.refl h
  · unfold NHeap.outlinkRead
    split
    · exact K.refl h
    · exact K.refl h
    · rename_i path _ _ b _
      have hp := Carried.atPathHeld K h held b path
      split
      · rename_i e h' he
        rw [he] at hp
        exact hp
      · rename_i e h' he
        rw [he] at hp
        split <;> exact hp

theorem Carried.getImage (png : Nat → Bool) (text : Nat → Option (List Char)) : ∀ (fuel : Nat) (h : NHeap) (held : List Nat)
    (i : Nat), R h (NHeap.getImage content png text fuel h held i).2
  | 0, h, _, _ => K.refl h
  | fuel + 1, h, held, i => by
    simp only [NHeap.getImage]
    split
    · split
      · exact K.refl h
      · exact Carried.getImage png text fuel h _ _
      · have ho := Carried.outTarget K h text (i :: held) fuel i
        split
        · rename_i e h' he
          rw [he] at ho; exact ho
        · rename_i t h' he
          rw [he] at ho
          exact K.trans _ _ _ ho (Carried.getImage png text fuel h' _ _)
        · rename_i h' he
          rw [he] at ho; exact ho
    · exact K.refl h

theorem Carried.walkForce : ∀ (fuel : Nat) (h : NHeap) (held : List Nat) (i : Nat) (vs : List (Nat × Option NCell)) (g : NHeap),
    NHeap.walkForce content fuel h held i = .ok (vs, g) → R h g
  | 0, h, held, i, vs, g, hr => by cases hr
  | fuel + 1, h, held, i, vs, g, hr => by
    have loop : ∀ (l : List (List Char × Nat)) (h : NHeap) (vs : List (Nat × Option NCell)) (g : NHeap),
        NHeap.forceLoop (fun g j => NHeap.walkForce content fuel g (i :: held) j) h l = .ok (vs, g) → R h g := by
      intro l
      induction l with
      | nil => intro h vs g hr; cases hr; exact K.refl _
      | cons x l ih =>
        obtain ⟨n, j⟩ := x
        intro h vs g hr
        simp only [NHeap.forceLoop] at hr
        split at hr
        · cases hr
        · rename_i a h' ha
          split at hr
          · cases hr
          · rename_i b h'' hb
            injection hr with hr
            injection hr with _ hr
            subst hr
            exact K.trans _ _ _ (Carried.walkForce fuel h (i :: held) j a h' ha) (ih h' b h'' hb)
    simp only [NHeap.walkForce] at hr
    split at hr
    · cases hr
    · split at hr
      · cases hr
      · split at hr
        · cases hr; exact K.parse h i
        · rename_i c _
          split at hr
          · cases hr
          · rename_i ws h' hl
            have := K.trans _ _ _ (K.parse h i) (loop _ _ _ _ hl)
            cases hr
            split
            · exact K.trans _ _ _ this (K.unparse _ _)
            · exact this

end

theorem kept_carried (content : Content) : Carried content Kept :=
  ⟨Kept.refl, fun _ _ _ => Kept.trans, fun h i => kept_parse h content i, kept_unparse⟩

theorem kept_append (h : NHeap) (l : NHeap) : Kept h (h ++ l) := by
  intro i c hc
  exact ⟨c, by rw [cell_append_left (cell_lt hc)]; exact hc, rfl, Became.refl _⟩

theorem transfer_same : ∀ (fuel : Nat) (h : NHeap) (s d : Nat) (g : NHeap),
    NHeap.transfer fuel h s d = some g → SameValues h g
  | 0, h, s, d, g, hg => by cases hg
  | fuel + 1, h, s, d, g, hg => by
    have loop : ∀ (l : List (List Char × Nat)) (h g : NHeap),
        NHeap.transferLoop (NHeap.transfer fuel) d h l = some g → SameValues h g := by
      intro l
      induction l with
      | nil => intro h g hg; cases hg; exact SameValues.refl _
      | cons x l ih =>
        obtain ⟨n, c⟩ := x
        intro h g hg
        rw [NHeap.transferLoop] at hg
        split at hg
        · rename_i old _
          split at hg
          · cases hg
          · rename_i h' hh'
            exact SameValues.trans (transfer_same fuel h c old h' hh') (ih h' g hg)
        · dsimp only at hg
          split at hg
          · cases hg
          · exact SameValues.trans (SameValues.trans (setParent_same _ _ _) (setKids_same _ _ _)) (ih _ g hg)
    rw [NHeap.transfer] at hg
    split at hg
    · cases hg; exact SameValues.refl _
    · exact SameValues.trans (setKids_same _ _ _) (loop _ _ _ hg)

theorem fixParents_same : ∀ (fuel : Nat) (h : NHeap) (i : Nat) (g : NHeap),
    NHeap.fixParents fuel h i = some g → SameValues h g ∧ SameKids h g
  | 0, h, i, g, hg => by cases hg
  | fuel + 1, h, i, g, hg => by
    have loop : ∀ (l : List (List Char × Nat)) (h g : NHeap),
        NHeap.fixLoop (NHeap.fixParents fuel) i h l = some g → SameValues h g ∧ SameKids h g := by
      intro l
      induction l with
      | nil => intro h g hg; cases hg; exact ⟨SameValues.refl _, fun _ => rfl⟩
      | cons x l ih =>
        obtain ⟨n, c⟩ := x
        intro h g hg
        rw [NHeap.fixLoop] at hg
        split at hg
        · cases hg
        · rename_i h' hh'
          obtain ⟨a1, a2⟩ := fixParents_same fuel _ _ h' hh'
          obtain ⟨b1, b2⟩ := ih h' g hg
          exact ⟨SameValues.trans (SameValues.trans (setParent_same _ _ _) a1) b1, fun x => ((setParent_kids _ _ _ x).trans (a2 x)).trans (b2 x)⟩
    rw [NHeap.fixParents] at hg
    split at hg
    · cases hg; exact ⟨SameValues.refl _, fun _ => rfl⟩
    · exact loop _ _ _ hg

theorem kept_call {content : Content} {h g : NHeap} (hc : NodeCall content h g) : Kept h g := by
  have K := kept_carried content
  cases hc with
  | new name kind parent => exact kept_append _ _
  | parse i => exact kept_parse _ _ _
  | unparse i => exact kept_unparse _ _
  | find i path => exact K.atPathParsed _ _ _
  | walk i fuel vs _ hw => exact K.walkForce _ _ _ _ _ _ hw
  | picture png text fuel i => exact K.getImage _ _ _ _ _ _
  | merge _ fuel s d hm => exact kept_same (transfer_same _ _ _ _ _ hm)
  | repair _ fuel i hm => exact kept_same (fixParents_same _ _ _ _ hm).1

theorem kept_add (h : NHeap) (i j : Nat) : Kept h (h.add i j) := by
  unfold NHeap.add
  cases hc : h.cell i with
  | none => exact Kept.refl _
  | some c => exact kept_set hc rfl (Became.refl _)

/-! ### different names -/

theorem mapsOk_unparse {h : NHeap} (hm : MapsOk h) (i : Nat) : MapsOk (h.unparse i) := by
  unfold NHeap.unparse
  cases hc : h.cell i with
  | none => exact hm
  | some c =>
    dsimp only
    cases hk : c.kind.unparsed with
    | none => exact hm
    | some k =>
      intro x d hd
      rw [cell_set (cell_lt hc)] at hd
      split at hd
      · cases hd; simp
      · exact hm x d hd

theorem mapsOk_carried (content : Content) : Carried content (fun h g => MapsOk h → MapsOk g) :=
  ⟨fun _ => id, fun _ _ _ f g => g ∘ f, fun _ _ hm => mapsOk_parse hm, fun _ i hm => mapsOk_unparse hm i⟩

theorem mapsOk_kids {h g : NHeap} (hm : MapsOk h) (hk : SameKids h g) : MapsOk g := by
  intro i c hc
  have := hk i
  rw [hc] at this
  cases hd : h.cell i with
  | none => rw [hd] at this; cases this
  | some d =>
    rw [hd] at this
    simp only [Option.map_some, Option.some.injEq] at this
    rw [← this]
    exact hm i d hd

theorem mapsOk_call {content : Content} {h g : NHeap} (hc : NodeCall content h g) (hm : MapsOk h) : MapsOk g := by
  have K := mapsOk_carried content
  cases hc with
  | new name kind parent =>
    intro i c hc
    by_cases hi : i < h.length
    · rw [cell_append_left hi] at hc; exact hm i c hc
    · obtain ⟨k, rfl⟩ : ∃ k, i = h.length + k := ⟨i - h.length, by omega⟩
      rw [cell_append_right] at hc
      cases k with
      | zero => cases hc; simp
      | succ k => simp at hc
  | parse i => exact mapsOk_parse hm
  | unparse i => exact mapsOk_unparse hm i
  | find i path => exact K.atPathParsed _ _ _ hm
  | walk i fuel vs _ hw => exact K.walkForce _ _ _ _ _ _ hw hm
  | picture png text fuel i => exact K.getImage _ _ _ _ _ _ hm
  | merge _ fuel s d ht => exact mapsOk_transfer _ _ _ _ _ hm ht
  | repair _ fuel i hf => exact mapsOk_kids hm (fixParents_same _ _ _ _ hf).2

theorem mapsOk_add {h : NHeap} (hm : MapsOk h) (i j : Nat) : MapsOk (h.add i j) := by
  unfold NHeap.add
  cases hc : h.cell i with
  | none => exact hm
  | some c =>
    intro x d hd
    dsimp only at hd
    rw [cell_set (cell_lt hc)] at hd
    split at hd
    · cases hd; exact childInsert_nodup _ _ _ (hm i c hc)
    · exact hm x d hd

/-! ### names and parents -/

theorem childInsert_from {m : List (List Char × Nat)} {k n : List Char} {v j : Nat} (h : (n, j) ∈ childInsert m k v) :
    (n, j) ∈ m ∨ (n = k ∧ j = v) := by
  have := mem_childInsert h
  simp only [Prod.mk.injEq] at this
  exact this

theorem called_same {h g : NHeap} (hk : SameValues h g) {i : Nat} {n : List Char} (hc : Called h i n) : Called g i n := by
  obtain ⟨c, hc, e⟩ := hc
  obtain ⟨d, hd, e1, _⟩ := kept_same hk i c hc
  exact ⟨d, hd, e1.trans e⟩

/-- the node is in no map of children -/
def Loose (h : NHeap) (x : Nat) : Prop := ∀ i n, ¬ ChildOf h i n x

theorem setParent_children {h : NHeap} {c d : Nat} {i : Nat} {n : List Char} {j : Nat} :
    ChildOf (h.setParent c d) i n j ↔ ChildOf h i n j := by
  have := setParent_kids h c d i
  constructor
  · rintro ⟨x, hx, hm⟩
    rw [hx] at this
    cases hy : h.cell i with
    | none => rw [hy] at this; cases this
    | some y =>
      rw [hy] at this
      simp only [Option.map_some, Option.some.injEq] at this
      exact ⟨y, hy, this ▸ hm⟩
  · rintro ⟨x, hx, hm⟩
    rw [hx] at this
    cases hy : (h.setParent c d).cell i with
    | none => rw [hy] at this; cases this
    | some y =>
      rw [hy] at this
      simp only [Option.map_some, Option.some.injEq] at this
      exact ⟨y, hy, this ▸ hm⟩

theorem setKids_children {h : NHeap} {s : Nat} {ks : List (List Char × Nat)} {i : Nat} {n : List Char} {j : Nat}
    (hc : ChildOf (h.setKids s ks) i n j) : (i = s ∧ (n, j) ∈ ks) ∨ (i ≠ s ∧ ChildOf h i n j) := by
  obtain ⟨c, hc, hm⟩ := hc
  rw [setKids_cell] at hc
  split at hc
  · rename_i e
    subst e
    cases hx : h.cell i with
    | none => rw [hx] at hc; cases hc
    | some x => rw [hx] at hc; cases hc; exact .inl ⟨rfl, hm⟩
  · rename_i e
    exact .inr ⟨e, c, hc, hm⟩

theorem setKids_parent {h : NHeap} {s : Nat} {ks : List (List Char × Nat)} {j p : Nat} (hp : ParentOf h j p) :
    ParentOf (h.setKids s ks) j p := by
  obtain ⟨c, d, hc, e, hd⟩ := hp
  have h1 := setKids_cell (h := h) (i := s) (ks := ks) (j := j)
  have h2 := setKids_cell (h := h) (i := s) (ks := ks) (j := p)
  by_cases e1 : j = s <;> by_cases e2 : p = s <;> simp_all [ParentOf]

theorem setParent_parent {h : NHeap} {x p : Nat} {j q : Nat} (hne : j ≠ x) (hp : ParentOf h j q) :
    ParentOf (h.setParent x p) j q := by
  obtain ⟨c, d, hc, e, hd⟩ := hp
  have h1 := setParent_cell (h := h) (i := x) (p := p) (j := j)
  have h2 := setParent_cell (h := h) (i := x) (p := p) (j := q)
  rw [if_neg hne] at h1
  by_cases e2 : q = x
  · subst e2; rw [if_pos rfl, hd] at h2; exact ⟨c, _, h1.trans hc, e, h2⟩
  · rw [if_neg e2] at h2; exact ⟨c, d, h1.trans hc, e, h2.trans hd⟩

theorem consistent_setKids_nil {h : NHeap} (K : Consistent h) (s : Nat) : Consistent (h.setKids s []) := by
  refine ⟨mapsOk_setKids K.maps s [] (by simp), fun i n j hc => ?_⟩
  rcases setKids_children hc with ⟨_, hm⟩ | ⟨_, hm⟩
  · cases hm
  · exact ⟨called_same (setKids_same _ _ _) (K.kids i n j hm).1, setKids_parent (K.kids i n j hm).2⟩

/-- one child handed over -/
theorem consistent_give {h : NHeap} (K : Consistent h) {c d : Nat} {n : List Char} {x : NCell} (hl : Loose h c) (hn : Called h c n)
    (hx : (h.setParent c d).cell d = some x) : Consistent ((h.setParent c d).setKids d (childInsert x.kids n c)) := by
  have hm1 := mapsOk_setParent K.maps c d
  refine ⟨mapsOk_setKids hm1 d _ (childInsert_nodup _ _ _ (hm1 d x hx)), fun i m j hc => ?_⟩
  have old : ∀ i m j, ChildOf h i m j → Called ((h.setParent c d).setKids d (childInsert x.kids n c)) j m ∧
      ParentOf ((h.setParent c d).setKids d (childInsert x.kids n c)) j i := by
    intro i m j hc
    have hne : j ≠ c := fun e => hl i m (e ▸ hc)
    exact ⟨called_same (SameValues.trans (setParent_same _ _ _) (setKids_same _ _ _)) (K.kids i m j hc).1,
      setKids_parent (setParent_parent hne (K.kids i m j hc).2)⟩
  rcases setKids_children hc with ⟨e, hm⟩ | ⟨_, hm⟩
  · subst e
    rcases childInsert_from hm with hm | ⟨rfl, rfl⟩
    · exact old i m j (setParent_children.1 ⟨x, hx, hm⟩)
    · refine ⟨called_same (SameValues.trans (setParent_same _ _ _) (setKids_same _ _ _)) hn, setKids_parent ?_⟩
      obtain ⟨y, hy, _⟩ := hn
      have := setParent_cell (h := h) (i := j) (p := i) (j := j)
      rw [if_pos rfl, hy] at this
      exact ⟨_, x, this, rfl, hx⟩
  · exact old i m j (setParent_children.1 hm)

theorem consistent_transfer : ∀ (fuel : Nat) (h : NHeap) (s d : Nat) (g : NHeap), Consistent h →
    NHeap.transfer fuel h s d = some g → Consistent g ∧ ∀ x, Loose h x → Loose g x
  | 0, h, s, d, g, _, hg => by cases hg
  | fuel + 1, h, s, d, g, K, hg => by
    have loop : ∀ (l : List (List Char × Nat)) (h g : NHeap), Consistent h →
        (∀ n c, (n, c) ∈ l → Called h c n ∧ Loose h c) → (l.map Prod.snd).Nodup →
        NHeap.transferLoop (NHeap.transfer fuel) d h l = some g →
        Consistent g ∧ ∀ x, Loose h x → x ∉ l.map Prod.snd → Loose g x := by
      intro l
      induction l with
      | nil => intro h g K _ _ hg; cases hg; exact ⟨K, fun x hx _ => hx⟩
      | cons x l ih =>
        obtain ⟨n, c⟩ := x
        intro h g K hl hnd hg
        obtain ⟨hcn, hcl⟩ := hl n c (by simp)
        simp only [List.map_cons, List.nodup_cons] at hnd
        rw [NHeap.transferLoop] at hg
        split at hg
        · rename_i old _
          split at hg
          · cases hg
          · rename_i h' hh'
            obtain ⟨K', L'⟩ := consistent_transfer fuel h c old h' K hh'
            obtain ⟨K2, L2⟩ := ih h' g K' (fun m y hy =>
              ⟨called_same (transfer_same _ _ _ _ _ hh') (hl m y (List.mem_cons_of_mem _ hy)).1,
                L' y (hl m y (List.mem_cons_of_mem _ hy)).2⟩) hnd.2 hg
            refine ⟨K2, fun x hx hnx => L2 x (L' x hx) ?_⟩
            simp only [List.map_cons, List.mem_cons, not_or] at hnx
            exact hnx.2
        · dsimp only at hg
          split at hg
          · cases hg
          · rename_i cd hcd
            have K' := consistent_give K hcl hcn hcd
            have L' : ∀ x, Loose h x → x ≠ c → Loose ((h.setParent c d).setKids d (childInsert cd.kids n c)) x := by
              intro x hx hne i m hc
              rcases setKids_children hc with ⟨e, hm⟩ | ⟨_, hm⟩
              · subst e
                rcases childInsert_from hm with hm | ⟨_, e⟩
                · exact hx i m (setParent_children.1 ⟨cd, hcd, hm⟩)
                · exact hne e
              · exact hx i m (setParent_children.1 hm)
            obtain ⟨K2, L2⟩ := ih _ g K' (fun m y hy =>
              ⟨called_same (SameValues.trans (setParent_same _ _ _) (setKids_same _ _ _))
                (hl m y (List.mem_cons_of_mem _ hy)).1,
                L' y (hl m y (List.mem_cons_of_mem _ hy)).2
                  (fun e => hnd.1 (e ▸ List.mem_map_of_mem (f := Prod.snd) hy))⟩) hnd.2 hg
            refine ⟨K2, fun x hx hnx => ?_⟩
            simp only [List.map_cons, List.mem_cons, not_or] at hnx
            exact L2 x (L' x hx hnx.1) hnx.2
    rw [NHeap.transfer] at hg
    split at hg
    · cases hg; exact ⟨K, fun _ => id⟩
    · rename_i c hc
      have loose0 : ∀ x, Loose h x → Loose (h.setKids s []) x := by
        intro x hx i m hm
        rcases setKids_children hm with ⟨_, hm⟩ | ⟨_, hm⟩
        · cases hm
        · exact hx i m hm
      have own : ∀ n j, (n, j) ∈ c.kids → Called h j n ∧ ParentOf h j s := fun n j hj => K.kids s n j ⟨c, hc, hj⟩
      have hnd : (c.kids.map Prod.snd).Nodup := by
        have hm := K.maps s c hc
        generalize c.kids = ks at own hm
        induction ks with
        | nil => simp
        | cons x ks ih =>
          simp only [List.map_cons, List.nodup_cons] at hm ⊢
          refine ⟨fun hx => ?_, ih (fun n j hj => own n j (List.mem_cons_of_mem _ hj)) hm.2⟩
          obtain ⟨⟨n, j⟩, hy, e⟩ := List.mem_map.1 hx
          simp only at e
          subst e
          obtain ⟨a, ha, ea⟩ := (own n x.2 (List.mem_cons_of_mem _ hy)).1
          obtain ⟨b, hb, eb⟩ := (own x.1 x.2 (by simp)).1
          rw [ha] at hb
          cases hb
          exact hm.1 (List.mem_map.2 ⟨_, hy, ea.symm.trans eb⟩)
      obtain ⟨K2, L2⟩ := loop c.kids (h.setKids s []) g (consistent_setKids_nil K s) (fun n j hj => by
        refine ⟨called_same (setKids_same _ _ _) (own n j hj).1, fun i m hm => ?_⟩
        rcases setKids_children hm with ⟨_, hm⟩ | ⟨hne, hm⟩
        · cases hm
        · obtain ⟨a, b, ha, ea, _⟩ := (own n j hj).2
          obtain ⟨a', b', ha', ea', _⟩ := (K.kids i m j hm).2
          rw [ha] at ha'
          cases ha'
          rw [ea] at ea'
          cases ea'
          exact hne rfl) hnd hg
      refine ⟨K2, fun x hx => L2 x (loose0 x hx) fun hm => ?_⟩
      obtain ⟨⟨n, j⟩, hy, e⟩ := List.mem_map.1 hm
      simp only at e
      subst e
      exact hx s n ⟨c, hc, hy⟩

/-- There is nothing to repair in a consistent heap. -/
theorem fixParents_consistent : ∀ (fuel : Nat) (h : NHeap) (i : Nat) (g : NHeap), Consistent h →
    NHeap.fixParents fuel h i = some g → g = h
  | 0, h, i, g, _, hg => by cases hg
  | fuel + 1, h, i, g, K, hg => by
    have loop : ∀ (l : List (List Char × Nat)) (g : NHeap), (∀ n c, (n, c) ∈ l → ParentOf h c i) →
        NHeap.fixLoop (NHeap.fixParents fuel) i h l = some g → g = h := by
      intro l
      induction l with
      | nil => intro g _ hg; cases hg; rfl
      | cons x l ih =>
        obtain ⟨n, c⟩ := x
        intro g hp hg
        rw [NHeap.fixLoop] at hg
        have e : h.setParent c i = h := by
          obtain ⟨a, b, ha, ea, _⟩ := hp n c (by simp)
          unfold NHeap.setParent
          rw [ha]
          dsimp only
          rw [← ea]
          have : h[c]? = some (some a) := by
            unfold NHeap.cell at ha
            cases hx : h[c]? with
            | none => rw [hx] at ha; cases ha
            | some o => rw [hx] at ha; cases ha; rfl
          obtain ⟨hlt, he⟩ := List.getElem?_eq_some_iff.1 this
          show h.set c (some a) = h
          rw [← he]
          exact List.set_getElem_self hlt
        rw [e] at hg
        split at hg
        · cases hg
        · rename_i h' hh'
          rw [fixParents_consistent fuel h c h' K hh'] at hg
          exact ih g (fun m y hy => hp m y (List.mem_cons_of_mem _ hy)) hg
    rw [NHeap.fixParents] at hg
    split at hg
    · cases hg; rfl
    · rename_i c hc
      exact loop _ _ (fun n j hj => (K.kids i n j ⟨c, hc, hj⟩).2) hg

/-- nodes of a forest without links: a child is called as listed and has the right parent -/
theorem cells_kids {H : NHeap} : ∀ (f : Forest) (p b : Nat) (live : Bool), Spec.Forest.All NoLink f →
    (∀ k < f.size, H.cell (b + k) = ((f.cells p b live)[k]?).join) → ∀ k < f.size, ∀ d, H.cell (b + k) = some d →
    ∀ n j, (n, j) ∈ d.kids → Called H j n ∧ ParentOf H j (b + k)
  | .nil, _, _, _, _, _, k, hk => by simp [Forest.size] at hk
  | .node m q ks rest, p, b, live, hL, hp, k, hk => by
    obtain ⟨hq, hLk, hLr⟩ := hL
    have hu : q.isUol = false := by cases q <;> first | rfl | exact absurd rfl (hq _)
    have h0 : H.cell b = if live && !(rest.names.any (· == m)) then
        some ⟨m, q, some p, childInsertAll [] (ks.roots (b + 1))⟩ else none := by
      have := hp 0 (by simp [Forest.size]; omega)
      simpa [Forest.cells, hu] using this
    have h1 : ∀ r < ks.size, H.cell (b + 1 + r) = ((ks.cells b (b + 1) (live && !(rest.names.any (· == m))))[r]?).join := by
      intro r hr
      have := hp (r + 1) (by simp [Forest.size]; omega)
      rw [show b + (r + 1) = b + 1 + r by omega] at this
      rw [this]
      simp only [Forest.cells]
      rw [List.getElem?_cons_succ, List.getElem?_append_left (by rw [cells_length]; omega)]
    have h2 : ∀ r < rest.size, H.cell (b + 1 + ks.size + r) = ((rest.cells p (b + 1 + ks.size) live)[r]?).join := by
      intro r hr
      have := hp (1 + ks.size + r) (by simp [Forest.size]; omega)
      rw [show b + (1 + ks.size + r) = b + 1 + ks.size + r by omega] at this
      rw [this]
      simp only [Forest.cells]
      rw [show 1 + ks.size + r = (ks.size + r) + 1 by omega, List.getElem?_cons_succ,
        List.getElem?_append_right (by rw [cells_length]; omega), cells_length, show ks.size + r - ks.size = r by omega]
    intro d hd n j hj
    by_cases hk0 : k = 0
    · subst hk0
      rw [Nat.add_zero] at hd ⊢
      rw [h0] at hd
      by_cases hlive : live && !(rest.names.any (· == m))
      · rw [if_pos hlive] at hd h0
        rw [hlive] at h1
        cases hd
        have hnd : (((childInsertAll [] (ks.roots (b + 1))) : List (List Char × Nat)).map Prod.fst).Nodup :=
          childInsertAll_fst_nodup _ [] (by simp)
        have hl := kidAt_childInsertAll (ks.roots (b + 1)) [] n
        rw [(kidAt_some hnd).2 hj] at hl
        have hs := placed_shows ks (b + 1) n (p := b) (h := H) h1
        cases hsh : Spec.Forest.shows ks n with
        | none =>
          rw [hsh] at hs
          dsimp only at hs
          rw [hs] at hl
          simp [kidAt] at hl
        | some x =>
          rw [hsh] at hs
          obtain ⟨y, hy, hc, _⟩ := hs
          rw [hy] at hl
          simp only [Option.some.injEq] at hl
          subst hl
          exact ⟨⟨_, hc, rfl⟩, _, _, hc, rfl, h0⟩
      · rw [if_neg hlive] at hd; cases hd
    · by_cases hks : k < 1 + ks.size
      · obtain ⟨r, rfl⟩ : ∃ r, k = 1 + r := ⟨k - 1, by omega⟩
        rw [← Nat.add_assoc] at hd ⊢
        exact cells_kids ks b (b + 1) _ hLk h1 r (by omega) d hd n j hj
      · obtain ⟨r, rfl⟩ : ∃ r, k = 1 + ks.size + r := ⟨k - (1 + ks.size), by omega⟩
        rw [show b + (1 + ks.size + r) = b + 1 + ks.size + r by omega] at hd ⊢
        exact cells_kids rest p _ live hLr h2 r (by simp [Forest.size] at hk; omega) d hd n j hj

theorem consistent_fresh {h : NHeap} (K : Consistent h) {i : Nat} {c : NCell} (hc : h.cell i = some c) {f : Forest} {k : NKind}
    (hL : Spec.Forest.All NoLink f) :
    Consistent (fresh h i { c with kind := k, kids := childInsertAll c.kids (f.roots h.length) } f) := by
  have hi := cell_lt hc
  refine ⟨mapsOk_fresh K.maps (childInsertAll_fst_nodup _ _ (K.maps i c hc)), fun x n j hx => ?_⟩
  generalize hc' : ({ c with kind := k, kids := childInsertAll c.kids (f.roots h.length) } : NCell) = c' at hx ⊢
  have hci : (fresh h i c' f).cell i = some c' := by rw [fresh_old hi hi, if_pos rfl]
  have called : ∀ y m, Called h y m → Called (fresh h i c' f) y m := by
    rintro y m ⟨d, hd, e⟩
    rw [Called, fresh_old hi (cell_lt hd)]
    split
    · rename_i e1
      subst e1
      rw [hc] at hd
      cases hd
      exact ⟨c', rfl, by rw [← hc']; exact e⟩
    · exact ⟨d, hd, e⟩
  have parent : ∀ y q, ParentOf h y q → ParentOf (fresh h i c' f) y q := by
    rintro y q ⟨d, e, hd, hp, he⟩
    obtain ⟨e', he', _⟩ := called q e.name ⟨e, he, rfl⟩
    by_cases e1 : y = i
    · subst e1
      rw [hc] at hd
      cases hd
      exact ⟨c', e', hci, by rw [← hc']; exact hp, he'⟩
    · exact ⟨d, e', by rw [fresh_old hi (cell_lt hd), if_neg e1]; exact hd, hp, he'⟩
  obtain ⟨d, hd, hm⟩ := hx
  by_cases hxl : x < h.length
  · rw [fresh_old hi hxl] at hd
    split at hd
    · rename_i e
      subst e
      cases hd
      have hnd : (c'.kids.map Prod.fst).Nodup := by
        rw [← hc']
        exact childInsertAll_fst_nodup _ _ (K.maps x c hc)
      have hl := (kidAt_some hnd).2 hm
      rw [← hc'] at hl
      dsimp only at hl
      rw [kidAt_childInsertAll] at hl
      have hs := placed_shows f h.length n (placed_fresh (h := h) (i := x) (c := c') f)
      cases hsh : Spec.Forest.shows f n with
      | none =>
        rw [hsh] at hs
        dsimp only at hs
        rw [hs] at hl
        have := K.kids x n j ⟨c, hc, kidAt_mem hl⟩
        exact ⟨called _ _ this.1, parent _ _ this.2⟩
      | some y =>
        rw [hsh] at hs
        obtain ⟨z, hz, hzc, _⟩ := hs
        rw [hz] at hl
        cases hl
        exact ⟨⟨_, hzc, rfl⟩, _, _, hzc, rfl, hci⟩
    · have := K.kids x n j ⟨d, hd, hm⟩
      exact ⟨called _ _ this.1, parent _ _ this.2⟩
  · obtain ⟨r, rfl⟩ : ∃ r, x = h.length + r := ⟨x - h.length, by omega⟩
    have hr : r < f.size := by
      have := cell_lt hd
      rw [fresh_length] at this
      omega
    exact cells_kids f i h.length true hL (fun k _ => fresh_new k) r hr d hd n j hm

theorem plan_from {content : Content} {k k' : NKind} {f : Forest} (h : k.plan content = some (.ok (f, k'))) :
    f = .nil ∨ ∃ s, content s = .ok f := by
  cases k with
  | dir a b s =>
    simp only [NKind.plan] at h
    split at h
    · cases h
    · split at h
      · cases h; exact .inl rfl
      · cases hc : content s <;> rw [hc] at h <;> cases h
        exact .inr ⟨s, hc⟩
  | file a s =>
    simp only [NKind.plan] at h
    split at h
    · cases h
    · cases hc : content s <;> rw [hc] at h <;> cases h
      exact .inr ⟨s, hc⟩
  | msFile a s =>
    simp only [NKind.plan] at h
    split at h
    · cases h
    · cases hc : content s <;> rw [hc] at h <;> cases h
      exact .inr ⟨s, hc⟩
  | image a s =>
    simp only [NKind.plan] at h
    split at h
    · cases h
    · cases hc : content s <;> rw [hc] at h <;> cases h
      exact .inr ⟨s, hc⟩
  | msImage s =>
    simp only [NKind.plan] at h
    cases hc : content s <;> rw [hc] at h <;> cases h
    exact .inr ⟨s, hc⟩
  | uol t => cases h
  | other v => cases h

theorem consistent_parse {h : NHeap} (K : Consistent h) {content : Content}
    (hL : ∀ s f, content s = .ok f → Spec.Forest.All NoLink f) (i : Nat) : Consistent (h.parse content i).2 := by
  cases hc : h.cell i with
  | none => unfold NHeap.parse; rw [hc]; exact K
  | some c =>
    rw [parse_eq hc]
    cases hpl : c.kind.plan content with
    | none => exact K
    | some r =>
      cases r with
      | error e => exact K
      | ok fk =>
        obtain ⟨f, k⟩ := fk
        dsimp only
        have hf : Spec.Forest.All NoLink f := by
          rcases plan_from hpl with rfl | ⟨s, hs⟩
          · trivial
          · exact hL s f hs
        rw [uols_linkFree f _ hf]
        exact consistent_fresh K hc hf

theorem consistent_unparse {h : NHeap} (K : Consistent h) (i : Nat) : Consistent (h.unparse i) := by
  refine ⟨mapsOk_unparse K.maps i, ?_⟩
  unfold NHeap.unparse
  cases hc : h.cell i with
  | none => exact K.kids
  | some c =>
    dsimp only
    cases hk : c.kind.unparsed with
    | none => exact K.kids
    | some k =>
      dsimp only
      intro x n j ⟨d, hd, hm⟩
      rw [cell_set (cell_lt hc)] at hd
      split at hd
      · cases hd; cases hm
      · obtain ⟨h1, h2⟩ := K.kids x n j ⟨d, hd, hm⟩
        have cell : ∀ y e, h.cell y = some e → ∃ e', NHeap.cell (h.set i (some { c with kind := k, kids := [] })) y = some e' ∧
            e'.name = e.name ∧ e'.parent = e.parent := by
          intro y e he
          rw [cell_set (cell_lt hc)]
          split
          · rename_i e1
            subst e1
            rw [hc] at he
            cases he
            exact ⟨_, rfl, rfl, rfl⟩
          · exact ⟨e, he, rfl, rfl⟩
        obtain ⟨a, ha, ea⟩ := h1
        obtain ⟨a', b, ha', ea', hb⟩ := h2
        obtain ⟨u, hu, u1, _⟩ := cell j a ha
        obtain ⟨v, hv, _, v2⟩ := cell j a' ha'
        obtain ⟨w, hw, _⟩ := cell x b hb
        exact ⟨⟨u, hu, u1.trans ea⟩, v, w, hv, v2.trans ea', hw⟩

theorem consistent_carried {content : Content} (hL : ∀ s f, content s = .ok f → Spec.Forest.All NoLink f) :
    Carried content (fun h g => Consistent h → Consistent g) :=
  ⟨fun _ => id, fun _ _ _ f g => g ∘ f, fun _ i K => consistent_parse K hL i, fun _ i K => consistent_unparse K i⟩

theorem consistent_call {content : Content} (hL : ∀ s f, content s = .ok f → Spec.Forest.All NoLink f) {h g : NHeap}
    (hc : NodeCall content h g) (K : Consistent h) : Consistent g := by
  have C := consistent_carried hL
  have hm := mapsOk_call hc K.maps
  cases hc with
  | new name kind parent =>
    refine ⟨hm, fun i n j ⟨c, hc, hx⟩ => ?_⟩
    by_cases hi : i < h.length
    · rw [cell_append_left hi] at hc
      obtain ⟨⟨a, ha, ea⟩, a', b, ha', ea', hb⟩ := K.kids i n j ⟨c, hc, hx⟩
      exact ⟨⟨a, by rw [cell_append_left (cell_lt ha)]; exact ha, ea⟩, a', b,
        by rw [cell_append_left (cell_lt ha')]; exact ha', ea', by rw [cell_append_left (cell_lt hb)]; exact hb⟩
    · obtain ⟨k, rfl⟩ : ∃ k, i = h.length + k := ⟨i - h.length, by omega⟩
      rw [cell_append_right] at hc
      cases k with
      | zero => cases hc; cases hx
      | succ k => simp at hc
  | parse i => exact consistent_parse K hL i
  | unparse i => exact consistent_unparse K i
  | find i path => exact C.atPathParsed _ _ _ K
  | walk i fuel vs _ hw => exact C.walkForce _ _ _ _ _ _ hw K
  | picture png text fuel i => exact C.getImage _ _ _ _ _ _ K
  | merge _ fuel s d ht => exact (consistent_transfer _ _ _ _ _ K ht).1
  | repair _ fuel i hf => rw [fixParents_consistent _ _ _ _ K hf]; exact K

theorem consistent_add {h : NHeap} (K : Consistent h) {i j : Nat} (hp : ParentOf h j i) : Consistent (h.add i j) := by
  refine ⟨mapsOk_add K.maps i j, ?_⟩
  obtain ⟨a, c, ha, ea, hc⟩ := hp
  have hn : h.nameOf j = a.name := by simp [NHeap.nameOf, ha]
  unfold NHeap.add
  rw [hc]
  dsimp only
  rw [hn]
  have cell : ∀ y e, h.cell y = some e → ∃ e',
      NHeap.cell (h.set i (some { c with kids := childInsert c.kids a.name j })) y = some e' ∧
      e'.name = e.name ∧ e'.parent = e.parent := by
    intro y e he
    rw [cell_set (cell_lt hc)]
    split
    · rename_i e1
      subst e1
      rw [hc] at he
      cases he
      exact ⟨_, rfl, rfl, rfl⟩
    · exact ⟨e, he, rfl, rfl⟩
  have old : ∀ x n y, Called h y n ∧ ParentOf h y x →
      Called (h.set i (some { c with kids := childInsert c.kids a.name j })) y n ∧
      ParentOf (h.set i (some { c with kids := childInsert c.kids a.name j })) y x := by
    rintro x n y ⟨⟨p, hp, ep⟩, p', q, hp', ep', hq⟩
    obtain ⟨u, hu, u1, _⟩ := cell y p hp
    obtain ⟨v, hv, _, v2⟩ := cell y p' hp'
    obtain ⟨w, hw, _⟩ := cell x q hq
    exact ⟨⟨u, hu, u1.trans ep⟩, v, w, hv, v2.trans ep', hw⟩
  intro x n y ⟨d, hd, hm⟩
  rw [cell_set (cell_lt hc)] at hd
  split at hd
  · rename_i e
    subst e
    cases hd
    rcases childInsert_from hm with hm | ⟨e1, e2⟩
    · exact old x n y (K.kids x n y ⟨c, hc, hm⟩)
    · subst e1; subst e2
      exact old x _ y ⟨⟨a, ha, rfl⟩, a, c, ha, ea, hc⟩
  · exact old x n y (K.kids x n y ⟨d, hd, hm⟩)

/-! ### paths -/

theorem consistent_chain {h : NHeap} (K : Consistent h) : ∀ {i k : Nat} {ns : List (List Char)}, Steps h i ns k →
    ∀ {l : List Nat} {ms : List (List Char)}, Chain h i l → NamesOf h l ms →
    ∃ l', Chain h k l' ∧ NamesOf h l' (ns.reverse ++ ms) ∧ l'.length = ns.length + l.length := by
  intro i k ns hs
  induction hs with
  | here i => intro l ms hc hn; exact ⟨l, hc, hn, by simp⟩
  | step i j k n ns hc _ ih =>
    intro l ms hcl hn
    obtain ⟨h1, h2⟩ := K.kids i n j hc
    obtain ⟨l', a, b, e⟩ := ih (.up j i l h2 hcl) (.cons j n l ms h1 hn)
    exact ⟨l', a, by simpa using b, by simp only [List.length_cons] at e ⊢; omega⟩

theorem slashed_length : ∀ ns : List (List Char), ns.length ≤ (slashed ns).length + 1
  | [] => by simp
  | [n] => by simp
  | n :: m :: ns => by
    have := slashed_length (m :: ns)
    rw [slashed_cons _ _ _, List.length_append, List.length_cons]
    simp only [List.length_cons] at this ⊢
    omega

end Wz
