import Verif.Node.MergeLemmas

/-!
# C27: merging the children of two nodes

The drawings `fs` and `fd` show the two trees: the children of the source node `s` and those of the
destination `d`.  No node appears twice.
-/

set_option autoImplicit false

namespace Wz.Props

open Wz Spec

/-- two directories with a common child `x`, for the examples -/
def heap27 : NHeap :=
  [ some ⟨"s".toList, .dir true true 0, none, [("x".toList, 2), ("y".toList, 4)]⟩,
    some ⟨"d".toList, .dir true true 1, none, [("x".toList, 5), ("z".toList, 7)]⟩,
    some ⟨"x".toList, .dir true true 2, some 0, [("p".toList, 3)]⟩,
    some ⟨"p".toList, .image false 3, some 2, []⟩,
    some ⟨"y".toList, .image false 4, some 0, []⟩,
    some ⟨"x".toList, .dir true true 5, some 1, [("q".toList, 6)]⟩,
    some ⟨"q".toList, .image false 6, some 5, []⟩,
    some ⟨"z".toList, .image false 7, some 1, []⟩ ]

/-- drawing of the source -/
def src27 : IdForest := .cons "x".toList 2 (.cons "p".toList 3 .nil .nil) (.cons "y".toList 4 .nil .nil)

/-- drawing of the destination -/
def dst27 : IdForest := .cons "x".toList 5 (.cons "q".toList 6 .nil .nil) (.cons "z".toList 7 .nil .nil)

theorem heap27_maps : MapsOk heap27 := by
  intro i c hc
  match i with
  | 0 | 1 | 2 | 3 | 4 | 5 | 6 | 7 => cases hc; decide
  | n + 8 => simp [NHeap.cell, heap27] at hc

theorem heap27_src : Below heap27 0 src27 ∧ Linked heap27 0 src27 :=
  ⟨⟨⟨_, rfl, rfl⟩, ⟨_, rfl, rfl⟩, ⟨⟨_, rfl, rfl⟩, trivial, trivial⟩, ⟨_, rfl, rfl⟩, trivial, trivial⟩,
    ⟨_, rfl, rfl⟩, ⟨⟨_, rfl, rfl⟩, trivial, trivial⟩, ⟨_, rfl, rfl⟩, trivial, trivial⟩

theorem heap27_dst : Below heap27 1 dst27 ∧ Linked heap27 1 dst27 :=
  ⟨⟨⟨_, rfl, rfl⟩, ⟨_, rfl, rfl⟩, ⟨⟨_, rfl, rfl⟩, trivial, trivial⟩, ⟨_, rfl, rfl⟩, trivial, trivial⟩,
    ⟨_, rfl, rfl⟩, ⟨⟨_, rfl, rfl⟩, trivial, trivial⟩, ⟨_, rfl, rfl⟩, trivial, trivial⟩

/-- **Merging.**  After the source gave its children to the destination:
* a path from the destination exists exactly if it existed from the destination or from the source;
* paths from the destination lead to the same nodes as before;
* new paths lead to the nodes of the source;
* the source has no children;
* every node below the destination has a link to the node that holds it;
* name and value of every node are as before, and nodes outside of the two trees are untouched. -/
theorem C27_merge {h : NHeap} (hm : MapsOk h) {s d : Nat} {fs fd : IdForest} (hbs : Below h s fs)
    (hls : Linked h s fs) (hbd : Below h d fd) (hld : Linked h d fd)
    (hnd : (s :: d :: (fs.ids ++ fd.ids)).Nodup) {fuel : Nat} (hf : fs.depth < fuel) :
    ∃ g, NHeap.transfer fuel h s d = some g ∧
      (∀ ns, ns ≠ [] → ((∃ k, Steps g d ns k) ↔ (∃ k, Steps h d ns k) ∨ ∃ k, Steps h s ns k)) ∧
      (∀ ns k, Steps h d ns k → Steps g d ns k) ∧
      (∀ ns k, ns ≠ [] → Steps h s ns k → (∀ k', ¬ Steps h d ns k') → Steps g d ns k) ∧
      (∀ n k, ¬ ChildOf g s n k) ∧
      (∃ f, Below g d f ∧ Linked g d f ∧ f.ids.Nodup) ∧
      SameValues h g ∧ ∀ x, x ≠ s → x ≠ d → x ∉ fs.ids → x ∉ fd.ids → g.cell x = h.cell x := by
  obtain ⟨fu, rfl⟩ : ∃ fu, fuel = fu + 1 := ⟨fuel - 1, by omega⟩
  simp only [List.nodup_cons, List.mem_cons, List.mem_append, not_or] at hnd
  obtain ⟨⟨hsd, hsfs, hsfd⟩, ⟨hdfs, hdfd⟩, hall⟩ := hnd
  have h0cell : ∀ x, x ≠ s → (h.setKids s []).cell x = h.cell x := by
    intro x hx; rw [setKids_cell, if_neg hx]
  have hafs : Agree h (h.setKids s []) fs.ids := fun x hx => h0cell x (fun e => hsfs (e ▸ hx))
  have hafd : Agree h (h.setKids s []) fd.ids := fun x hx => h0cell x (fun e => hsfd (e ▸ hx))
  obtain ⟨g, hg, m⟩ := transferLoop_merged fs fu (h.setKids s []) d s fd (by omega)
    (drawn_agree fs hafs hbs.2) (linked_agree fs s hafs hls)
    (by
      obtain ⟨⟨c, h1, h2⟩, h3⟩ := hbd
      exact ⟨⟨c, by rw [h0cell d (fun e => hsd e.symm), h1], h2⟩, drawn_agree fd hafd h3⟩)
    (linked_agree fd d hafd hld)
    (by
      rw [List.nodup_cons]
      refine ⟨?_, hall⟩
      intro e
      rcases List.mem_append.1 e with e | e
      · exact hdfs e
      · exact hdfd e)
  have htr : NHeap.transfer (fu + 1) h s d = some g := by
    obtain ⟨⟨c, h1, h2⟩, _⟩ := hbs
    rw [NHeap.transfer, h1]
    dsimp only
    rw [h2]; exact hg
  have hmg := mapsOk_transfer _ _ _ _ _ hm htr
  have hdist := below_distinct hm hbs
  have key : ∀ ns, ns ≠ [] → (fs.merge fd).follow d ns = match fd.follow d ns with
      | some k => some k
      | none => fs.follow s ns := fun ns hns => follow_merge ns fs fd d s hdist hns
  have hfd : ∀ ns k, fd.follow d ns = some k ↔ Steps h d ns k := fun ns k => follow_steps hm ns fd d k hbd
  have hfs : ∀ ns k, fs.follow s ns = some k ↔ Steps h s ns k := fun ns k => follow_steps hm ns fs s k hbs
  have hfg : ∀ ns k, (fs.merge fd).follow d ns = some k ↔ Steps g d ns k := fun ns k =>
    follow_steps hmg ns _ d k m.below
  refine ⟨g, htr, ?_, ?_, ?_, ?_, ⟨_, m.below, m.links, ids_merge_nodup fs fd hall⟩, ?_, ?_⟩
  · intro ns hns
    have hk := key ns hns
    cases hd' : fd.follow d ns with
    | some k =>
      rw [hd'] at hk
      exact ⟨fun _ => .inl ⟨k, (hfd ns k).1 hd'⟩, fun _ => ⟨k, (hfg ns k).1 hk⟩⟩
    | none =>
      rw [hd'] at hk
      dsimp only at hk
      constructor
      · rintro ⟨k, hst⟩
        rw [← hfg, hk, hfs] at hst
        exact .inr ⟨k, hst⟩
      · rintro (⟨k, hst⟩ | ⟨k, hst⟩)
        · rw [← hfd, hd'] at hst; cases hst
        · rw [← hfs] at hst; exact ⟨k, (hfg ns k).1 (by rw [hk, hst])⟩
  · intro ns k hst
    cases ns with
    | nil => cases hst; exact .here _
    | cons n ns =>
      rw [← hfg, key _ (by simp), (hfd _ k).2 hst]
  · intro ns k hns hst hno
    have hd' : fd.follow d ns = none := by
      cases hd' : fd.follow d ns with
      | none => rfl
      | some k' => exact absurd ((hfd ns k').1 hd') (hno k')
    rw [← hfg, key ns hns, hd']
    exact (hfs ns k).2 hst
  · rintro n k ⟨c, h1, h2⟩
    rw [m.frame s hsd hsfs hsfd, setKids_cell, if_pos rfl] at h1
    cases hc : h.cell s with
    | none => rw [hc] at h1; cases h1
    | some c' => rw [hc] at h1; cases h1; cases h2
  · exact SameValues.trans (setKids_same h s []) m.values
  · intro x hx1 hx2 hx3 hx4
    rw [m.frame x hx2 hx3 hx4, h0cell x hx1]

example : ∃ g, NHeap.transfer 3 heap27 0 1 = some g ∧ Steps g 1 ["x".toList, "p".toList] 3 ∧
    Steps g 1 ["x".toList, "q".toList] 6 ∧ Steps g 1 ["y".toList] 4 := by
  obtain ⟨g, h1, h2, h3, h4, _⟩ := C27_merge heap27_maps heap27_src.1 heap27_src.2 heap27_dst.1 heap27_dst.2
    (by decide) (fuel := 3) (by decide)
  refine ⟨g, h1, h4 _ _ (by simp) ?_ ?_, h3 _ _ ?_, h4 _ _ (by simp) ?_ ?_⟩
  · exact (follow_steps heap27_maps _ _ _ _ heap27_src.1).1 (by decide)
  · intro k' hk; have := (follow_steps heap27_maps _ _ _ _ heap27_dst.1).2 hk
    rw [show dst27.follow 1 ["x".toList, "p".toList] = none by decide] at this; cases this
  · exact (follow_steps heap27_maps _ _ _ _ heap27_dst.1).1 (by decide)
  · exact (follow_steps heap27_maps _ _ _ _ heap27_src.1).1 (by decide)
  · intro k' hk; have := (follow_steps heap27_maps _ _ _ _ heap27_dst.1).2 hk
    rw [show dst27.follow 1 ["y".toList] = none by decide] at this; cases this

/-- **Counterexample to "loses nothing".**  Of two nodes with one name only the destination's stays; the
source's node and with it the content it has not parsed yet is gone: no path leads to it. -/
theorem C27_content_lost_counterexample :
    ∃ h g : NHeap, NHeap.transfer 2 h 0 1 = some g ∧ Steps h 0 ["m.img".toList] 2 ∧
      (∃ c, h.cell 2 = some c ∧ c.kind = .image false 20) ∧
      ∀ ns, ¬ Steps g 0 ns 2 ∧ ¬ Steps g 1 ns 2 := by
  refine ⟨[ some ⟨"s".toList, .dir true true 0, none, [("m.img".toList, 2)]⟩,
    some ⟨"d".toList, .dir true true 1, none, [("m.img".toList, 3)]⟩,
    some ⟨"m.img".toList, .image false 20, some 0, []⟩,
    some ⟨"m.img".toList, .image false 30, some 1, []⟩ ],
    [ some ⟨"s".toList, .dir true true 0, none, []⟩,
    some ⟨"d".toList, .dir true true 1, none, [("m.img".toList, 3)]⟩,
    some ⟨"m.img".toList, .image false 20, some 0, []⟩,
    some ⟨"m.img".toList, .image false 30, some 1, []⟩ ], by decide +kernel,
    .step _ 2 _ _ _ ⟨_, rfl, by decide⟩ (.here 2), ⟨_, rfl, rfl⟩, ?_⟩
  intro ns
  constructor
  · intro hs
    cases hs with
    | step _ j _ n ns hc _ => obtain ⟨c, h1, h2⟩ := hc; cases h1; cases h2
  · intro hs
    cases hs with
    | step _ j _ n ns hc hr =>
      obtain ⟨c, h1, h2⟩ := hc
      cases h1
      simp only [List.mem_cons, Prod.mk.injEq, List.mem_nil_iff, or_false] at h2
      obtain ⟨_, rfl⟩ := h2
      cases hr with
      | step _ j _ n ns hc _ => obtain ⟨c, h1, h2⟩ := hc; cases h1; cases h2

/-- **Repairing parent links**: after `resolve_childs_parent` every node below has a link to the node that
holds it, whatever the links were; nothing else changes. -/
theorem C27_repair {h : NHeap} {p : Nat} {f : IdForest} (hb : Below h p f) (hn : f.ids.Nodup) (hp : p ∉ f.ids)
    {fuel : Nat} (hf : f.depth < fuel) :
    ∃ g, NHeap.fixParents fuel h p = some g ∧ Below g p f ∧ Linked g p f ∧ SameValues h g ∧
      ∀ x, x ∉ f.ids → g.cell x = h.cell x := by
  obtain ⟨fu, rfl⟩ : ∃ fu, fuel = fu + 1 := ⟨fuel - 1, by omega⟩
  obtain ⟨g, hg, hl, hv, hk, hfr⟩ := fixLoop_linked f fu h p (by omega) hb.2 hn
  have hdrawn : ∀ f : IdForest, Drawn h f → Drawn g f := by
    intro f
    induction f with
    | nil => intro _; trivial
    | cons n i ks rest ihk ihr =>
      rintro ⟨⟨c, h1, h2⟩, h3, h4⟩
      refine ⟨?_, ihk h3, ihr h4⟩
      have := hk i
      rw [h1] at this
      cases hgi : g.cell i with
      | none => rw [hgi] at this; cases this
      | some c' => rw [hgi] at this; exact ⟨c', rfl, by rw [← h2]; exact (Option.some.inj this).symm⟩
  obtain ⟨⟨c, h1, h2⟩, h3⟩ := hb
  refine ⟨g, ?_, ⟨⟨c, by rw [hfr p hp, h1], h2⟩, hdrawn f h3⟩, hl, hv, hfr⟩
  rw [NHeap.fixParents, h1]
  dsimp only
  rw [h2]; exact hg

example : ∃ g, NHeap.fixParents 3 heap27 0 = some g ∧ Linked g 0 src27 := by
  obtain ⟨g, h1, _, h2, _⟩ := C27_repair heap27_src.1 (by decide) (by decide) (fuel := 3) (by decide)
  exact ⟨g, h1, h2⟩

end Wz.Props
