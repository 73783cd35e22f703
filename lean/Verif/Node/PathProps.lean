import Verif.Node.PathLemmas

/-!
# C25: paths of nodes
-/

set_option autoImplicit false

namespace Wz.Props

open Wz Spec

/-! A small tree for the examples: `Base` > `Map` > `m.img` (image) > `info` > `bgm`. -/

/-- `Base`/`Map`/`m.img`/`info`/`bgm` with `bgm` also having a brother `x` -/
def tree25 : NHeap :=
  [ some ⟨"Base".toList, .file true 0, none, [("Map".toList, 1)]⟩,
    some ⟨"Map".toList, .dir true true 1, some 0, [("m.img".toList, 2)]⟩,
    some ⟨"m.img".toList, .image true 2, some 1, [("info".toList, 3)]⟩,
    some ⟨"info".toList, .other 0, some 2, [("x".toList, 5), ("bgm".toList, 4)]⟩,
    some ⟨"bgm".toList, .other 1, some 3, []⟩,
    some ⟨"x".toList, .other 2, some 3, []⟩ ]

theorem tree25_chain : Chain tree25 4 [4, 3, 2, 1, 0] := by
  refine .up 4 3 _ ⟨_, _, rfl, rfl, rfl⟩ (.up 3 2 _ ⟨_, _, rfl, rfl, rfl⟩ (.up 2 1 _ ⟨_, _, rfl, rfl, rfl⟩
    (.up 1 0 _ ⟨_, _, rfl, rfl, rfl⟩ (.root 0 ?_))))
  rintro p ⟨c, d, h1, h2, h3⟩
  cases h1; cases h2

theorem tree25_names : NamesOf tree25 [4, 3, 2, 1, 0]
    ["bgm".toList, "info".toList, "m.img".toList, "Map".toList, "Base".toList] :=
  .cons _ _ _ _ ⟨_, rfl, rfl⟩ (.cons _ _ _ _ ⟨_, rfl, rfl⟩ (.cons _ _ _ _ ⟨_, rfl, rfl⟩
    (.cons _ _ _ _ ⟨_, rfl, rfl⟩ (.cons _ _ _ _ ⟨_, rfl, rfl⟩ .nil))))

theorem tree25_maps : MapsOk tree25 := by
  intro i c hc
  match i with
  | 0 | 1 | 2 | 3 | 4 | 5 => cases hc; decide
  | n + 6 => simp [NHeap.cell, tree25] at hc

theorem tree25_held : HeldAlong tree25 [4, 3, 2, 1, 0] := by
  refine ⟨⟨_, ⟨_, rfl, rfl⟩, _, rfl, ?_⟩, ⟨_, ⟨_, rfl, rfl⟩, _, rfl, ?_⟩, ⟨_, ⟨_, rfl, rfl⟩, _, rfl, ?_⟩,
    ⟨_, ⟨_, rfl, rfl⟩, _, rfl, ?_⟩, trivial⟩ <;> decide

/-- The full path of a node is the names from the root down to the node, separated by slashes. -/
theorem C25_full_path {h : NHeap} {l : List Nat} {i : Nat} {ns : List (List Char)} {fuel : Nat}
    (hc : Chain h i l) (hn : NamesOf h l ns) (hf : l.length ≤ fuel + 1) :
    h.fullPath fuel i = some (slashed ns.reverse) :=
  fullPath_chain hc hn hf

example : tree25.fullPath 4 4 = some "Base/Map/m.img/info/bgm".toList :=
  (C25_full_path tree25_chain tree25_names (by decide)).trans (by decide +kernel)

/-- The path from the root is the same without the name of the root; it is empty for the root itself. -/
theorem C25_root_path {h : NHeap} {l : List Nat} {i : Nat} {ns : List (List Char)} {fuel : Nat}
    (hc : Chain h i l) (hn : NamesOf h l ns) (hf : l.length ≤ fuel + 1) :
    h.rootPath fuel i = some (slashed ns.reverse.tail) :=
  rootPath_chain hc hn hf

example : tree25.rootPath 4 4 = some "Map/m.img/info/bgm".toList :=
  (C25_root_path tree25_chain tree25_names (by decide)).trans (by decide +kernel)

/-- The path from the image: the names of the nodes below the nearest image above the node. -/
theorem C25_image_path {h : NHeap} {l above : List Nat} {i q : Nat} {ns : List (List Char)} {fuel : Nat}
    (hc : Chain h i (i :: l ++ q :: above)) (hn : NamesOf h (i :: l) ns) (hl : ∀ j ∈ l, ¬ Image h j)
    (hq : Image h q) (hf : l.length < fuel) :
    h.imagePath fuel i = some (slashed ns.reverse) := by
  cases hn with
  | cons _ n _ ns' hca hn' =>
    unfold NHeap.imagePath
    generalize hL : l ++ q :: above = L at hc
    have hL' : i :: l ++ q :: above = i :: L := by rw [← hL]; rfl
    rw [hL'] at hc
    cases hc with
    | root => simp at hL
    | up _ p _ hp hc' =>
      rw [← hL] at hc'
      rw [up_eq_some.2 hp]
      dsimp only
      rw [nameOf_eq hca, imageLoop_chain l p q above ns' fuel n hc' hn' hl hq hf, List.reverse_cons]

example : tree25.imagePath 9 4 = some "info/bgm".toList :=
  (C25_image_path (l := [3]) (above := [1, 0]) (q := 2) tree25_chain
    (.cons _ _ _ _ ⟨_, rfl, rfl⟩ (.cons _ _ _ _ ⟨_, rfl, rfl⟩ .nil))
    (by rintro j hj ⟨c, a, b, h1, h2⟩
        rcases List.mem_cons.1 hj with rfl | hj
        · cases h1; cases h2
        · cases hj)
    ⟨_, _, _, rfl, rfl⟩ (by decide)).trans (by decide +kernel)

/-- Without an image above the node the path is empty. -/
theorem C25_image_path_none {h : NHeap} {l : List Nat} {i : Nat} {fuel : Nat}
    (hc : Chain h i (i :: l)) (hl : ∀ j ∈ l, ¬ Image h j) (hf : l.length ≤ fuel) :
    h.imagePath fuel i = some [] := by
  unfold NHeap.imagePath
  cases hc with
  | root _ hno => rw [up_eq_none.2 hno]
  | up _ p _ hp hc' =>
    rw [up_eq_some.2 hp]
    exact imageLoop_none l p fuel _ hc' hl hf

example : tree25.imagePath 2 2 = some [] :=
  C25_image_path_none (l := [1, 0])
    (.up 2 1 _ ⟨_, _, rfl, rfl, rfl⟩ (.up 1 0 _ ⟨_, _, rfl, rfl, rfl⟩ (.root 0 (by
      rintro p ⟨c, d, h1, h2, h3⟩; cases h1; cases h2))))
    (by rintro j hj ⟨c, a, b, h1, h2⟩
        rcases List.mem_cons.1 hj with rfl | hj
        · cases h1; cases h2
        · rcases List.mem_cons.1 hj with rfl | hj
          · cases h1; cases h2
          · cases hj) (by decide)

/-- **Looking up a path** gives a node exactly if every piece of the path names a child of the node before. -/
theorem C25_at_path {h : NHeap} (hm : MapsOk h) (i k : Nat) (path : List Char) :
    h.atPath i path = some k ↔ ∃ ns, Pieces path ns ∧ Steps h i ns k := by
  rw [atPath_fold, foldPath_at hm]
  constructor
  · intro hs; exact ⟨_, pieces_iff.2 rfl, hs⟩
  · rintro ⟨ns, hp, hs⟩; rw [pieces_iff.1 hp]; exact hs

example : tree25.atPath 0 "Map/m.img/info".toList = some 3 := by decide +kernel

/-- **Looking up a relative path**: the same, where ".." is the parent of the node before. -/
theorem C25_at_path_relative {h : NHeap} (hm : MapsOk h) (i k : Nat) (path : List Char) :
    h.atPathRel i path = some k ↔ ∃ ns, Pieces path ns ∧ RelSteps h i ns k := by
  rw [atPathRel_fold, foldPath_rel hm]
  constructor
  · intro hs; exact ⟨_, pieces_iff.2 rfl, hs⟩
  · rintro ⟨ns, hp, hs⟩; rw [pieces_iff.1 hp]; exact hs

example : tree25.atPathRel 4 "../x/../../info/bgm".toList = some 4 := by decide +kernel

/-- Every text has pieces, and only one way to read them. -/
theorem C25_pieces (path : List Char) : ∃ ns, Pieces path ns ∧ ∀ ms, Pieces path ms → ms = ns :=
  ⟨splitSlash path, pieces_iff.2 rfl, fun _ hm => (pieces_iff.1 hm).symm⟩

/-- **A node's path leads back to it.**  If every node on the way up is held by its parent under its own
name, and the names below the root have no slash, then the path from the root, followed from the root, ends
at the node. -/
theorem C25_leads_back {h : NHeap} (hm : MapsOk h) {l : List Nat} {i r fuel : Nat} {ns : List (List Char)}
    (hc : Chain h i (i :: l ++ [r])) (hn : NamesOf h (i :: l) ns) (hr : ∃ n, Called h r n)
    (hh : HeldAlong h (i :: l ++ [r])) (hs : ∀ n ∈ ns, '/' ∉ n) (hf : l.length < fuel) :
    ∃ path, h.rootPath fuel i = some path ∧ h.atPath r path = some i := by
  obtain ⟨rn, hr⟩ := hr
  have hall : ∀ (a : List Nat) (x : List (List Char)), NamesOf h a x → NamesOf h (a ++ [r]) (x ++ [rn]) := by
    intro a x hax
    induction hax with
    | nil => exact .cons r rn [] [] hr .nil
    | cons j m a x hj _ ih => exact .cons j m _ _ hj ih
  refine ⟨slashed ns.reverse, ?_, ?_⟩
  · rw [C25_root_path hc (hall _ _ hn) (by simp; omega)]
    simp
  · have hne : ns.reverse ≠ [] := by
      cases hn; simp
    have hcl : ∀ n ∈ ns.reverse, '/' ∉ n := fun n hx => hs n (List.mem_reverse.1 hx)
    exact (C25_at_path hm r i _).2 ⟨_, ⟨hne, hcl, rfl⟩, heldAlong_steps l i r ns hh hn⟩

example : ∃ path, tree25.rootPath 9 4 = some path ∧ tree25.atPath 0 path = some 4 :=
  C25_leads_back tree25_maps (l := [3, 2, 1]) (r := 0) tree25_chain
    (.cons _ _ _ _ ⟨_, rfl, rfl⟩ (.cons _ _ _ _ ⟨_, rfl, rfl⟩ (.cons _ _ _ _ ⟨_, rfl, rfl⟩
      (.cons _ _ _ _ ⟨_, rfl, rfl⟩ .nil))))
    ⟨_, _, rfl, rfl⟩ tree25_held (by decide +kernel) (by decide)

/-- The same from the image above the node. -/
theorem C25_leads_back_image {h : NHeap} (hm : MapsOk h) {l above : List Nat} {i q fuel : Nat}
    {ns : List (List Char)} (hc : Chain h i (i :: l ++ q :: above)) (hn : NamesOf h (i :: l) ns)
    (hl : ∀ j ∈ l, ¬ Image h j) (hq : Image h q)
    (hh : HeldAlong h (i :: l ++ [q])) (hs : ∀ n ∈ ns, '/' ∉ n) (hf : l.length < fuel) :
    ∃ path, h.imagePath fuel i = some path ∧ h.atPath q path = some i := by
  refine ⟨slashed ns.reverse, C25_image_path hc hn hl hq hf, ?_⟩
  have hne : ns.reverse ≠ [] := by
    cases hn; simp
  exact (C25_at_path hm q i _).2 ⟨_, ⟨hne, fun n hx => hs n (List.mem_reverse.1 hx), rfl⟩,
    heldAlong_steps l i q ns hh hn⟩

/-- **Counterexample.**  A name with a slash in it: the path does not lead back.  Names come from the file,
the library accepts any text. -/
theorem C25_slash_counterexample :
    ∃ h : NHeap, MapsOk h ∧ h.rootPath 1 1 = some "a/b".toList ∧ h.at 0 "a/b".toList = some 1 ∧
      h.atPath 0 "a/b".toList = none := by
  refine ⟨[some ⟨"Base".toList, .file true 0, none, [("a/b".toList, 1)]⟩,
    some ⟨"a/b".toList, .dir false false 1, some 0, []⟩], ?_, by decide +kernel, by decide +kernel,
    by decide +kernel⟩
  intro i c hc
  match i with
  | 0 | 1 => cases hc; decide
  | n + 2 => simp [NHeap.cell] at hc

/-- The path of the root is empty, and following it from the root gives no node, unless the root has a child
without a name. -/
theorem C25_root_itself {h : NHeap} (hm : MapsOk h) (i k fuel : Nat) (hr : ∀ p, ¬ ParentOf h i p) :
    h.rootPath fuel i = some [] ∧ (h.atPath i [] = some k ↔ ChildOf h i [] k) := by
  refine ⟨by rw [NHeap.rootPath, up_eq_none.2 hr], ?_⟩
  rw [atPath_fold]
  show foldPath h.at i [[]] = some k ↔ _
  rw [foldPath_at hm]
  constructor
  · intro h1
    cases h1 with
    | step _ j _ _ _ hc hs => cases hs; exact hc
  · intro h1; exact .step _ _ _ _ _ h1 (.here _)

example : ∀ p, ¬ ParentOf tree25 0 p := by
  rintro p ⟨c, d, h1, h2, h3⟩; cases h1; cases h2

/-- Parent links that run in a circle: none of the path functions ends. -/
theorem C25_circle {h : NHeap} {S : Nat → Prop} (hS : ∀ i, S i → ∃ p, ParentOf h i p ∧ S p) {i : Nat} (hi : S i)
    (fuel : Nat) : h.fullPath fuel i = none ∧ h.rootPath fuel i = none := by
  have hfull : ∀ fuel p path, S p → h.fullLoop fuel (some p) path = none := by
    intro fuel
    induction fuel with
    | zero => intro p path _; rfl
    | succ fuel ih =>
      intro p path hp
      obtain ⟨q, hq, hs⟩ := hS p hp
      rw [NHeap.fullLoop, up_eq_some.2 hq, ih _ _ hs]
  have hroot : ∀ fuel p path, S p → h.rootLoop fuel (some p) path = none := by
    intro fuel
    induction fuel with
    | zero => intro p path _; rfl
    | succ fuel ih =>
      intro p path hp
      obtain ⟨q, hq, hs⟩ := hS p hp
      rw [NHeap.rootLoop, up_eq_some.2 hq]
      exact ih _ _ hs
  obtain ⟨p, hp, hs⟩ := hS i hi
  rw [NHeap.fullPath, NHeap.rootPath, up_eq_some.2 hp]
  exact ⟨hfull fuel p _ hs, hroot fuel p _ hs⟩

example : ∃ h : NHeap, ∀ i, i = 0 → ∃ p, ParentOf h i p ∧ p = 0 :=
  ⟨[some ⟨"a".toList, .other 0, some 0, []⟩], by rintro _ rfl; exact ⟨0, ⟨_, _, rfl, rfl, rfl⟩, rfl⟩⟩

/-! ## Links to a place in the image or in the data root -/

theorem isImage_cell {h : NHeap} (i : Nat) (c : NCell) (hc : h.cell i = some c) :
    (c.isImage = true ↔ Image h i) := by
  unfold NCell.isImage Image
  constructor
  · intro h1
    split at h1
    · rename_i a b hk; exact ⟨c, a, b, hc, hk⟩
    · cases h1
  · rintro ⟨c', a, b, h1, h2⟩
    rw [hc] at h1; cases h1; rw [h2]

theorem isBase_cell {h : NHeap} (i : Nat) (c : NCell) (hc : h.cell i = some c) :
    (c.isBase = true ↔ BaseFile h i) := by
  unfold NCell.isBase BaseFile
  constructor
  · intro h1
    split at h1
    · rename_i a b hk; exact ⟨c, a, b, hc, hk, (by simpa using h1)⟩
    · cases h1
  · rintro ⟨c', a, b, h1, h2, h3⟩
    rw [hc] at h1; cases h1; rw [h2]
    simp [h3]

/-- `filter_parent` finds the nearest ancestor that passes the test; never the node itself. -/
theorem C25_filter_parent {h : NHeap} {cb : NCell → Bool} {P : Nat → Prop}
    (hP : ∀ i c, h.cell i = some c → (cb c = true ↔ P i)) {i q : Nat} (hn : NearestUp h P i q) :
    ∃ N, ∀ fuel, N ≤ fuel → h.filterParent cb fuel i = some (some q) :=
  filterLoop_nearest hP hn

/-- …and nothing when no proper ancestor passes it. -/
theorem C25_filter_parent_none {h : NHeap} {cb : NCell → Bool} {P : Nat → Prop}
    (hP : ∀ i c, h.cell i = some c → (cb c = true ↔ P i)) {i : Nat} {l : List Nat} (hc : Chain h i l)
    (hl : ∀ j ∈ l.tail, ¬ P j) {fuel : Nat} (hf : l.length ≤ fuel + 1) :
    h.filterParent cb fuel i = some none :=
  filterLoop_none hP l i hc hl fuel hf

/-- **An inlink** is followed from the nearest image above the node. -/
theorem C25_inlink {h : NHeap} (hm : MapsOk h) {i q : Nat} (hn : NearestUp h (Image h) i q) (path : List Char) :
    ∃ N, ∀ fuel, N ≤ fuel → ∃ r, h.inlink fuel i path = some r ∧
      ∀ k, r = some k ↔ ∃ ns, Pieces path ns ∧ Steps h q ns k := by
  obtain ⟨N, hN⟩ := C25_filter_parent isImage_cell hn
  refine ⟨N, fun fuel hf => ⟨h.atPath q path, ?_, fun k => C25_at_path hm q k path⟩⟩
  rw [NHeap.inlink, hN fuel hf]

example : NearestUp tree25 (Image tree25) 4 2 := by
  refine .above 4 3 2 ⟨_, _, rfl, rfl, rfl⟩ ?_ (.here 3 2 ⟨_, _, rfl, rfl, rfl⟩ ⟨_, _, _, rfl, rfl⟩)
  rintro ⟨c, a, b, h1, h2⟩; cases h1; cases h2

/-- **An outlink** is followed from the nearest file called "Base" above the node. -/
theorem C25_outlink {h : NHeap} (hm : MapsOk h) {i q : Nat} (hn : NearestUp h (BaseFile h) i q) (path : List Char) :
    ∃ N, ∀ fuel, N ≤ fuel → ∃ r, h.outlink fuel i path = some r ∧
      ∀ k, r = some k ↔ ∃ ns, Pieces path ns ∧ Steps h q ns k := by
  obtain ⟨N, hN⟩ := C25_filter_parent isBase_cell hn
  refine ⟨N, fun fuel hf => ⟨h.atPath q path, ?_, fun k => C25_at_path hm q k path⟩⟩
  rw [NHeap.outlink, hN fuel hf]

example : tree25.outlink 9 4 "Map/m.img/info/x".toList = some (some 5) := by decide +kernel

example : NearestUp tree25 (BaseFile tree25) 2 0 := by
  refine .above 2 1 0 ⟨_, _, rfl, rfl, rfl⟩ ?_ (.here 1 0 ⟨_, _, rfl, rfl, rfl⟩ ⟨_, _, _, rfl, rfl, rfl⟩)
  rintro ⟨c, a, b, h1, h2, _⟩; cases h1; cases h2

/-- A node that is itself the image has no image above it: an inlink on it is not followed. -/
theorem C25_inlink_none {h : NHeap} {i : Nat} {l : List Nat} (hc : Chain h i l)
    (hl : ∀ j ∈ l.tail, ¬ Image h j) {fuel : Nat} (hf : l.length ≤ fuel + 1) (path : List Char) :
    h.inlink fuel i path = some none := by
  rw [NHeap.inlink, C25_filter_parent_none isImage_cell hc hl hf]

end Wz.Props
