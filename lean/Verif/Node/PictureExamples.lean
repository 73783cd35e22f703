import Verif.Node.PictureProps

/-!
# C57: examples
-/

set_option autoImplicit false

namespace Wz.Props

open Wz Wz.Spec

/-- a data root with a directory that was not read and an image with pictures -/
def heap57 : NHeap := [
  some ⟨"Base".toList, .file true 0, none, [("Map".toList, 1), ("a.img".toList, 2)]⟩,
  some ⟨"Map".toList, .dir false false 1, some 0, []⟩,
  some ⟨"a.img".toList, .image true 9, some 0,
    [("p".toList, 3), ("q".toList, 4), ("s".toList, 7), ("t".toList, 9), ("u".toList, 11), ("v".toList, 13), ("w".toList, 15)]⟩,
  some ⟨"p".toList, .other 100, some 2, [("_outlink".toList, 5)]⟩,
  some ⟨"q".toList, .other 101, some 2, [("_inlink".toList, 6)]⟩,
  some ⟨"_outlink".toList, .other 200, some 3, []⟩,
  some ⟨"_inlink".toList, .other 201, some 4, []⟩,
  some ⟨"s".toList, .other 103, some 2, [("_inlink".toList, 8)]⟩,
  some ⟨"_inlink".toList, .other 202, some 7, []⟩,
  some ⟨"t".toList, .other 104, some 2, [("_outlink".toList, 10)]⟩,
  some ⟨"_outlink".toList, .other 203, some 9, []⟩,
  some ⟨"u".toList, .other 105, some 2, [("_outlink".toList, 12)]⟩,
  some ⟨"_outlink".toList, .other 204, some 11, []⟩,
  some ⟨"v".toList, .other 106, some 2, [("_outlink".toList, 14)]⟩,
  some ⟨"_outlink".toList, .other 205, some 13, []⟩,
  some ⟨"w".toList, .other 107, some 2, [("_inlink".toList, 16)]⟩,
  some ⟨"_inlink".toList, .uol (some "p/_outlink".toList), some 15, []⟩]

def png57 (v : Nat) : Bool := decide (100 ≤ v) && decide (v < 200)

def text57 (v : Nat) : Option (List Char) :=
  if v = 200 then some "Map/b.img/r".toList
  else if v = 201 then some "p".toList
  else if v = 202 then some "s".toList
  else if v = 203 then some "a.img/t/_outlink".toList
  else if v = 204 then some "a.img/u".toList
  else if v = 205 then some "Map/c.img/x".toList
  else none

def content57 : Content := fun s =>
  if s = 1 then .ok (.node "b.img".toList (.image false 2) .nil .nil)
  else if s = 2 then .ok (.node "r".toList (.other 102) .nil .nil)
  else .error (.lib "x")

theorem heap57_maps : MapsOk heap57 := by
  exact mapsOk_all (by decide +kernel)

theorem text57_of {i j : Nat} {n s : List Char} (c : NCell) (d : NCell) (hc : heap57.cell i = some c) (hk : (n, j) ∈ c.kids)
    (hd : heap57.cell j = some d) (v : Nat) (hv : d.kind = .other v) (ht : text57 v = some s) : TextOf text57 heap57 i n s :=
  ⟨j, d, ⟨c, hc, hk⟩, hd, .inr ⟨v, hv, ht⟩⟩

/-- `q` leads to `p` by its inlink -/
theorem heap57_q : InlinkTo text57 heap57 4 3 :=
  ⟨"p".toList, 2, ["p".toList], text57_of (j := 6) _ _ rfl (by decide) rfl 201 rfl rfl, .here 4 2 ⟨_, _, rfl, rfl, rfl⟩ ⟨_, _, _, rfl, rfl⟩,
    pieces_iff.2 (by decide +kernel), .step _ 3 _ _ _ ⟨_, rfl, by decide⟩ (.here _)⟩

theorem noText57 {h : NHeap} (hm : MapsOk h) {i : Nat} {n : List Char} (hn : h.linkText text57 i n = none) (s : List Char) :
    ¬ TextOf text57 h i n s := by
  intro ht
  rw [(linkText_iff hm).2 ht] at hn
  cases hn

theorem base57 (i j : Nat) (c d : NCell) (hi : heap57.cell i = some c) (hp : c.parent = some 2)
    (hj : heap57.cell 2 = some d) : NearestUp heap57 (BaseFile heap57) i 0 := by
  refine .above i 2 0 ⟨c, d, hi, hp, hj⟩ ?_ (.here 2 0 ⟨_, _, rfl, rfl, rfl⟩ ⟨_, _, _, rfl, rfl, rfl⟩)
  rintro ⟨c, a, b, h1, h2, _⟩
  cases h1; cases h2

/-- `p` has an outlink into the directory that was not read -/
theorem heap57_p : NoInlink text57 heap57 3 ∧ OutlinkFrom text57 heap57 3 0 "Map/b.img/r".toList :=
  ⟨.inl (noText57 heap57_maps (by decide +kernel)),
    text57_of (j := 5) _ _ rfl (by decide) rfl 200 rfl rfl, base57 3 0 _ _ rfl rfl rfl⟩

/-- the heap after the outlink of `p` was followed -/
def read57 : NHeap := (heap57.atPathParsed content57 0 "Map/b.img/r".toList).2

theorem read57_found : heap57.atPathParsed content57 0 "Map/b.img/r".toList = (.ok 18, read57) := by
  refine Prod.ext ?_ rfl
  decide +kernel

theorem through57 {h : NHeap} {b x : Nat} {path : List Char} (hx : PathThrough h b path x) :
    ∃ k, k < (splitSlash path).length ∧ foldPath h.at b ((splitSlash path).take k) = some x ∧ 0 < k := by
  obtain ⟨ns, n, rest, h1, h2, h3⟩ := hx
  rw [pieces_iff] at h1
  refine ⟨ns.length, by rw [h1]; simp, ?_, List.length_pos_iff.2 h2⟩
  rw [h1, List.take_left, ← follow_eq]
  exact h3

theorem read57_way : ∀ x ∈ [3, 4], ¬ PathThrough read57 0 "Map/b.img/r".toList x := by
  intro x hx hp
  obtain ⟨k, h1, h2, h3⟩ := through57 hp
  have hall : ∀ k, k < 3 → 0 < k → ∀ x ∈ [3, 4],
      foldPath read57.at 0 ((splitSlash "Map/b.img/r".toList).take k) ≠ some x := by decide +kernel
  exact hall k h1 h3 x hx h2

theorem read57_maps : MapsOk read57 :=
  (C57_again (content := content57) (png := png57) (text := text57) (held := []) (i := 0) heap57_maps).1 _ _

/-- the picture of `q`: inlink to `p`, outlink to `r` in the image that is read on the way -/
example : Gives57 content57 png57 text57 heap57 [] 4 (.ok 18) read57 := by
  refine (C57_inlink heap57_maps ⟨_, _, rfl, rfl, rfl⟩ heap57_q).2 ?_
  refine (C57_outlink_partial heap57_maps ⟨_, _, rfl, rfl, rfl⟩ heap57_p.1 heap57_p.2 read57_found read57_way).2 ?_
  exact C57_own read57_maps (isPicture_iff.1 (by decide +kernel)) (.inl (noText57 read57_maps (by decide +kernel)))
    (.inl (noText57 read57_maps (by decide +kernel)))

example : read57.cell 18 = some ⟨"r".toList, .other 102, some 17, []⟩ := by decide +kernel

/-- an image is not a picture -/
example : Gives57 content57 png57 text57 heap57 [] 2 (.error (.lib "NotPngProperty")) heap57 :=
  C57_not_a_picture (by rw [← isPicture_iff]; decide +kernel)

/-- `w` has the inlink "p/_outlink", written as a UOL: it leads to a text, not to a picture -/
example : Gives57 content57 png57 text57 heap57 [] 15 (.error (.lib "NotPngProperty")) heap57 := by
  refine C57_inlinks_elsewhere (k := 5) heap57_maps (.next 15 5 5 ⟨_, _, rfl, rfl, rfl⟩ ?_ (.here _))
    (by rw [← isPicture_iff]; decide +kernel)
  exact ⟨"p/_outlink".toList, 2, ["p".toList, "_outlink".toList],
    ⟨16, _, ⟨_, rfl, by decide⟩, rfl, .inl rfl⟩, .here _ 2 ⟨_, _, rfl, rfl, rfl⟩ ⟨_, _, _, rfl, rfl⟩,
    pieces_iff.2 (by decide +kernel),
    .step _ 3 _ _ _ ⟨_, rfl, by decide⟩ (.step _ 5 _ _ _ ⟨_, rfl, by decide⟩ (.here _))⟩

/-- `s` has an inlink to itself, `u` an outlink to itself -/
theorem heap57_circle : ∀ i, i = 7 ∨ i = 11 → Picture png57 heap57 i ∧ ((∃ t, InlinkTo text57 heap57 i t ∧ (t = 7 ∨ t = 11)) ∨
    (NoInlink text57 heap57 i ∧ ∃ b s t, OutlinkFrom text57 heap57 i b s ∧
      heap57.atPathParsed content57 b s = (.ok t, heap57) ∧ (t = 7 ∨ t = 11))) := by
  rintro i (rfl | rfl)
  · refine ⟨⟨_, _, rfl, rfl, rfl⟩, .inl ⟨7, ?_, .inl rfl⟩⟩
    exact ⟨"s".toList, 2, ["s".toList], text57_of (j := 8) _ _ rfl (by decide) rfl 202 rfl rfl,
      .here _ 2 ⟨_, _, rfl, rfl, rfl⟩ ⟨_, _, _, rfl, rfl⟩, pieces_iff.2 (by decide +kernel),
      .step _ 7 _ _ _ ⟨_, rfl, by decide⟩ (.here _)⟩
  · refine ⟨⟨_, _, rfl, rfl, rfl⟩, .inr ⟨.inl (noText57 heap57_maps (by decide +kernel)), 0, "a.img/u".toList, 11, ⟨?_, ?_⟩, ?_,
      .inr rfl⟩⟩
    · exact text57_of (j := 12) _ _ rfl (by decide) rfl 204 rfl rfl
    · exact base57 11 0 _ _ rfl rfl rfl
    · decide +kernel

/-- **A picture whose link leads to itself**: the call never comes back. -/
theorem C57_circle_counterexample (fuel : Nat) :
    ∃ e, (NHeap.getImage content57 png57 text57 fuel heap57 [] 7).1 = .error e ∧ (e = .fuel ∨ e = .lib "deadlock") :=
  C57_circle heap57_maps heap57_circle (.inl rfl) fuel

/-- **An outlink through the picture itself**: `t` has the outlink "a.img/t/_outlink", there is such a node, and the
call hangs. -/
theorem C57_through_itself_counterexample :
    (heap57.atPathParsed content57 0 "a.img/t/_outlink".toList).1 = .ok 10 ∧
    ∃ g, Gives57 content57 png57 text57 heap57 [] 9 (.error (.lib "deadlock")) g := by
  have hf : heap57.atPathParsed content57 0 "a.img/t/_outlink".toList = (.ok 10, heap57) := by decide +kernel
  refine ⟨by rw [hf], C57_outlink_through_itself heap57_maps ⟨_, _, rfl, rfl, rfl⟩
    (.inl (noText57 heap57_maps (by decide +kernel))) ⟨?_, base57 9 0 _ _ rfl rfl rfl⟩ hf ⟨9, by simp, ?_⟩⟩
  · exact text57_of (j := 10) _ _ rfl (by decide) rfl 203 rfl rfl
  · exact ⟨["a.img".toList, "t".toList], "_outlink".toList, [], pieces_iff.2 (by decide +kernel), by simp, by decide +kernel⟩

/-- `v` has the outlink "Map/c.img/x" that leads nowhere: its own picture, and the directory was read -/
example : Gives57 content57 png57 text57 heap57 [] 13 (.ok 13) (heap57.atPathParsed content57 0 "Map/c.img/x".toList).2 := by
  refine C57_broken_outlink (b := 0) (s := "Map/c.img/x".toList) (e := .lib "NodeNotFound") heap57_maps ⟨_, _, rfl, rfl, rfl⟩
    (.inl (noText57 heap57_maps (by decide +kernel))) ⟨?_, base57 13 0 _ _ rfl rfl rfl⟩
    (Prod.ext (by decide +kernel) rfl) ?_ rfl (by decide) (by decide)
  · exact text57_of (j := 14) _ _ rfl (by decide) rfl 205 rfl rfl
  · intro x hx hp
    obtain ⟨k, h1, h2, h3⟩ := through57 hp
    have hall : ∀ k, k < 3 → 0 < k → ∀ x ∈ [13],
        foldPath (heap57.atPathParsed content57 0 "Map/c.img/x".toList).2.at 0
          ((splitSlash "Map/c.img/x".toList).take k) ≠ some x := by decide +kernel
    exact hall k h1 h3 x hx h2

example : (heap57.atPathParsed content57 0 "Map/c.img/x".toList).2.cell 1 ≠ heap57.cell 1 := by decide +kernel

/-- the same with a parser that panics -/
example : Gives57 (fun _ => .error .panicIndex) png57 text57 heap57 [] 3 (.error .panicIndex) heap57 := by
  refine C57_outlink_panics heap57_maps ⟨_, _, rfl, rfl, rfl⟩ heap57_p.1 heap57_p.2 (by decide +kernel) ?_ rfl
  intro x hx hp
  obtain ⟨k, h1, h2, h3⟩ := through57 hp
  have hall : ∀ k, k < 3 → 0 < k → ∀ x ∈ [3],
      foldPath heap57.at 0 ((splitSlash "Map/b.img/r".toList).take k) ≠ some x := by decide +kernel
  exact hall k h1 h3 x hx h2

/-- an image that is not below "Base": the outlink is not followed, the picture gives its own data -/
example : Gives57 content57 png57 text57 [some ⟨"a.img".toList, .image true 9, none, [("p".toList, 1)]⟩,
    some ⟨"p".toList, .other 100, some 0, [("_outlink".toList, 2)]⟩, some ⟨"_outlink".toList, .other 200, some 1, []⟩] [] 1 (.ok 1)
    [some ⟨"a.img".toList, .image true 9, none, [("p".toList, 1)]⟩,
    some ⟨"p".toList, .other 100, some 0, [("_outlink".toList, 2)]⟩, some ⟨"_outlink".toList, .other 200, some 1, []⟩] := by
  have hm : MapsOk [some ⟨"a.img".toList, .image true 9, none, [("p".toList, 1)]⟩,
    some ⟨"p".toList, .other 100, some 0, [("_outlink".toList, 2)]⟩, some ⟨"_outlink".toList, .other 200, some 1, []⟩] := by
    exact mapsOk_all (by decide +kernel)
  refine C57_own hm ⟨_, _, rfl, rfl, rfl⟩ (.inl (noText57 hm (by decide +kernel))) (.inr ⟨[1, 0], ?_, ?_⟩)
  · refine .up 1 0 [0] ⟨_, _, rfl, rfl, rfl⟩ (.root 0 ?_)
    rintro p ⟨c, d, h1, h2, _⟩
    cases h1; cases h2
  · intro j hj
    simp only [List.tail_cons, List.mem_singleton] at hj
    subst hj
    rintro ⟨c, a, b, h1, h2, _⟩
    cases h1; cases h2

end Wz.Props
