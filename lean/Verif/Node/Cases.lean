import Verif.Node.PathProps
import Verif.Node.ParseProps
import Verif.Node.UolProps
import Verif.Node.SplitProps
import Verif.Node.FindProps
import Verif.Node.HistoryProps
import Verif.Node.WalkPathProps

/-!
# Concrete cases of the theorems about nodes (C25–C30, C53, C59)

Each `example` applies a theorem to a given tree, so that its hypotheses are seen to be met.
-/

set_option autoImplicit false

namespace Wz.Props

open Wz Wz.Spec

example : ∃ path, tree25.imagePath 9 4 = some path ∧ tree25.atPath 2 path = some 4 :=
  C25_leads_back_image tree25_maps (l := [3]) (above := [1, 0]) (q := 2) tree25_chain
    (.cons _ _ _ _ ⟨_, rfl, rfl⟩ (.cons _ _ _ _ ⟨_, rfl, rfl⟩ .nil))
    (by rintro j hj ⟨c, a, b, h1, h2⟩
        rcases List.mem_cons.1 hj with rfl | hj
        · cases h1; cases h2
        · cases hj)
    ⟨_, _, _, rfl, rfl⟩ ⟨tree25_held.1, tree25_held.2.1, trivial⟩ (by decide +kernel) (by decide)

example := C25_at_path_relative tree25_maps 4 4 "../x/../../info/bgm".toList

/-- the image that cannot be read is as before -/
example : (heap26.parse content26 2).2 = heap26 := C26_failed (content := content26) (i := 2) (e := .lib "x") (by decide +kernel) rfl

/-- reading, forgetting and reading the first image -/
example := C26_restores (h := heap26) (content := content26) (i := 1) (s := 7) rfl (.inr rfl) rfl (by decide +kernel)

example := C26_unparse (h := heap26) (i := 1) rfl (.inr (.inr ⟨_, _, rfl⟩))

example := C26_unparse_archive (h := [some ⟨['m'], .msFile true 4, none, []⟩]) (i := 0) rfl (.inl ⟨_, _, rfl⟩)

/-- a directory that is read twice -/
example := C26_directory_counterexample (h := [some ⟨['d'], .dir false false 7, none, []⟩]) (content := content26)
  (i := 0) rfl rfl (by decide +kernel)

example := C26_history (content := content26) (i := 1) (h := heap26)
  (ops := [.parse 1, .parse 2, .unparse 1, .unparse 2, .parse 1]) rfl rfl rfl rfl
  (fun f hf => by cases hf; exact ⟨.inl ⟨1, rfl⟩, trivial, .inl ⟨2, rfl⟩, ⟨.inr ⟨_, rfl⟩, trivial, trivial⟩, trivial⟩)
  (g := (runOps content26 heap26 [.parse 1, .parse 2, .unparse 1, .unparse 2, .parse 1]).getD [])
  (by decide +kernel)

/-- a link to a node that is not there -/
example : (tree29 "../c").resolveUol (some 1) 4 = .ok (tree29 "../c") := by decide +kernel

/-- from the folder of the link up, and down again -/
example : Steps (tree29 "../b") 0 ["m.img".toList, "b".toList] 3 := by
  have hl : LinksOk (tree29 "../b") := by
    rintro p n j ⟨c, h1, h2⟩
    match p with
    | 0 | 1 | 2 =>
      cases h1
      simp only [List.mem_cons, Prod.mk.injEq, List.mem_nil_iff, or_false] at h2
      first
        | (rcases h2 with ⟨_, rfl⟩ | ⟨_, rfl⟩ <;> exact ⟨_, _, rfl, rfl, rfl⟩)
        | (obtain ⟨_, rfl⟩ := h2; exact ⟨_, _, rfl, rfl, rfl⟩)
    | 3 | 4 | 5 => cases h1; cases h2
    | _ + 6 => cases h1
  refine C29_agree hl (p := 2) (dir := ["m.img".toList, "a".toList]) (us := ["..".toList, "b".toList]) ?_ ?_ ?_
  · exact .step _ 1 _ _ _ ⟨_, rfl, by simp⟩ (.step _ 2 _ _ _ ⟨_, rfl, by simp⟩ (.here 2))
  · exact .up ["m.img".toList] "a".toList _ _ (.name _ _ _ _ (by decide) (.done _))
  · exact .up 2 1 3 _ ⟨_, _, rfl, rfl, rfl⟩ (.down 1 3 3 _ _ (by decide) ⟨_, rfl, by simp⟩ (.here 3))

example : NHeap.resolveUol [some ⟨"l".toList, .uol (some "x".toList), none, []⟩] none 0 = .error .panicUnwrap :=
  C29_no_parent_panic (h := [some ⟨"l".toList, .uol (some "x".toList), none, []⟩]) (u := 0) (by rintro p ⟨c, d, hc, hp, _⟩; cases hc; cases hp)

example := C30_suffix_total (h := tree25) (path := "a.img/x".toList) ⟨"a".toList, "/x".toList, rfl⟩ 0

example := C53_found_again (content := content53) (h := heap53) (i := 0) (j := 5) (path := "f/a/x/y".toList)
  (g := (heap53.atPathParsed content53 0 "f/a/x/y".toList).2) (by decide +kernel)

example := C53_only_on_the_way (content := content53) (h := heap53) (i := 0) (x := 1) (path := "f/a/x/y".toList)
  (by decide) (by decide +kernel)

example : heap59 = heap59 := C59_nothing_to_repair_partial content59_linkFree heap59_history empty_consistent
  (fuel := 4) (i := 4) (by decide +kernel)

end Wz.Props
