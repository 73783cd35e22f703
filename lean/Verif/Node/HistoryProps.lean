import Verif.Node.HistoryLemmas
import Verif.Node.PathProps

/-!
# C59: what stays true of the nodes in every history
-/

set_option autoImplicit false

namespace Wz.Props

open Wz.Spec

/-- **Children always have different names.**  Whatever nodes are made, read, forgotten, searched, walked, asked for
pictures, merged, repaired or added to each other, and whatever the files hold. -/
theorem C59_names_differ {content : Content} {adds : NHeap → Nat → Nat → Prop} {h g : NHeap}
    (hh : NodeHistory content adds h g) (hm : MapsOk h) : MapsOk g := by
  induction hh with
  | start => exact hm
  | call g g' _ hc ih => exact mapsOk_call hc ih
  | add g i j _ _ ih => exact mapsOk_add ih i j

/-- **Names and values stay.**  A node keeps its name for ever.  A container keeps its source, and whether it has been
read is all that changes; every other value stays as it is. -/
theorem C59_values_stay {content : Content} {adds : NHeap → Nat → Nat → Prop} {h g : NHeap}
    (hh : NodeHistory content adds h g) : Kept h g := by
  induction hh with
  | start => exact Kept.refl _
  | call g g' _ hc ih => exact ih.trans (kept_call hc)
  | add g i j _ _ ih => exact ih.trans (kept_add g i j)

/-- **Children know their name and their parent.**  In files without links, if a node is added only to its parent, then
every child of a node is always listed under its own name and has that node as its parent. -/
theorem C59_children_know_parent_partial {content : Content} (hL : ∀ s f, content s = .ok f → Spec.Forest.All NoLink f)
    {h g : NHeap} (hh : NodeHistory content (fun h i j => ParentOf h j i) h g) (hc : Consistent h) : Consistent g := by
  induction hh with
  | start => exact hc
  | call g g' _ hc ih => exact consistent_call hL hc ih
  | add g i j _ hp ih => exact consistent_add ih hp

/-- **A node's full path is where it was found.**  In every such history, what is found at a path below a root has the
root's name and that path as its full path. -/
theorem C59_full_path_partial {content : Content} (hL : ∀ s f, content s = .ok f → Spec.Forest.All NoLink f)
    {h g : NHeap} (hh : NodeHistory content (fun h i j => ParentOf h j i) h g) (hc : Consistent h)
    {r k fuel : Nat} {n path : List Char} (hr : Called g r n) (hroot : ∀ p, ¬ ParentOf g r p)
    (hp : g.atPath r path = some k) (hf : path.length < fuel) : g.fullPath fuel k = some (n ++ '/' :: path) := by
  have K := C59_children_know_parent_partial hL hh hc
  obtain ⟨ns, hns, hs⟩ := (C25_at_path K.maps r k path).1 hp
  obtain ⟨l, h1, h2, h3⟩ := consistent_chain K hs (.root r hroot) (.cons r n [] [] hr .nil)
  have := C25_full_path (fuel := fuel) h1 h2 (by
    have := slashed_length ns
    rw [← hns.text] at this
    simp only [List.length_singleton] at h3
    omega)
  rw [this]
  simp only [List.reverse_append, List.reverse_reverse, List.reverse_cons, List.reverse_nil, List.nil_append,
    List.singleton_append, Option.some.injEq]
  obtain ⟨m, ms, rfl⟩ : ∃ m ms, ns = m :: ms := by
    cases ns with
    | nil => exact absurd rfl hns.some
    | cons m ms => exact ⟨m, ms, rfl⟩
  rw [slashed_cons _ _ _, hns.text]

/-- **There is never anything to repair** in such a history: setting all parents again changes nothing. -/
theorem C59_nothing_to_repair_partial {content : Content} (hL : ∀ s f, content s = .ok f → Spec.Forest.All NoLink f)
    {h g g' : NHeap} (hh : NodeHistory content (fun h i j => ParentOf h j i) h g) (hc : Consistent h)
    {fuel i : Nat} (hr : NHeap.fixParents fuel g i = some g') : g' = g :=
  fixParents_consistent fuel g i g' (C59_children_know_parent_partial hL hh hc) hr

/-! ### a history -/

/-- an image with a value in a folder, and a value of its own -/
def content59 : Content := fun s =>
  if s = 1 then .ok (.node "info".toList (.other 1) (.node "bgm".toList (.other 2) .nil .nil) .nil)
  else .error .read

theorem content59_linkFree : ∀ s f, content59 s = .ok f → Spec.Forest.All NoLink f := by
  intro s f hf
  unfold content59 at hf
  split at hf
  · cases hf
    refine ⟨?_, ⟨?_, trivial, trivial⟩, trivial⟩ <;> intro t h <;> cases h
  · cases hf

/-- a folder and an image in it are made, the image is added and a value in it looked up -/
def heap59a : NHeap := [] ++ [some ⟨"Map".toList, .dir true true 0, none, []⟩]
def heap59b : NHeap := heap59a ++ [some ⟨"m.img".toList, .image false 1, some 0, []⟩]
def heap59c : NHeap := heap59b.add 0 1
def heap59d : NHeap := (heap59c.atPathParsed content59 0 "m.img/info".toList).2
def heap59e : NHeap := heap59d ++ [some ⟨"Base".toList, .file true 3, none, []⟩]

/-- then the folder is merged into a file -/
def heap59 : NHeap := (NHeap.transfer 2 heap59e 0 4).getD []

theorem heap59_history : NodeHistory content59 (fun h i j => ParentOf h j i) [] heap59 := by
  have s1 : NodeHistory content59 (fun h i j => ParentOf h j i) [] heap59b :=
    .call _ _ (.call _ _ .start (.new [] "Map".toList (.dir true true 0) none)) (.new heap59a _ _ _)
  have s2 : NodeHistory content59 (fun h i j => ParentOf h j i) [] heap59c := .add _ 0 1 s1 ⟨_, _, rfl, rfl, rfl⟩
  have s3 : NodeHistory content59 (fun h i j => ParentOf h j i) [] heap59e :=
    .call _ _ (.call _ _ s2 (.find heap59c 0 "m.img/info".toList)) (.new heap59d _ _ _)
  exact .call _ _ s3 (.merge _ heap59 2 0 4 (by decide +kernel))

theorem empty_consistent : Consistent [] := ⟨fun i c hc => by simp [NHeap.cell] at hc, fun i n j ⟨c, hc, _⟩ => by simp [NHeap.cell] at hc⟩

example : heap59.fullPath 15 3 = some "Base/m.img/info/bgm".toList :=
  C59_full_path_partial content59_linkFree heap59_history empty_consistent (r := 4) (n := "Base".toList)
    (path := "m.img/info/bgm".toList) ⟨_, rfl, by decide +kernel⟩
    (by rintro p ⟨c, d, hc, hp, _⟩; cases hc; cases hp) (by decide +kernel) (by decide)

example : MapsOk heap59 := C59_names_differ heap59_history empty_consistent.maps

example : ∃ d, heap59.cell 1 = some d ∧ d.name = "m.img".toList ∧ Became (.image false 1) d.kind :=
  (C59_values_stay (content := content59) (adds := fun h i j => ParentOf h j i) (h := heap59b) (g := heap59)
    (by
      have s2 : NodeHistory content59 (fun h i j => ParentOf h j i) heap59b heap59c :=
        .add _ 0 1 .start ⟨_, _, rfl, rfl, rfl⟩
      have s3 : NodeHistory content59 (fun h i j => ParentOf h j i) heap59b heap59e :=
        .call _ _ (.call _ _ s2 (.find heap59c 0 "m.img/info".toList)) (.new heap59d _ _ _)
      exact .call _ _ s3 (.merge _ heap59 2 0 4 (by decide +kernel)))) 1 _ rfl

example : NHeap.fixParents 4 heap59 4 = some heap59 := by decide +kernel

/-! ### where it fails -/

/-- **A node added elsewhere keeps its old parent.**  Adding does not touch the parent of the node that is added, so a
node made without a parent is found below another one, but its full path does not say so. -/
theorem C59_added_counterexample : ∃ g : NHeap, NodeHistory content59 (fun _ _ _ => True) [] g ∧
    g.atPath 0 "a".toList = some 1 ∧ (∀ p, ¬ ParentOf g 0 p) ∧ Called g 0 "r".toList ∧
    g.fullPath 9 1 = some "a".toList := by
  refine ⟨NHeap.add (([] ++ [some ⟨"r".toList, .other 0, none, []⟩]) ++ [some ⟨"a".toList, .other 0, none, []⟩]) 0 1,
    .add _ 0 1 (.call _ _ (.call _ _ .start (.new [] _ _ _)) (.new _ _ _ _)) trivial, by decide +kernel, ?_,
    ⟨_, rfl, by decide +kernel⟩, by decide +kernel⟩
  rintro p ⟨c, d, hc, hp, _⟩
  cases hc
  cases hp

/-- an image with a value `a` and a link `b` to it -/
def content59l : Content := fun _ => .ok (.node "a".toList (.other 1) .nil (.node "b".toList (.uol (some "a".toList)) .nil .nil))

/-- **A link's target is listed under the name of the link.**  After reading an image with a link `b` to `a`, what is
found at `b` is called `a` and has the full path of `a`. -/
theorem C59_link_counterexample : ∃ g : NHeap, NodeHistory content59l (fun h i j => ParentOf h j i) [] g ∧
    g.atPath 0 "b".toList = some 1 ∧ Called g 1 "a".toList ∧ g.fullPath 9 1 = some "m.img/a".toList := by
  refine ⟨(NHeap.parse ([] ++ [some ⟨"m.img".toList, .image false 0, none, []⟩]) content59l 0).2,
    .call _ _ (.call _ _ .start (.new [] _ _ _)) (.parse _ 0), by decide +kernel, ⟨_, rfl, by decide +kernel⟩,
    by decide +kernel⟩

end Wz.Props
