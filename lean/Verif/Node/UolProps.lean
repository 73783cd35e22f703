import Verif.Node.UolLemmas

/-!
# C29: links (UOL) are relative paths
-/

set_option autoImplicit false

namespace Wz.Props

open Wz Spec

/-- **The resolved path of a link.**  `dir` are the names of the nodes above the link, `name` its own name.
If the way of the link stays inside the tree, the resolved path is the place where it ends. -/
theorem C29_path_partial {path uol : List Char} {dir us r : List (List Char)} {name : List Char}
    (hp : Pieces path (dir ++ [name])) (hu : Pieces uol us) (hg : Goes dir us r) :
    resolvedUolPath path uol = slashed r := by
  unfold resolvedUolPath
  rw [pieces_iff.1 hp, pieces_iff.1 hu, joinPieces_eq]
  have : (dir ++ [name]).reverse.tail = dir.reverse := by simp
  rw [this, uolLoop_goes hg, List.reverse_reverse]

example : resolvedUolPath "a/b/c/link".toList "../../x/../y".toList = "a/y".toList :=
  (C29_path_partial (dir := ["a".toList, "b".toList, "c".toList]) (name := "link".toList)
    (us := ["..".toList, "..".toList, "x".toList, "..".toList, "y".toList])
    (r := ["a".toList, "y".toList])
    ⟨by simp, by decide, by decide⟩ ⟨by simp, by decide, by decide⟩
    (.up ["a".toList, "b".toList] _ _ _ (.up ["a".toList] _ _ _ (.name _ _ _ _ (by decide)
      (.up ["a".toList] _ _ _ (.name _ _ _ _ (by decide) (.done _))))))).trans (by decide +kernel)

/-- Missing in `C29_path_partial`: links that lead above the top.  There the first ".." stays in the path,
and a second one removes the first: two ".." too many cancel each other. -/
theorem C29_above_counterexample :
    resolvedUolPath "link".toList "../x".toList = "../x".toList ∧
    resolvedUolPath "link".toList "../../x".toList = "x".toList := by
  constructor <;> decide +kernel

/-- In general: at the top, one ".." is kept like a name. -/
theorem C29_at_top {path uol : List Char} {us r : List (List Char)} {name : List Char}
    (hp : Pieces path [name]) (hu : Pieces uol ("..".toList :: us)) (hg : Goes ["..".toList] us r) :
    resolvedUolPath path uol = slashed r := by
  unfold resolvedUolPath
  rw [pieces_iff.1 hp, pieces_iff.1 hu, joinPieces_eq]
  have h1 : ([name] : List (List Char)).reverse.tail = [] := by simp
  rw [h1, uolLoop, if_neg (by simp)]
  have := uolLoop_goes hg
  rw [List.reverse_cons, List.reverse_nil, List.nil_append] at this
  rw [this, List.reverse_reverse]

example : resolvedUolPath "link".toList "../a".toList = "../a".toList :=
  (C29_at_top (name := "link".toList) (us := ["a".toList]) (r := ["..".toList, "a".toList])
    ⟨by simp, by decide, by decide⟩ ⟨by simp, by decide, by decide⟩
    (.name _ _ _ _ (by decide) (.done _))).trans (by decide +kernel)

/-- The comment of the function says that "." is resolved too.  It is not. -/
theorem C29_dot_counterexample :
    resolvedUolPath "a/b/link".toList "./c".toList = "a/b/./c".toList := by decide +kernel

/-! ## Following a link in the tree -/

/-- an image `m.img` in a directory `Map`, with `a` holding a link `l` to `../b` -/
def tree29 (text : String) : NHeap :=
  [ some ⟨"Map".toList, .dir true true 1, none, [("m.img".toList, 1), ("n.img".toList, 5)]⟩,
    some ⟨"m.img".toList, .image true 2, some 0, [("a".toList, 2), ("b".toList, 3)]⟩,
    some ⟨"a".toList, .other 0, some 1, [("l".toList, 4)]⟩,
    some ⟨"b".toList, .other 1, some 1, []⟩,
    some ⟨"l".toList, .uol (some text.toList), some 2, []⟩,
    some ⟨"n.img".toList, .image false 3, some 0, []⟩ ]

theorem tree29_maps (text : String) : MapsOk (tree29 text) := by
  intro i c hc
  match i with
  | 0 | 1 | 2 | 3 | 5 => cases hc; decide
  | 4 => cases hc; exact List.nodup_nil
  | n + 6 => simp [NHeap.cell, tree29] at hc


/-- **A link is followed from its parent**, a name to the child, ".." to the parent; the node where it ends
takes the place of the link among the children of the link's parent, and nothing else changes.  `lock` is
the image that is being parsed, if any. -/
theorem C29_resolve {h : NHeap} (hm : MapsOk h) {lock : Option Nat} {u p t : Nat} {name text : List Char}
    {ns : List (List Char)} (hl : LinkTo h u name text) (hp : ParentOf h u p) (hc : ChildOf h p name u)
    (hx : Pieces text ns) (hs : LockedSteps h lock p ns t) :
    ∃ g, h.resolveUol lock u = .ok g ∧ Redirected h g p name t := by
  obtain ⟨⟨n, k, pp, ks⟩, hcell, hn, hk⟩ := hl
  dsimp only at hn hk
  subst hn hk
  refine ⟨h.replaceKid p n t, ?_, replaceKid_redirected t hc⟩
  unfold NHeap.resolveUol
  rw [up_eq_some.2 hp, hcell]
  dsimp only
  rw [(uolTarget_iff hm hp text).2 ⟨ns, hx, hs⟩]

/-- A link that leads nowhere stays as it is. -/
theorem C29_resolve_none {h : NHeap} (hm : MapsOk h) {lock : Option Nat} {u p : Nat} {name text : List Char}
    (hl : LinkTo h u name text) (hp : ParentOf h u p)
    (hs : ∀ ns t, Pieces text ns → ¬ LockedSteps h lock p ns t) :
    h.resolveUol lock u = .ok h := by
  obtain ⟨⟨n, k, pp, ks⟩, hcell, hn, hk⟩ := hl
  dsimp only at hn hk
  subst hn hk
  unfold NHeap.resolveUol
  rw [up_eq_some.2 hp, hcell]
  dsimp only
  cases ht : h.uolTarget lock u text with
  | none => rfl
  | some t =>
    obtain ⟨ns, h1, h2⟩ := (uolTarget_iff hm hp text).1 ht
    exact absurd h2 (hs ns t h1)

example : (tree29 "../c").resolveUol none 4 = .ok (tree29 "../c") := by
  refine C29_resolve_none (tree29_maps _) (name := "l".toList) (text := "../c".toList) (p := 2) ⟨_, rfl, rfl, rfl⟩ ⟨_, _, rfl, rfl, rfl⟩ fun ns t hx hs => ?_
  have e : ["..".toList, "c".toList] = ns := (by decide : splitSlash "../c".toList = ["..".toList, "c".toList]).symm.trans (pieces_iff.1 hx)
  subst e
  cases hs with
  | down _ _ _ _ _ h => exact h.elim (fun h => h rfl) fun h => by cases h
  | up _ p _ _ _ hp h =>
    obtain ⟨c, d, h1, h2, h3⟩ := hp
    cases h1; cases h2
    cases h with
    | down _ _ _ _ _ _ hc =>
      obtain ⟨c, h1, h2⟩ := hc
      cases h1
      revert h2
      simp

/-- Without an image being parsed this is the plain relative path. -/
theorem C29_unlocked {h : NHeap} (i k : Nat) (ns : List (List Char)) :
    LockedSteps h none i ns k ↔ RelSteps h i ns k := by
  constructor
  · intro hs
    induction hs with
    | here i => exact .here i
    | down i j k n ns hn hc _ ih =>
      rcases hn with hn | hn
      · exact .down i j k n ns hn hc ih
      · cases hn
    | up i p k ns _ hp _ ih => exact .up i p k ns hp ih
  · intro hs
    induction hs with
    | here i => exact .here i
    | down i j k n ns hn hc _ ih => exact .down i j k n ns (.inl hn) hc ih
    | up i p k ns hp _ ih => exact .up i p k ns (by simp) hp ih

/-- While an image is being parsed, a link that is followed leads to the right node: the one the relative path
leads to.  (It may not be followed at all, see `C29_out_of_image_counterexample`.) -/
theorem C29_locked_sound {h : NHeap} {lock i k : Nat} {ns : List (List Char)} (hs : LockedSteps h (some lock) i ns k)
    (hd : ∀ j, ¬ ChildOf h lock "..".toList j) : RelSteps h i ns k := by
  induction hs with
  | here i => exact .here i
  | down i j k n ns hn hc _ ih =>
    by_cases hnd : n = "..".toList
    · subst hnd
      rcases hn with hn | hn
      · exact absurd rfl hn
      · cases hn; exact absurd hc (hd j)
    · exact .down i j k n ns hnd hc ih
  | up i p k ns _ hp _ ih => exact .up i p k ns hp ih

example : ∀ j, ¬ ChildOf (tree29 "../b") 1 "..".toList j := by
  rintro j ⟨c, h1, h2⟩
  cases h1
  simp only [List.mem_cons, Prod.mk.injEq, List.mem_nil_iff, or_false] at h2
  rcases h2 with ⟨h2, _⟩ | ⟨h2, _⟩ <;> exact absurd h2 (by decide)

/-- If the image has no parent, as an image opened on its own, every relative path is followed. -/
theorem C29_locked_root {h : NHeap} {lock i k : Nat} {ns : List (List Char)} (hs : RelSteps h i ns k)
    (hin : ∀ p, ¬ ParentOf h lock p) : LockedSteps h (some lock) i ns k := by
  induction hs with
  | here i => exact .here i
  | down i j k n ns hn hc _ ih => exact .down i j k n ns (.inl hn) hc ih
  | up i p k ns hp _ ih =>
    refine .up i p k ns ?_ hp ih
    intro e
    cases e
    exact hin p hp

/-- **The two readings agree.**  If children know who holds them, then the node the link leads to is the node
found under the resolved path, followed from any node `top` from which the names `dir` lead to the link's
parent. -/
theorem C29_agree {h : NHeap} (hk : LinksOk h) {top p t : Nat} {dir us r : List (List Char)}
    (hd : Steps h top dir p) (hg : Goes dir us r) (hs : RelSteps h p us t) : Steps h top r t := by
  induction hg generalizing p with
  | done loc => cases hs; exact hd
  | name loc n us r hn _ ih =>
    cases hs with
    | down _ j _ _ _ _ hc hr => exact ih (hd.append (.step _ _ _ _ _ hc (.here j))) hr
    | up => exact absurd rfl hn
  | up loc x us r _ ih =>
    have hlast : ∀ {a : List (List Char)} {i q : Nat} {y : List Char}, Steps h i (a ++ [y]) q →
        ∃ m, Steps h i a m ∧ ChildOf h m y q := by
      intro a
      induction a with
      | nil =>
        intro i q y hst
        cases hst with
        | step _ j _ _ _ hc hr => cases hr; exact ⟨i, .here i, hc⟩
      | cons z a iha =>
        intro i q y hst
        cases hst with
        | step _ j _ _ _ hc hr =>
          obtain ⟨m, h1, h2⟩ := iha hr
          exact ⟨m, .step _ _ _ _ _ hc h1, h2⟩
    obtain ⟨m, h1, h2⟩ := hlast hd
    have hpm := hk m x p h2
    cases hs with
    | down _ _ _ _ _ hn _ _ => exact absurd rfl hn
    | up _ q _ _ hpq hr =>
      have : q = m := by
        have e1 := up_eq_some.2 hpq
        rw [up_eq_some.2 hpm] at e1
        exact (Option.some.inj e1).symm
      subst this
      exact ih h1 hr

example : ∃ g, (tree29 "../b").resolveUol (some 1) 4 = .ok g ∧ Redirected (tree29 "../b") g 2 "l".toList 3 :=
  C29_resolve (tree29_maps _) (ns := ["..".toList, "b".toList]) (text := "../b".toList)
    ⟨_, rfl, rfl, rfl⟩ ⟨_, _, rfl, rfl, rfl⟩ ⟨_, rfl, by decide⟩ ⟨by simp, by decide, by decide⟩
    (.up _ 1 _ _ (by simp) ⟨_, _, rfl, rfl, rfl⟩ (.down _ 3 _ _ _ (.inl (by decide)) ⟨_, rfl, by decide⟩ (.here _)))

example : LinksOk (tree29 "../b") := by
  rintro p n j ⟨c, h1, h2⟩
  match p with
  | 0 | 1 | 2 =>
    cases h1
    simp only [List.mem_cons, Prod.mk.injEq, List.mem_nil_iff, or_false] at h2
    first
      | (rcases h2 with ⟨_, rfl⟩ | ⟨_, rfl⟩ <;> exact ⟨_, _, rfl, rfl, rfl⟩)
      | (obtain ⟨_, rfl⟩ := h2; exact ⟨_, _, rfl, rfl, rfl⟩)
  | 3 | 4 | 5 => cases h1; cases h2
  | k + 6 => simp [NHeap.cell, tree29] at h1

/-- **Counterexample.**  A link from one image into another.  Outside of a parse it is followed; while the
image is being parsed it is not, because ".." cannot leave the image. -/
theorem C29_out_of_image_counterexample :
    RelSteps (tree29 "../../n.img") 2 ["..".toList, "..".toList, "n.img".toList] 5 ∧
    (tree29 "../../n.img").uolTarget none 4 "../../n.img".toList = some 5 ∧
    (tree29 "../../n.img").resolveUol (some 1) 4 = .ok (tree29 "../../n.img") := by
  refine ⟨.up _ 1 _ _ ⟨_, _, rfl, rfl, rfl⟩ (.up _ 0 _ _ ⟨_, _, rfl, rfl, rfl⟩ (.down _ 5 _ _ _ (by decide)
    ⟨_, rfl, by decide⟩ (.here _))), by decide +kernel, ?_⟩
  have h1 : (tree29 "../../n.img").up 4 = some 2 := rfl
  have h2 : (tree29 "../../n.img").uolTarget (some 1) 4 "../../n.img".toList = none := by decide +kernel
  have h3 : (tree29 "../../n.img").cell 4 =
      some ⟨"l".toList, .uol (some "../../n.img".toList), some 2, []⟩ := rfl
  unfold NHeap.resolveUol
  rw [h1, h3]
  dsimp only
  rw [h2]

/-- the children of a node by name, for the examples -/
def under (h : NHeap) (i : Nat) (path : String) : Option NKind :=
  match h.atPath i path.toList with
  | none => none
  | some j => (h.cell j).map NCell.kind

/-- one image that has not been parsed yet -/
def image29 : NHeap := [some ⟨"m.img".toList, .image false 0, none, []⟩]

/-- **Counterexample.**  Links to links are resolved only if they stand in the right order: here `a` leads to
`b` and `b` to `c`, and `a` ends as a link. -/
theorem C29_link_to_link_counterexample :
    let content : Content := fun _ => .ok
      (.node "a".toList (.uol (some "b".toList)) .nil (.node "b".toList (.uol (some "c".toList)) .nil
        (.node "c".toList (.other 7) .nil .nil)))
    under (image29.parse content 0).2 0 "b" = some (.other 7) ∧
    under (image29.parse content 0).2 0 "a" = some (.uol (some "c".toList)) := by
  decide +kernel

/-- In the other order both links lead to the value. -/
theorem C29_link_to_link_order :
    let content : Content := fun _ => .ok
      (.node "b".toList (.uol (some "c".toList)) .nil (.node "a".toList (.uol (some "b".toList)) .nil
        (.node "c".toList (.other 7) .nil .nil)))
    under (image29.parse content 0).2 0 "b" = some (.other 7) ∧
    under (image29.parse content 0).2 0 "a" = some (.other 7) := by
  decide +kernel

/-- **Counterexample.**  Two children with one name, a link inside the first: the first is dropped when the
second takes its place, the link has lost its parent, and the parse panics. -/
theorem C29_duplicate_panic :
    let content : Content := fun _ => .ok
      (.node "a".toList (.other 0) (.node "l".toList (.uol (some "x".toList)) .nil .nil)
        (.node "a".toList (.other 1) .nil .nil))
    (image29.parse content 0).1 = .error .panicUnwrap := by
  decide +kernel

/-- A link without a parent panics. -/
theorem C29_no_parent_panic {h : NHeap} {lock : Option Nat} {u : Nat} (hp : ∀ p, ¬ ParentOf h u p) :
    h.resolveUol lock u = .error .panicUnwrap := by
  unfold NHeap.resolveUol
  rw [up_eq_none.2 hp]

example : ∀ p, ¬ ParentOf [some ⟨"l".toList, .uol (some "x".toList), none, []⟩] 0 p := by
  rintro p ⟨c, d, h1, h2, h3⟩; cases h1; cases h2

end Wz.Props
