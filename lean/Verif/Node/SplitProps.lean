import Verif.Node.UolLemmas

/-!
# C30: splitting a path at its image
-/

set_option autoImplicit false

namespace Wz.Props

open Wz Spec

/-- `Map` > `m.img` > …, and an image `old` whose name has no ".img" -/
def tree30 : NHeap :=
  [ some ⟨"Base".toList, .file true 0, none, [("Map".toList, 1), ("set.imgs".toList, 4)]⟩,
    some ⟨"Map".toList, .dir true true 1, some 0, [("m.img".toList, 2), ("old".toList, 3), ("d.img".toList, 6)]⟩,
    some ⟨"m.img".toList, .image false 2, some 1, []⟩,
    some ⟨"old".toList, .image false 3, some 1, []⟩,
    some ⟨"set.imgs".toList, .dir true true 4, some 0, [("p.img".toList, 5)]⟩,
    some ⟨"p.img".toList, .image false 5, some 4, []⟩,
    some ⟨"d.img".toList, .dir false false 6, some 1, []⟩ ]

theorem tree30_maps : MapsOk tree30 := by
  intro i c hc
  match i with
  | 0 | 1 | 2 | 3 | 4 | 5 | 6 => cases hc; decide
  | n + 7 => simp [NHeap.cell, tree30] at hc

/-- **A path without ".img" in it.**  The first image on the way is returned with the rest of the path, if
something follows it. -/
theorem C30_no_suffix_partial {h : NHeap} (hm : MapsOk h) {path : List Char} (hno : ¬ HasImg path) {i j k : Nat}
    {a b : List (List Char)} {x y : List Char} (hp : Pieces path (a ++ x :: y :: b)) (hs : Steps h i a j)
    (hfirst : ∀ a' j', a' <+: a → a' ≠ [] → Steps h i a' j' → ¬ Image h j') (hx : ChildOf h j x k)
    (hk : Image h k) : h.imageFromPath i path = .ok (some (k, slashed (y :: b))) := by
  have hne : path ≠ [] := by
    intro h0
    have := pieces_iff.1 hp
    rw [h0] at this
    have := congrArg List.length this
    simp [splitSlash] at this
    omega
  have hcut : cutImg path = none := by
    cases hc : cutImg path with
    | none => rfl
    | some ab => exact absurd (firstImg_has (cutImg_iff.1 hc)) hno
  unfold NHeap.imageFromPath
  rw [if_neg hne, hcut]
  dsimp only
  rw [pieces_iff.1 hp]
  exact imgLoop_found hm path a i j k [] x y b hs hfirst hx hk hp.text

example : tree30.imageFromPath 0 "Map/old/info/x".toList = .ok (some (3, "info/x".toList)) :=
  (C30_no_suffix_partial tree30_maps (path := "Map/old/info/x".toList) (i := 0) (j := 1) (k := 3)
    (a := ["Map".toList]) (x := "old".toList) (y := "info".toList) (b := ["x".toList])
    (by rw [hasImg_iff]
        rintro ⟨a, b, hf⟩
        have := cutImg_iff.2 hf
        have h0 : cutImg "Map/old/info/x".toList = none := by decide +kernel
        rw [h0] at this; cases this)
    ⟨by simp, by decide +kernel, by decide +kernel⟩
    (.step _ 1 _ _ _ ⟨_, rfl, by decide⟩ (.here 1))
    (by rintro a' j' ⟨t, ht⟩ hne hst
        cases hst with
        | here => exact absurd rfl hne
        | step _ m _ n ns hc hr =>
          cases ns with
          | cons => simp at ht
          | nil =>
            cases hr
            simp only [List.cons_append, List.nil_append, List.cons.injEq] at ht
            obtain ⟨rfl, -⟩ := ht
            obtain ⟨c, h1, h2⟩ := hc
            cases h1
            simp only [List.mem_cons, Prod.mk.injEq, List.mem_nil_iff, or_false] at h2
            rcases h2 with ⟨_, rfl⟩ | ⟨h2, _⟩
            · rintro ⟨c, p, s, h3, h4⟩; cases h3; cases h4
            · exact absurd h2 (by decide))
    ⟨_, rfl, by decide⟩ ⟨_, _, _, rfl, rfl⟩).trans (by decide +kernel)

/-- **Counterexample, in general.**  If the image is the last piece of such a path, the call panics: it asks
for the text behind a slash that is not there. -/
theorem C30_last_panic {h : NHeap} (hm : MapsOk h) {path : List Char} (hno : ¬ HasImg path) (hne : path ≠ [])
    {i j k : Nat} {a : List (List Char)} {x : List Char} (hp : Pieces path (a ++ [x])) (hs : Steps h i a j)
    (hfirst : ∀ a' j', a' <+: a → a' ≠ [] → Steps h i a' j' → ¬ Image h j') (hx : ChildOf h j x k)
    (hk : Image h k) : h.imageFromPath i path = .error .panicIndex := by
  have hcut : cutImg path = none := by
    cases hc : cutImg path with
    | none => rfl
    | some ab => exact absurd (firstImg_has (cutImg_iff.1 hc)) hno
  unfold NHeap.imageFromPath
  rw [if_neg hne, hcut]
  dsimp only
  rw [pieces_iff.1 hp]
  exact imgLoop_last hm path a i j k [] x hs hfirst hx hk hp.text

/-- a path to the image itself -/
theorem C30_last_counterexample : tree30.imageFromPath 0 "Map/old".toList = .error .panicIndex := by
  decide +kernel

/-- **No image on the way**, no ".img" in the path: nothing is returned. -/
theorem C30_no_image {h : NHeap} (hm : MapsOk h) {path : List Char} (hno : ¬ HasImg path) {i : Nat}
    {ns : List (List Char)} (hp : Pieces path ns)
    (hnone : ∀ a j, a <+: ns → a ≠ [] → Steps h i a j → ¬ Image h j) : h.imageFromPath i path = .ok none := by
  have hcut : cutImg path = none := by
    cases hc : cutImg path with
    | none => rfl
    | some ab => exact absurd (firstImg_has (cutImg_iff.1 hc)) hno
  unfold NHeap.imageFromPath
  split
  · rfl
  · rw [hcut]
    dsimp only
    rw [pieces_iff.1 hp]
    exact imgLoop_none hm path ns i 0 hnone

example : tree30.imageFromPath 0 "Map/none/x".toList = .ok none := by decide +kernel

/-- the empty path has no image -/
theorem C30_empty (h : NHeap) (i : Nat) : h.imageFromPath i [] = .ok none := rfl

/-- **A path with ".img" in it.**  The path is cut behind the first ".img".  The result is the node at the
first part, and the text between the slash that follows and the end, or the end of the next ".img". -/
theorem C30_suffix {h : NHeap} (hm : MapsOk h) {path a b : List Char} (hf : FirstImg path a b) (i k : Nat)
    (rest : List Char) :
    h.imageFromPath i path = .ok (some (k, rest)) ↔
      (∃ ns, Pieces a ns ∧ Steps h i ns k) ∧
      ((b = '/' :: rest ∧ ¬ HasImg b) ∨ ∃ c, FirstImg b ('/' :: rest) c) := by
  have hne : path ≠ [] := by
    intro h0
    have h1 := hf.text
    have h2 := endsImg_length hf.ends
    rw [h0] at h1
    have := congrArg List.length h1
    simp at this; omega
  have hpath : ∀ k, h.atPath i a = some k ↔ ∃ ns, Pieces a ns ∧ Steps h i ns k := by
    intro k
    rw [atPath_fold, foldPath_at hm]
    constructor
    · intro hs; exact ⟨_, pieces_iff.2 rfl, hs⟩
    · rintro ⟨ns, hp, hs⟩; rw [pieces_iff.1 hp]; exact hs
  rw [← hpath k]
  unfold NHeap.imageFromPath
  rw [if_neg hne, cutImg_iff.2 hf]
  dsimp only
  have key : ∀ piece, nextImgPiece b = some piece →
      (startsWith piece ['/'] = some rest ↔
        ((b = '/' :: rest ∧ ¬ HasImg b) ∨ ∃ c, FirstImg b ('/' :: rest) c)) := by
    intro piece hpc
    rw [startsWith_iff]
    unfold nextImgPiece at hpc
    split at hpc
    · cases hpc
    · cases hcb : cutImg b with
      | none =>
        rw [hcb] at hpc
        cases hpc
        have hnb := cutImg_none b hcb
        constructor
        · intro e; exact .inl ⟨e, hnb⟩
        · rintro (⟨e, _⟩ | ⟨c, hc⟩)
          · exact e
          · exact absurd (firstImg_has hc) hnb
      | some xy =>
        obtain ⟨x, y⟩ := xy
        rw [hcb] at hpc
        cases hpc
        have hfb := cutImg_iff.1 hcb
        constructor
        · intro e
          have e' : piece = '/' :: rest := e
          rw [e'] at hfb
          exact .inr ⟨y, hfb⟩
        · rintro (⟨e, hn⟩ | ⟨c, hc⟩)
          · exact absurd (firstImg_has hfb) hn
          · exact (firstImg_unique hfb hc).1
  cases hnp : nextImgPiece b with
  | none =>
    dsimp only
    constructor
    · intro e; cases e
    · rintro ⟨_, h1⟩
      have hb : b = [] := by
        unfold nextImgPiece at hnp
        split at hnp
        · assumption
        · split at hnp <;> cases hnp
      subst hb
      rcases h1 with ⟨e, _⟩ | ⟨c, hc⟩
      · cases e
      · have := hc.text; cases this
  | some piece =>
    have key := key piece hnp
    dsimp only
    cases hst : startsWith piece ['/'] with
    | none =>
      dsimp only
      constructor
      · intro e; cases e
      · rintro ⟨_, h1⟩
        rw [key.2 h1] at hst; cases hst
    | some r =>
      dsimp only
      cases hat : h.atPath i a with
      | none =>
        dsimp only
        constructor
        · intro e; cases e
        · rintro ⟨h0, _⟩; cases h0
      | some m =>
        dsimp only
        constructor
        · intro e
          have e1 := Prod.mk.inj (Option.some.inj (Except.ok.inj e))
          refine ⟨by rw [e1.1], key.1 ?_⟩
          rw [hst, e1.2]
        · rintro ⟨h0, h1⟩
          have := key.2 h1
          rw [hst] at this
          rw [Option.some.inj h0, Option.some.inj this]

/-- such a path never panics -/
theorem C30_suffix_total {h : NHeap} {path : List Char} (hi : HasImg path) (i : Nat) :
    ∃ r, h.imageFromPath i path = .ok r := by
  obtain ⟨a, b, hf⟩ := hasImg_iff.1 hi
  unfold NHeap.imageFromPath
  split
  · exact ⟨_, rfl⟩
  · rw [cutImg_iff.2 hf]
    dsimp only
    split
    · exact ⟨_, rfl⟩
    · split
      · exact ⟨_, rfl⟩
      · split <;> exact ⟨_, rfl⟩

/-- The usual path: one ".img", at the end of a piece, and something behind it. -/
theorem C30_usual_partial {h : NHeap} (hm : MapsOk h) {path a rest : List Char} {i k : Nat} {ns : List (List Char)}
    (hf : FirstImg path a ('/' :: rest)) (hr : ¬ HasImg ('/' :: rest)) (hp : Pieces a ns) (hs : Steps h i ns k) :
    h.imageFromPath i path = .ok (some (k, rest)) :=
  (C30_suffix hm hf i k rest).2 ⟨⟨ns, hp, hs⟩, .inl ⟨rfl, hr⟩⟩

example : tree30.imageFromPath 0 "Map/m.img/info/x".toList = .ok (some (2, "info/x".toList)) :=
  C30_usual_partial tree30_maps (a := "Map/m.img".toList) (ns := ["Map".toList, "m.img".toList])
    (cutImg_iff.1 (by decide +kernel))
    (by rw [hasImg_iff]
        rintro ⟨a, b, hf⟩
        have := cutImg_iff.2 hf
        have h0 : cutImg "/info/x".toList = none := by decide +kernel
        rw [show '/' :: "info/x".toList = "/info/x".toList by decide, h0] at this; cases this)
    ⟨by simp, by decide +kernel, by decide +kernel⟩
    (.step _ 1 _ _ _ ⟨_, rfl, by decide⟩ (.step _ 2 _ _ _ ⟨_, rfl, by decide⟩ (.here 2)))

/-- **Counterexamples** for paths with ".img":
the path of the image itself gives nothing;
".img" inside the name of a directory hides the image behind it;
a second ".img" cuts off the rest of the path;
the node returned need not be an image. -/
theorem C30_suffix_counterexamples :
    tree30.imageFromPath 0 "Map/m.img".toList = .ok none ∧
    tree30.imageFromPath 0 "set.imgs/p.img/x".toList = .ok none ∧
    tree30.imageFromPath 0 "Map/m.img/a.img/b".toList = .ok (some (2, "a.img".toList)) ∧
    tree30.imageFromPath 0 "Map/d.img/x".toList = .ok (some (6, "x".toList)) ∧ ¬ Image tree30 6 := by
  refine ⟨by decide +kernel, by decide +kernel, by decide +kernel, by decide +kernel, ?_⟩
  rintro ⟨c, p, s, h1, h2⟩; cases h1; cases h2

end Wz.Props
