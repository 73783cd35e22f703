import Verif.Node.WalkLemmas

/-!
# C28: walking
-/

set_option autoImplicit false

namespace Wz.Props

open Wz Wz.Spec

/-- A tree: the callback gets every node below the first one, and it, exactly once, each node before its
children.  The order of the children is that of the heap, which can be any. -/
theorem C28_walk_partial {h : NHeap} {i fuel : Nat} {f : IdForest} (hb : Below h i f) (hn : (i :: f.ids).Nodup)
    (hf : f.depth < fuel) :
    ∃ vs, h.walk fuel i = some vs ∧ vs.Nodup ∧ (∀ x, x ∈ vs ↔ ∃ ns, Steps h i ns x) ∧
      ∀ p n c, p ∈ vs → ChildOf h p n c → ∃ a b, vs = a ++ p :: b ∧ c ∈ b := by
  obtain ⟨⟨c, hc, hk⟩, hd⟩ := hb
  obtain ⟨fuel, rfl⟩ : ∃ q, fuel = q + 1 := ⟨fuel - 1, by omega⟩
  have hw : h.walk (fuel + 1) i = some (i :: f.ids) := by
    simp only [NHeap.walk, hc, hk, walkLoop_drawn f fuel hd (by omega)]
  refine ⟨_, hw, hn, (walk_mem _ _ _ hw).1, ?_⟩
  intro p n d hp hch
  rcases List.mem_cons.1 hp with rfl | hp
  · obtain ⟨c', hc', hm⟩ := hch
    rw [hc] at hc'
    cases hc'
    rw [hk] at hm
    exact ⟨[], f.ids, rfl, roots_sub_ids f _ hm⟩
  · obtain ⟨a, b, e, hb⟩ := drawn_order f hd p n d hp hch
    exact ⟨i :: a, b, by rw [e]; rfl, hb⟩

example : ∃ vs, NHeap.walk [some ⟨['f'], .other 1, none, [(['a'], 2), (['b'], 1)]⟩, some ⟨['b'], .other 2, some 0, []⟩,
    some ⟨['a'], .other 3, some 0, [(['c'], 3)]⟩, some ⟨['c'], .other 4, some 2, []⟩] 3 0 = some vs ∧ vs.Nodup := by
  obtain ⟨vs, h1, h2, _⟩ := C28_walk_partial (h := [some ⟨['f'], .other 1, none, [(['a'], 2), (['b'], 1)]⟩, some ⟨['b'], .other 2, some 0, []⟩,
    some ⟨['a'], .other 3, some 0, [(['c'], 3)]⟩, some ⟨['c'], .other 4, some 2, []⟩]) (i := 0) (fuel := 3)
    (f := .cons ['a'] 2 (.cons ['c'] 3 .nil .nil) (.cons ['b'] 1 .nil .nil))
    ⟨⟨_, rfl, rfl⟩, ⟨_, rfl, rfl⟩, ⟨⟨_, rfl, rfl⟩, trivial, trivial⟩, ⟨_, rfl, rfl⟩, trivial, trivial⟩ (by decide) (by decide)
  exact ⟨vs, h1, h2⟩

/-- Whatever the heap: a walk that ends has given every reachable node, and no other, to the callback. -/
theorem C28_walk_reaches {h : NHeap} {i fuel : Nat} {vs : List Nat} (hw : h.walk fuel i = some vs) :
    ∀ x, x ∈ vs ↔ ∃ ns, Steps h i ns x :=
  (walk_mem fuel i vs hw).1

theorem steps_append {h : NHeap} {i j k : Nat} {a b : List (List Char)} (h1 : Steps h i a j) (h2 : Steps h j b k) :
    Steps h i (a ++ b) k := by
  induction h1 with
  | here => exact h2
  | step i j' k' n ns hch _ ih => exact .step i j' _ n _ hch (ih h2)

theorem steps_repeat {h : NHeap} {i : Nat} {ns : List (List Char)} (hs : Steps h i ns i) (hne : ns ≠ []) :
    ∀ q, ∃ ms, q ≤ ms.length ∧ Steps h i ms i
  | 0 => ⟨[], Nat.le_refl _, .here i⟩
  | q + 1 => by
    obtain ⟨ms, h1, h2⟩ := steps_repeat hs hne q
    refine ⟨ns ++ ms, ?_, steps_append hs h2⟩
    rw [List.length_append]
    have := List.length_pos_iff.2 hne
    omega

/-- A node that leads back to itself, as a link can make it: the walk never ends. -/
theorem C28_circle_counterexample {h : NHeap} {i j : Nat} {ms ns : List (List Char)} (hi : Steps h i ms j)
    (hs : Steps h j ns j) (hne : ns ≠ []) (fuel : Nat) : h.walk fuel i = none := by
  cases hw : h.walk fuel i with
  | none => rfl
  | some vs =>
    obtain ⟨qs, h1, h2⟩ := steps_repeat hs hne fuel
    have := (walk_mem fuel i vs hw).2 _ _ (steps_append hi h2)
    rw [List.length_append] at this
    omega

/-! ## with parsing -/

/-- A tree whose unread nodes hold no links and no two children of one name: with parsing, the callback gets
every node exactly once, in the order of the tree as it is once everything is read, each node parsed by then;
every node that was there and every node that was read on the way is among them.  At the end no image is
parsed, and no other node has changed. -/
theorem C28_force_partial {content : Content} {h : NHeap} {i : Nat} {L : List Nat} {name : List Char} {k : NKind}
    {ks : Forest} {obs : List (List Char × NKind)}
    (hs : Seen content (.node name k ks .nil) obs) (ht : Stands h (.node name k ks .nil) [(name, i)] L)
    (hn : L.Nodup) :
    ∃ N vs g, (∀ fuel, N ≤ fuel → h.walkForce content fuel [] i = .ok (vs, g)) ∧
      vs.map (fun v => v.2.map fun c => (c.name, c.kind)) = obs.map some ∧
      (vs.map Prod.fst).Nodup ∧
      (∀ x, x ∈ vs.map Prod.fst ↔ x ∈ L ∨ (h.length ≤ x ∧ x < g.length)) ∧
      (∀ x ∈ vs.map Prod.fst, ∀ s c, g.cell x = some c → c.kind ≠ .image true s) ∧
      ∀ x, x < h.length → x ∉ L → g.cell x = h.cell x := by
  obtain ⟨F', hl⟩ := seen_leaves hs
  obtain ⟨N, vs, g, h1, h2, R, _⟩ := force_leaves hl h [(name, i)] L [] ht hn (fun x hx => by cases hx)
  refine ⟨N, vs, g, ?_, h2, R.nodup, ?_, ?_, R.frame⟩
  · exact fun fuel hf => walk_of_loop (h1 fuel hf)
  · intro x
    refine ⟨R.sub x, ?_⟩
    rintro (hx | ⟨h3, h4⟩)
    · exact R.all x hx
    · exact R.new x h3 h4
  · intro x hx s c hc
    exact R.images x hx c hc s

/-- Walking again: where no image was parsed before, a walk with parsing can be repeated any number of times, and each
time the callback gets the same nodes by name and state, every node once.  What is not below the node stays as it was. -/
theorem C28_again_partial {content : Content} {h : NHeap} {i : Nat} {L : List Nat} {name : List Char} {k : NKind}
    {ks : Forest} {obs : List (List Char × NKind)} (hc : ReadsShut content)
    (hs : Seen content (.node name k ks .nil) obs) (ho : Spec.Forest.All NotOpen (.node name k ks .nil))
    (ht : Stands h (.node name k ks .nil) [(name, i)] L) (hn : L.Nodup) (times : Nat) :
    ∃ g, WalkedTimes content i (fun vs => vs.map (fun v => v.2.map fun c => (c.name, c.kind)) = obs.map some ∧
        (vs.map Prod.fst).Nodup) times h g ∧
      ∀ x, x < h.length → x ∉ L → g.cell x = h.cell x := by
  obtain ⟨F', hl⟩ := seen_leaves_shut hc hs ho
  cases times with
  | zero => exact ⟨h, .none h, fun _ _ _ => rfl⟩
  | succ times =>
    obtain ⟨N, vs, h', h1, h2, R, L', hS', hn', hL'⟩ := force_leaves hl h [(name, i)] L [] ht hn (fun x hx => by cases hx)
    have hle0 := R.len
    have hst : ∃ g, WalkedTimes content i (fun vs => vs.map (fun v => v.2.map fun c => (c.name, c.kind)) = obs.map some ∧
        (vs.map Prod.fst).Nodup) times h' g ∧ ∀ x, x < h'.length → x ∉ L' → g.cell x = h'.cell x := by
      obtain ⟨g, w, _, hfr, _⟩ := walks_again (leaves_again hl) times h' L' hS' hn'
      exact ⟨g, w, hfr⟩
    obtain ⟨g, w, hfr⟩ := hst
    refine ⟨g, .next times N vs h h' g (fun fuel hf => walk_of_loop (h1 fuel hf)) ⟨h2, R.nodup⟩ w, fun x hx hxL => ?_⟩
    rw [hfr x (by omega) (fun hx' => by
      rcases hL' x hx' with h3 | h3
      · exact hxL h3
      · omega)]
    exact R.frame x hx hxL

/-! ### links -/

/-- an image with a folder and a link to the folder -/
def forest28 : Forest :=
  .node ['d'] (.other 1) (.node ['v'] (.other 2) .nil .nil) (.node ['l'] (.uol (some ['d'])) .nil .nil)

def content28 : Content := fun s => if s = 7 then .ok forest28 else .error (.lib "x")

/-- A link to a folder: the folder and all it holds are given to the callback twice. -/
theorem C28_link_counterexample :
    (NHeap.walkForce content28 9 [some ⟨['i'], .image false 7, none, []⟩] [] 0).map
      (fun r => r.1.map fun v => (v.1, v.2.map NCell.name)) =
    .ok [(0, some ['i']), (1, some ['d']), (2, some ['v']), (1, some ['d']), (2, some ['v'])] := by
  decide +kernel

/-- an image with a folder that holds a link to the image -/
def forest28b : Forest := .node ['d'] (.other 1) (.node ['l'] (.uol (some ['.', '.'])) .nil .nil) .nil

def content28b : Content := fun _ => .ok forest28b

/-- A link to the image it is in: the walk that parses waits for itself for ever. -/
theorem C28_deadlock_counterexample :
    NHeap.walkForce content28b 9 [some ⟨['i'], .image false 7, none, []⟩] [] 0 = .error (.lib "deadlock") := by
  decide +kernel

/-- The same image, parsed before: the walk that does not parse never ends. -/
theorem C28_endless_counterexample (fuel : Nat) :
    NHeap.walk (NHeap.parse [some ⟨['i'], .image false 7, none, []⟩] content28b 0).2 fuel 0 = none := by
  have e : (NHeap.parse [some ⟨['i'], .image false 7, none, []⟩] content28b 0).2 =
      [some ⟨['i'], .image true 7, none, [(['d'], 1)]⟩, some ⟨['d'], .other 1, some 0, [(['l'], 0)]⟩,
        some ⟨['l'], .uol (some ['.', '.']), some 1, []⟩] := by decide +kernel
  rw [e]
  exact C28_circle_counterexample (.here 0)
    (.step 0 1 0 ['d'] [['l']] ⟨_, rfl, by simp⟩ (.step 1 0 0 ['l'] [] ⟨_, rfl, by simp⟩ (.here 0))) (by simp) fuel

/-! ### the cases are met -/

/-- a file with two images, one of which cannot be read -/
def tree28 : NHeap := [some ⟨['f'], .file false 1, none, []⟩]

def content28c : Content := fun s =>
  if s = 1 then .ok (.node ['a'] (.image false 2) .nil (.node ['b'] (.image false 3) .nil .nil))
  else if s = 2 then .ok (.node ['x'] (.other 5) (.node ['y'] (.other 6) .nil .nil) .nil)
  else .error (.lib "x")

theorem good28 : ∀ s f, content28c s = .ok f → Spec.Forest.All NoLink f ∧ Spec.Forest.Distinct f := by
  intro s f hf
  unfold content28c at hf
  split at hf
  · cases hf
    exact ⟨⟨(fun t e => by cases e), trivial, (fun t e => by cases e), trivial, trivial⟩,
      ⟨by decide, trivial, by decide, trivial, trivial⟩⟩
  · split at hf
    · cases hf
      exact ⟨⟨(fun t e => by cases e), ⟨(fun t e => by cases e), trivial, trivial⟩, trivial⟩,
        ⟨by decide, ⟨by decide, trivial, trivial⟩, trivial⟩⟩
    · cases hf

theorem seen28 : Seen content28c (.node ['f'] (.file false 1) .nil .nil)
    [(['f'], .file true 1), (['a'], .image true 2), (['x'], .other 5), (['y'], .other 6), (['b'], .image false 3)] :=
  .read _ _ 1 _ _ [_, _, _, _] [] (.file 1) rfl (good28 1 _ rfl).1 (good28 1 _ rfl).2
    (.read _ _ 2 _ _ [_, _] [_] (.image 2) rfl (good28 2 _ rfl).1 (good28 2 _ rfl).2
      (.quiet _ _ _ _ [_] [] (.other 5) (.quiet _ _ _ _ [] [] (.other 6) .nil .nil) .nil)
      (.broken _ _ 3 (.lib "x") _ [] (.image 3) rfl rfl .nil)) .nil

example : ∃ N vs g, (∀ fuel, N ≤ fuel → tree28.walkForce content28c fuel [] 0 = .ok (vs, g)) ∧ vs.length = 5 := by
  obtain ⟨N, vs, g, h1, h2, _⟩ := C28_force_partial (h := tree28) (i := 0) (L := [0]) seen28
    ⟨0, [], _, [], [], rfl, rfl, rfl, rfl, rfl, ⟨rfl, rfl⟩, ⟨rfl, rfl⟩⟩ (by simp)
  refine ⟨N, vs, g, h1, ?_⟩
  have := congrArg List.length h2
  simpa using this

example : (NHeap.walkForce content28c 9 tree28 [] 0).map (fun r => r.1.map fun v => v.2.map NCell.name) =
    .ok [some ['f'], some ['a'], some ['x'], some ['y'], some ['b']] := by decide +kernel

theorem shut28 : ReadsShut content28c := by
  intro s f hf
  unfold content28c at hf
  split at hf
  · cases hf
    exact ⟨(fun t e => by cases e), trivial, (fun t e => by cases e), trivial, trivial⟩
  · split at hf
    · cases hf
      exact ⟨(fun t e => by cases e), ⟨(fun t e => by cases e), trivial, trivial⟩, trivial⟩
    · cases hf

example : ∃ g, WalkedTimes content28c 0 (fun vs => vs.map (fun v => v.2.map fun c => (c.name, c.kind)) =
    [(['f'], .file true 1), (['a'], .image true 2), (['x'], .other 5), (['y'], .other 6), (['b'], .image false 3)].map some ∧
    (vs.map Prod.fst).Nodup) 3 tree28 g := by
  obtain ⟨g, h, _⟩ := C28_again_partial (h := tree28) (i := 0) (L := [0]) shut28 seen28
    ⟨(fun t e => by cases e), trivial, trivial⟩
    ⟨0, [], _, [], [], rfl, rfl, rfl, rfl, rfl, ⟨rfl, rfl⟩, ⟨rfl, rfl⟩⟩ (by simp) 3
  exact ⟨g, h⟩

/-- an image that was parsed before, with a child that is not in its source -/
def tree28b : NHeap := [some ⟨['a'], .image true 2, none, [(['z'], 1)]⟩, some ⟨['z'], .other 9, some 0, []⟩]

/-- An image that is parsed when the walk comes is given back afterwards: what the next walk shows is what the image
is read from, not what was there. -/
theorem C28_again_counterexample :
    ((NHeap.walkForce content28c 9 tree28b [] 0).map fun r => r.1.map fun v => v.2.map NCell.name) = .ok [some ['a'], some ['z']] ∧
    (((NHeap.walkForce content28c 9 tree28b [] 0).bind fun r => NHeap.walkForce content28c 9 r.2 [] 0).map
        fun r => r.1.map fun v => v.2.map NCell.name) =
      .ok [some ['a'], some ['x'], some ['y']] := by
  decide +kernel

end Wz.Props
