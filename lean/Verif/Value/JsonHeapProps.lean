import Verif.Value.JsonHeapModel
import Verif.Value.JsonProps
import Verif.Node.WalkPathProps

/-!
# C46: the JSON export, whatever links have made of the tree
-/

set_option autoImplicit false

namespace Wz.Spec

/-- the children of a node, none if it is dead -/
def childrenOf (h : NHeap) (i : Nat) : List (List Char × Nat) :=
  match h.cell i with
  | none => []
  | some c => c.kids

/-- the tree of all ways down from a node: a node two ways lead to is in it twice -/
inductive Unfolds (obj : Nat → Obj) (h : NHeap) : Nat → JNode → Prop
  | node (i : Nat) (kids : List (List Char × JNode))
      (hn : kids.map Prod.fst = (childrenOf h i).map Prod.fst)
      (hk : ∀ (q : Nat) (k : List Char × Nat) (e : List Char × JNode), (childrenOf h i)[q]? = some k → kids[q]? = some e → Unfolds obj h k.2 e.2) :
      Unfolds obj h i (.node (obj i) kids)

/-- some way down from the node leads to a value without children -/
def Leaf (obj : Nat → Obj) (h : NHeap) (i : Nat) (v : Val) : Prop :=
  ∃ ns x, Steps h i ns x ∧ childrenOf h x = [] ∧ obj x = .value v

end Wz.Spec

namespace Wz

open Wz.Spec

theorem childOf_mem {h : NHeap} {i j : Nat} {n : List Char} : ChildOf h i n j ↔ (n, j) ∈ childrenOf h i := by
  unfold childrenOf
  constructor
  · rintro ⟨c, hc, hm⟩
    rw [hc]; exact hm
  · intro hm
    cases hc : h.cell i with
    | none => rw [hc] at hm; cases hm
    | some c => rw [hc] at hm; exact ⟨c, hc, hm⟩

theorem json_eq (obj : Nat → Obj) (h : NHeap) (fuel i : Nat) : NHeap.json obj h (fuel + 1) i =
    match childrenOf h i with
    | [] => some (obj i).leafJson
    | k :: ks => (NHeap.jsonLoop (NHeap.json obj h fuel) (k :: ks) (obj i).ownEntries).map fun r => r.map Json.obj := by
  rw [NHeap.json]
  unfold childrenOf
  cases h.cell i with
  | none => rfl
  | some c =>
    dsimp only
    cases c.kids with
    | nil => rfl
    | cons k ks =>
      dsimp only
      rcases NHeap.jsonLoop (NHeap.json obj h fuel) (k :: ks) (obj i).ownEntries with _ | _ | _ <;> rfl

/-- the unfolded tree, cut off at a depth -/
def treeOf (obj : Nat → Obj) (h : NHeap) : Nat → Nat → JNode
  | 0, i => .node (obj i) []
  | fuel + 1, i => .node (obj i) ((childrenOf h i).map fun k => (k.1, treeOf obj h fuel k.2))

theorem jsonLoop_tree {rec : Nat → Option (Except Err Json)} {tr : Nat → JNode} :
    ∀ (ks : List (List Char × Nat)) (m : List (List Char × Json)), (∀ k ∈ ks, rec k.2 = some (tr k.2).json) →
      NHeap.jsonLoop rec ks m = some (kidsJson (ks.map fun k => (k.1, tr k.2)) m)
  | [], m, _ => by simp only [NHeap.jsonLoop, List.map_nil, kidsJson]
  | (n, j) :: ks, m, hr => by
    have h1 := hr (n, j) (List.mem_cons_self ..)
    simp only [NHeap.jsonLoop, List.map_cons, kidsJson]
    dsimp only at h1
    rw [h1]
    cases (tr j).json with
    | error e => rfl
    | ok v =>
      dsimp only
      rw [jsonLoop_tree ks _ fun k hk => hr k (List.mem_cons_of_mem _ hk)]
      rfl

theorem json_tree {obj : Nat → Obj} {h : NHeap} : ∀ fuel i : Nat, (∀ ns x, Steps h i ns x → ns.length < fuel) →
    NHeap.json obj h fuel i = some (treeOf obj h fuel i).json ∧ Unfolds obj h i (treeOf obj h fuel i)
  | 0, i, hd => absurd (hd [] i (.here i)) (by simp)
  | fuel + 1, i, hd => by
    have ih : ∀ k ∈ childrenOf h i, NHeap.json obj h fuel k.2 = some (treeOf obj h fuel k.2).json ∧
        Unfolds obj h k.2 (treeOf obj h fuel k.2) := fun k hk =>
      json_tree fuel k.2 fun ns x hs => by
        have := hd (k.1 :: ns) x (.step i k.2 x k.1 ns (childOf_mem.2 hk) hs)
        simpa using this
    constructor
    · rw [json_eq, treeOf]
      cases hc : childrenOf h i with
      | nil => simp only [List.map_nil, JNode.json]
      | cons k ks =>
        dsimp only
        rw [hc] at ih
        rw [jsonLoop_tree (tr := treeOf obj h fuel) (k :: ks) _ fun k hk => (ih k hk).1, List.map_cons, JNode.json]
        rcases kidsJson ((k.1, treeOf obj h fuel k.2) :: ks.map fun k => (k.1, treeOf obj h fuel k.2))
          (obj i).ownEntries with _ | _ <;> rfl
    · rw [treeOf]
      refine .node i _ ?_ fun q k e hk he => ?_
      · rw [List.map_map]; rfl
      · rw [List.getElem?_map, hk] at he
        cases he
        exact (ih k (List.mem_of_getElem? hk)).2

theorem jsonLoop_ok {rec : Nat → Option (Except Err Json)} :
    ∀ (ks : List (List Char × Nat)) (m m' : List (List Char × Json)), NHeap.jsonLoop rec ks m = some (.ok m') →
      ∀ k ∈ ks, ∃ v, rec k.2 = some (.ok v)
  | [], _, _, _ => by simp
  | (n, j) :: ks, m, m', h => by
    simp only [NHeap.jsonLoop] at h
    cases hr : rec j with
    | none => rw [hr] at h; cases h
    | some r =>
      rw [hr] at h
      cases r with
      | error e => cases h
      | ok v =>
        intro k hk
        rcases List.mem_cons.1 hk with rfl | hk
        · exact ⟨v, hr⟩
        · exact jsonLoop_ok ks _ _ h k hk

theorem json_depth {obj : Nat → Obj} {h : NHeap} : ∀ (fuel i : Nat) (j : Json), NHeap.json obj h fuel i = some (.ok j) →
    ∀ ns x, Steps h i ns x → ns.length < fuel
  | 0, _, _, hj => by cases hj
  | fuel + 1, i, j, hj => by
    intro ns x hs
    cases hs with
    | here => simp
    | step _ i' _ n ns hch hs =>
      have hm := childOf_mem.1 hch
      rw [json_eq] at hj
      cases hc : childrenOf h i with
      | nil => rw [hc] at hm; cases hm
      | cons k ks =>
        rw [hc] at hj hm
        dsimp only at hj
        cases hl : NHeap.jsonLoop (NHeap.json obj h fuel) (k :: ks) (obj i).ownEntries with
        | none => rw [hl] at hj; cases hj
        | some r =>
          rw [hl] at hj
          cases r with
          | error e => cases hj
          | ok m' =>
            obtain ⟨v, hv⟩ := jsonLoop_ok _ _ _ hl _ hm
            have := json_depth fuel i' v hv ns x hs
            simpa using this

theorem shallow {h : NHeap} {i : Nat} (hn : ¬ Circular h i) (ns : List (List Char)) (x : Nat) (hs : Steps h i ns x) :
    ns.length < h.length + 1 := by
  rcases Steps_nodes hs with hc | ⟨l, h3, h4, h5⟩
  · exact absurd hc hn
  · have := nodup_below _ l h3 (fun y hy => (h5 y hy).1)
    omega

theorem Spec.Unfolds.leaf {obj : Nat → Obj} {h : NHeap} {i : Nat} {t : JNode} (hu : Unfolds obj h i t) (v : Val) :
    HasLeaf t v ↔ Leaf obj h i v := by
  induction hu with
  | node i kids hn hk ih =>
    have hlen : kids.length = (childrenOf h i).length := by
      have := congrArg List.length hn
      simpa using this
    constructor
    · intro hl
      generalize ht : JNode.node (obj i) kids = t at hl
      cases hl with
      | here v =>
        injection ht with h1 h2
        subst h2
        exact ⟨[], i, .here i, List.eq_nil_of_length_eq_zero hlen.symm, h1⟩
      | kid o kids' e v he hl =>
        injection ht with h1 h2
        subst h2
        obtain ⟨q, hq, he⟩ := List.mem_iff_getElem.1 he
        have hq' : q < (childrenOf h i).length := by omega
        obtain ⟨ns, x, hs, h3, h4⟩ := (ih q _ _ (List.getElem?_eq_getElem hq') (List.getElem?_eq_getElem hq)).1
          (by rw [he]; exact hl)
        exact ⟨_, x, .step i _ x _ ns (childOf_mem.2 (List.getElem_mem hq')) hs, h3, h4⟩
    · rintro ⟨ns, x, hs, h3, h4⟩
      cases hs with
      | here =>
        rw [h3] at hlen
        have := List.eq_nil_of_length_eq_zero hlen
        rw [this, h4]
        exact .here v
      | step _ j _ n ns hch hs =>
        obtain ⟨q, hq, he⟩ := List.mem_iff_getElem.1 (childOf_mem.1 hch)
        have hq' : q < kids.length := by omega
        refine .kid _ _ kids[q] v (List.getElem_mem hq') ?_
        refine (ih q _ _ (List.getElem?_eq_getElem hq) (List.getElem?_eq_getElem hq')).2 ⟨ns, x, ?_, h3, h4⟩
        rw [he]; exact hs

theorem Spec.Unfolds.wf {obj : Nat → Obj} {h : NHeap} (hm : MapsOk h) {i : Nat} {t : JNode} (hu : Unfolds obj h i t) :
    Wf t := by
  induction hu with
  | node i kids hn hk ih =>
    have hlen : kids.length = (childrenOf h i).length := by
      have := congrArg List.length hn
      simpa using this
    refine .node _ _ ?_ fun e he => ?_
    · rw [hn]
      unfold childrenOf
      cases hc : h.cell i with
      | none => exact .nil
      | some c => exact hm i c hc
    · obtain ⟨q, hq, rfl⟩ := List.mem_iff_getElem.1 he
      have hq' : q < (childrenOf h i).length := by omega
      exact ih q _ _ (List.getElem?_eq_getElem hq') (List.getElem?_eq_getElem hq)

end Wz

namespace Wz.Props

open Wz Wz.Spec

/-- The export of nodes tied together by links succeeds exactly if no way down comes back to where it was and no
way leads to a value that cannot be exported. -/
theorem C46_succeeds_iff_partial (obj : Nat → Obj) (h : NHeap) (i : Nat) :
    (∃ fuel j, NHeap.json obj h fuel i = some (.ok j)) ↔ ¬ Circular h i ∧ ∀ v, Leaf obj h i v → ¬ Unfit v := by
  constructor
  · rintro ⟨fuel, j, hj⟩
    have hd := json_depth fuel i j hj
    obtain ⟨h1, h2⟩ := json_tree (obj := obj) fuel i hd
    refine ⟨?_, fun v hv => ?_⟩
    · rintro ⟨x, ms, ns, h3, h4, h5⟩
      obtain ⟨qs, h6, h7⟩ := steps_repeat h5 h4 fuel
      have := hd _ _ (steps_append h3 h7)
      rw [List.length_append] at this
      omega
    · rw [hj] at h1
      exact (C46_total_partial _).1 ⟨j, (Option.some.inj h1).symm⟩ v ((h2.leaf v).2 hv)
  · rintro ⟨hn, hv⟩
    obtain ⟨h1, h2⟩ := json_tree (obj := obj) _ i (shallow hn)
    obtain ⟨j, hj⟩ := (C46_total_partial _).2 fun v hl => hv v ((h2.leaf v).1 hl)
    exact ⟨_, j, by rw [h1, hj]⟩

/-- What is exported shows the tree of all ways down from the node. -/
theorem C46_shows_partial (obj : Nat → Obj) {h : NHeap} (hm : MapsOk h) {fuel i : Nat} {j : Json}
    (hj : NHeap.json obj h fuel i = some (.ok j)) : ∃ t, Unfolds obj h i t ∧ JShows t j := by
  obtain ⟨h1, h2⟩ := json_tree (obj := obj) fuel i (json_depth fuel i j hj)
  rw [hj] at h1
  exact ⟨_, h2, C46_faithful_partial _ (h2.wf hm) j (Option.some.inj h1).symm⟩

/-- Nodes that no link ties into a circle: the export is that of the tree of all ways down, whatever comes out of
it, and no deeper than there are nodes. -/
theorem C46_no_circle (obj : Nat → Obj) {h : NHeap} {i : Nat} (hn : ¬ Circular h i) :
    ∃ t, Unfolds obj h i t ∧ NHeap.json obj h (h.length + 1) i = some t.json := by
  obtain ⟨h1, h2⟩ := json_tree (obj := obj) _ i (shallow hn)
  exact ⟨_, h2, h1⟩

/-- C46, violated: a link to a node above it, once resolved, and no export of that node succeeds: it goes on
until the stack is used up. -/
theorem C46_circle_counterexample (obj : Nat → Obj) {h : NHeap} {i : Nat} (hc : Circular h i)
    (hv : ∀ v, Leaf obj h i v → ¬ Unfit v) (fuel : Nat) : NHeap.json obj h fuel i = none := by
  induction fuel generalizing i with
  | zero => rfl
  | succ fuel ih =>
    cases hj : NHeap.json obj h (fuel + 1) i with
    | none => rfl
    | some r =>
      exfalso
      cases r with
      | ok j => exact ((C46_succeeds_iff_partial obj h i).1 ⟨_, _, hj⟩).1 hc
      | error e => exact nofail (fuel + 1) i e hj hv
where
  nofail : ∀ (fuel i : Nat) (e : Err), NHeap.json obj h fuel i = some (.error e) →
      (∀ v, Leaf obj h i v → ¬ Unfit v) → False
    | 0, _, _, hj, _ => by cases hj
    | fuel + 1, i, e, hj, hv => by
      rw [json_eq] at hj
      cases hc : childrenOf h i with
      | nil =>
        rw [hc] at hj
        have h1 : (JNode.node (obj i) []).json = (obj i).leafJson := by rw [JNode.json]
        obtain ⟨j, h2⟩ := (C46_total_partial (.node (obj i) [])).2 fun v hl => by
          generalize ht : JNode.node (obj i) [] = t at hl
          cases hl with
          | here v =>
            injection ht with h1 _
            exact hv v ⟨[], i, .here i, hc, h1⟩
          | kid o kids' e v he _ =>
            injection ht with _ h2
            rw [← h2] at he
            cases he
        rw [h1] at h2
        rw [h2] at hj
        cases hj
      | cons k ks =>
        rw [hc] at hj
        dsimp only at hj
        cases hl : NHeap.jsonLoop (NHeap.json obj h fuel) (k :: ks) (obj i).ownEntries with
        | none => rw [hl] at hj; cases hj
        | some r =>
          rw [hl] at hj
          cases r with
          | ok m => cases hj
          | error e' =>
            obtain ⟨p, hp, hpe⟩ := loop_error (k :: ks) _ e' hl
            refine nofail fuel p.2 e' hpe fun v ⟨ns, x, hs, h3, h4⟩ =>
              hv v ⟨p.1 :: ns, x, .step i p.2 x p.1 ns (childOf_mem.2 (by rw [hc]; exact hp)) hs, h3, h4⟩
  loop_error {rec : Nat → Option (Except Err Json)} :
      ∀ (ks : List (List Char × Nat)) (m : List (List Char × Json)) (e : Err), NHeap.jsonLoop rec ks m = some (.error e) →
        ∃ p ∈ ks, rec p.2 = some (.error e)
    | [], _, _, h => by cases h
    | (n, j) :: ks, m, e, h => by
      simp only [NHeap.jsonLoop] at h
      cases hr : rec j with
      | none => rw [hr] at h; cases h
      | some r =>
        rw [hr] at h
        cases r with
        | error e' => cases h; exact ⟨_, List.mem_cons_self .., hr⟩
        | ok v =>
          obtain ⟨p, hp, he⟩ := loop_error ks _ e h
          exact ⟨p, List.mem_cons_of_mem _ hp, he⟩

/-! ### the cases are met -/

/-- what is in the nodes of `twice28`: two folders and a number -/
def obj46 : Nat → Obj := fun i => if i = 2 then .value (.int 7) else .property .property

example : NHeap.json obj46 twice28 4 0 =
    some (.ok (.obj [(['a'], .obj [(['x'], .int 7)]), (['l'], .obj [(['x'], .int 7)])])) := rfl

example : ∃ j, NHeap.json obj46 twice28 4 0 = some (.ok j) ∧ ∃ t, Unfolds obj46 twice28 0 t ∧ JShows t j :=
  ⟨_, rfl, C46_shows_partial obj46 twice28_maps (fuel := 4) (i := 0) rfl⟩

/-- a folder that holds a link to itself -/
example : NHeap.json (fun _ => .property .property) [some ⟨['r'], .other 1, none, [(['l'], 0)]⟩] 100 0 = none :=
  C46_circle_counterexample _
    ⟨0, [], [['l']], .here 0, by simp, .step 0 0 0 ['l'] [] ⟨_, rfl, by simp⟩ (.here 0)⟩
    (fun v ⟨_, _, _, _, h⟩ => by cases h) 100

end Wz.Props
