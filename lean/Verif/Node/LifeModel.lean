import Verif.Node.Model

/-!
# How long nodes live

A node is freed when the last strong reference to it goes (`Arc`).  Strong references are the handles of the program and
the entries in the maps of children (node.rs 43); the reference of a node to its parent is weak (41).  Freeing a node drops
its map of children, which may free these too, and so on.

The other files of the model keep every node that was made.  Here nodes die: the cell becomes `none`.

Simplifications: the entries of a map that is dropped go all at once, where the code drops one after the other; in the end
this makes no difference.  Freeing needs stack for every level of the tree, which is not modelled.
-/

set_option autoImplicit false

namespace Wz

/-- the entries in the map of children of one node that hold node `i` (node.rs 43) -/
def entriesIn (i : Nat) : Option NCell → Nat
  | none => 0
  | some c => (c.kids.filter fun x => x.2 == i).length

/-- the entries in all maps of children that hold node `i` -/
def NHeap.entriesOf (h : NHeap) (i : Nat) : Nat := (h.map (entriesIn i)).sum

/-- the strong count of a node (`Arc::strong_count`): handles of the program and entries in maps of children (node.rs 36-44) -/
def NHeap.strong (h : NHeap) (hold : List Nat) (i : Nat) : Nat := hold.count i + h.entriesOf i

/-- What dropping references to the nodes of a list does (`Drop` of `Arc`, and of `WzNode` with its map of children, node.rs
36-44): those nobody refers to any more are freed, then the same for their children.  Fuel: see `NHeap.dropFuel`. -/
def NHeap.dropRefs (hold : List Nat) : Nat → NHeap → List Nat → Option NHeap
  | _, h, [] => some h
  | 0, _, _ :: _ => none
  | fuel + 1, h, k :: ks =>
    if h.strong hold k = 0 then
      match h.cell k with
      | none => NHeap.dropRefs hold fuel h ks
      | some c => NHeap.dropRefs hold fuel (h.set k none) (c.kids.map Prod.snd ++ ks)
    else NHeap.dropRefs hold fuel h ks

/-- number of children -/
def kidCount : Option NCell → Nat
  | none => 0
  | some c => c.kids.length

/-- enough fuel: every reference is dropped at most once -/
def NHeap.dropFuel (h : NHeap) (ks : List Nat) : Nat := ks.length + (h.map kidCount).sum

/-- the children of a node -/
def NHeap.kidsOf (h : NHeap) (i : Nat) : List Nat :=
  match h.cell i with
  | none => []
  | some c => c.kids.map Prod.snd

/-- the nodes, and the handles the program has -/
structure Life where
  heap : NHeap
  hold : List Nat
deriving DecidableEq

/-- the references to these nodes are gone -/
def Life.drops (st : Life) (ks : List Nat) : Option Life :=
  (NHeap.dropRefs st.hold (st.heap.dropFuel ks) st.heap ks).map fun g => ⟨g, st.hold⟩

/-- what a program does with its handles -/
inductive LifeOp where
  | get (i : Nat) (path : List Char)
  | parent (i : Nat)
  | drop (i : Nat)
  | parse (i : Nat)
  | forget (i : Nat)
deriving DecidableEq, Repr

/-- One step.  Without a handle nothing can be done.
* `get`: `node.read().unwrap().at_path(path)` (node.rs 424-432) gives a new handle;
* `parent`: `node.read().unwrap().parent.upgrade()` (41) does;
* `drop`: one handle less;
* `parse`: `node.write().unwrap().parse(&node)` (174-229); entries that are overwritten (221) and the list of links (224-226)
  drop their references;
* `forget`: `node.write().unwrap().unparse()` (233-248), which clears the map of children (247). -/
def Life.step (content : Content) (st : Life) : LifeOp → Option Life
  | .get i path =>
    if i ∈ st.hold then match st.heap.atPath i path with
      | none => some st
      | some j => some { st with hold := j :: st.hold }
    else some st
  | .parent i =>
    if i ∈ st.hold then match st.heap.up i with
      | none => some st
      | some p => some { st with hold := p :: st.hold }
    else some st
  | .drop i => if i ∈ st.hold then Life.drops { st with hold := st.hold.erase i } [i] else some st
  | .parse i =>
    if i ∈ st.hold then
      let g := (st.heap.parse content i).2
      Life.drops { st with heap := g } (st.heap.kidsOf i ++ List.range' st.heap.length (g.length - st.heap.length))
    else some st
  | .forget i =>
    if i ∈ st.hold then Life.drops { st with heap := st.heap.unparse i } (st.heap.kidsOf i) else some st

/-- several steps -/
def Life.run (content : Content) (st : Life) : List LifeOp → Option Life
  | [] => some st
  | op :: ops => match st.step content op with
    | none => none
    | some st' => st'.run content ops

end Wz
