import Verif.Node.Model

/-!
# Paths in a tree, stated on their own

Nothing here uses a function of the model except the heap itself.
-/

set_option autoImplicit false

namespace Wz.Spec

open Wz

/-- `i` is alive and is called `n` -/
def Called (h : NHeap) (i : Nat) (n : List Char) : Prop := ∃ c, h.cell i = some c ∧ c.name = n

/-- `p` is the parent of `i`, both alive -/
def ParentOf (h : NHeap) (i p : Nat) : Prop :=
  ∃ c d, h.cell i = some c ∧ c.parent = some p ∧ h.cell p = some d

/-- `i` has `j` as a child under the name `n` -/
def ChildOf (h : NHeap) (i : Nat) (n : List Char) (j : Nat) : Prop :=
  ∃ c, h.cell i = some c ∧ (n, j) ∈ c.kids

/-- the children of every node have different names -/
def MapsOk (h : NHeap) : Prop := ∀ i c, h.cell i = some c → (c.kids.map Prod.fst).Nodup

/-- the way from a node up to its root: the node, its parent, and so on -/
inductive Chain (h : NHeap) : Nat → List Nat → Prop
  | root (i : Nat) : (∀ p, ¬ ParentOf h i p) → Chain h i [i]
  | up (i p : Nat) (l : List Nat) : ParentOf h i p → Chain h p l → Chain h i (i :: l)

/-- the names of a list of nodes -/
inductive NamesOf (h : NHeap) : List Nat → List (List Char) → Prop
  | nil : NamesOf h [] []
  | cons (i : Nat) (n : List Char) (l : List Nat) (ns : List (List Char)) :
    Called h i n → NamesOf h l ns → NamesOf h (i :: l) (n :: ns)

/-- names separated by slashes -/
def slashed (ns : List (List Char)) : List Char := ['/'].intercalate ns

/-- every node of the way is a child of the next one under its own name -/
def HeldAlong (h : NHeap) : List Nat → Prop
  | [] => True
  | [_] => True
  | i :: p :: l => (∃ n, Called h i n ∧ ChildOf h p n i) ∧ HeldAlong h (p :: l)

/-- from child to child along names -/
inductive Steps (h : NHeap) : Nat → List (List Char) → Nat → Prop
  | here (i : Nat) : Steps h i [] i
  | step (i j k : Nat) (n : List Char) (ns : List (List Char)) :
    ChildOf h i n j → Steps h j ns k → Steps h i (n :: ns) k

/-- the same where ".." is the parent -/
inductive RelSteps (h : NHeap) : Nat → List (List Char) → Nat → Prop
  | here (i : Nat) : RelSteps h i [] i
  | down (i j k : Nat) (n : List Char) (ns : List (List Char)) :
    n ≠ "..".toList → ChildOf h i n j → RelSteps h j ns k → RelSteps h i (n :: ns) k
  | up (i p k : Nat) (ns : List (List Char)) :
    ParentOf h i p → RelSteps h p ns k → RelSteps h i ("..".toList :: ns) k

/-- `ns` are the pieces of a path: at least one, none contains a slash -/
structure Pieces (path : List Char) (ns : List (List Char)) : Prop where
  some : ns ≠ []
  clean : ∀ n ∈ ns, '/' ∉ n
  text : path = slashed ns

/-- the node is an image -/
def Image (h : NHeap) (i : Nat) : Prop :=
  ∃ c parsed src, h.cell i = some c ∧ c.kind = NKind.image parsed src

/-- the node is a file called "Base" -/
def BaseFile (h : NHeap) (i : Nat) : Prop :=
  ∃ c parsed src, h.cell i = some c ∧ c.kind = NKind.file parsed src ∧ c.name = "Base".toList

/-- `p` is the nearest proper ancestor of `i` with a property -/
inductive NearestUp (h : NHeap) (P : Nat → Prop) : Nat → Nat → Prop
  | here (i p : Nat) : ParentOf h i p → P p → NearestUp h P i p
  | above (i p q : Nat) : ParentOf h i p → ¬ P p → NearestUp h P p q → NearestUp h P i q

end Wz.Spec
