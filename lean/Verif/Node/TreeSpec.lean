import Verif.Node.Spec

/-!
# Trees in the heap

`IdForest` is a drawing of the children below a node: names and nodes, each with the children below it.
-/

set_option autoImplicit false

namespace Wz.Spec

open Wz

/-- children in order: the first child with its name, its children and the rest -/
inductive IdForest where
  | nil
  | cons (name : List Char) (id : Nat) (kids rest : IdForest)
  deriving DecidableEq, Repr

/-- the children with their names -/
def IdForest.roots : IdForest → List (List Char × Nat)
  | .nil => []
  | .cons n i _ rest => (n, i) :: rest.roots

/-- all nodes, parents before children -/
def IdForest.ids : IdForest → List Nat
  | .nil => []
  | .cons _ i ks rest => i :: (ks.ids ++ rest.ids)

/-- how many levels -/
def IdForest.depth : IdForest → Nat
  | .nil => 0
  | .cons _ _ ks rest => max (ks.depth + 1) rest.depth

/-- the heap looks like the drawing -/
def Drawn (h : NHeap) : IdForest → Prop
  | .nil => True
  | .cons _ i ks rest => (∃ c, h.cell i = some c ∧ c.kids = ks.roots) ∧ Drawn h ks ∧ Drawn h rest

/-- the children of node `p` are those of the drawing -/
def Below (h : NHeap) (p : Nat) (f : IdForest) : Prop :=
  (∃ c, h.cell p = some c ∧ c.kids = f.roots) ∧ Drawn h f

/-- every node of the drawing has a link to the node that holds it -/
def Linked (h : NHeap) (p : Nat) : IdForest → Prop
  | .nil => True
  | .cons _ i ks rest => (∃ c, h.cell i = some c ∧ c.parent = some p) ∧ Linked h i ks ∧ Linked h p rest

/-- name and kind of every node are as before -/
def SameValues (h g : NHeap) : Prop :=
  ∀ i, (h.cell i).map (fun c => (c.name, c.kind)) = (g.cell i).map (fun c => (c.name, c.kind))

end Wz.Spec
