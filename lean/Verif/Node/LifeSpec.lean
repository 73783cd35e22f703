import Verif.Node.LifeModel
import Verif.Node.Spec

/-!
# Specification: how long nodes live
-/

set_option autoImplicit false

namespace Wz.Spec

open Wz

/-- the node is there -/
def Lives (h : NHeap) (i : Nat) : Prop := ∃ c, h.cell i = some c

/-- the program can get to the node from one of its handles, going down -/
inductive InReach (h : NHeap) (hold : List Nat) : Nat → Prop
  | handle (i : Nat) : i ∈ hold → InReach h hold i
  | child (i j : Nat) (n : List Char) : InReach h hold i → ChildOf h i n j → InReach h hold j

/-- every node is held, by the program or by a node -/
def NothingLost (st : Life) : Prop := ∀ i, Lives st.heap i → i ∈ st.hold ∨ ∃ p n, ChildOf st.heap p n i

/-- no way down from a node leads back to it: the nodes can be numbered so that children come after their parents -/
def NoCircle (h : NHeap) : Prop := ∃ rank : Nat → Nat, ∀ i n j, ChildOf h i n j → rank i < rank j

/-- nodes that hold each other: each is a child of one of them -/
def Ring (h : NHeap) (R : Nat → Prop) : Prop := ∀ j, R j → Lives h j ∧ ∃ i n, R i ∧ ChildOf h i n j

/-- nodes that are held, each by the program or by one of them -/
def Supported (h : NHeap) (hold : List Nat) (R : Nat → Prop) : Prop :=
  ∀ j, R j → Lives h j ∧ (j ∈ hold ∨ ∃ i n, R i ∧ ChildOf h i n j)

/-- the nodes after a step if no node were ever freed -/
def heapAfter (content : Content) (st : Life) : LifeOp → NHeap
  | .parse i => if i ∈ st.hold then (st.heap.parse content i).2 else st.heap
  | .forget i => if i ∈ st.hold then st.heap.unparse i else st.heap
  | .get _ _ => st.heap
  | .parent _ => st.heap
  | .drop _ => st.heap

/-- the step takes and gives handles only -/
def handlesOnly : LifeOp → Bool
  | .get _ _ => true
  | .parent _ => true
  | .drop _ => true
  | .parse _ => false
  | .forget _ => false

/-- the node a step changes -/
def changes : LifeOp → Nat → Prop
  | .parse i, j => i = j
  | .forget i, j => i = j
  | .get _ _, _ => False
  | .parent _, _ => False
  | .drop _, _ => False

end Wz.Spec
