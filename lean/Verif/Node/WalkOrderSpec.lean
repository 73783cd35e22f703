import Verif.Node.WalkSpec
import Verif.Node.WalkOrderModel

/-!
# What is said of walks in any order
-/

set_option autoImplicit false

namespace Wz.Spec

open Wz

/-- a map lists each child once -/
def ListsKids (ord : KidOrder) : Prop := ∀ h i l, (ord h i l).Perm l

/-- every node comes before its children, those it has when it is given to the callback -/
def ParentsFirst (vs : List (Nat × Option NCell)) : Prop :=
  ∀ a x c b, vs = a ++ (x, some c) :: b → ∀ p ∈ c.kids, p.2 ∈ b.map Prod.fst

/-- The callback was given `vs`: node `i` first, every node once and before its children; in another order (`us`) these are the nodes of a
list, by name and kind. -/
def AnyOrder (i : Nat) (obs : List (List Char × NKind)) (vs : List (Nat × Option NCell)) : Prop :=
  ∃ c v u, vs = (i, some c) :: v ∧ u.Perm v ∧
    ((i, some c) :: u).map (fun v => v.2.map fun c => (c.name, c.kind)) = obs.map some ∧ (i :: v.map Prod.fst).Nodup ∧ ParentsFirst vs

/-- Walks with parsing from the node `i`, one after the other and each with its own order of the children, end, and `seen` holds for what each
of them gives to the callback; `g` is the heap at the end. -/
inductive WalkedIn (content : Content) (i : Nat) (seen : List (Nat × Option NCell) → Prop) : List KidOrder → NHeap → NHeap → Prop
  | none (h : NHeap) : WalkedIn content i seen [] h h
  | next (ord : KidOrder) (ords : List KidOrder) (N : Nat) (vs : List (Nat × Option NCell)) (h h' g : NHeap) :
    (∀ fuel, N ≤ fuel → h.walkForceIn content ord fuel [] i = .ok (vs, h')) → seen vs → WalkedIn content i seen ords h' g →
    WalkedIn content i seen (ord :: ords) h g

end Wz.Spec
