import Verif.Node.WalkSpec

/-!
# What a path leads to when everything on the way is read
-/

set_option autoImplicit false

namespace Wz.Spec

open Wz

/-- what is below a node once it is read: the children it has, or, where it still has to be read, what its
source holds -/
inductive Below53 (content : Content) : NKind → Forest → Except Err Forest → Prop where
  | quiet (k : NKind) (ks : Forest) : Quiet k → Below53 content k ks (.ok ks)
  | spent (s : Nat) (ks : Forest) : Below53 content (.dir false true s) ks (.ok ks)
  | read (k : NKind) (s : Nat) (r : Except Err Forest) : ReadsFrom k s → content s = r → Below53 content k .nil r

/-- What the pieces of a path lead to in a list of trees, name and kind.  All nodes on the way are read, the last
one is not.  Nothing there: `NodeNotFound`.  A node on the way that cannot be read: its error. -/
inductive LeadsTo (content : Content) : Forest → List (List Char) → Except Err (List Char × NKind) → Prop where
  | missing (f : Forest) (n : List Char) (ns : List (List Char)) : Forest.shows f n = none →
    LeadsTo content f (n :: ns) (.error (.lib "NodeNotFound"))
  | found (f : Forest) (n : List Char) (k : NKind) (ks : Forest) : Forest.shows f n = some (k, ks) →
    LeadsTo content f [n] (.ok (n, k))
  | broken (f : Forest) (n m : List Char) (ns : List (List Char)) (k : NKind) (ks : Forest) (e : Err) :
    Forest.shows f n = some (k, ks) → Below53 content k ks (.error e) → LeadsTo content f (n :: m :: ns) (.error e)
  | down (f f' : Forest) (n m : List Char) (ns : List (List Char)) (k : NKind) (ks : Forest)
    (r : Except Err (List Char × NKind)) :
    Forest.shows f n = some (k, ks) → Below53 content k ks (.ok f') → LeadsTo content f' (m :: ns) r →
    LeadsTo content f (n :: m :: ns) r

/-- the sources that are read on the way along a path: those of the nodes before the last piece -/
inductive ReadOnWay (content : Content) : Forest → List (List Char) → Nat → Prop where
  | here (f : Forest) (n m : List Char) (ns : List (List Char)) (k : NKind) (ks : Forest) (s : Nat) :
    Forest.shows f n = some (k, ks) → ReadsFrom k s → ReadOnWay content f (n :: m :: ns) s
  | later (f f' : Forest) (n m : List Char) (ns : List (List Char)) (k : NKind) (ks : Forest) (s : Nat) :
    Forest.shows f n = some (k, ks) → Below53 content k ks (.ok f') → ReadOnWay content f' (m :: ns) s →
    ReadOnWay content f (n :: m :: ns) s

/-- from child to child by name -/
def follow (h : NHeap) : Nat → List (List Char) → Option Nat
  | i, [] => some i
  | i, n :: ns => match h.at i n with
    | none => none
    | some j => follow h j ns

/-- the children of a node are the trees of a forest: names lead to what the forest shows there -/
def HasTrees (h : NHeap) (i : Nat) (f : Forest) : Prop :=
  ∀ ns, ns ≠ [] → (follow h i ns).map (fun j => (h.cell j).map fun c => (c.name, c.kind)) =
    (Forest.showsAt f ns).map some

/-- nodes that still have to be read have no children -/
def Bare (f : Forest) : Prop :=
  match f with
  | .nil => True
  | .node _ k ks rest => ((∃ s, ReadsFrom k s) → ks = .nil) ∧ Bare ks ∧ Bare rest

end Wz.Spec
