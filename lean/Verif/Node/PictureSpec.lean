import Verif.Node.FindSpec
import Verif.Node.Spec

/-!
# Pictures and their links
-/

set_option autoImplicit false

namespace Wz.Spec

open Wz

/-- the node is a picture -/
def Picture (png : Nat → Bool) (h : NHeap) (i : Nat) : Prop :=
  ∃ c v, h.cell i = some c ∧ c.kind = .other v ∧ png v = true

/-- the node has a child with this name that is a readable text: a string, or a link that was not resolved -/
def TextOf (text : Nat → Option (List Char)) (h : NHeap) (i : Nat) (name s : List Char) : Prop :=
  ∃ j c, ChildOf h i name j ∧ h.cell j = some c ∧ (c.kind = .uol (some s) ∨ ∃ v, c.kind = .other v ∧ text v = some s)

/-- the inlink of `i` leads to `t`: from the nearest image above, along the text of the child "_inlink" -/
def InlinkTo (text : Nat → Option (List Char)) (h : NHeap) (i t : Nat) : Prop :=
  ∃ s q ns, TextOf text h i "_inlink".toList s ∧ NearestUp h (Image h) i q ∧ Pieces s ns ∧ Steps h q ns t

/-- `i` has no inlink, or it leads nowhere (and the way up ends: at an image or at a root) -/
def NoInlink (text : Nat → Option (List Char)) (h : NHeap) (i : Nat) : Prop :=
  (∀ s, ¬ TextOf text h i "_inlink".toList s) ∨ (((∃ q, NearestUp h (Image h) i q) ∨ ∃ l, Chain h i l) ∧ ∀ t, ¬ InlinkTo text h i t)

/-- the outlink of `i` is the path `s`, to be followed from the nearest file "Base" above -/
def OutlinkFrom (text : Nat → Option (List Char)) (h : NHeap) (i b : Nat) (s : List Char) : Prop :=
  TextOf text h i "_outlink".toList s ∧ NearestUp h (BaseFile h) i b

/-- `i` has no outlink, or there is no file "Base" above it -/
def NoOutlink (text : Nat → Option (List Char)) (h : NHeap) (i : Nat) : Prop :=
  (∀ s, ¬ TextOf text h i "_outlink".toList s) ∨ ∃ l, Chain h i l ∧ ∀ j ∈ l.tail, ¬ BaseFile h j

/-- from picture to picture along inlinks -/
inductive InlinkPath (png : Nat → Bool) (text : Nat → Option (List Char)) (h : NHeap) : Nat → Nat → Prop
  | here (i : Nat) : InlinkPath png text h i i
  | next (i t k : Nat) : Picture png h i → InlinkTo text h i t → InlinkPath png text h t k → InlinkPath png text h i k

/-- `x` is one of the nodes between `b` and the end of the path -/
def PathThrough (h : NHeap) (b : Nat) (path : List Char) (x : Nat) : Prop :=
  ∃ ns n rest, Pieces path (ns ++ n :: rest) ∧ ns ≠ [] ∧ follow h b ns = some x

end Wz.Spec
