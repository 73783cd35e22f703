import Verif.Node.Spec
import Verif.Node.ParseSpec
import Verif.Node.TreeSpec
import Verif.Node.PictureModel

/-!
# Specification: what stays true of the nodes in every history
-/

set_option autoImplicit false

namespace Wz.Spec

open Wz

/-- The calls that change nodes.  `new` is `WzNode::new` (node.rs 56-67).  A walk or a
merge that does not come back is no step. -/
inductive NodeCall (content : Content) : NHeap → NHeap → Prop
  | new (h : NHeap) (name : List Char) (kind : NKind) (parent : Option Nat) :
      NodeCall content h (h ++ [some ⟨name, kind, parent, []⟩])
  | parse (h : NHeap) (i : Nat) : NodeCall content h (h.parse content i).2
  | unparse (h : NHeap) (i : Nat) : NodeCall content h (h.unparse i)
  | find (h : NHeap) (i : Nat) (path : List Char) : NodeCall content h (h.atPathParsed content i path).2
  | walk (h : NHeap) (i fuel : Nat) (vs : List (Nat × Option NCell)) (g : NHeap) :
      NHeap.walkForce content fuel h [] i = .ok (vs, g) → NodeCall content h g
  | picture (h : NHeap) (png : Nat → Bool) (text : Nat → Option (List Char)) (fuel i : Nat) :
      NodeCall content h (NHeap.getImage content png text fuel h [] i).2
  | merge (h g : NHeap) (fuel s d : Nat) : NHeap.transfer fuel h s d = some g → NodeCall content h g
  | repair (h g : NHeap) (fuel i : Nat) : NHeap.fixParents fuel h i = some g → NodeCall content h g

/-- the nodes after some of these calls, and after calls of `add`; a node may be added where `adds` allows it -/
inductive NodeHistory (content : Content) (adds : NHeap → Nat → Nat → Prop) (h : NHeap) : NHeap → Prop
  | start : NodeHistory content adds h h
  | call (g g' : NHeap) : NodeHistory content adds h g → NodeCall content g g' → NodeHistory content adds h g'
  | add (g : NHeap) (i j : Nat) : NodeHistory content adds h g → adds g i j → NodeHistory content adds h (g.add i j)

/-- Children have different names, each is alive, is listed under its own name, and has the node that lists it as its
parent. -/
structure Consistent (h : NHeap) : Prop where
  maps : MapsOk h
  kids : ∀ i n j, ChildOf h i n j → Called h j n ∧ ParentOf h j i

/-- what can become of the value in a node: a container may be read or forgotten, everything else stays -/
inductive Became : NKind → NKind → Prop
  | dir (a b c d : Bool) (s : Nat) : (b = true → d = true) → Became (.dir a b s) (.dir c d s)
  | file (a b : Bool) (s : Nat) : Became (.file a s) (.file b s)
  | msFile (a b : Bool) (s : Nat) : (a = true → b = true) → Became (.msFile a s) (.msFile b s)
  | image (a b : Bool) (s : Nat) : Became (.image a s) (.image b s)
  | msImage (s : Nat) : Became (.msImage s) (.msImage s)
  | msRead (a : Bool) (s : Nat) : Became (.msImage s) (.image a s)
  | link (t : Option (List Char)) : Became (.uol t) (.uol t)
  | value (v : Nat) : Became (.other v) (.other v)

/-- every node is still there under its name, with what its value can have become -/
def Kept (h g : NHeap) : Prop :=
  ∀ i c, h.cell i = some c → ∃ d, g.cell i = some d ∧ d.name = c.name ∧ Became c.kind d.kind

end Wz.Spec
