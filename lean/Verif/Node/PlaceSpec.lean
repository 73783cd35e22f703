import Verif.Node.HistorySpec

/-!
# Specification: where the value of a node comes from

What a node shows was given by a parser, for the place in the tree the node's parents say it is in.
-/

set_option autoImplicit false

namespace Wz.Spec

open Wz

/-- the place of a node below `r`, told by its parents: the names of the nodes on the way, its own last -/
inductive PlacedAt (h : NHeap) (r : Nat) : Nat → List (List Char) → Prop
  | top (c : NCell) : h.cell r = some c → PlacedAt h r r []
  | under (j p : Nat) (n : List Char) (ns : List (List Char)) : ParentOf h j p → Called h j n → PlacedAt h r p ns →
      PlacedAt h r j (ns ++ [n])

/-- A parser gave this value at this place below the node it was called for.  Of several with one name the last counts,
but links are never forgotten. -/
inductive ForestHas : Forest → List (List Char) → NKind → Prop
  | here (n : List Char) (k : NKind) (ks rest : Forest) : n ∉ rest.names ∨ k.isUol = true → ForestHas (.node n k ks rest) [n] k
  | next (n : List Char) (k k' : NKind) (ks rest : Forest) (ms : List (List Char)) : ForestHas rest ms k' →
      ForestHas (.node n k ks rest) ms k'
  | deeper (n : List Char) (k k' : NKind) (ks rest : Forest) (ms : List (List Char)) : n ∉ rest.names ∨ k'.isUol = true →
      ForestHas ks ms k' → ForestHas (.node n k ks rest) (n :: ms) k'

/-- the parser for a node of this kind reads this source -/
inductive HasSource : NKind → Nat → Prop
  | dir (a b : Bool) (s : Nat) : HasSource (.dir a b s) s
  | file (a : Bool) (s : Nat) : HasSource (.file a s) s
  | msFile (a : Bool) (s : Nat) : HasSource (.msFile a s) s
  | image (a : Bool) (s : Nat) : HasSource (.image a s) s
  | msImage (s : Nat) : HasSource (.msImage s) s

/-- The value at a place is the first one, or what a parser gave there for the source of a value that itself comes
from somewhere.  Being read or forgotten does not count. -/
inductive ComesFrom (content : Content) (k0 : NKind) : List (List Char) → NKind → Prop
  | first (k : NKind) : Became k0 k → ComesFrom content k0 [] k
  | given (ns ms : List (List Char)) (k k1 k2 : NKind) (s : Nat) (f : Forest) : ComesFrom content k0 ns k → HasSource k s →
      content s = .ok f → ForestHas f ms k1 → Became k1 k2 → ComesFrom content k0 (ns ++ ms) k2

/-- the calls of a user who only reads -/
inductive ReadCall (content : Content) : NHeap → NHeap → Prop
  | parse (h : NHeap) (i : Nat) : ReadCall content h (h.parse content i).2
  | unparse (h : NHeap) (i : Nat) : ReadCall content h (h.unparse i)
  | find (h : NHeap) (i : Nat) (path : List Char) : ReadCall content h (h.atPathParsed content i path).2
  | walk (h : NHeap) (i fuel : Nat) (vs : List (Nat × Option NCell)) (g : NHeap) :
      NHeap.walkForce content fuel h [] i = .ok (vs, g) → ReadCall content h g
  | picture (h : NHeap) (png : Nat → Bool) (text : Nat → Option (List Char)) (fuel i : Nat) :
      ReadCall content h (NHeap.getImage content png text fuel h [] i).2

/-- the nodes after some of these calls -/
inductive ReadHistory (content : Content) (h : NHeap) : NHeap → Prop
  | start : ReadHistory content h h
  | call (g g' : NHeap) : ReadHistory content h g → ReadCall content g g' → ReadHistory content h g'

end Wz.Spec
