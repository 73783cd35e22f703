import Verif.Node.Spec

/-!
# What a parse should show
-/

set_option autoImplicit false

namespace Wz.Spec

open Wz

/-- name and kind of the node found under a path -/
def valueAt (h : NHeap) (i : Nat) (path : List Char) : Option (Option (List Char × NKind)) :=
  (h.atPath i path).map fun j => (h.cell j).map fun c => (c.name, c.kind)

/-- the two nodes show the same tree: every path leads to nodes with the same name and value, or to none in
both -/
def LooksLike (h : NHeap) (i : Nat) (g : NHeap) (j : Nat) : Prop :=
  ∀ path, valueAt h i path = valueAt g j path

/-- the node has not been parsed -/
def Unparsed (h : NHeap) (i : Nat) : Prop :=
  ∃ c, h.cell i = some c ∧ ((∃ sp s, c.kind = .dir false sp s) ∨ (∃ s, c.kind = .file false s) ∨
    (∃ s, c.kind = .msFile false s) ∨ (∃ s, c.kind = .image false s) ∨ ∃ s, c.kind = .msImage s)

/-- the node has been parsed -/
def Parsed (h : NHeap) (i : Nat) : Prop :=
  ∃ c, h.cell i = some c ∧ ((∃ sp s, c.kind = .dir true sp s) ∨ (∃ s, c.kind = .file true s) ∨
    (∃ s, c.kind = .msFile true s) ∨ ∃ s, c.kind = .image true s)

/-- the node has no children -/
def Childless (h : NHeap) (i : Nat) : Prop := ∃ c, h.cell i = some c ∧ c.kids = []

/-- the children a list of parsed nodes shows: of nodes with one name the last one -/
def Forest.shows : Forest → List Char → Option (NKind × Forest)
  | .nil, _ => none
  | .node m k ks rest, n => match Forest.shows rest n with
    | some x => some x
    | none => if m = n then some (k, ks) else none

/-- what a path below a list of parsed nodes shows -/
def Forest.showsAt (f : Forest) : List (List Char) → Option (List Char × NKind)
  | [] => none
  | [n] => (Forest.shows f n).map fun x => (n, x.1)
  | n :: m :: ns => match Forest.shows f n with
    | none => none
    | some (_, ks) => Forest.showsAt ks (m :: ns)

/-- a node that has not been parsed, or was forgotten, and what it is read from: an image, a file, an archive,
or a directory that was never parsed -/
inductive ReadsFrom : NKind → Nat → Prop where
  | dir (s : Nat) : ReadsFrom (.dir false false s) s
  | file (s : Nat) : ReadsFrom (.file false s) s
  | msFile (s : Nat) : ReadsFrom (.msFile false s) s
  | image (s : Nat) : ReadsFrom (.image false s) s
  | msImage (s : Nat) : ReadsFrom (.msImage s) s

/-- all nodes of a forest have a property -/
def Forest.All (P : NKind → Prop) : Forest → Prop
  | .nil => True
  | .node _ k ks rest => P k ∧ Forest.All P ks ∧ Forest.All P rest

/-- what images hold: values and links -/
def InImage (k : NKind) : Prop := (∃ v, k = .other v) ∨ ∃ t, k = .uol t

/-- not a link -/
def NoLink (k : NKind) : Prop := ∀ t, k ≠ .uol t

/-- a call of a user -/
inductive NodeOp where
  | parse (i : Nat)
  | unparse (i : Nat)

/-- a list of calls, one after the other; errors of `parse` are ignored, a panic ends the program (`none`) -/
def runOps (content : Content) : NHeap → List NodeOp → Option NHeap
  | h, [] => some h
  | h, .parse i :: ops => match h.parse content i with
    | (.error e, g) => if e.isPanic then none else runOps content g ops
    | (.ok _, g) => runOps content g ops
  | h, .unparse i :: ops => runOps content (h.unparse i) ops

/-- was `parse` the last call for node `i`? -/
def parsedLast (i : Nat) : List NodeOp → Bool → Bool
  | [], b => b
  | .parse j :: ops, b => parsedLast i ops (if j = i then true else b)
  | .unparse j :: ops, b => parsedLast i ops (if j = i then false else b)

/-- the tree of an image alone: nothing else in memory, parsed once -/
def alone (content : Content) (name : List Char) (src : Nat) : NHeap :=
  (NHeap.parse [some ⟨name, .image false src, none, []⟩] content 0).2

end Wz.Spec
