import Verif.Node.ParseSpec

/-!
# What a walk that parses should see
-/

set_option autoImplicit false

namespace Wz.Spec

open Wz

/-- the kind of a node after a successful parse -/
def parsedKind : NKind → NKind
  | .dir _ _ s => .dir true true s
  | .file _ s => .file true s
  | .msFile _ s => .msFile true s
  | .image _ s => .image true s
  | .msImage s => .image true s
  | k => k

/-- a node for which `parse` has nothing to read -/
inductive Quiet : NKind → Prop where
  | dir (sp : Bool) (s : Nat) : Quiet (.dir true sp s)
  | file (s : Nat) : Quiet (.file true s)
  | msFile (s : Nat) : Quiet (.msFile true s)
  | image (s : Nat) : Quiet (.image true s)
  | uol (t : Option (List Char)) : Quiet (.uol t)
  | other (v : Nat) : Quiet (.other v)

/-- siblings have different names -/
def Forest.Distinct : Forest → Prop
  | .nil => True
  | .node n _ ks rest => n ∉ rest.names ∧ Forest.Distinct ks ∧ Forest.Distinct rest

/-- What is seen, in order, name and kind, where everything is read on the way: a node, then the nodes below it,
then the next one.  A directory that was read with the one above it has its children already.  Other nodes that have
to be read have no children before, and what is read for them has no links and no name twice.  Of a node that cannot be
read only the node itself is seen. -/
inductive Seen (content : Content) : Forest → List (List Char × NKind) → Prop where
  | nil : Seen content .nil []
  | quiet (n : List Char) (k : NKind) (ks rest : Forest) (a b : List (List Char × NKind)) : Quiet k →
    Seen content ks a → Seen content rest b → Seen content (.node n k ks rest) ((n, k) :: (a ++ b))
  | spent (n : List Char) (s : Nat) (ks rest : Forest) (a b : List (List Char × NKind)) :
    Seen content ks a → Seen content rest b →
    Seen content (.node n (.dir false true s) ks rest) ((n, .dir true true s) :: (a ++ b))
  | read (n : List Char) (k : NKind) (s : Nat) (f rest : Forest) (a b : List (List Char × NKind)) : ReadsFrom k s →
    content s = .ok f → Forest.All NoLink f → Forest.Distinct f → Seen content f a → Seen content rest b →
    Seen content (.node n k .nil rest) ((n, parsedKind k) :: (a ++ b))
  | broken (n : List Char) (k : NKind) (s : Nat) (e : Err) (rest : Forest) (b : List (List Char × NKind)) :
    ReadsFrom k s → content s = .error e → e.isPanic = false → Seen content rest b →
    Seen content (.node n k .nil rest) ((n, k) :: b)

/-- a node of the kind `k` with `ks` below it, after the walk: an image is not read any more -/
def leftNode (n : List Char) (k : NKind) (ks rest : Forest) : Forest :=
  match k with
  | .image _ s => .node n (.image false s) .nil rest
  | k => .node n k ks rest

/-- What is seen, as in `Seen`, and the tree that is left at the end.  `P` holds for the nodes for which nothing had
to be read. -/
inductive Leaves (content : Content) (P : NKind → Prop) : Forest → List (List Char × NKind) → Forest → Prop where
  | nil : Leaves content P .nil [] .nil
  | quiet (n : List Char) (k : NKind) (ks rest ks' rest' : Forest) (a b : List (List Char × NKind)) : Quiet k → P k →
    Leaves content P ks a ks' → Leaves content P rest b rest' →
    Leaves content P (.node n k ks rest) ((n, k) :: (a ++ b)) (leftNode n k ks' rest')
  | spent (n : List Char) (s : Nat) (ks rest ks' rest' : Forest) (a b : List (List Char × NKind)) :
    Leaves content P ks a ks' → Leaves content P rest b rest' →
    Leaves content P (.node n (.dir false true s) ks rest) ((n, .dir true true s) :: (a ++ b)) (leftNode n (.dir true true s) ks' rest')
  | read (n : List Char) (k : NKind) (s : Nat) (f rest f' rest' : Forest) (a b : List (List Char × NKind)) : ReadsFrom k s →
    content s = .ok f → Forest.All NoLink f → Forest.Distinct f → Leaves content P f a f' → Leaves content P rest b rest' →
    Leaves content P (.node n k .nil rest) ((n, parsedKind k) :: (a ++ b)) (leftNode n (parsedKind k) f' rest')
  | broken (n : List Char) (k : NKind) (s : Nat) (e : Err) (rest rest' : Forest) (b : List (List Char × NKind)) :
    ReadsFrom k s → content s = .error e → e.isPanic = false → Leaves content P rest b rest' →
    Leaves content P (.node n k .nil rest) ((n, k) :: b) (leftNode n k .nil rest')

/-- not an image that is parsed -/
def NotOpen (k : NKind) : Prop := ∀ s, k ≠ .image true s

/-- nothing that is read holds an image that is parsed already -/
def ReadsShut (content : Content) : Prop := ∀ s f, content s = .ok f → Forest.All NotOpen f

/-- So many walks with parsing from the node `i`, one after the other, end, and `seen` holds for what each of them gives to
the callback; `g` is the heap at the end. -/
inductive WalkedTimes (content : Content) (i : Nat) (seen : List (Nat × Option NCell) → Prop) : Nat → NHeap → NHeap → Prop where
  | none (h : NHeap) : WalkedTimes content i seen 0 h h
  | next (n N : Nat) (vs : List (Nat × Option NCell)) (h h' g : NHeap) :
    (∀ fuel, N ≤ fuel → h.walkForce content fuel [] i = .ok (vs, h')) → seen vs → WalkedTimes content i seen n h' g →
    WalkedTimes content i seen (n + 1) h g

/-- The pointers `ps` lead to the trees of a forest; `L` are all the nodes they consist of. -/
def Stands (h : NHeap) : Forest → List (List Char × Nat) → List Nat → Prop
  | .nil, ps, L => ps = [] ∧ L = []
  | .node n k ks rest, ps, L => ∃ j ps' c La Lb, ps = (n, j) :: ps' ∧ L = j :: (La ++ Lb) ∧ h.cell j = some c ∧
      c.name = n ∧ c.kind = k ∧ Stands h ks c.kids La ∧ Stands h rest ps' Lb

end Wz.Spec
