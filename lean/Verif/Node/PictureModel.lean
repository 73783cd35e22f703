import Verif.Node.Model

/-!
# The picture behind a node

`get_image` follows the links of a picture before it unpacks anything.  The model says which node's own data is
unpacked in the end (`extract_png`, see Verif/Png), and what has been read on the way.

* A picture is a node of the kind `.other v` with `png v`; the text of a string node `.other v` is `text v`,
  `none` when it cannot be read.  Both are parameters.
* Error values `fuel` and `lib "deadlock"` stand for calls that do not come back: calls without end and waiting for
  a lock that the same thread holds.
* The caller holds no lock, there is one thread.
* The file called "Base" is locked while an outlink is followed.  A UOL in an image that is read on the way and leads
  through "Base" would hang there; the model follows it.
-/

set_option autoImplicit false

namespace Wz

/-- `at_path_parsed` after the first piece (node.rs 439-443) while the nodes `held` are locked: a node among them
cannot be written (440), the call hangs -/
def NHeap.foldHeld (content : Content) (held : List Nat) : NHeap → Nat → List (List Char) → Except Err Nat × NHeap
  | h, i, [] => (.ok i, h)
  | h, i, x :: xs =>
    if i ∈ held then (.error (.lib "deadlock"), h)
    else match h.parse content i with
      | (.error e, h') => (.error e, h')
      | (.ok _, h') => match h'.at i x with
        | none => (.error (.lib "NodeNotFound"), h')
        | some j => NHeap.foldHeld content held h' j xs

/-- `WzNode::at_path_parsed` (node.rs 434-447) while the nodes `held` are locked -/
def NHeap.atPathHeld (h : NHeap) (content : Content) (held : List Nat) (i : Nat) (path : List Char) :
    Except Err Nat × NHeap :=
  match splitSlash path with
  | [] => (.error .panicUnwrap, h)
  | x :: xs => match h.at i x with
    | none => (.error (.lib "NodeNotFound"), h)
    | some j => NHeap.foldHeld content (i :: held) h j xs

/-- errors that `ok()` does not turn into `None`: panics, and calls that do not come back -/
def Err.stops (e : Err) : Bool := e.isPanic || e == .fuel || e == .lib "deadlock"

/-- `resolve_outlink` (node_util.rs 20-28) with `force_parse = true`; `held` are the nodes the callers hold -/
def NHeap.outlinkRead (h : NHeap) (content : Content) (held : List Nat) (fuel i : Nat) (path : List Char) :
    Except Err (Option Nat) × NHeap :=
  match h.filterParent NCell.isBase fuel i with
  | none => (.error .fuel, h)
  | some none => (.ok none, h)
  | some (some b) => match h.atPathHeld content held b path with
    | (.ok t, h') => (.ok (some t), h')
    | (.error e, h') => if e.stops then (.error e, h') else (.ok none, h')

/-- `node.at(name)` and `resolve_string_from_node(..).ok()` (png.rs 59-61 and 68-70, string.rs 169-175): the text of
a child that is a string or a link (node_cast.rs 92-98) -/
def NHeap.linkText (h : NHeap) (text : Nat → Option (List Char)) (i : Nat) (name : List Char) : Option (List Char) :=
  match h.at i name with
  | none => none
  | some j => match h.cell j with
    | none => none
    | some c => match c.kind with
      | .uol t => t
      | .other v => text v
      | _ => none

/-- is the node a picture? (png.rs 58) -/
def NHeap.isPicture (h : NHeap) (png : Nat → Bool) (i : Nat) : Bool :=
  match h.cell i with
  | none => false
  | some c => match c.kind with
    | .other v => png v
    | _ => false

/-- the target of the inlink (png.rs 59-62); the outer `none` is a loop without end -/
def NHeap.inTarget (h : NHeap) (text : Nat → Option (List Char)) (fuel i : Nat) : Option (Option Nat) :=
  match h.linkText text i ['_', 'i', 'n', 'l', 'i', 'n', 'k'] with
  | none => some none
  | some s => h.inlink fuel i s

/-- the target of the outlink (png.rs 68-71) -/
def NHeap.outTarget (h : NHeap) (content : Content) (text : Nat → Option (List Char)) (held : List Nat) (fuel i : Nat) :
    Except Err (Option Nat) × NHeap :=
  match h.linkText text i ['_', 'o', 'u', 't', 'l', 'i', 'n', 'k'] with
  | none => (.ok none, h)
  | some s => h.outlinkRead content held fuel i s

/-- `get_image` (png.rs 55-81): the node whose own picture is unpacked, and the heap after the call.  `held` are the
nodes of the calls around this one: each holds the read lock of its node (png.rs 56).  Fuel: the depth of the
calls, and for each call the number of steps up the tree. -/
def NHeap.getImage (content : Content) (png : Nat → Bool) (text : Nat → Option (List Char)) :
    Nat → NHeap → List Nat → Nat → Except Err Nat × NHeap
  | 0, h, _, _ => (.error .fuel, h)
  | fuel + 1, h, held, i =>
    if h.isPicture png i then
      match h.inTarget text fuel i with
      | none => (.error .fuel, h)
      | some (some t) => NHeap.getImage content png text fuel h (i :: held) t
      | some none => match h.outTarget content text (i :: held) fuel i with
        | (.error e, h') => (.error e, h')
        | (.ok (some t), h') => NHeap.getImage content png text fuel h' (i :: held) t
        | (.ok none, h') => (.ok i, h')
    else (.error (.lib "NotPngProperty"), h)

end Wz
