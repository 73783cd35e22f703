import Verif.Whole.Model
import Verif.Directory.Spec
import Verif.Property.Spec
import Verif.Image.Spec
import Verif.Node.FindSpec

/-!
# What is in an archive, as its author and its user see it
-/

set_option autoImplicit false

namespace Wz.Spec

open Wz

/-- what an author puts into an archive: directories, images with properties, text files and scripts -/
inductive ATree where
  | dir (kids : List (List Char × ATree))
  | image (props : List (List Char × PTree))
  | text (data : Bytes)
  | script (data : Bytes)

/-- what a user sees at a place in the archive -/
inductive AVal where
  | dir
  | image
  | prop (v : PVal)
  | script (data : Bytes)

/-- of several things with one name the last counts -/
def lastNamed {α : Type} : List (List Char × α) → List Char → Option α
  | [], _ => none
  | (m, a) :: rest, n => match lastNamed rest n with
    | some b => some b
    | none => if m = n then some a else none

/-- the property at the end of a path -/
def propAt : List (List Char × PTree) → List (List Char) → Option PVal
  | _, [] => none
  | kids, n :: ns => match lastNamed kids n with
    | none => none
    | some (.node v ks) => if ns = [] then some v else propAt ks ns

/-- what is at the end of a path.  A text file shows its text as the property `text.txt`, a script its text as
`Script`. -/
def arcAt : List (List Char × ATree) → List (List Char) → Option AVal
  | _, [] => none
  | kids, n :: ns => match lastNamed kids n with
    | none => none
    | some (.dir ks) => if ns = [] then some .dir else arcAt ks ns
    | some (.image ps) => if ns = [] then some .image else (propAt ps ns).map .prop
    | some (.text d) => if ns = [] then some .image else if ns = ["text.txt".toList] then some (.prop (.raw d)) else none
    | some (.script d) => if ns = [] then some .image else if ns = ["Script".toList] then some (.script d) else none

/-- no links -/
inductive NoUol : List (List Char × PTree) → Prop
  | nil : NoUol []
  | cons (name : List Char) (v : PVal) (ks rest : List (List Char × PTree)) : (∀ s, v ≠ .uol s) → NoUol ks → NoUol rest →
      NoUol ((name, .node v ks) :: rest)

/-- no links in the image the path goes through, if it goes through one -/
def NoUolOn : List (List Char × ATree) → List (List Char) → Prop
  | _, [] => True
  | kids, n :: ns => match lastNamed kids n with
    | some (.dir ks) => NoUolOn ks ns
    | some (.image ps) => ns = [] ∨ NoUol ps
    | _ => True

/-- An image called `name` is stored at `o`: the list of properties behind a head, the `s` bytes of a text file, or the
first byte 1, a length and the bytes of a script. -/
inductive StoredImage (e : Env) (name : List Char) (o s : Nat) : ATree → Prop
  | props (kids : List (List Char × PTree)) (q : Nat) : ¬ NameEnds name ".txt".toList → PropertyImage e o kids q →
      StoredImage e name o s (.image kids)
  | text (data : Bytes) : NameEnds name ".txt".toList → data ≠ [] → s = data.length → Holds e.buf o data →
      StoredImage e name o s (.text data)
  | script (nb data : Bytes) : NameEnds name ".lua".toList → IsWzInt 4 data.length nb →
      Holds e.buf o (1#8 :: (nb ++ data)) → StoredImage e name o s (.script data)

/-- the entries of a directory with everything below them, and what they hold -/
inductive HoldsArchive (e : Env) : List (List Char × DNode) → List (List Char × ATree) → Prop
  | nil : HoldsArchive e [] []
  | image (name : List Char) (o s : Nat) (t : ATree) (rest : List (List Char × DNode)) (rest' : List (List Char × ATree)) :
      o < 2 ^ 32 → StoredImage e name o s t → HoldsArchive e rest rest' →
      HoldsArchive e ((name, .image o s) :: rest) ((name, t) :: rest')
  | dir (name : List Char) (o s : Nat) (ks rest : List (List Char × DNode)) (ks' rest' : List (List Char × ATree)) :
      HoldsArchive e ks ks' → HoldsArchive e rest rest' →
      HoldsArchive e ((name, .dir o s ks) :: rest) ((name, .dir ks') :: rest')

/-- the kind of a node shows what is in the archive -/
inductive KindShows (e : Env) : NKind → AVal → Prop
  | dir (parsed spent : Bool) (src : Nat) : KindShows e (.dir parsed spent src) .dir
  | image (parsed : Bool) (src : Nat) : KindShows e (.image parsed src) .image
  | prop (v : Nat) (o : PObj) (w : PVal) : Encodable.decode (α := Leaf58) v = some (.prop o) → ShowsVal e o w →
      KindShows e (.other v) (.prop w)
  | script (v off : Nat) (data : Bytes) : Encodable.decode (α := Leaf58) v = some (.lua off data.length) →
      Holds e.buf off data → KindShows e (.other v) (.script data)

/-- `at_path_parsed` below node `i` finds in every path exactly what is in the archive: a node with the last piece of
the path as its name and with the value that was stored, or no node -/
def FindsArchive (content : Content) (e : Env) (g : NHeap) (i : Nat) (arch : List (List Char × ATree)) : Prop :=
  ∀ path ns, Pieces path ns → NoUolOn arch ns →
    match arcAt arch ns with
    | some v => ∃ j g' c, g.atPathParsed content i path = (.ok j, g') ∧ g'.cell j = some c ∧
        ns.getLast? = some c.name ∧ KindShows e c.kind v
    | none => (g.atPathParsed content i path).1 = .error (.lib "NodeNotFound")

/-- what a user does with an open archive: look something up, look it up and read it, look it up and forget what was read -/
inductive ArcOp where
  | find (path : List Char)
  | load (path : List Char)
  | close (path : List Char)

/-- the calls `at_path_parsed` and `parse` or `unparse` on the node that is found -/
def runArc (content : Content) (i : Nat) : NHeap → List ArcOp → NHeap
  | h, [] => h
  | h, .find p :: ops => runArc content i (h.atPathParsed content i p).2 ops
  | h, .load p :: ops => match h.atPathParsed content i p with
    | (.ok j, g) => runArc content i (g.parse content j).2 ops
    | (.error _, g) => runArc content i g ops
  | h, .close p :: ops => match h.atPathParsed content i p with
    | (.ok j, g) => runArc content i (g.unparse j) ops
    | (.error _, g) => runArc content i g ops

/-- no image with links is read, no directory is closed -/
def AllowedArc (arch : List (List Char × ATree)) : ArcOp → Prop
  | .find p => ∃ ns, Pieces p ns ∧ NoUolOn arch ns
  | .load p => ∃ ns, Pieces p ns ∧ NoUolOn arch (ns ++ [[]])
  | .close p => ∃ ns, Pieces p ns ∧ NoUolOn arch ns ∧ arcAt arch ns ≠ some .dir

end Wz.Spec
