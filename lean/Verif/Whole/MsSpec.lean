import Verif.Whole.MsModel
import Verif.Whole.Spec

/-!
# What is in an MS archive, as its author and its user see it
-/

set_option autoImplicit false

namespace Wz.Spec

open Wz

/-- a file in an MS archive: its bytes and what they are -/
structure MsItem where
  data : Bytes
  tree : ATree

/-- a reader of the bytes in which texts are not encrypted; `ks2`: other keys, which images do not use -/
def plainReader (m : Mode) (ks2 : Nat → Byte) (data : Bytes) : Env := ⟨m, data, fun _ => 0#8, ks2⟩

/-- the reader of the image with this name; of several the last counts -/
def msReader (m : Mode) (ks2 : Nat → Byte) (files : List (List Char × MsItem)) (name : List Char) : Env :=
  match lastNamed files name with
  | some x => plainReader m ks2 x.data
  | none => plainReader m ks2 []

/-- what is in the archive -/
def msTree (files : List (List Char × MsItem)) : List (List Char × ATree) := files.map fun x => (x.1, x.2.tree)

/-- the bytes are those of the image -/
def MsStored (m : Mode) (ks2 : Nat → Byte) (x : List Char × MsItem) : Prop :=
  x.2.data.length < 2 ^ 63 ∧ StoredImage (plainReader m ks2 x.2.data) x.1 0 x.2.data.length x.2.tree

/-- the kind of a node shows what is in the archive; an image has not been read, or has -/
inductive MsShows (e : Env) : NKind → AVal → Prop
  | unread (src : Nat) : MsShows e (.msImage src) .image
  | kind (k : NKind) (v : AVal) : KindShows e k v → MsShows e k v

/-- `at_path_parsed` on the root finds in every path exactly what is in the archive; the reader of a value is that of its image -/
def FindsMs (content : Content) (reader : List Char → Env) (g : NHeap) (i : Nat) (arch : List (List Char × ATree)) : Prop :=
  ∀ path n ns, Pieces path (n :: ns) → NoUolOn arch (n :: ns) →
    match arcAt arch (n :: ns) with
    | some v => ∃ j g' c, g.atPathParsed content i path = (.ok j, g') ∧ g'.cell j = some c ∧
        (n :: ns).getLast? = some c.name ∧ MsShows (reader n) c.kind v
    | none => (g.atPathParsed content i path).1 = .error (.lib "NodeNotFound")

/-- Every image is the child of the root with its name, whatever characters the name has; it can be parsed, and then every path below it shows
what is in the image. -/
def ChildrenMs (content : Content) (reader : List Char → Env) (g : NHeap) (i : Nat) (arch : List (List Char × ATree)) : Prop :=
  ∀ name, match lastNamed arch name with
    | none => g.at i name = none
    | some t => ∃ k, g.at i name = some k ∧ ((∀ ps, t = .image ps → NoUol ps) → ∃ g', g.parse content k = (.ok (), g') ∧
        ∀ path ns, Pieces path ns → match arcAt [(name, t)] (name :: ns) with
          | some v => ∃ j g'' c, g'.atPathParsed content k path = (.ok j, g'') ∧ g''.cell j = some c ∧ ns.getLast? = some c.name ∧
              KindShows (reader name) c.kind v
          | none => (g'.atPathParsed content k path).1 = .error (.lib "NodeNotFound"))

/-- what a user does with an MS archive: what can be done by path, and with one of the images as a child of the root, whatever its name: open it,
look something up below it, forget what was read -/
inductive MsOp
  | path (op : ArcOp)
  | open (name : List Char)
  | below (name path : List Char)
  | shut (name : List Char)

/-- the nodes after one step -/
def stepMs (content : Content) (i : Nat) (h : NHeap) : MsOp → NHeap
  | .path op => runArc content i h [op]
  | .open name => match h.at i name with
    | none => h
    | some k => (h.parse content k).2
  | .below name p => match h.at i name with
    | none => h
    | some k => (h.atPathParsed content k p).2
  | .shut name => match h.at i name with
    | none => h
    | some k => h.unparse k

/-- and after several -/
def runMs (content : Content) (i : Nat) (h : NHeap) (ops : List MsOp) : NHeap := ops.foldl (stepMs content i) h

/-- no image with links is read -/
def AllowedMs (arch : List (List Char × ATree)) : MsOp → Prop
  | .path op => AllowedArc arch op
  | .open name => ∀ ps, lastNamed arch name = some (.image ps) → NoUol ps
  | .below name _ => ∀ ps, lastNamed arch name = some (.image ps) → NoUol ps
  | .shut _ => True

end Wz.Spec
