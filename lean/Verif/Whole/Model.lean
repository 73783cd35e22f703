import Verif.File.Model
import Verif.Image.Model
import Verif.Node.Model
import Mathlib.Tactic.DeriveEncodable
import Mathlib.Logic.Equiv.List

/-!
# From the bytes of an archive to its nodes

The node model (`Node/Model.lean`) takes what is read for a node from a parameter, and values and sources are numbers
there.  Here the parameter is what the models of files, directories, images and properties read from the bytes, and the
numbers are codes of values and sources.
-/

set_option autoImplicit false

namespace Wz

/-- the code of a character is its number; only the order of the codes is an invention of the model -/
instance : Encodable Char := Encodable.ofLeftInverse Char.toNat Char.ofNat Char.ofNat_toNat

deriving instance Encodable for StrType
deriving instance Encodable for StrMeta
deriving instance Encodable for Png
deriving instance Encodable for SoundType
deriving instance Encodable for Sound
deriving instance Encodable for PObj

/-- the values in the nodes of an archive (object.rs 25-35, with the values of `PObj`) that are neither links nor containers -/
inductive Leaf58 where
  | prop (o : PObj)
  | lua (offset length : Nat)
  | empty
deriving Encodable

/-- what a node of an archive is read from: the `WzFile`, `WzImage` or `WzDirectory` in it (file.rs 60-71,
wz_image.rs 55-66, directory.rs 65-82) -/
inductive Src58 where
  | file
  | image (name : List Char) (offset size : Nat)
  | dir (offset size : Nat)
deriving Encodable

mutual

/-- The nodes `resolve_children` of a directory makes (directory.rs 113-151, 480-489).  The subdirectories have their
children, have given away their entries and are not marked as parsed; images have not been read. -/
def dirForest : List (List Char × DNode) → Forest
  | [] => .nil
  | x :: xs => dirTree x (dirForest xs)

/-- one of them, before the others -/
def dirTree : List Char × DNode → Forest → Forest
  | (name, d), rest => dirNode name d rest

/-- by kind (directory.rs 450-478).  The empty node has no name of its own in the code, here it has that of its place. -/
def dirNode (name : List Char) : DNode → Forest → Forest
  | .image o s, rest => .node name (.image false (Encodable.encode (Src58.image name o s))) .nil rest
  | .dir o s ks, rest => .node name (.dir false true (Encodable.encode (Src58.dir o s))) (dirForest ks) rest
  | .none, rest => .node name (.other (Encodable.encode Leaf58.empty)) .nil rest

end

/-- the kind of the node of a property; links carry their text (property/string.rs 160-166, node_util.rs 57-74) -/
def propKind (e : Env) : PObj → NKind
  | .uol m => .uol (match resolveMeta e m.ty m.offset m.length with
    | .ok s => some s
    | .error _ => none)
  | o => .other (Encodable.encode (Leaf58.prop o))

mutual

/-- the nodes of a property list (util/parse_property.rs 29-407) -/
def propForest (e : Env) : List (List Char × PNode) → Forest
  | [] => .nil
  | x :: xs => propTree e x (propForest e xs)

/-- one of them, before the others -/
def propTree (e : Env) : List Char × PNode → Forest → Forest
  | (name, n), rest => propNode e name n rest

/-- with its children -/
def propNode (e : Env) (name : List Char) : PNode → Forest → Forest
  | .node o ks, rest => .node name (propKind e o) (propForest e ks) rest

end

/-- the nodes of an image (wz_image.rs 151-220) -/
def imgForest (e : Env) : List (List Char × ImgNode) → Forest
  | [] => .nil
  | (name, .lua off len) :: xs => .node name (.other (Encodable.encode (Leaf58.lua off len))) .nil (imgForest e xs)
  | (name, .prop n) :: xs => propNode e name n (imgForest e xs)

/-- `WzFile::parse` (file.rs 135-145) as called by a node (node.rs 187): no version is given -/
def WFile.parse (F : Fuel) (n : Nat) (cache : List Cached) (f : WFile) : Except Err (List (List Char × DNode)) × WFile :=
  match f.hdr.ident with
  | .v1 => f.parsePkg1 F n none
  | .v2 => match f.parsePkg2 F cache with
    | (.ok (_, ns), f', _) => (.ok ns, f')
    | (.error e, f', _) => (.error e, f')
  | _ => (.error (.lib "UnknownPkgVersion"), f)

/-- the children of an image read from a file (wz_image.rs 151-220); `fuel` bounds the nesting -/
def readImage (e : Env) (fuel : Nat) (img : Img) : Except Err Forest :=
  ((Rd.imgChildren img fuel).run e { pos := 0, saved := 0 }).1.map (imgForest e)

/-- What the parsers give for the nodes of an archive: the file its directory, an image its properties, with the keys the
file has when it is open.  A directory has given away its entries before it became a node: nothing
(directory.rs 113-151).  Other numbers are not sources. -/
def arcContent (F : Fuel) (n fuel : Nat) (cache : List Cached) (f : WFile) : Content := fun s =>
  match Encodable.decode (α := Src58) s with
  | some .file => (f.parse F n cache).1.map dirForest
  | some (.image name o size) => readImage (f.parse F n cache).2.env fuel ⟨name, o, size⟩
  | some (.dir _ _) => .ok .nil
  | none => .error (.lib "not a source")

/-- what an image file gives when it is opened on its own (wz_image.rs 83-116, 151-220) -/
def imgContent (e : Env) (fuel : Nat) : Content := fun s =>
  match Encodable.decode (α := Src58) s with
  | some (.image name o size) => readImage e fuel ⟨name, o, size⟩
  | _ => .error (.lib "not a source")

end Wz
