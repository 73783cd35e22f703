import Verif.Whole.Model
import Verif.Whole.MsModel
import Verif.File.GuessModel
import Verif.Media.PayloadModel

/-!
# The nodes that are made from files
-/

set_option autoImplicit false

namespace Wz

/-- `WzNode::new` (node.rs 56-67): no children; the parent does not learn of it -/
def newCell (name : List Char) (kind : NKind) (parent : Option Nat) : NCell := ⟨name, kind, parent, []⟩

/-- `WzNode::from_wz_file_full` (node.rs 91-109) on the contents of the file: the node and the file in it.  `file` is the last
component of the path, if it has one; paths that are not UTF-8 are left out. -/
def openWz (m : Mode) (st : Bytes → Nat → Byte) (file : Option (List Char)) (buf : Bytes) (version : Option MapleVersion)
    (patch : Option Int) (parent : Option Nat) (existing : Option SKey) : Except Err (NCell × WFile) :=
  match file with
  | none => .error .panicUnwrap
  | some file => match WFile.fromBuf m st buf existing (version.map ivOfVersion) patch with
    | .error x => .error x
    | .ok f => .ok (newCell (nameStem file) (.file false (Encodable.encode Src58.file)) parent, f)

/-- `WzNode::from_wz_file` (node.rs 114-119) -/
def openWzPlain (m : Mode) (st : Bytes → Nat → Byte) (file : Option (List Char)) (buf : Bytes) (parent : Option Nat) :
    Except Err (NCell × WFile) :=
  openWz m st file buf none none parent none

/-- `WzNode::from_ms_file` (node.rs 125-132) -/
def openMs (m : Mode) (C : ChaCha) (file : Option (List Char)) (buf : Bytes) (parent : Option Nat) : Except Err (NCell × MsFile) :=
  match file with
  | none => .error .panicUnwrap
  | some file => match msOpen m C buf file with
    | .error x => .error x
    | .ok f => .ok (newCell (nameStem file) (.msFile false 0) parent, f)

/-- the stream of the decryptor that is made for an IV or, for known ones, taken (string_decryptor/mod.rs 223-230,
ecb_decryptor.rs 97-105) -/
def imgStream (st : Bytes → Nat → Byte) (iv : Bytes) : Nat → Byte := if iv = [0#8, 0#8, 0#8, 0#8] then noKeys else st iv

/-- `WzNode::from_img_file_with_iv` (node.rs 155-165) and, with the IV of the version or none, `from_img_file` (138-149): the node
and the reader of the image (reader.rs 184-201; its PKG2 keys are new and have no effect) -/
def openImg (m : Mode) (st : Bytes → Nat → Byte) (file : Option (List Char)) (buf : Bytes) (iv : Option Bytes) (parent : Option Nat) :
    Except Err (NCell × Env) :=
  match file with
  | none => .error .panicUnwrap
  | some file => match imgFromFile m (imgStream st) file buf iv with
    | .error x => .error x
    | .ok (img, iv) => .ok (newCell img.name (.image false (Encodable.encode (Src58.image img.name img.offset img.blockSize))) parent,
        ⟨m, buf, imgStream st iv, noKeys⟩)

/-- `WzNode::from_img_file` (node.rs 138-149) -/
def openImgVersion (m : Mode) (st : Bytes → Nat → Byte) (file : Option (List Char)) (buf : Bytes) (version : Option MapleVersion)
    (parent : Option Nat) : Except Err (NCell × Env) :=
  openImg m st file buf (version.map ivOfVersion) parent

end Wz
