import Verif.Property.Model
/-!
# Images (`/repo/src/wz_image.rs`) and their key (`/repo/src/util/version/mod.rs` 71-102)

The reader of an image works on the whole mapped file, so the environment is the one of the file.
-/

set_option autoImplicit false

namespace Wz

/-- `WzImageHeaderType` and its `From<u8>` (wz_image.rs 30-51) -/
inductive ImgHeader where
  | unknown
  | withoutOffset
  | withOffset
  | plainText
  | packText
deriving DecidableEq, Repr

def ImgHeader.of (b : Nat) : ImgHeader :=
  if b = 0x73 then .withoutOffset
  else if b = 0x1B then .withOffset
  else if b = 0x01 then .plainText
  else if b = 0x23 then .packText
  else .unknown

/-- `WzImage` (wz_image.rs 53-67); `is_parsed` belongs to the node model, the reader is the environment -/
structure Img where
  name : List Char
  offset : Nat
  blockSize : Nat
deriving DecidableEq, Repr

/-- a child of an image: a script (`WzLua`, offset and length) or a property -/
inductive ImgNode where
  | lua (offset length : Nat)
  | prop (n : PNode)

/-- `str::ends_with` -/
def endsWith (s suffix : List Char) : Bool := suffix.isSuffixOf s

/-- `is_lua_image` (wz_image.rs 223-225) -/
def isLuaImage (name : List Char) : Bool := endsWith name ['.', 'l', 'u', 'a']

namespace Rd

/-- the name and the number behind the first byte (wz_image.rs 131-135, 207-211); `err` is the error of the
caller.  As in the code, both have to be wrong for the error. -/
def imgCheck (err : Err) : Rd Unit := do
  let name ← readWzString
  let value ← readU16
  if name ≠ ['P', 'r', 'o', 'p', 'e', 'r', 't', 'y'] ∧ value ≠ 0 then fail err else return ()

/-- `WzImage::at_path` (wz_image.rs 121-143).  The positions inside the errors are left out. -/
def imgAtPath (img : Img) (path : List Char) (fuel : Nat) : Rd (List Char × PNode) := do
  seek img.offset
  let b ← readU8
  if b ≠ 0x73 then fail (.lib "UnknownImageHeader")
  else do
    imgCheck (.lib "ParseError")
    getNode path img.offset fuel

/-- the `PlainText` case (wz_image.rs 174-188) -/
def imgLua (img : Img) : Rd (List (List Char × ImgNode)) :=
  if isLuaImage img.name then do
    let len ← readWzInt
    let off ← getPos
    return [(['S', 'c', 'r', 'i', 'p', 't'], .lua off (asUsize len))]
  else fail (.lib "LuaParseError")

/-- name of the node with raw text (wz_image.rs 165, 201) -/
def textName : List Char := ['t', 'e', 'x', 't', '.', 't', 'x', 't']

/-- the `PackText` case (wz_image.rs 192-206).  `get_slice` panics outside the buffer. -/
def imgPacked (img : Img) : Rd (List (List Char × ImgNode)) := do
  let e ← getEnv
  let stop ← lift (addU e.mode img.offset 9)
  let s ← lift (sliceIdx e.buf img.offset stop)
  if s.map (fun b => Char.ofNat b.toNat) ≠ ['#', 'P', 'r', 'o', 'p', 'e', 'r', 't', 'y'] then fail (.lib "UnknownImageHeader")
  else do
    let off ← lift (addU e.mode img.offset 9)
    let size ← lift (subU e.mode img.blockSize 9)
    return [(textName, .prop (.node (.raw off size) []))]

/-- `WzImage::resolve_children` (wz_image.rs 151-220), without the list of UOL nodes -/
def imgChildren (img : Img) (fuel : Nat) : Rd (List (List Char × ImgNode)) := do
  seek img.offset
  let b ← readU8
  if endsWith img.name ['.', 't', 'x', 't'] then
    return [(textName, .prop (.node (.raw img.offset img.blockSize) []))]
  else match ImgHeader.of b with
    | .plainText => imgLua img
    | .packText => imgPacked img
    | .withoutOffset => do
      imgCheck (.lib "WrongVersion")
      let ks ← parseList img.offset fuel
      return ks.map fun x => (x.1, .prop x.2)
    | _ => fail (.lib "UnknownImageHeader")

end Rd

/-- `WzMapleVersion` (util/version/mod.rs 26-44), the values used for keys -/
inductive MapleVersion where
  | gms
  | ems
  | bms
  | kmst1198
  | kmst1199
  | unknown
deriving DecidableEq, Repr

/-- `get_iv_by_maple_version` (util/version/mod.rs 9-15) -/
def ivOfVersion : MapleVersion → Bytes
  | .gms => [0x4D#8, 0x23#8, 0xC7#8, 0x2B#8]
  | .ems => [0xB9#8, 0x7D#8, 0x63#8, 0xE9#8]
  | _ => [0#8, 0#8, 0#8, 0#8]

/-- `verify_iv_from_wz_img` (util/version/mod.rs 72-79).  `ks iv` is the key stream of the decryptor made from
`iv` (the theorems on key streams).  Errors of the reader count as an empty name, panics stay panics. -/
def verifyImgIv (m : Mode) (ks : Bytes → Nat → Byte) (buf iv : Bytes) : Except Err Bool :=
  match (Rd.readWzString.run ⟨m, buf, ks iv, ks iv⟩ ⟨1, 0⟩).1 with
  | .ok s => .ok (s = ['P', 'r', 'o', 'p', 'e', 'r', 't', 'y'])
  | .error x => if x.isPanic then .error x else .ok false

/-- the loop of `guess_iv_from_wz_img` (util/version/mod.rs 94-99) -/
def guessImgLoop (m : Mode) (ks : Bytes → Nat → Byte) (buf : Bytes) : List MapleVersion → Except Err (Option Bytes)
  | [] => .ok none
  | v :: vs => do
    let ok ← verifyImgIv m ks buf (ivOfVersion v)
    if ok then return some (ivOfVersion v) else guessImgLoop m ks buf vs

/-- `guess_iv_from_wz_img` (util/version/mod.rs 82-102); `buf[0]` panics on an empty buffer -/
def guessImgIv (m : Mode) (ks : Bytes → Nat → Byte) (buf : Bytes) : Except Err (Option Bytes) :=
  match buf with
  | [] => .error .panicIndex
  | b :: _ => if b ≠ 0x73#8 then .ok none else guessImgLoop m ks buf [.gms, .ems, .bms]

/-- `WzImage::from_file` (wz_image.rs 84-117) behind the opening of the file: the image and its IV.  (Mapping an
empty file is left to the operating system.) -/
def imgFromFile (m : Mode) (ks : Bytes → Nat → Byte) (name : List Char) (buf : Bytes) (iv : Option Bytes) :
    Except Err (Img × Bytes) :=
  match iv with
  | some iv => do
    let ok ← verifyImgIv m ks buf iv
    if ok then return (⟨name, 0, buf.length⟩, iv) else throw (.lib "WrongVersion")
  | none => do
    let r ← guessImgIv m ks buf
    match r with
    | some iv => return (⟨name, 0, buf.length⟩, iv)
    | none => throw (.lib "UnableToGuessVersion")

end Wz
