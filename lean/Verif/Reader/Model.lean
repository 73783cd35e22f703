import Verif.Base
import Verif.Text.Model
/-!
# The slice reader (`/repo/src/reader.rs`)

`WzSliceReader` keeps its position in a `Cell`, so every read returns a result *and* a new cursor, also
when it fails.  The key streams are functions `Nat → Byte`; that the lazily grown, shared key buffers of
the real decryptors behave like such functions is proved in `Verif/Keys`.
-/

set_option autoImplicit false
variable {α β γ : Type}

namespace Wz

/-- The mutable part of `WzSliceReader` (reader.rs 66-75): `pos` and `_save_pos`. -/
structure Cur where
  pos : Nat
  saved : Nat
deriving DecidableEq, Repr

/-- The immutable part of `WzSliceReader` (reader.rs 66-75): the buffer, `keys` and `pkg2_keys`; plus the
arithmetic mode of the build.  Simplification: the header is not part of it. -/
structure Env where
  mode : Mode
  buf : Bytes
  ks : Nat → Byte
  ks2 : Nat → Byte

/-- A reading operation. -/
structure Rd (α : Type) where
  run : Env → Cur → Except Err α × Cur

namespace Rd

def pure (a : α) : Rd α := ⟨fun _ c => (.ok a, c)⟩

def bind (m : Rd α) (f : α → Rd β) : Rd β := ⟨fun e c =>
  match m.run e c with
  | (.ok a, c') => (f a).run e c'
  | (.error x, c') => (.error x, c')⟩

instance : Monad Rd where
  pure := Rd.pure
  bind := Rd.bind

/-- embed a pure fallible computation -/
def lift (x : Except Err α) : Rd α := ⟨fun _ c => (x, c)⟩

def fail (x : Err) : Rd α := ⟨fun _ c => (.error x, c)⟩

def getEnv : Rd Env := ⟨fun e c => (.ok e, c)⟩

end Rd

/-- `pread_with::<uN>(pos, LE)` on the buffer (reader.rs 640-704, 725-764; `*_at` functions): an error if
the `w` bytes are not all inside the buffer. -/
def readAt (buf : Bytes) (w pos : Nat) : Except Err Nat :=
  if pos + w ≤ buf.length then .ok (leNat ((buf.drop pos).take w)) else .error .read

/-- `get_slice_or_error` (reader.rs 233-239, 316-321) -/
def sliceOrError (buf : Bytes) (start stop : Nat) : Except Err Bytes :=
  if start ≤ stop ∧ stop ≤ buf.length then .ok ((buf.drop start).take (stop - start))
  else .error (.outOfBounds stop buf.length)

namespace Rd

/-- `seek` (reader.rs 341-343) -/
def seek (p : Nat) : Rd Unit := ⟨fun _ c => (.ok (), { c with pos := p })⟩

/-- `self.pos.get()` -/
def getPos : Rd Nat := ⟨fun _ c => (.ok c.pos, c)⟩

/-- `skip` (reader.rs 345-347) -/
def skip (n : Nat) : Rd Unit := ⟨fun e c =>
  match addU e.mode c.pos n with
  | .ok p => (.ok (), { c with pos := p })
  | .error x => (.error x, c)⟩

/-- `save_pos` (reader.rs 349-351) -/
def savePos : Rd Unit := ⟨fun _ c => (.ok (), { c with saved := c.pos })⟩

/-- `restore_pos` (reader.rs 353-355) -/
def restorePos : Rd Unit := ⟨fun _ c => (.ok (), { c with pos := c.saved })⟩

/-- `read_u8` .. `read_u64` (reader.rs 357-384): read at the position, then advance the position by the
width *whether or not the read succeeded*. -/
def readLE (w : Nat) : Rd Nat := ⟨fun e c =>
  match addU e.mode c.pos w with
  | .ok p => (readAt e.buf w c.pos, { c with pos := p })
  | .error x => (.error x, c)⟩

/-- `read_i8` .. `read_i64` (reader.rs 386-412): same, two's complement. -/
def readInt (w : Nat) : Rd Int := do
  let v ← readLE w
  return signed (8 * w) v

def readU8 : Rd Nat := readLE 1
def readU16 : Rd Nat := readLE 2
def readU32 : Rd Nat := readLE 4
def readU64 : Rd Nat := readLE 8
def readI8 : Rd Int := readInt 1
def readI16 : Rd Int := readInt 2
def readI32 : Rd Int := readInt 4
def readI64 : Rd Int := readInt 8

/-- `read_wz_int` (reader.rs 608-616) -/
def readWzInt : Rd Int := do
  let small ← readI8
  if small = -128 then readI32 else return small

/-- `read_wz_int64` (reader.rs 618-626); `read_wz_long` (628-630) is the same function. -/
def readWzInt64 : Rd Int := do
  let small ← readI8
  if small = -128 then readI64 else return small

end Rd

/-! ## Strings -/

/-- `WzStringType` (property/string.rs 22-30) -/
inductive StrType where
  | ascii
  | unicode
  | pkg2Dir
  | empty
deriving DecidableEq, Repr

/-- `WzStringMeta` (property/string.rs 38-45); `length` is a byte length (u32). -/
structure StrMeta where
  offset : Nat
  length : Nat
  ty : StrType
deriving DecidableEq, Repr

/-- `WzStringMeta::empty` (property/string.rs 66-72) -/
def StrMeta.none : StrMeta := { offset := 0, length := 0, ty := .empty }

/-- `get_wz_string_type` (reader.rs 93-99) -/
def strType (t : Int) : StrType :=
  if t = 0 then .empty else if t > 0 then .unicode else .ascii

/-- `resolve_ascii_char` (reader.rs 917-919) -/
def asciiChar (c : Byte) (i : Nat) : Byte := c ^^^ (BitVec.ofNat 8 i + 0xAA#8)

/-- `resolve_unicode_char` (reader.rs 921-923) -/
def unicodeChar (c : BitVec 16) (i : Nat) : BitVec 16 := c ^^^ (BitVec.ofNat 16 i + 0xAAAA#16)

/-- What `get_decrypt_slice` (reader.rs 925-945) does to a slice, with the key stream as a function:
xor byte `i` with key byte `i` (ecb_decryptor.rs 97-105, pkg2_decryptor.rs 82-86). -/
def decryptWith (ks : Nat → Byte) (bs : Bytes) : Bytes := bs.mapIdx fun i b => b ^^^ ks i

/-- `Reader::get_decrypt_slice(start..start+len)` (reader.rs 708-712, 767-771) -/
def decryptSlice (m : Mode) (buf : Bytes) (ks : Nat → Byte) (start len : Nat) : Except Err Bytes := do
  let stop ← addU m start len
  let s ← sliceOrError buf start stop
  return decryptWith ks s

/-- `chunks(2)` mapped through `u16::from_le_bytes([c[0], c[1]])` (reader.rs 104-107, 123-126): a last
chunk of one byte makes `c[1]` panic. -/
def units : Bytes → Except Err (List (BitVec 16))
  | [] => .ok []
  | [_] => .error .panicIndex
  | a :: b :: r => do
    let us ← units r
    return BitVec.ofNat 16 (a.toNat + 256 * b.toNat) :: us

/-- `resolve_unicode_raw` (reader.rs 100-110) -/
def resolveUnicodeRaw (m : Mode) (buf : Bytes) (ks : Nat → Byte) (off len : Nat) :
    Except Err (List (BitVec 16)) := do
  let d ← decryptSlice m buf ks off len
  let us ← units d
  return us.mapIdx fun i u => unicodeChar u i

/-- `resolve_ascii_raw` (reader.rs 111-119) -/
def resolveAsciiRaw (m : Mode) (buf : Bytes) (ks : Nat → Byte) (off len : Nat) : Except Err Bytes := do
  let d ← decryptSlice m buf ks off len
  return d.mapIdx fun i b => asciiChar b i

/-- `resolve_pkg2_dir_raw` (reader.rs 120-127) -/
def resolvePkg2DirRaw (m : Mode) (buf : Bytes) (ks2 : Nat → Byte) (off len : Nat) :
    Except Err (List (BitVec 16)) := do
  let d ← decryptSlice m buf ks2 off len
  units d

/-- `resolve_wz_string_meta` (reader.rs 129-153): lossy decoding. -/
def resolveMeta (e : Env) (ty : StrType) (off len : Nat) : Except Err (List Char) :=
  match ty with
  | .empty => .ok []
  | .unicode => do return utf16Lossy (← resolveUnicodeRaw e.mode e.buf e.ks off len)
  | .ascii => do return utf8Lossy (← resolveAsciiRaw e.mode e.buf e.ks off len)
  | .pkg2Dir => do return utf16Lossy (← resolvePkg2DirRaw e.mode e.buf e.ks2 off len)

/-- `try_resolve_wz_string_meta` (reader.rs 155-179): strict decoding. -/
def tryResolveMeta (e : Env) (ty : StrType) (off len : Nat) : Except Err (List Char) :=
  match ty with
  | .empty => .ok []
  | .unicode => do utf16Strict (← resolveUnicodeRaw e.mode e.buf e.ks off len)
  | .ascii => do utf8Strict (← resolveAsciiRaw e.mode e.buf e.ks off len)
  | .pkg2Dir => do utf16Strict (← resolvePkg2DirRaw e.mode e.buf e.ks2 off len)

namespace Rd

/-- `read_unicode_str_len` (reader.rs 427-433) -/
def readUnicodeStrLen (sl : Int) : Rd Int :=
  if sl = 127 then readI32 else return sl

/-- `read_ascii_str_len` (reader.rs 435-441); `-sl` cannot overflow because `sl = -128` is taken before. -/
def readAsciiStrLen (sl : Int) : Rd Int :=
  if sl = -128 then readI32 else return -sl

/-- `read_unicode_string` (reader.rs 442-457) -/
def readUnicodeString (sl : Int) : Rd (List Char) := do
  let len ← readUnicodeStrLen sl
  if len = 0 then return []
  let e ← getEnv
  let len2 ← lift (mulI32 e.mode len 2)
  let n := asUsize len2
  let p ← getPos
  let s ← lift (resolveMeta e .unicode p n)
  skip n
  return s

/-- `read_ascii_string` (reader.rs 458-469) -/
def readAsciiString (sl : Int) : Rd (List Char) := do
  let l ← readAsciiStrLen sl
  let len := asUsize l
  if len = 0 then return []
  let e ← getEnv
  let p ← getPos
  let s ← lift (resolveMeta e .ascii p len)
  skip len
  return s

/-- `read_wz_string` (reader.rs 544-555) -/
def readWzString : Rd (List Char) := do
  let small ← readI8
  match strType small with
  | .empty => return []
  | .unicode => readUnicodeString small
  | .ascii => readAsciiString small
  | .pkg2Dir => fail .panicUnwrap

/-- `read_wz_string_meta` (reader.rs 480-518) -/
def readWzStringMeta : Rd StrMeta := do
  let small ← readI8
  match strType small with
  | .empty => return StrMeta.none
  | .unicode =>
    if small = 127 then
      let l ← readI32
      let e ← getEnv
      let length ← lift (mulU32 e.mode (asU32 l) 2)
      let p ← getPos
      skip length
      return { offset := p, length := length, ty := .unicode }
    else
      let e ← getEnv
      let length ← lift (mulU32 e.mode (asU32 small) 2)
      let p ← getPos
      skip length
      return { offset := p, length := length, ty := .unicode }
  | .ascii =>
    if small = -128 then
      let l ← readI32
      let p ← getPos
      skip (asUsize l)
      return { offset := p, length := asU32 l, ty := .ascii }
    else
      let p ← getPos
      skip (asU32 (-small))
      return { offset := p, length := asU32 (-small), ty := .ascii }
  | .pkg2Dir => fail .panicUnwrap

/-- `read_wz_string_meta_at` (reader.rs 471-479): the position is restored on both paths. -/
def readWzStringMetaAt (offset : Nat) : Rd StrMeta := ⟨fun e c =>
  let c1 : Cur := { pos := offset, saved := c.pos }
  let r := readWzStringMeta.run e c1
  (r.1, { r.2 with pos := r.2.saved })⟩

/-- `read_wz_string_at_offset` (reader.rs 572-580) -/
def readWzStringAtOffset (offset : Nat) : Rd (List Char) := ⟨fun e c =>
  let c1 : Cur := { pos := offset, saved := c.pos }
  let r := readWzString.run e c1
  (r.1, { r.2 with pos := r.2.saved })⟩

/-- length computation `(-len) as usize * 2` of the PKG2 directory strings (reader.rs 525, 537, 563):
negation of an `i8` (`i16`), which overflows for the smallest value. -/
def pkg2Len (bits : Nat) (len : Int) : Rd Nat := do
  let e ← getEnv
  let n ← lift (negI e.mode bits len)
  -- `as usize * 2`: only a value left negative by wrapping negation can overflow here
  if asUsize n * 2 < 2 ^ 64 then return asUsize n * 2
  else match e.mode with
    | .checked => fail .panicOverflow
    | .wrap => return asUsize n * 2 % 2 ^ 64

/-- `read_wz_string_pkg2_dir_meta` (reader.rs 520-530) for `w = 1`, `read_wz_string_pkg2_u64_dir_meta`
(reader.rs 532-542) for `w = 2`. -/
def readPkg2DirMeta (w : Nat) : Rd StrMeta := do
  let len ← readInt w
  if len ≥ 0 then return StrMeta.none
  let n ← pkg2Len (8 * w) len
  let p ← getPos
  skip n
  return { offset := p, length := n % 2 ^ 32, ty := .pkg2Dir }

/-- `read_wz_string_pkg2_dir` (reader.rs 557-570) -/
def readWzStringPkg2Dir : Rd (List Char) := do
  let len ← readI8
  if len ≥ 0 then return []
  let n ← pkg2Len 8 len
  let p ← getPos
  let e ← getEnv
  let us ← lift (resolvePkg2DirRaw e.mode e.buf e.ks2 p n)
  skip n
  return utf16Lossy us

/-- `read_wz_string_block` (reader.rs 582-593) -/
def readWzStringBlock (offset : Nat) : Rd (List Char) := do
  let t ← readU8
  if t = 0 ∨ t = 0x73 then readWzString
  else if t = 1 ∨ t = 0x1B then
    let a ← readI32
    let e ← getEnv
    let o ← lift (addU e.mode offset (asUsize a))
    readWzStringAtOffset o
  else return []

/-- `read_wz_string_block_meta` (reader.rs 595-606) -/
def readWzStringBlockMeta (offset : Nat) : Rd StrMeta := do
  let t ← readU8
  if t = 0 ∨ t = 0x73 then readWzStringMeta
  else if t = 1 ∨ t = 0x1B then
    let a ← readI32
    let e ← getEnv
    let o ← lift (addU e.mode offset (asUsize a))
    readWzStringMetaAt o
  else return StrMeta.none

end Rd

/-! ## Encryption of text (`property/string.rs`) -/

/-- `encrypt_str` (property/string.rs 177-229), key stream as a function (`try_at(i).unwrap_or(&0)`: the
key buffer was grown before, or the stream is all zero because nothing is to be decrypted).
`i + 0xAA` is an addition of `usize`, truncated afterwards. -/
def encryptStr (ks : Nat → Byte) (s : List Char) : StrType → Bytes
  | .empty => []
  | .unicode =>
    ((utf16EncStr s).mapIdx fun i b =>
      toLE 2 (b ^^^ (BitVec.ofNat 16 (i + 0xAAAA) ^^^ (ks (i * 2)).setWidth 16 ^^^
        ((ks (i * 2 + 1)).setWidth 16 <<< 8))).toNat).flatten
  | .ascii => (utf8EncStr s).mapIdx fun i b => b ^^^ (BitVec.ofNat 8 (i + 0xAA) ^^^ ks i)
  | .pkg2Dir => decryptWith ks ((utf16EncStr s).flatMap fun u => toLE 2 u.toNat)

/-- `WzReader::from_buff` (reader.rs 264-282): an empty buffer becomes one zero byte. -/
def fromBuff (b : Bytes) : Bytes := if b = [] then [0#8] else b

/-- `WzString` (property/string.rs 48-56): metadata and the buffer it refers to. -/
structure WzStr where
  buf : Bytes
  offset : Nat
  length : Nat
  ty : StrType

/-- `WzString::from_str` (property/string.rs 110-138); `ks` is the stream of the given IV. -/
def WzStr.fromStr (ks : Nat → Byte) (s : List Char) : WzStr :=
  if s = [] then { buf := fromBuff (encryptStr ks s .empty), offset := 0, length := 0, ty := .empty }
  else if isAsciiStr s then
    { buf := fromBuff (encryptStr ks s .ascii), offset := 0,
      length := (utf8EncStr s).length % 2 ^ 32, ty := .ascii }
  else
    { buf := fromBuff (encryptStr ks s .unicode), offset := 0,
      length := (s.length * 2) % 2 ^ 32, ty := .unicode }

/-- `WzString::from_str_pkg2_dir` (property/string.rs 140-158); `ks2` is the PKG2 stream. -/
def WzStr.fromStrPkg2Dir (ks2 : Nat → Byte) (s : List Char) : WzStr :=
  { buf := fromBuff (encryptStr ks2 s .pkg2Dir), offset := 0,
    length := (s.length * 2) % 2 ^ 32, ty := .pkg2Dir }

/-- `WzString::get_string` (property/string.rs 160-166) -/
def WzStr.getString (m : Mode) (ks ks2 : Nat → Byte) (w : WzStr) : Except Err (List Char) :=
  resolveMeta { mode := m, buf := w.buf, ks := ks, ks2 := ks2 } w.ty w.offset w.length

end Wz
