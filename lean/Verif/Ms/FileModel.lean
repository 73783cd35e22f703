import Verif.Ms.ReaderModel
import Verif.Version.Pkg1Model
/-!
# MS archives (ms/header.rs, ms/file.rs, ms/ms_image.rs, ms/utils.rs)

A byte of a `u8` computation is a `Nat` below 256 where overflow matters.
-/

set_option autoImplicit false

namespace Wz

/-- u8 arithmetic: overflow panics in checked builds -/
def u8 (m : Mode) (v : Int) : Except Err Nat :=
  if 0 ≤ v ∧ v < 256 then .ok v.toNat
  else match m with
    | .checked => .error .panicOverflow
    | .wrap => .ok (v % 256).toNat

/-- usize multiplication -/
def mulU (m : Mode) (a b : Nat) : Except Err Nat :=
  if a * b < 2 ^ 64 then .ok (a * b)
  else match m with
    | .checked => .error .panicOverflow
    | .wrap => .ok (a * b % 2 ^ 64)

/-- indexing a slice of bytes: panics outside -/
def nth8 (bs : Bytes) (i : Nat) : Except Err Byte :=
  match bs[i]? with
  | some b => .ok b
  | none => .error .panicIndex

/-- `i % n`: panics if `n` is zero -/
def remU (i n : Nat) : Except Err Nat := if n = 0 then .error .panicOverflow else .ok (i % n)

/-- `f 0`, `f 1`, …: the results of `n` computations, or the first failure -/
def tabulateM {α : Type} (f : Nat → Except Err α) : Nat → Except Err (List α)
  | 0 => .ok []
  | n + 1 => do
    let l ← tabulateM f n
    let x ← f n
    return l ++ [x]

/-- `to_ascii_lowercase` of `get_ascii_file_name` (ms/utils.rs 8-13).  Simplified: the name is given, a path without a name or with
one that is not Unicode (a panic) is not modelled. -/
def asciiLower (s : List Char) : List Char := s.map Char.toLower

/-- `sum_str` (ms/utils.rs 3-5) -/
def sumStr (s : List Char) : Nat := ((utf8EncStr s).map BitVec.toNat).sum

/-- `read_u8_at` (reader.rs 635-640) -/
def byteAt (buf : Bytes) (p : Nat) : Except Err Byte :=
  match buf[p]? with
  | some b => .ok b
  | none => .error .read

/-- `read_i32_at` (reader.rs 677-682) -/
def readI32At (buf : Bytes) (p : Nat) : Except Err Int :=
  if p + 4 ≤ buf.length then .ok (signed 32 (leNat ((buf.drop p).take 4))) else .error .read

/-- `MS_CHACHA20_KEY_BASE` (ms/chacha20_reader.rs 11-14) -/
def msKeyBase : Bytes :=
  [0x7B#8, 0x2F#8, 0x35#8, 0x48#8, 0x43#8, 0x95#8, 0x02#8, 0xB9#8, 0xAE#8, 0x91#8, 0xA6#8, 0xE1#8, 0xD8#8, 0xD6#8, 0x24#8, 0xB4#8,
    0x33#8, 0x10#8, 0x1D#8, 0x3D#8, 0xC1#8, 0xBB#8, 0xC6#8, 0xF4#8, 0xA5#8, 0xFE#8, 0xB3#8, 0x69#8, 0x6B#8, 0x56#8, 0xE4#8, 0x75#8]

/-! ## headers -/

/-- `MsHeader` (ms/header.rs 30-47) -/
structure MsHeader where
  keySalt : List Char
  nameWithSalt : List Char
  headerHash : Int
  version : Nat
  entryCount : Int
  hstart : Nat
  estart : Nat
  msVersion : Nat
deriving DecidableEq

/-- the salt (ms/header.rs 74-80) -/
def saltV1 (rand saltBytes : Bytes) (saltLen : Nat) : Except Err (List Char) :=
  tabulateM (fun i => do
    let a ← nth8 rand i
    let b ← nth8 saltBytes (i * 2)
    return Char.ofNat (a ^^^ b).toNat) saltLen

/-- the key of a version 1 header (ms/header.rs 85-88) -/
def headerKeyV1 (m : Mode) (bytes : Bytes) : Except Err Bytes :=
  tabulateM (fun i => do
    let j ← remU i bytes.length
    let b ← nth8 bytes j
    let v ← u8 m (b.toNat + i)
    return BitVec.ofNat 8 v) 16

/-- the sum of the 16-bit units of the salt (ms/header.rs 109-112); it stays below `2^31`, so that no addition wraps -/
def saltSum (saltBytes : Bytes) : Int := ((unitPairs saltBytes).map fun u => (u.toNat : Int)).sum

/-- the hash a header should have (ms/header.rs 114): three i32 additions -/
def expectedHash (m : Mode) (saltLenI32 : Int) (version : Nat) (entryCount saltSum : Int) : Except Err Int := do
  let a ← addI32 m saltLenI32 version
  let b ← addI32 m a entryCount
  addI32 m b saltSum

/-- `MsHeader::from_ms_file` (ms/header.rs 50-132) -/
def headerV1 (m : Mode) (buf : Bytes) (fileName : List Char) : Except Err MsHeader := do
  let name := asciiLower fileName
  let count := sumStr name % 312 + 30
  let rand ← sliceIdx buf 0 count
  let hashed ← byteAt buf count
  let hashedI32 ← readI32At buf count
  let r0 ← nth8 rand 0
  let saltLen := (hashed ^^^ r0).toNat
  let saltByteLen ← u8 m (saltLen * 2)
  let saltBytes ← sliceIdx buf (count + 4) (count + 4 + saltByteLen)
  let salt ← saltV1 rand saltBytes saltLen
  let hstart := count + 4 + saltByteLen
  let key ← headerKeyV1 m (utf8EncStr (name ++ salt))
  let enc ← sliceIdx buf hstart (hstart + 12)
  let (dec, _, _) ← (Snow2.new key).decryptSlice enc
  let hash := signed 32 (leNat (dec.take 4))
  let v ← nth8 dec 4
  let entryCount := signed 32 (leNat ((dec.drop 5).take 4))
  if v.toNat ≠ 2 then .error (.lib "UnsupportedSnowVersion")
  else
    let actual ← expectedHash m hashedI32 v.toNat entryCount (saltSum saltBytes)
    if hash ≠ actual then .error (.lib "HashMismatch")
    else
      return { keySalt := salt, nameWithSalt := name ++ salt, headerHash := hash, version := v.toNat, entryCount := entryCount,
               hstart := hstart, estart := hstart + 9 + sumStr name * 3 % 212 + 33, msVersion := 1 }

/-- `(*b as i8) >> 1` (ms/header.rs 148) -/
def shiftSigned (b : Byte) : Byte := b.sshiftRight 1

/-- a character of the salt of version 2 (ms/header.rs 171-173) -/
def saltCharV2 (m : Mode) (a : Byte) : Except Err Nat := do
  let x ← u8 m ((((a ||| 0x4B#8) <<< 1).toNat : Int) - a.toNat)
  u8 m ((x : Int) - 75)

/-- the salt of version 2 (ms/header.rs 169-175) -/
def saltV2 (m : Mode) (rand saltBytes : Bytes) (saltLen : Nat) : Except Err (List Char) :=
  tabulateM (fun i => do
    let a ← nth8 rand i
    let b ← nth8 saltBytes (i * 2)
    let c ← saltCharV2 m (a ^^^ b)
    return Char.ofNat c) saltLen

/-- the key of a version 2 header (ms/header.rs 183-186) -/
def headerKeyV2 (m : Mode) (bytes : Bytes) : Except Err Bytes :=
  tabulateM (fun i => do
    let j ← remU i bytes.length
    let b ← nth8 bytes j
    let v ← u8 m (b.toNat + i)
    return BitVec.ofNat 8 v ^^^ msKeyBase.getD i 0#8) 32

/-- `MsHeader::from_ms_file_v2` (ms/header.rs 134-212) -/
def headerV2 (m : Mode) (C : ChaCha) (buf : Bytes) (fileName : List Char) : Except Err MsHeader := do
  let name := asciiLower fileName
  let count := sumStr name % 312 + 30
  let rand0 ← sliceIdx buf 0 count
  let rand := rand0.map shiftSigned
  let vb ← byteAt buf count
  let r0 ← nth8 rand 0
  let version := (vb ^^^ r0).toNat
  if version ≠ 4 then .error (.lib "UnsupportedChacha20Version")
  else
    let hashed ← byteAt buf (count + 1)
    let _ ← readI32At buf (count + 1)
    let saltLen := (hashed ^^^ r0).toNat
    let saltBytes ← sliceIdx buf (count + 5) (count + 5 + saltLen * 2)
    let salt ← saltV2 m rand saltBytes saltLen
    let hstart := count + 5 + saltLen * 2
    let key ← headerKeyV2 m (utf8EncStr (name ++ salt))
    let data ← sliceIdx buf hstart (hstart + 128)
    let r := ChaRd.new C data key (List.replicate 12 0#8)
    let (hash, r) ← r.readI32
    let (entryCount, _) ← r.readI32
    return { keySalt := salt, nameWithSalt := name ++ salt, headerHash := hash, version := version, entryCount := entryCount,
             hstart := hstart, estart := hstart + 8 + sumStr name * 3 % 212 + 64, msVersion := 2 }

/-! ## files -/

/-- `MsFile` (ms/file.rs 34-43); the buffer is that of the reader, `block_size` its length -/
structure MsFile where
  buf : Bytes
  header : MsHeader

/-- `MsFile::from_file` (ms/file.rs 46-71) on the contents of the file -/
def msOpen (m : Mode) (C : ChaCha) (buf : Bytes) (fileName : List Char) : Except Err MsFile :=
  match headerV1 m buf fileName with
  | .ok h => .ok ⟨buf, h⟩
  | .error e =>
    if e.isPanic then .error e
    else match headerV2 m C buf fileName with
      | .ok h => .ok ⟨buf, h⟩
      | .error e => if e.isPanic then .error e else .error (.lib "UnknownMsFile")

/-- `MsEntryMeta` (ms/ms_image.rs 13-27); the salt and the version of the header are left out -/
structure MsEntry where
  name : List Char
  checkSum : Int
  flags : Int
  startPos : Int
  size : Int
  sizeAligned : Int
  unk1 : Int
  unk2 : Int
  key : Bytes
  unk3 : Int
  unk4 : Int
deriving DecidableEq

/-- `MsImage` (ms/ms_image.rs 32-41) -/
structure MsImage where
  offset : Nat
  blockSize : Nat
  entry : MsEntry
deriving DecidableEq

/-- `MsImage::new` (ms/ms_image.rs 44-51) -/
def MsImage.new (e : MsEntry) : MsImage := ⟨asUsize e.startPos, asUsize e.sizeAligned, e⟩

/-- byte `i` of the second key, before the xor of version 2 (ms/file.rs 85-89, 161-165): the addition can overflow -/
def entryKeyByte (m : Mode) (bytes : Bytes) (i : Nat) : Except Err Byte := do
  let j ← remU i bytes.length
  let b ← nth8 bytes (bytes.length - 1 - j)
  let v ← u8 m (i + ((i % 3 + 2) * b.toNat % 256 : Nat))
  return BitVec.ofNat 8 v

/-- one entry of version 1 (ms/file.rs 99-109) -/
def entryV1 (m : Mode) (r : SnowRd) : Except Err (MsEntry × SnowRd) := do
  let (nameLen, r) ← r.readI32
  let n ← mulU m (asUsize nameLen) 2
  let (name, r) ← r.readUtf16 m n
  let (checkSum, r) ← r.readI32
  let (flags, r) ← r.readI32
  let (startPos, r) ← r.readI32
  let (size, r) ← r.readI32
  let (sizeAligned, r) ← r.readI32
  let (unk1, r) ← r.readI32
  let (unk2, r) ← r.readI32
  let (key, r) ← r.writeBytes m 16
  return (⟨name, checkSum, flags, startPos, size, sizeAligned, unk1, unk2, key, 0, 0⟩, r)

/-- one entry of version 2 (ms/file.rs 178-190) -/
def entryV2 (m : Mode) (r : ChaRd) : Except Err (MsEntry × ChaRd) := do
  let (nameLen, r) ← r.readI32
  let n ← mulU m (asUsize nameLen) 2
  let (name, r) ← r.readUtf16 n
  let (checkSum, r) ← r.readI32
  let (flags, r) ← r.readI32
  let (startPos, r) ← r.readI32
  let (size, r) ← r.readI32
  let (sizeAligned, r) ← r.readI32
  let (unk1, r) ← r.readI32
  let (unk2, r) ← r.readI32
  let (key, r) ← r.writeBytes 16 16
  let (unk3, r) ← r.readI32
  let (unk4, r) ← r.readI32
  return (⟨name, checkSum, flags, startPos, size, sizeAligned, unk1, unk2, key, unk3, unk4⟩, r)

/-- the loop over the entries (ms/file.rs 98-129, 177-211) -/
def entries {ρ : Type} (entry : ρ → Except Err (MsEntry × ρ)) : Nat → ρ → Except Err (List MsEntry × ρ)
  | 0, r => .ok ([], r)
  | n + 1, r => do
    let (e, r) ← entry r
    let (es, r) ← entries entry n r
    return (e :: es, r)

/-- where the data starts (ms/file.rs 131-135, 213-217) -/
def alignKilo (m : Mode) (p : Nat) : Except Err Nat :=
  if p % 1024 ≠ 0 then addU m (p - p % 1024) 0x400 else .ok p

/-- the place of an image (ms/file.rs 137-141, 219-223) -/
def MsImage.place (m : Mode) (dataStart : Nat) (im : MsImage) : Except Err MsImage := do
  let x ← mulU m im.offset 1024
  let p ← addU m dataStart x
  return { im with offset := p, entry := { im.entry with startPos := signed 32 p } }

/-- the places of all images -/
def placeAll (m : Mode) (dataStart : Nat) : List MsEntry → Except Err (List MsImage)
  | [] => .ok []
  | e :: es => do
    let im ← (MsImage.new e).place m dataStart
    let ims ← placeAll m dataStart es
    return im :: ims

/-- `Vec::with_capacity(entry_count as usize)` (ms/file.rs 96, 175): a negative count is a capacity overflow.  Simplified: running out
of memory is not modelled. -/
def capacity (count : Int) : Except Err Unit := if count < 0 then .error .panicOverflow else .ok ()

/-- `MsFile::parse_v1` (ms/file.rs 80-151); the nodes are given as images with their names inside -/
def MsFile.parseV1 (m : Mode) (f : MsFile) : Except Err (List MsImage) := do
  let key ← tabulateM (entryKeyByte m (utf8EncStr f.header.nameWithSalt)) 16
  let r := { SnowRd.new f.buf key with offset := f.header.estart }
  capacity f.header.entryCount
  let (es, r) ← entries (entryV1 m) f.header.entryCount.toNat r
  let dataStart ← alignKilo m r.offset
  placeAll m dataStart es

/-- `MsFile::parse_v2` (ms/file.rs 153-233) -/
def MsFile.parseV2 (m : Mode) (C : ChaCha) (f : MsFile) : Except Err (List MsImage) :=
  if f.header.entryCount = 0 then .ok []
  else do
    let key ← tabulateM (fun i => do
      let b ← entryKeyByte m (utf8EncStr f.header.nameWithSalt) i
      return msKeyBase.getD i 0#8 ^^^ b) 32
    let r := { ChaRd.new C f.buf key (List.replicate 12 0#8) with offset := f.header.estart }
    capacity f.header.entryCount
    let (es, r) ← entries (entryV2 m) f.header.entryCount.toNat r
    let dataStart ← alignKilo m r.offset
    placeAll m dataStart es

/-- `MsFile::parse` (ms/file.rs 72-78) -/
def MsFile.parse (m : Mode) (C : ChaCha) (f : MsFile) : Except Err (List MsImage) :=
  if f.header.msVersion = 1 then f.parseV1 m
  else if f.header.msVersion = 2 then f.parseV2 m C
  else .error (.lib "UnknownMsFile")

/-! ## images -/

/-- the hash of the salt (ms/ms_image.rs 64-67, 119-123) -/
def saltHash (salt : List Char) : BitVec 32 := salt.foldl (fun h c => (h ^^^ BitVec.ofNat 32 c.toNat) * 0x1000193#32) 0x811C9DC5#32

/-- `to_string()` of a number: its decimal digits (ms/ms_image.rs 70, 128); ten are enough for 32 bits -/
def digitsAux : Nat → Nat → List Nat → List Nat
  | 0, _, acc => acc
  | fuel + 1, n, acc => if n < 10 then n :: acc else digitsAux fuel (n / 10) (n % 10 :: acc)

/-- the digits of the hash (ms/ms_image.rs 70, 128) -/
def digits (n : Nat) : List Nat := digitsAux 10 n []

/-- a byte of an image key from the byte of the name (ms/ms_image.rs 78-86, 139-148): `i + char * (digit + ekey + digit2)`; no sum of
digits and `i` reaches 256 -/
def imageKeyByte (digs : List Nat) (entryKey : Bytes) (i : Nat) (char : Byte) : Byte :=
  let digit := digs.getD (i % digs.length) 0 % 2
  let digit2 := (digs.getD ((i + 1) % digs.length) 0 + i) % 5
  let ekey := entryKey.getD ((digs.getD ((i + 2) % digs.length) 0 + i) % 16) 0#8
  BitVec.ofNat 8 i + char * (BitVec.ofNat 8 digit + ekey + BitVec.ofNat 8 digit2)

/-- the key of a version 1 image (ms/ms_image.rs 72-87) -/
def imageKeyV1 (salt : List Char) (e : MsEntry) : Except Err Bytes :=
  let digs := digits (saltHash salt).toNat
  let bytes := utf8EncStr e.name
  tabulateM (fun i => do
    let j ← remU i bytes.length
    let c ← nth8 bytes j
    return imageKeyByte digs e.key i c) 16

/-- the key of a version 2 image (ms/ms_image.rs 131-150): the character at `i` modulo the length in bytes, as `u8` -/
def imageKeyV2 (salt : List Char) (e : MsEntry) : Except Err Bytes :=
  let digs := digits (saltHash salt).toNat
  tabulateM (fun i => do
    let j ← remU i (utf8EncStr e.name).length
    match e.name[j]? with
    | none => .error .panicUnwrap
    | some c => return imageKeyByte digs e.key i (BitVec.ofNat 8 c.toNat) ^^^ msKeyBase.getD i 0#8) 32

/-- what the byte `i` of the hash data is changed by (ms/ms_image.rs 158-166): `d = -i`, `a = 8i`, `b = 17i`, `c = 90 + 43i`; the sums
are small -/
def hashMask (i : Nat) : Byte :=
  BitVec.ofInt 8 (-(i : Int) + 11 * ((i / 11 : Nat) : Int) + (((90 + 43 * i) ^^^ (i / 4) : Nat) : Int) + (((8 * i) ^^^ (17 * i) : Nat) : Int))

/-- the hash data (ms/ms_image.rs 124-125, 153-166) -/
def hashData (h : BitVec 32) : Bytes :=
  let h2 := h >>> 1
  let h3 := h2 ^^^ 0x6C#32
  (toLE 4 h.toNat ++ toLE 4 h2.toNat ++ toLE 4 h3.toNat).mapIdx fun i b => b ^^^ hashMask i

/-- the nonce of an image (ms/ms_image.rs 167-168) -/
def imageNonce (h : BitVec 32) : Bytes := List.replicate 4 0#8 ++ (hashData h).take 8

/-- the block counter of an image (ms/ms_image.rs 169) -/
def imageCounter (h : BitVec 32) : Nat := leNat ((hashData h).drop 8)

/-- the data of a version 1 image (ms/ms_image.rs 89-106): what the new reader holds -/
def imageDataV1 (m : Mode) (buf : Bytes) (salt : List Char) (im : MsImage) : Except Err Bytes := do
  let key ← imageKeyV1 salt im.entry
  let stop ← addU m im.offset im.blockSize
  let data ← sliceIdx buf im.offset stop
  let n := min 1024 data.length
  let (head, _, _) ← (Snow2.new key).decryptSlice (data.take n)
  let (dec, _, _) ← (Snow2.new key).decryptSlice (head ++ data.drop n)
  sliceIdx dec 0 (asUsize im.entry.size)

/-- `apply_keystream` of the cipher from a block counter on (ms/ms_image.rs 178-184) -/
def chaApply (ks : Nat → Bytes) (counter : Nat) (bs : Bytes) : Bytes := bs.mapIdx fun i b => b ^^^ (ks (counter + i / 64)).getD (i % 64) 0#8

/-- the data of a version 2 image (ms/ms_image.rs 171-188) -/
def imageDataV2 (m : Mode) (C : ChaCha) (buf : Bytes) (salt : List Char) (im : MsImage) : Except Err Bytes := do
  let key ← imageKeyV2 salt im.entry
  let stop ← addU m im.offset im.blockSize
  let data ← sliceIdx buf im.offset stop
  let n := min 1024 data.length
  let h := saltHash salt
  let dec := chaApply (C key (imageNonce h)) (imageCounter h) (data.take n) ++ data.drop n
  sliceIdx dec 0 (asUsize im.entry.size)

/-- what is needed of the `WzImage` made from an image: its name, the bytes its reader holds, its size (ms/ms_image.rs 108-114, 190-196) -/
structure MsOpened where
  name : List Char
  data : Bytes
  blockSize : Nat
deriving DecidableEq

/-- `to_wz_image` (ms/ms_image.rs 54-60); the salt and the version are copied from the header into every entry (ms/file.rs 112, 124) -/
def MsFile.toWzImage (m : Mode) (C : ChaCha) (f : MsFile) (im : MsImage) : Except Err MsOpened := do
  let data ←
    if f.header.msVersion = 1 then imageDataV1 m f.buf f.header.keySalt im
    else if f.header.msVersion = 2 then imageDataV2 m C f.buf f.header.keySalt im
    else .error .panicUnwrap
  return ⟨im.entry.name, data, asUsize im.entry.size⟩

end Wz
