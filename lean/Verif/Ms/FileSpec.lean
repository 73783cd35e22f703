import Verif.Ms.SnowProps
import Verif.Ms.ChaRdProps
import Verif.Ms.FileModel
/-!
# How MS archives are laid out

Written down from the file format, with numbers, not with the names of the model.
-/

set_option autoImplicit false

namespace Wz.Spec.Ms

open Wz.Spec.Snow

/-- a name in lower case (ASCII letters only) -/
def lower (name : List Char) : List Char := name.map fun c => if 65 ≤ c.toNat ∧ c.toNat ≤ 90 then Char.ofNat (c.toNat + 32) else c

/-- the sum of its bytes -/
def nameSum (name : List Char) : Nat := ((utf8EncStr (lower name)).map fun b => b.toNat).sum

/-- a file begins with that many random bytes -/
def randCount (name : List Char) : Nat := 30 + nameSum name % 312

/-- a text of characters below 256 -/
def byteText (bs : Bytes) : List Char := bs.map fun b => Char.ofNat b.toNat

/-- the name in lower case and the salt, as bytes -/
def salted (name : List Char) (salt : Bytes) : Bytes := utf8EncStr (lower name ++ byteText salt)

/-- the 32 bytes every key of version 2 is combined with -/
def keyBase : Bytes :=
  [0x7B#8, 0x2F#8, 0x35#8, 0x48#8, 0x43#8, 0x95#8, 0x02#8, 0xB9#8, 0xAE#8, 0x91#8, 0xA6#8, 0xE1#8, 0xD8#8, 0xD6#8, 0x24#8, 0xB4#8,
    0x33#8, 0x10#8, 0x1D#8, 0x3D#8, 0xC1#8, 0xBB#8, 0xC6#8, 0xF4#8, 0xA5#8, 0xFE#8, 0xB3#8, 0x69#8, 0x6B#8, 0x56#8, 0xE4#8, 0x75#8]

/-- the first key: the bytes, again and again, each plus its place -/
def key1 (B : Bytes) (n : Nat) : Bytes := (List.range n).map fun i => B.getD (i % B.length) 0#8 + BitVec.ofNat 8 i

/-- the second key: the bytes backwards, again and again, times 2, 3, 4, 2, 3, 4, …, each plus its place -/
def key2 (B : Bytes) (n : Nat) : Bytes :=
  (List.range n).map fun i => B.getD (B.length - 1 - i % B.length) 0#8 * BitVec.ofNat 8 (2 + i % 3) + BitVec.ofNat 8 i

/-- a checked build crashes if a byte of a key passes 255 -/
def NoCarry1 (B : Bytes) (n : Nat) : Prop := ∀ i < n, (B.getD (i % B.length) 0#8).toNat + i < 256
def NoCarry2 (B : Bytes) (n : Nat) : Prop := ∀ i < n, (B.getD (B.length - 1 - i % B.length) 0#8 * BitVec.ofNat 8 (2 + i % 3)).toNat + i < 256

/-- combined byte by byte -/
def xorBase (k : Bytes) : Bytes := List.zipWith (· ^^^ ·) k keyBase

/-- the signed number in the four bytes at `p` -/
def i32At (bs : Bytes) (p : Nat) : Int := (BitVec.ofNat 32 (leNat ((bs.drop p).take 4))).toInt

/-! ## version 1 -/

/-- what a version 1 header holds: the random bytes, the salt, each of its characters with a byte nobody needs, the three unused bytes of the
field for the length of the salt, and the twelve bytes of the header proper (hash, version, number of entries, three unused) -/
structure Head1 where
  rand : Bytes
  salt : List (Byte × Byte)
  high : Bytes
  plain : Bytes

/-- the characters of the salt -/
def Head1.chars (h : Head1) : Bytes := h.salt.map Prod.fst

/-- the field for the length of the salt -/
def Head1.lenField (h : Head1) : Bytes := (BitVec.ofNat 8 h.salt.length ^^^ h.rand.getD 0 0#8) :: h.high

/-- the salt: character `i` hidden with random byte `i` -/
def Head1.saltField (h : Head1) : Bytes := h.salt.zipIdx.flatMap fun ci => [ci.1.1 ^^^ h.rand.getD ci.2 0#8, ci.1.2]

/-- a header for a file of the name -/
structure Head1.Ok (h : Head1) (name : List Char) : Prop where
  rand : h.rand.length = randCount name
  salt : h.salt.length < 128 ∧ h.salt.length ≤ randCount name
  high : h.high.length = 3
  plain : h.plain.length = 12

/-- the beginning of the file, the header encrypted with the first key -/
def Head1.bytes (M : Maps) (h : Head1) (name : List Char) : Bytes :=
  h.rand ++ h.lenField ++ h.saltField ++ encrypt (keyWord M (signedKey (key1 (salted name h.chars) 16))) 0 h.plain

/-- the hash: the field for the length, the version, the number of entries and the units of the salt as they stand in the file -/
def Head1.hash (h : Head1) : List Int :=
  [i32At h.lenField 0, 2, i32At h.plain 5, ((unitsOf h.saltField).map fun u => (u.toNat : Int)).sum]

/-- none of the sums `a`, `a + b`, `a + b + c`, … leaves the range of a signed 32-bit number -/
def SumsFit : List Int → Prop := fun l => ∀ n, 0 < n → -2147483648 ≤ (l.take n).sum ∧ (l.take n).sum < 2147483648

/-- what a reader should make of it -/
def Head1.result (h : Head1) (name : List Char) : Except Err MsHeader :=
  if h.plain.getD 4 0#8 ≠ 2#8 then .error (.lib "UnsupportedSnowVersion")
  else if BitVec.ofInt 32 (i32At h.plain 0) ≠ BitVec.ofInt 32 h.hash.sum then .error (.lib "HashMismatch")
  else .ok
    { keySalt := byteText h.chars
      nameWithSalt := lower name ++ byteText h.chars
      headerHash := i32At h.plain 0
      version := 2
      entryCount := i32At h.plain 5
      hstart := randCount name + 4 + 2 * h.salt.length
      estart := randCount name + 4 + 2 * h.salt.length + 42 + 3 * nameSum name % 212
      msVersion := 1 }

/-! ## version 2 -/

/-- half of a signed byte, rounded down -/
def half (b : Byte) : Byte := BitVec.ofInt 8 (b.toInt / 2)

/-- what a version 2 header holds; `data`: at least 128 bytes, in them the header proper (hash, number of entries) encrypted -/
structure Head2 where
  rand : Bytes
  salt : List (Byte × Byte)
  high : Bytes
  data : Bytes

def Head2.chars (h : Head2) : Bytes := h.salt.map Prod.fst

/-- random byte `i`, as it is used -/
def Head2.r (h : Head2) (i : Nat) : Byte := half (h.rand.getD i 0#8)

structure Head2.Ok (h : Head2) (name : List Char) : Prop where
  rand : h.rand.length = randCount name
  salt : h.salt.length < 256 ∧ h.salt.length ≤ randCount name
  high : h.high.length = 3
  data : 128 ≤ h.data.length

/-- the file; character `i` of the salt is hidden with random byte `i` and 0x4B -/
def Head2.bytes (h : Head2) : Bytes :=
  h.rand ++ [4#8 ^^^ h.r 0] ++ ((BitVec.ofNat 8 h.salt.length ^^^ h.r 0) :: h.high) ++
    (h.salt.zipIdx.flatMap fun ci => [ci.1.1 ^^^ 0x4B#8 ^^^ h.r ci.2, ci.1.2]) ++ h.data

/-- what a reader should make of it, with the ChaCha20 key stream `C key nonce` -/
def Head2.result (C : ChaCha) (h : Head2) (name : List Char) : MsHeader :=
  let plain := chaDecrypt (C (xorBase (key1 (salted name h.chars) 32)) (List.replicate 12 0#8)) h.data
  { keySalt := byteText h.chars
    nameWithSalt := lower name ++ byteText h.chars
    headerHash := i32At plain 0
    version := 4
    entryCount := i32At plain 4
    hstart := randCount name + 5 + 2 * h.salt.length
    estart := randCount name + 5 + 2 * h.salt.length + 72 + 3 * nameSum name % 212
    msVersion := 2 }

/-- What the version 1 reader takes for the length of the salt in a version 2 file: it depends on the first random byte only. -/
def Head2.misread (h : Head2) : Nat := (4#8 ^^^ half (h.rand.getD 0 0#8) ^^^ h.rand.getD 0 0#8).toNat

/-! ## the table of entries -/

/-- a signed number in 32 bits -/
def num (v : Int) : Bytes := toLE 4 (BitVec.ofInt 32 v).toNat

/-- a text in UTF-16, lowest byte first -/
def text16 (s : List Char) : Bytes := (utf16EncStr s).flatMap fun u => toLE 2 u.toNat

/-- the fields of an entry; the first is the number of 16-bit units of the name; version 2 has two more at the end -/
def fields1 (e : MsEntry) : List Bytes :=
  [num (utf16EncStr e.name).length, text16 e.name, num e.checkSum, num e.flags, num e.startPos, num e.size, num e.sizeAligned, num e.unk1,
    num e.unk2, e.key]
def fields2 (e : MsEntry) : List Bytes := fields1 e ++ [num e.unk3, num e.unk4]

/-- an entry that can be written: numbers of 32 bits, a key of 16 bytes -/
structure EntryOk (e : MsEntry) : Prop where
  name : 2 * (utf16EncStr e.name).length < 2147483648
  nums : ∀ v ∈ [e.checkSum, e.flags, e.startPos, e.size, e.sizeAligned, e.unk1, e.unk2, e.unk3, e.unk4], -2147483648 ≤ v ∧ v < 2147483648
  key : e.key.length = 16

/-- Fields encrypted with a key stream that starts anew, with block 0, behind each field that ends where a block of 64 bytes ends.  `p`: where
the next field starts, `j`: the block where the key stream started. -/
def restartEncrypt (ks : Nat → Bytes) : Nat → Nat → List Bytes → Bytes
  | _, _, [] => []
  | j, p, f :: fs => f.mapIdx (fun i b => b ^^^ (ks ((p + i) / 64 - j)).getD ((p + i) % 64) 0#8) ++
      restartEncrypt ks (if (p + f.length) % 64 = 0 then (p + f.length) / 64 else j) (p + f.length) fs

/-- rounded up to a multiple -/
def roundUp (k n : Nat) : Nat := (n + k - 1) / k * k

/-- where the entries' images should be, if the table ends at `e`: from the next multiple of 1024 on, counted in units of 1024 -/
def placed (e : Nat) (x : MsEntry) : MsImage :=
  { offset := roundUp 1024 e + 1024 * x.startPos.toNat
    blockSize := x.sizeAligned.toNat
    entry := { x with startPos := (BitVec.ofNat 32 (roundUp 1024 e + 1024 * x.startPos.toNat)).toInt } }

end Wz.Spec.Ms
