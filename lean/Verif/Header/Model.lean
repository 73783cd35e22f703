import Verif.Reader.Model
/-!
# The file header (`/repo/src/header.rs`)
-/

set_option autoImplicit false

namespace Wz

/-- `PKGVersion` (util/version/mod.rs 53-59) -/
inductive Pkg where
  | v1
  | v2
  | unknown
deriving DecidableEq, Repr

/-- `WzHeaderFlag` (header.rs 7-24) -/
structure HeaderFlag where
  bits : BitVec 8
deriving DecidableEq, Repr

namespace HeaderFlag
/-- `PKG2_RANDOM_HEADER` (header.rs 12) -/
def random : HeaderFlag := ⟨2#8⟩
/-- `PKG2_RANDOM_HEADER64` (header.rs 13) -/
def random64 : HeaderFlag := ⟨4#8⟩
/-- `contains` (header.rs 15-18) -/
def contains (a b : HeaderFlag) : Bool := a.bits &&& b.bits == b.bits
end HeaderFlag

/-- `WzHeader` (header.rs 26-42).  `fsize`, `fstart`, `dataStart` are unsigned integers, `hash1`/`hash2`
64-bit words. -/
structure Header where
  ident : Pkg := .unknown
  fsize : Nat := 0
  fstart : Nat := 0
  dataStart : Nat := 0
  encVer : Option Nat := none
  hash1 : BitVec 64 := 0#64
  hash2 : BitVec 64 := 0#64
  flags : HeaderFlag := ⟨0#8⟩
deriving DecidableEq, Repr

namespace Header

/-- `hash1_u32` (header.rs 54-56) -/
def hash1u32 (h : Header) : BitVec 32 := h.hash1.truncate 32

/-- `hash2_u32` (header.rs 58-61) -/
def hash2u32 (h : Header) : BitVec 32 := h.hash2.truncate 32

/-- `is_pkg2_64` (header.rs 63-66) -/
def isPkg2_64 (h : Header) : Bool := h.flags.contains .random64

/-- "PKG1" -/
def magic1 : Bytes := [0x50#8, 0x4B#8, 0x47#8, 0x31#8]
/-- "PKG2" -/
def magic2 : Bytes := [0x50#8, 0x4B#8, 0x47#8, 0x32#8]

/-- `get_ident` (header.rs 73-83) and `PKGVersion::from(&str)` (util/version/mod.rs 61-69).  scroll's
`pread::<&str>` stops at a zero byte or fails on invalid UTF-8; neither can give a string equal to one of
the two four letter names unless all four bytes are those letters, so comparing bytes is the same. -/
def getIdent (buf : Bytes) : Except Err Pkg :=
  if 4 ≤ buf.length then
    .ok (if buf.take 4 = magic1 then .v1 else if buf.take 4 = magic2 then .v2 else .unknown)
  else .error .read

/-- `get_wz_fsize` (header.rs 84-87) -/
def getFsize (buf : Bytes) : Except Err Nat := readAt buf 8 4

/-- `get_wz_fstart` (header.rs 88-91) -/
def getFstart (buf : Bytes) : Except Err Nat := readAt buf 4 12

/-- the test on the entry count in `get_encrypted_version` (header.rs 103) -/
def looksLikeCount (n : Int) : Bool :=
  decide (n > 0) && decide (n % 256 = 0) && decide (n ≤ 0xffff)

/-- `get_encrypted_version` (header.rs 92-109).  `entry_count & 0xff == 0` on an `i32` is divisibility by
256. -/
def getEncVer (fsize fstart : Nat) (buf : Bytes) : Option Nat :=
  match readAt buf 2 fstart with
  | .error _ => none
  | .ok v =>
    if fsize < 2 ∨ v > 0xff then none
    else if v = 0x80 then
      match readAt buf 4 (fstart + 2) with
      | .error _ => none
      | .ok n => if looksLikeCount (signed 32 n) then none else some v
    else some v

/-- `buf[i]` with a panicking bound check -/
def byteAt (buf : Bytes) (i : Nat) : Except Err Byte :=
  match buf[i]? with
  | some b => .ok b
  | none => .error .panicIndex

/-- the little-endian value of the bytes at the given positions, as in `from_le_bytes([buf[..], ..])` -/
def gather (buf : Bytes) (ps : List Nat) : Except Err Nat := do
  let bs ← ps.mapM (byteAt buf)
  pure (leNat bs)

/-- `U32_HEADER_LEN` (header.rs 191) -/
def len32 : Nat := 60 + 8
/-- `U64_HEADER_LEN` (header.rs 192) -/
def len64 : Nat := 150

/-- positions used by `read_kmst1201_random_header` (header.rs 198) -/
def t1201h1 : List Nat := [0x43, 0x1A, 0x30, 0x10]
/-- header.rs 199 -/
def t1201h2 : List Nat := [0x2D, 0x07, 0x3F, 0x2E]
/-- header.rs 200; the four high bytes are zero there -/
def t1201fsize : List Nat := [0x15, 0x19, 0x39, 0x41]

/-- positions used by `read_kmst1202_random_header` (header.rs 206-208) -/
def t1202h1 : List Nat := [0x48, 0x24, 0x0F, 0x31, 0x46, 0x47, 0x63, 0x67]
/-- header.rs 209-211 -/
def t1202h2 : List Nat := [0x8E, 0x8C, 0x93, 0x0E, 0x64, 0x7B, 0x2E, 0x4D]
/-- header.rs 212 -/
def t1202fsize : List Nat := [0x12, 0x09, 0x02, 0x95]

/-- `read_kmst1201_random_header` and `read_kmst1202_random_header` (header.rs 196-214), which differ only
in their position tables -/
def readScattered (p1 p2 pf : List Nat) (buf : Bytes) : Except Err (Nat × Nat × Nat) := do
  let h1 ← gather buf p1
  let h2 ← gather buf p2
  let fs ← gather buf pf
  pure (h1, h2, fs)

/-- `read_pkg2_random_header_from_buf` (header.rs 157-188); `lib "header"` is `UnableToReadWzHeader` -/
def readRandom (buf : Bytes) (size : Nat) (rd : Bytes → Except Err (Nat × Nat × Nat)) (fl : HeaderFlag) :
    Except Err (Header × Nat) :=
  if buf.length < size then .error (.lib "header")
  else
    match rd buf with
    | .error x => .error x
    | .ok (h1, h2, fs) =>
      if fs ≠ buf.length - size then .error (.lib "header")
      else .ok ({ ident := .v2, fsize := fs, fstart := size, dataStart := size, encVer := none,
                  hash1 := BitVec.ofNat 64 h1, hash2 := BitVec.ofNat 64 h2, flags := fl }, size)

/-- the `PKGVersion::Unknown` branch of `read_from_buf` (header.rs 115-130).  `if let Ok` swallows the
error value of the first attempt, but would not swallow a panic. -/
def readUnknown (buf : Bytes) : Except Err (Header × Nat) :=
  match readRandom buf len64 (readScattered t1202h1 t1202h2 t1202fsize) .random64 with
  | .ok r => .ok r
  | .error x =>
    if x.isPanic then .error x
    else readRandom buf len32 (readScattered t1201h1 t1201h2 t1201fsize) .random

/-- the `PKGVersion::V1` branch of `read_from_buf` (header.rs 132-142, 154) -/
def readV1 (buf : Bytes) : Except Err (Header × Nat) := do
  let fsize ← getFsize buf
  let fstart ← getFstart buf
  let ev := getEncVer fsize fstart buf
  pure ({ ident := .v1, fsize := fsize, fstart := fstart,
          dataStart := if ev.isSome then fstart + 2 else fstart, encVer := ev }, fstart)

/-- the `PKGVersion::V2` branch of `read_from_buf` (header.rs 132-135, 144-154) -/
def readV2 (buf : Bytes) : Except Err (Header × Nat) := do
  let fsize ← getFsize buf
  let fstart ← getFstart buf
  let h1 ← readAt buf 4 fstart
  let h2 ← readAt buf 4 (fstart + 4)
  pure ({ ident := .v2, fsize := fsize, fstart := fstart, dataStart := fstart + 8,
          hash1 := BitVec.ofNat 64 h1, hash2 := BitVec.ofNat 64 h2 }, fstart)

/-- `read_from_buf` (header.rs 110-155).  `data_start` is `u32 as usize + 8` at most, so the additions
cannot overflow. -/
def readFromBuf (buf : Bytes) : Except Err (Header × Nat) := do
  match ← getIdent buf with
  | .unknown => readUnknown buf
  | .v1 => readV1 buf
  | .v2 => readV2 buf

/-- `get_header_slice` (header.rs 68-72): `unwrap` panics on a short buffer, the slice panics when
`fstart` is beyond the end. -/
def headerSlice (buf : Bytes) : Except Err Bytes :=
  match getFstart buf with
  | .error _ => .error .panicUnwrap
  | .ok fs => if fs ≤ buf.length then .ok (buf.take fs) else .error .panicIndex

end Header
end Wz
