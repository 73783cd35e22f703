import Verif.Header.Model
import Verif.Keys.Model
/-!
# Directory offsets (`/repo/src/util/offset.rs`)
-/

set_option autoImplicit false

namespace Wz

/-- `WzOffsetVersion` (util/offset.rs 8-16) -/
inductive OffsetVersion where
  | pkg1
  | pkg2V1
  | pkg2V2
  | pkg2V3
  | pkg2_64V1
deriving DecidableEq, Repr

/-- `WzOffsetMeta` (util/offset.rs 36-41): `offset` is the position of the stored value -/
structure OffsetMeta where
  hash : BitVec 64
  encrypted : BitVec 32
  offset : Nat
deriving DecidableEq, Repr

/-- `hash_u32` (util/offset.rs 43-48) -/
def OffsetMeta.hash32 (m : OffsetMeta) : BitVec 32 := m.hash.truncate 32

/-- `WZ_OFFSET` (util/offset.rs 6) -/
def wzOffset : BitVec 32 := 0x581C3F6D#32

/-- `read_wz_offset` (util/offset.rs 55-71), `usize` arithmetic throughout.  `header_size * 2` is the one
operation that is not wrapping. -/
def readWzOffset (mode : Mode) (h : Header) (m : OffsetMeta) : Except Err Nat :=
  let hs : BitVec 64 := BitVec.ofNat 64 h.fstart
  let o : BitVec 64 := (BitVec.ofNat 64 m.offset - hs) ^^^ 0xFFFFFFFF#64
  let o := (o * m.hash32.setWidth 64) &&& 0xFFFFFFFF#64
  let o := o - wzOffset.setWidth 64
  let o := ((o.truncate 32).rotateLeft ((o.truncate 32 &&& 0x1F#32).toNat)).signExtend 64 &&& 0xFFFFFFFF#64
  let o := (o ^^^ m.encrypted.setWidth 64) &&& 0xFFFFFFFF#64
  if mode = .checked ∧ 2 ^ 64 ≤ h.fstart * 2 then .error .panicOverflow
  else .ok ((o + hs * 2#64) &&& 0xFFFFFFFF#64).toNat

/-- `read_wz_offset_pkg2` (util/offset.rs 75-95) -/
def readWzOffsetPkg2 (h : Header) (m : OffsetMeta) : Except Err Nat :=
  let offset : BitVec 32 := BitVec.ofNat 32 m.offset
  let hs : BitVec 32 := BitVec.ofNat 32 h.fstart
  let hash := m.hash32
  let hash1 := h.hash1u32
  let distance := (hash ^^^ hash1) &&& 0x1F#32
  let o := offset - hs
  let o := ~~~o
  let o := o * hash
  let o := o - wzOffset
  let o := o ^^^ (hash1 * 0x01010101#32)
  let o := o.rotateLeft distance.toNat
  let o := o ^^^ m.encrypted
  let o := o + hs
  .ok o.toNat

/-- `read_wz_offset_pkg2_v2` (util/offset.rs 99-119) -/
def readWzOffsetPkg2V2 (h : Header) (m : OffsetMeta) : Except Err Nat :=
  let offset : BitVec 32 := BitVec.ofNat 32 m.offset
  let hs : BitVec 32 := BitVec.ofNat 32 h.fstart
  let hash := m.hash32
  let hash1 := h.hash1u32
  let distance := (hash ^^^ hash1) &&& 0x1F#32
  let o := offset - hs
  let o := ~~~o
  let o := o * (hash ^^^ hash1)
  let o := o - wzOffset
  let o := o ^^^ (hash1 * 0x01010101#32)
  let o := o.rotateLeft distance.toNat
  let o := o ^^^ ~~~m.encrypted
  let o := o + hs
  .ok o.toNat

/-- `read_wz_offset_pkg2_v3` (util/offset.rs 123-146) -/
def readWzOffsetPkg2V3 (h : Header) (m : OffsetMeta) : Except Err Nat :=
  let offset : BitVec 32 := BitVec.ofNat 32 m.offset
  let hs : BitVec 32 := BitVec.ofNat 32 h.fstart
  let hash := m.hash32
  let hash1 := h.hash1u32
  let pre := hash1 ^^^ hash
  let mixed := mixKmst1199 (pre ^^^ 0x6D4C3B2A#32) ^^^ 0x91E10DA5#32
  let distance := (pre ^^^ mixed) &&& 0x1F#32
  let o := offset - hs
  let o := ~~~o
  let o := o * (pre + (mixed ^^^ 0xA7E3C093#32))
  let o := o - wzOffset
  let o := o ^^^ (hash1 * 0x01010101#32)
  let o := o ^^^ (mixed * 0x9E3779B9#32)
  let o := o.rotateLeft distance.toNat
  let o := o ^^^ ~~~m.encrypted
  let o := o + hs
  .ok o.toNat

/-- `read_wz_offset_pkg2_64_v1` (util/offset.rs 150-168) -/
def readWzOffsetPkg2_64V1 (h : Header) (m : OffsetMeta) : Except Err Nat :=
  let offset : BitVec 32 := BitVec.ofNat 32 m.offset
  let hs : BitVec 32 := BitVec.ofNat 32 h.fstart
  let pre := h.hash1u32 ^^^ m.hash32
  let mixed := pre ^^^ 0x33BBBB33#32
  let o := offset - hs
  let o := ~~~o
  let o := o * (pre + (mixed ^^^ 0xA7E3C093#32))
  let o := o - wzOffset
  let o := o ^^^ (h.hash1u32 * 0x01010101#32)
  let o := o ^^^ (mixed * 0x9E3779B9#32)
  let o := o.rotateLeft 19
  let o := o ^^^ ~~~m.encrypted
  let o := o + hs
  .ok o.toNat

/-- `WzOffsetVersion::get_calculator` (util/offset.rs 19-27) -/
def OffsetVersion.calc (v : OffsetVersion) (mode : Mode) (h : Header) (m : OffsetMeta) : Except Err Nat :=
  match v with
  | .pkg1 => readWzOffset mode h m
  | .pkg2V1 => readWzOffsetPkg2 h m
  | .pkg2V2 => readWzOffsetPkg2V2 h m
  | .pkg2V3 => readWzOffsetPkg2V3 h m
  | .pkg2_64V1 => readWzOffsetPkg2_64V1 h m

/-- `decrypt_pkg2_entry_count_64_v1` (util/offset.rs 170-182); `lib "InvalidEntryCount"` is
`directory::Error::InvalidEntryCount` -/
def entryCount64 (h : Header) (hash : BitVec 64) (enc : BitVec 64) : Except Err Nat :=
  let d := (enc ^^^ h.hash1 ^^^ hash ^^^ 0x550EC4DD02C468EC#64).sshiftRight 16
  if d.toInt > 2 ^ 31 - 1 then .error (.lib "InvalidEntryCount")
  else .ok (asUsize d.toInt)

end Wz
