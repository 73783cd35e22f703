import Verif.Ms.SnowModel
import Verif.Property.Model
import Verif.Value.Model
/-!
# The two buffering readers of MS archives (ms/snow2_reader.rs, ms/chacha20_reader.rs)
-/

set_option autoImplicit false

namespace Wz

/-- `dst[s..t].copy_from_slice(src)`: panics if the range is outside or the lengths differ -/
def setRange (dst : Bytes) (s t : Nat) (src : Bytes) : Except Err Bytes :=
  if s ≤ t ∧ t ≤ dst.length ∧ src.length = t - s then .ok (dst.take s ++ src ++ dst.drop t) else .error .panicIndex

/-- `chunks_exact(2)` mapped through `u16::from_le_bytes` (ms/snow2_reader.rs 71-74, ms/chacha20_reader.rs 55-59): an odd byte at the
end is left out -/
def unitPairs : Bytes → List (BitVec 16)
  | a :: b :: r => BitVec.ofNat 16 (a.toNat + 256 * b.toNat) :: unitPairs r
  | _ => []

/-! ## Snow2 -/

/-- `Snow2Reader` (ms/snow2_reader.rs 9-15) -/
structure SnowRd where
  data : Bytes
  offset : Nat
  dec : Snow2
  buffer : Bytes
  bufLen : Nat

namespace SnowRd

/-- `new` (ms/snow2_reader.rs 18-26) -/
def new (data key : Bytes) : SnowRd := ⟨data, 0, Snow2.new key, List.replicate 4 0#8, 0⟩

/-- one block is read and decrypted (ms/snow2_reader.rs 47-52, 110-113, 118): `pread_with::<u32>`, `decrypt_block`, `to_le_bytes` -/
def block (r : SnowRd) : Except Err (Bytes × SnowRd) :=
  if r.offset + 4 ≤ r.data.length then
    match r.dec.decryptBlock (BitVec.ofNat 32 (leNat ((r.data.drop r.offset).take 4))) with
    | .error e => .error e
    | .ok (w, d) => .ok (toLE 4 w.toNat, { r with dec := d, offset := r.offset + 4 })
  else .error .read

/-- the four bytes of `read_u32` (ms/snow2_reader.rs 28-45) and of `read_i32` (ms/snow2_reader.rs 46-68) -/
def read4 (r : SnowRd) : Except Err (Bytes × SnowRd) := do
  let (bytes, r) ← r.block
  if r.bufLen > 0 then
    let old ← sliceIdx r.buffer 0 r.bufLen
    let b ← setRange (List.replicate 4 0#8) 0 r.bufLen old
    let front ← sliceIdx bytes 0 (4 - r.bufLen)
    let b ← setRange b r.bufLen 4 front
    let back ← sliceIdx bytes r.bufLen 4
    let buffer ← setRange r.buffer 0 (4 - r.bufLen) back
    return (b, { r with buffer := buffer })
  else return (bytes, r)

/-- `read_u32` (ms/snow2_reader.rs 28-45) -/
def readU32 (r : SnowRd) : Except Err (Nat × SnowRd) := do
  let (b, r) ← r.read4
  return (leNat b, r)

/-- `read_i32` (ms/snow2_reader.rs 46-68) -/
def readI32 (r : SnowRd) : Except Err (Int × SnowRd) := do
  let (b, r) ← r.read4
  return (signed 32 (leNat b), r)

/-- the loop of `write_bytes_to` (ms/snow2_reader.rs 109-126) -/
def writeLoop (len : Nat) : (fuel : Nat) → SnowRd → (dest : Bytes) → (remaining : Int) → Except Err (Bytes × SnowRd)
  | 0, r, dest, remaining => if remaining > 0 then .error .fuel else .ok (dest, r)
  | fuel + 1, r, dest, remaining =>
    if remaining > 0 then do
      let (bytes, r) ← r.block
      let start := len - remaining.toNat
      let stop := min (start + 4) len
      let dataLen := stop - start
      let src ← sliceIdx bytes 0 dataLen
      let dest ← setRange dest start stop src
      if remaining - 4 < 0 then
        let rest := bytes.drop dataLen
        let buffer ← setRange r.buffer 0 rest.length rest
        writeLoop len fuel { r with bufLen := rest.length, buffer := buffer } dest (remaining - 4)
      else writeLoop len fuel r dest (remaining - 4)
    else .ok (dest, r)

/-- `write_bytes_to` (ms/snow2_reader.rs 85-129).  Simplified: the destination has `len` bytes, as at every call (ms/file.rs 109,
ms/snow2_reader.rs 79-81); its new contents are returned. -/
def writeBytes (m : Mode) (r : SnowRd) (len : Nat) : Except Err (Bytes × SnowRd) :=
  let remaining := signed 32 len
  let dest := List.replicate len 0#8
  if r.bufLen > 0 then
    if len < r.bufLen then do
      let src ← sliceIdx r.buffer 0 len
      let dest ← setRange dest 0 len src
      let tail ← sliceIdx r.buffer len 4
      let buffer ← setRange (List.replicate 4 0#8) 0 4 tail
      return (dest, { r with bufLen := r.bufLen - len, buffer := buffer })
    else do
      let src ← sliceIdx r.buffer 0 r.bufLen
      let dest ← setRange dest 0 r.bufLen src
      let remaining ← subI32 m remaining r.bufLen
      writeLoop len remaining.toNat { r with bufLen := 0 } dest remaining
  else writeLoop len remaining.toNat r dest remaining

/-- `read_bytes` (ms/snow2_reader.rs 78-84); a vector of more than `isize::MAX` bytes cannot be made ("capacity overflow"); running
out of memory is not modelled -/
def readBytes (m : Mode) (r : SnowRd) (len : Nat) : Except Err (Bytes × SnowRd) :=
  if len ≥ 2 ^ 63 then .error .panicOverflow else r.writeBytes m len

/-- `read_utf16_string` (ms/snow2_reader.rs 69-77) -/
def readUtf16 (m : Mode) (r : SnowRd) (len : Nat) : Except Err (List Char × SnowRd) := do
  let (bs, r) ← r.readBytes m len
  let s ← utf16Strict (unitPairs bs)
  return (s, r)

end SnowRd

/-! ## ChaCha20 -/

/-- The external cipher `c2_chacha::Ietf`: the 64 key bytes for a key, a nonce and a block counter.  This function is a parameter. -/
abbrev ChaCha := (key nonce : Bytes) → (counter : Nat) → Bytes

/-- `ChaCha20Reader` (ms/chacha20_reader.rs 18-24).  The cipher state is its block counter: the reader only applies whole blocks. -/
structure ChaRd where
  data : Bytes
  offset : Nat
  ks : Nat → Bytes
  counter : Nat
  bufOff : Nat
  buffer : Bytes

namespace ChaRd

/-- `new` (ms/chacha20_reader.rs 27-39) -/
def new (C : ChaCha) (data key nonce : Bytes) : ChaRd := ⟨data, 0, C key nonce, 0, 64, List.replicate 64 0#8⟩

/-- the next chunk is decrypted into the buffer (ms/chacha20_reader.rs 82-88) -/
def refill (r : ChaRd) : Except Err ChaRd :=
  if r.bufOff ≥ 64 then do
    let chunk ← sliceIdx r.data r.offset (r.offset + 64)
    return { r with buffer := List.zipWith (· ^^^ ·) chunk (r.ks r.counter), counter := r.counter + 1, offset := r.offset + 64, bufOff := 0 }
  else .ok r

/-- the loop of `apply_keystream` (ms/chacha20_reader.rs 81-97); every round reads at least one byte -/
def applyLoop : (fuel : Nat) → ChaRd → (remain : Nat) → Except Err (Bytes × ChaRd)
  | 0, r, remain => if remain > 0 then .error .fuel else .ok ([], r)
  | fuel + 1, r, remain =>
    if remain > 0 then do
      let r ← r.refill
      let count := min remain (64 - r.bufOff)
      let piece ← sliceIdx r.buffer r.bufOff (r.bufOff + count)
      let (rest, r) ← applyLoop fuel { r with bufOff := r.bufOff + count } (remain - count)
      return (piece ++ rest, r)
    else .ok ([], r)

/-- `apply_keystream` (ms/chacha20_reader.rs 78-103) on a slice of `len` bytes: its new contents.  `set_stream_param(0, 0)` sets the
block counter to zero. -/
def apply (r : ChaRd) (len : Nat) : Except Err (Bytes × ChaRd) := do
  let (out, r) ← r.applyLoop len len
  if r.bufOff ≥ 64 then return (out, { r with counter := 0 }) else return (out, r)

/-- `read_bytes` (ms/chacha20_reader.rs 63-67) -/
def readBytes (r : ChaRd) (len : Nat) : Except Err (Bytes × ChaRd) := do
  let _ ← sliceIdx r.data r.offset (r.offset + len)
  r.apply len

/-- `read_u32` (ms/chacha20_reader.rs 40-46) -/
def readU32 (r : ChaRd) : Except Err (Nat × ChaRd) := do
  let _ ← sliceIdx r.data r.offset (r.offset + 4)
  let (b, r) ← r.apply 4
  return (leNat b, r)

/-- `read_i32` (ms/chacha20_reader.rs 47-53) -/
def readI32 (r : ChaRd) : Except Err (Int × ChaRd) := do
  let _ ← sliceIdx r.data r.offset (r.offset + 4)
  let (b, r) ← r.apply 4
  return (signed 32 (leNat b), r)

/-- `read_utf16_string` (ms/chacha20_reader.rs 54-62) -/
def readUtf16 (r : ChaRd) (len : Nat) : Except Err (List Char × ChaRd) := do
  let (bs, r) ← r.readBytes len
  let s ← utf16Strict (unitPairs bs)
  return (s, r)

/-- `write_bytes_to` (ms/chacha20_reader.rs 68-77) with a destination of `dest` bytes -/
def writeBytes (r : ChaRd) (dest len : Nat) : Except Err (Bytes × ChaRd) := do
  if len > dest then .error (.lib "DecryptError")
  else
    let src ← sliceIdx r.data r.offset (r.offset + len)
    let _ ← setRange (List.replicate dest 0#8) 0 dest src
    r.apply dest

end ChaRd

end Wz
