import Verif.Reader.Model

/-!
# The stand-alone reading functions (`reader.rs` 780-923)

They read from a byte slice without a cursor and without a key.  Panics of indexing and of `unwrap` are values.
-/

set_option autoImplicit false

namespace Wz

/-- i32 addition `a + b` -/
def addInt32 (m : Mode) (a b : Int) : Except Err Int :=
  if -2 ^ 31 ≤ a + b ∧ a + b < 2 ^ 31 then .ok (a + b)
  else match m with
    | .checked => .error .panicOverflow
    | .wrap => .ok (Int.bmod (a + b) (2 ^ 32))

/-- `read_u8_at` .. `read_u64_at` (reader.rs 780-795) for `w` = 1, 2, 4, 8 -/
def freeNat (w : Nat) (buf : Bytes) (pos : Nat) : Except Err Nat := readAt buf w pos

/-- `read_i8_at` .. `read_i64_at` (reader.rs 796-811) for `w` = 1, 2, 4, 8 -/
def freeInt (w : Nat) (buf : Bytes) (pos : Nat) : Except Err Int := (readAt buf w pos).map (signed (8 * w))

/-- the bytes of `read_string_by_len` (reader.rs 815): `buf[offset + index]` for each index -/
def freeBytes (m : Mode) (buf : Bytes) (off : Nat) : (n i : Nat) → Except Err Bytes
  | 0, _ => .ok []
  | n + 1, i => do
    let p ← addU m off i
    match buf[p]? with
    | none => .error .panicIndex
    | some b => do
      let bs ← freeBytes m buf off n (i + 1)
      return b :: bs

/-- `read_string_by_len` (reader.rs 813-818) -/
def freeStringByLen (m : Mode) (buf : Bytes) (len : Nat) (off : Option Nat) : Except Err (List Char) := do
  let bs ← freeBytes m buf (off.getD 0) len 0
  return utf8Lossy bs

/-- `read_wz_int` (reader.rs 846-855) for `w = 4`, `read_wz_int64` (reader.rs 857-866) and `read_wz_long`
(reader.rs 868-870) for `w = 8` -/
def freeWzInt (m : Mode) (w : Nat) (buf : Bytes) (off : Option Nat) : Except Err Int := do
  let small ← freeInt 1 buf (off.getD 0)
  if small = -128 then
    let p ← addU m (off.getD 0) 1
    freeInt w buf p
  else return small

/-- `.unwrap()` of a read (reader.rs 888, 910) -/
def orPanic {α : Type} : Except Err α → Except Err α
  | .ok v => .ok v
  | .error _ => .error .panicUnwrap

/-- the closure of `read_unicode_string` (reader.rs 888): `unwrap` of a read that may fail -/
def freeUnit (m : Mode) (buf : Bytes) (off : Int) (i : Nat) : Except Err (BitVec 16) := do
  let j ← mulI32 m i 2
  let p ← addInt32 m j off
  let v ← orPanic (readAt buf 2 (asUsize p))
  return unicodeChar (BitVec.ofNat 16 v) i

/-- `(i..len).map(..).collect()` (reader.rs 887-889) -/
def freeUnits (m : Mode) (buf : Bytes) (off : Int) : (n i : Nat) → Except Err (List (BitVec 16))
  | 0, _ => .ok []
  | n + 1, i => do
    let u ← freeUnit m buf off i
    let us ← freeUnits m buf off n (i + 1)
    return u :: us

/-- `read_unicode_string` (reader.rs 872-892).  The range `0..len` is empty for a negative length. -/
def freeUnicodeString (m : Mode) (buf : Bytes) (sl : Int) : Except Err (List Char) := do
  let (len, off) ← if sl = 127 then (freeInt 4 buf 0).map fun l => (l, (4 : Int)) else .ok (sl, 0)
  if len = 0 then return []
  let us ← freeUnits m buf off len.toNat 0
  return utf16Lossy us

/-- the closure of `read_ascii_string` (reader.rs 910) -/
def freeChar (m : Mode) (buf : Bytes) (off : Int) (i : Nat) : Except Err Byte := do
  let p ← addInt32 m i off
  let v ← orPanic (readAt buf 1 (asUsize p))
  return asciiChar (BitVec.ofNat 8 v) i

/-- `(i..len).map(..).collect()` (reader.rs 909-911) -/
def freeChars (m : Mode) (buf : Bytes) (off : Int) : (n i : Nat) → Except Err Bytes
  | 0, _ => .ok []
  | n + 1, i => do
    let u ← freeChar m buf off i
    let us ← freeChars m buf off n (i + 1)
    return u :: us

/-- `read_ascii_string` (reader.rs 894-914); `-sl` cannot overflow because `sl = -128` is taken before. -/
def freeAsciiString (m : Mode) (buf : Bytes) (sl : Int) : Except Err (List Char) := do
  let (len, off) ← if sl = -128 then (freeInt 4 buf 0).map fun l => (l, (4 : Int)) else .ok (-sl, 0)
  if len = 0 then return []
  let bs ← freeChars m buf off len.toNat 0
  return utf8Lossy bs

/-- `read_wz_string` (reader.rs 820-831); `&buf[1..]` cannot panic, the buffer has a first byte -/
def freeWzString (m : Mode) (buf : Bytes) : Except Err (List Char) := do
  let small ← freeInt 1 buf 0
  if small = 0 then return []
  else if small > 0 then freeUnicodeString m (buf.drop 1) small
  else freeAsciiString m (buf.drop 1) small

/-- `read_wz_string_block` (reader.rs 833-844); `&buf[a + offset..]` panics behind the end -/
def freeWzStringBlock (m : Mode) (buf : Bytes) (offset : Nat) : Except Err (List Char) := do
  let t ← freeNat 1 buf 0
  if t = 0 ∨ t = 0x73 then freeWzString m (buf.drop 1)
  else if t = 1 ∨ t = 0x1B then
    let a ← freeInt 4 buf 1
    let p ← addU m (asUsize a) offset
    if p ≤ buf.length then freeWzString m (buf.drop p) else .error .panicIndex
  else return []

end Wz
