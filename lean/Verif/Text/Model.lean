import Verif.Base
/-!
# Text encodings used by the library (Rust standard library functions)

`/repo` calls `String::from_utf16_lossy`, `String::from_utf16`, `String::from_utf8_lossy`,
`String::from_utf8`, `str::encode_utf16`, `str::bytes` (reader.rs 129-179, 557-570; property/string.rs
110-229; property/lua.rs 37-84).  They are the Rust standard library's, modelled here from its documented
algorithm.  A Rust `char` is a Unicode scalar value, which is what Lean's `Char` is; a Rust `String` is
modelled as the list of its characters.
-/

set_option autoImplicit false

namespace Wz

/-- U+FFFD, what the lossy decoders insert. -/
def replacement : Char := Char.ofNat 0xFFFD

/-! ## UTF-16 -/

/-- `char::encode_utf16` (used by reader/property code through `str::encode_utf16`). -/
def utf16Enc (c : Char) : List (BitVec 16) :=
  if c.toNat < 0x10000 then [BitVec.ofNat 16 c.toNat]
  else [BitVec.ofNat 16 (0xD800 + (c.toNat - 0x10000) / 0x400),
        BitVec.ofNat 16 (0xDC00 + (c.toNat - 0x10000) % 0x400)]

def utf16EncStr (s : List Char) : List (BitVec 16) := s.flatMap utf16Enc

def isHigh (u : BitVec 16) : Bool := 0xD800 ≤ u.toNat && u.toNat < 0xDC00
def isLow (u : BitVec 16) : Bool := 0xDC00 ≤ u.toNat && u.toNat < 0xE000

/-- `char::decode_utf16`: a list of characters and unpaired surrogates (`none`). -/
def utf16Dec : List (BitVec 16) → List (Option Char)
  | [] => []
  | u :: rest =>
    if isLow u then none :: utf16Dec rest
    else if isHigh u then
      match rest with
      | [] => [none]
      | v :: rest' =>
        if isLow v then
          some (Char.ofNat (0x10000 + (u.toNat - 0xD800) * 0x400 + (v.toNat - 0xDC00))) :: utf16Dec rest'
        else none :: utf16Dec (v :: rest')
    else some (Char.ofNat u.toNat) :: utf16Dec rest

/-- `String::from_utf16_lossy` -/
def utf16Lossy (us : List (BitVec 16)) : List Char :=
  (utf16Dec us).map fun o => match o with | some c => c | none => replacement

/-- all results present -/
def allSome {α : Type} : List (Option α) → Option (List α)
  | [] => some []
  | some a :: r => (allSome r).map (a :: ·)
  | none :: _ => none

/-- `String::from_utf16` -/
def utf16Strict (us : List (BitVec 16)) : Except Err (List Char) :=
  match allSome (utf16Dec us) with
  | some s => .ok s
  | none => .error .decode

/-! ## UTF-8 -/

/-- `char::encode_utf8`; a Rust `str` is stored as these bytes. -/
def utf8Enc (c : Char) : Bytes :=
  let n := c.toNat
  if n < 0x80 then [BitVec.ofNat 8 n]
  else if n < 0x800 then [BitVec.ofNat 8 (0xC0 + n / 0x40), BitVec.ofNat 8 (0x80 + n % 0x40)]
  else if n < 0x10000 then
    [BitVec.ofNat 8 (0xE0 + n / 0x1000), BitVec.ofNat 8 (0x80 + n / 0x40 % 0x40),
     BitVec.ofNat 8 (0x80 + n % 0x40)]
  else
    [BitVec.ofNat 8 (0xF0 + n / 0x40000), BitVec.ofNat 8 (0x80 + n / 0x1000 % 0x40),
     BitVec.ofNat 8 (0x80 + n / 0x40 % 0x40), BitVec.ofNat 8 (0x80 + n % 0x40)]

def utf8EncStr (s : List Char) : Bytes := s.flatMap utf8Enc

def isCont (b : Nat) : Bool := 0x80 ≤ b && b < 0xC0

/-- may `b1` follow the three-byte lead `b0` (excludes overlong forms and surrogates) -/
def ok3 (b0 b1 : Nat) : Bool :=
  (b0 == 0xE0 && 0xA0 ≤ b1 && b1 < 0xC0) || (0xE1 ≤ b0 && b0 ≤ 0xEC && 0x80 ≤ b1 && b1 < 0xC0) ||
  (b0 == 0xED && 0x80 ≤ b1 && b1 < 0xA0) || (0xEE ≤ b0 && b0 ≤ 0xEF && 0x80 ≤ b1 && b1 < 0xC0)

/-- may `b1` follow the four-byte lead `b0` -/
def ok4 (b0 b1 : Nat) : Bool :=
  (b0 == 0xF0 && 0x90 ≤ b1 && b1 < 0xC0) || (0xF1 ≤ b0 && b0 ≤ 0xF3 && 0x80 ≤ b1 && b1 < 0xC0) ||
  (b0 == 0xF4 && 0x80 ≤ b1 && b1 < 0x90)

/-- One step of `core::str::lossy::Utf8Chunks`: decode the character at the front, or report an invalid
sequence (`none`), and return the bytes after it. -/
def utf8Step (b0 : Byte) (rest : Bytes) : Option Char × Bytes :=
  let x0 := b0.toNat
  if x0 < 0x80 then (some (Char.ofNat x0), rest)
  else if 0xC2 ≤ x0 ∧ x0 ≤ 0xDF then
    match rest with
    | b1 :: r1 =>
      if isCont b1.toNat then (some (Char.ofNat ((x0 - 0xC0) * 0x40 + (b1.toNat - 0x80))), r1)
      else (none, rest)
    | [] => (none, [])
  else if 0xE0 ≤ x0 ∧ x0 ≤ 0xEF then
    match rest with
    | b1 :: r1 =>
      if ok3 x0 b1.toNat then
        match r1 with
        | b2 :: r2 =>
          if isCont b2.toNat then
            (some (Char.ofNat ((x0 - 0xE0) * 0x1000 + (b1.toNat - 0x80) * 0x40 + (b2.toNat - 0x80))), r2)
          else (none, r1)
        | [] => (none, [])
      else (none, rest)
    | [] => (none, [])
  else if 0xF0 ≤ x0 ∧ x0 ≤ 0xF4 then
    match rest with
    | b1 :: r1 =>
      if ok4 x0 b1.toNat then
        match r1 with
        | b2 :: r2 =>
          if isCont b2.toNat then
            match r2 with
            | b3 :: r3 =>
              if isCont b3.toNat then
                (some (Char.ofNat ((x0 - 0xF0) * 0x40000 + (b1.toNat - 0x80) * 0x1000 +
                  (b2.toNat - 0x80) * 0x40 + (b3.toNat - 0x80))), r3)
              else (none, r2)
            | [] => (none, [])
          else (none, r1)
        | [] => (none, [])
      else (none, rest)
    | [] => (none, [])
  else (none, rest)

/-- iterate `utf8Step`; the bound is the number of bytes left, which always suffices because each step
consumes at least one byte (`utf8DecAux_fuel`). -/
def utf8DecAux : Nat → Bytes → List (Option Char)
  | 0, _ => []
  | _ + 1, [] => []
  | n + 1, b :: rest =>
    let r := utf8Step b rest
    r.1 :: utf8DecAux n r.2

def utf8Dec (bs : Bytes) : List (Option Char) := utf8DecAux bs.length bs

/-- `String::from_utf8_lossy` -/
def utf8Lossy (bs : Bytes) : List Char :=
  (utf8Dec bs).map fun o => match o with | some c => c | none => replacement

/-- `String::from_utf8` -/
def utf8Strict (bs : Bytes) : Except Err (List Char) :=
  match allSome (utf8Dec bs) with
  | some s => .ok s
  | none => .error .decode

/-- `str::is_ascii` -/
def isAsciiStr (s : List Char) : Bool := s.all fun c => c.toNat < 0x80

end Wz
