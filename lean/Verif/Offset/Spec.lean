import Verif.Offset.Model
/-!
# How a writer stores a directory offset

Plain arithmetic on natural numbers modulo `2^32`, written from the side of the tool that *creates* a
file: given the position where the value goes, the header and the real offset, which 32-bit number is
stored?
-/

set_option autoImplicit false

namespace Wz.Spec

/-- `a - b` modulo `2^32` -/
def sub32 (a b : Nat) : Nat := (a + (2 ^ 32 - b % 2 ^ 32)) % 2 ^ 32

/-- complement of a 32-bit number -/
def not32 (a : Nat) : Nat := 2 ^ 32 - 1 - a

/-- rotate a 32-bit number left by `n < 32` bits -/
def rotl32 (x n : Nat) : Nat := (x <<< n) % 2 ^ 32 ||| x >>> (32 - n)

/-- the bit mixing function of KMST1199 -/
def mix32 (k : Nat) : Nat :=
  let k := k ^^^ (k / 2 ^ 16)
  let k := k * 0x7FEB352D % 2 ^ 32
  let k := k ^^^ (k / 2 ^ 15)
  let k := k * 0x846CA68B % 2 ^ 32
  k ^^^ (k / 2 ^ 16)

/-- distance from the header start, complemented, times a multiplier, minus the WZ constant -/
def offsetBase (pos fstart mul : Nat) : Nat := sub32 (not32 (sub32 pos fstart) * mul) 0x581C3F6D

/-- The 32-bit pad a format combines with the offset. -/
def offsetPad (v : OffsetVersion) (pos fstart hash hash1 : Nat) : Nat :=
  match v with
  | .pkg1 =>
    let x := offsetBase pos fstart hash
    rotl32 x (x % 32)
  | .pkg2V1 => rotl32 (offsetBase pos fstart hash ^^^ (hash1 * 0x01010101 % 2 ^ 32)) ((hash ^^^ hash1) % 32)
  | .pkg2V2 =>
    rotl32 (offsetBase pos fstart (hash ^^^ hash1) ^^^ (hash1 * 0x01010101 % 2 ^ 32)) ((hash ^^^ hash1) % 32)
  | .pkg2V3 =>
    let pre := hash1 ^^^ hash
    let mixed := mix32 (pre ^^^ 0x6D4C3B2A) ^^^ 0x91E10DA5
    rotl32 (offsetBase pos fstart (pre + (mixed ^^^ 0xA7E3C093)) ^^^ (hash1 * 0x01010101 % 2 ^ 32) ^^^
      (mixed * 0x9E3779B9 % 2 ^ 32)) ((pre ^^^ mixed) % 32)
  | .pkg2_64V1 =>
    let pre := hash1 ^^^ hash
    let mixed := pre ^^^ 0x33BBBB33
    rotl32 (offsetBase pos fstart (pre + (mixed ^^^ 0xA7E3C093)) ^^^ (hash1 * 0x01010101 % 2 ^ 32) ^^^
      (mixed * 0x9E3779B9 % 2 ^ 32)) 19

/-- The stored form of the offset `real`. PKG1 counts from twice the header start, PKG2 from the header
start; the later PKG2 formats store the complement. -/
def storedOffset (v : OffsetVersion) (pos fstart hash hash1 real : Nat) : Nat :=
  let pad := offsetPad v pos fstart hash hash1
  match v with
  | .pkg1 => pad ^^^ sub32 real (2 * fstart)
  | .pkg2V1 => pad ^^^ sub32 real fstart
  | _ => not32 (pad ^^^ sub32 real fstart)

/-- The stored form of an entry count in PKG2-64: the count in the upper 48 bits, any 16 bits below, then
xored with three keys. -/
def storedCount (hash1 hash : BitVec 64) (n : Nat) (noise : BitVec 16) : BitVec 64 :=
  ((BitVec.ofNat 48 n) ++ noise : BitVec 64) ^^^ 0x550EC4DD02C468EC#64 ^^^ hash ^^^ hash1

end Wz.Spec
