import Verif.Keys.Model
/-!
# PKG2 version hashes (`/repo/src/util/version/pkg2.rs`)
-/

set_option autoImplicit false

namespace Wz
namespace Pkg2

/-- `VERIFY_KEY` (pkg2.rs 8) -/
def verifyKey : BitVec 32 := 0x1A2B3C4D#32
/-- `VERIFY_KEY_V4` (pkg2.rs 10) -/
def verifyKeyV4 : BitVec 32 := 0x6D4C3B2A#32
/-- `VERIFY_KEY_V5` (pkg2.rs 12) -/
def verifyKeyV5 : BitVec 32 := 0x2A2C818B#32
/-- `VERIFY_KEY_V6` (pkg2.rs 14) -/
def verifyKeyV6 : BitVec 64 := 0xABCDEF0123456789#64

/-! ### the check equations -/

/-- `Pkg2VersionGenV1::verify_hash` (pkg2.rs 75-78) -/
def verifyV1 (h1 h2 t : BitVec 32) : Bool :=
  let lt := h1.rotateLeft 7 ^^^ t
  lt == h2

/-- `Pkg2VersionGenV2::verify_hash` (pkg2.rs 101-105) -/
def verifyV2 (h1 h2 t : BitVec 32) : Bool :=
  let base := h1 ^^^ (t + verifyKey)
  let lt := base.rotateLeft (t &&& 0x1f#32).toNat
  (lt ^^^ t) == h2

/-- `Pkg2VersionGenV3::verify_hash` (pkg2.rs 150-157); the sum of two numbers below 16 cannot overflow -/
def verifyV3 (h1 h2 t : BitVec 32) : Bool :=
  let base := h1 ^^^ (t + verifyKey)
  let amount := (t &&& 0xf#32).toNat + (h1 &&& 0xf#32).toNat
  let lt := base.rotateLeft amount
  (~~~(lt ^^^ t ^^^ h1)) == h2

/-- the part common to the V4 and V5 checks (pkg2.rs 202-213, 238-249) -/
def mixV4 (h1 t : BitVec 32) : BitVec 32 :=
  let mixBase := h1 ^^^ t
  let mixed := mixKmst1199 (mixBase ^^^ verifyKeyV4) ^^^ 0x91E10DA5#32
  let base := h1 ^^^ ((mixed &&& 0xFFFF#32) + t + verifyKey)
  let amount := ((mixed ^^^ t) &&& 0xF#32).toNat + (h1 &&& 0xF#32).toNat
  let lt := base.rotateLeft amount
  lt ^^^ (mixBase + mixed)

/-- `Pkg2VersionGenV4::verify_hash` (pkg2.rs 201-214) -/
def verifyV4 (h1 h2 t : BitVec 32) : Bool := mixV4 h1 t == ~~~h2

/-- `Pkg2VersionGenV5::verify_hash` (pkg2.rs 237-250) -/
def verifyV5 (h1 h2 t : BitVec 32) : Bool := (mixV4 h1 t ^^^ verifyKeyV5) == h2

/-- `Pkg2VersionGenV6::verify_hash` (pkg2.rs 275-277) -/
def verifyV6 (h1 h2 t : BitVec 64) : Bool := t == (h1 ^^^ h2 ^^^ verifyKeyV6)

/-! ### the backtracking search -/

/-- the read-only part of `HashGenInfo` (pkg2.rs 294-305) -/
structure Info where
  hash1 : BitVec 32
  hash2 : BitVec 32
  s : Nat
  lowBitLen : Nat
  lowBits : BitVec 32
  target : BitVec 32
  validator : BitVec 32 → BitVec 32 → BitVec 32 → Bool

/-- the mutable part of `HashGenInfo` (pkg2.rs 294-305).  Simplification: the `u32` cells of `carries` and
`lhs_bits` only ever hold 0 or 1 and are represented by booleans; they are read with a default instead of
a bound check, and never outside their bounds. -/
structure St where
  carries : List Bool
  lhs : List Bool
  results : List (BitVec 32)

/-- the fresh arrays of `calc_hash` (`fill(0)`, pkg2.rs 122-123, 173-174) -/
def St.fresh (results : List (BitVec 32)) : St := ⟨List.replicate 33 false, List.replicate 32 false, results⟩

/-- `v_bit + ((VERIFY_KEY >> bit_idx) & 1) + carries[bit_idx]` (pkg2.rs 408) -/
def bitSum (st : St) (bit : Nat) (b : Bool) : Nat :=
  b.toNat + (verifyKey.getLsbD bit).toNat + (st.carries.getD bit false).toNat

/-- `current_lhs_bit` (pkg2.rs 409) -/
def lhsBit (I : Info) (st : St) (bit : Nat) (b : Bool) : Bool :=
  decide (bitSum st bit b % 2 = 1) ^^ I.hash1.getLsbD bit

/-- the first check of the loop body (pkg2.rs 400-406): `true` means go on.
`(bit_idx.wrapping_sub(s).wrapping_add(32)) & 0x1f` is `bit_idx - s` modulo 32. -/
def prevOk (I : Info) (st : St) (bit : Nat) (b : Bool) : Bool :=
  let prev := (bit + 32 - I.s % 32) % 32
  if prev < bit then (b ^^ I.target.getLsbD bit) == st.lhs.getD prev false else true

/-- the second check of the loop body (pkg2.rs 411-424) -/
def futureOk (I : Info) (st : St) (bit : Nat) (v : BitVec 32) (b : Bool) : Bool :=
  let future := (bit + I.s) % 32
  if future ≤ bit then lhsBit I st bit b == (v.getLsbD future ^^ I.target.getLsbD future)
  else if future < I.lowBitLen then lhsBit I st bit b == (I.lowBits.getLsbD future ^^ I.target.getLsbD future)
  else true

/-- the array updates (pkg2.rs 426-427) -/
def St.store (I : Info) (st : St) (bit : Nat) (b : Bool) : St :=
  { st with lhs := st.lhs.set bit (lhsBit I st bit b),
            carries := st.carries.set (bit + 1) (decide (2 ≤ bitSum st bit b)) }

/-- `v_hash | (v_bit << bit_idx)` (pkg2.rs 429) -/
def setBit (v : BitVec 32) (bit : Nat) (b : Bool) : BitVec 32 := if b then v ||| (1#32 <<< bit) else v

/-- the range of `v_bit` (pkg2.rs 388-397) -/
def choices (I : Info) (bit : Nat) : List Bool :=
  if bit < I.lowBitLen then [I.lowBits.getLsbD bit] else [false, true]

/-- `backtrack` (pkg2.rs 376-431), `bit_idx = 32 - rem` -/
def backtrack (I : Info) : Nat → BitVec 32 → St → St
  | 0, v, st => if I.validator I.hash1 I.hash2 v then { st with results := st.results ++ [v] } else st
  | rem + 1, v, st =>
    let bit := 32 - (rem + 1)
    (choices I bit).foldl (fun st b =>
      if prevOk I st bit b && futureOk I st bit v b then backtrack I rem (setBit v bit b) (st.store I bit b)
      else st) st

/-! ### the generators -/

/-- `Pkg2VersionGenV1::calc_hash` (pkg2.rs 79-81) -/
def genV1 (h1 h2 : BitVec 32) : List (BitVec 32) := [h1.rotateLeft 7 ^^^ h2]

/-- one candidate of `Pkg2VersionGenV2::calc_hash` (pkg2.rs 110-119, 124-125) -/
def infoV2 (h1 h2 : BitVec 32) (s : Nat) : Info :=
  { hash1 := h1, hash2 := h2, s := s, lowBitLen := 5, lowBits := BitVec.ofNat 32 s, target := h2,
    validator := verifyV2 }

/-- `Pkg2VersionGenV2::calc_hash` (pkg2.rs 106-130) -/
def genV2 (h1 h2 : BitVec 32) : List (BitVec 32) :=
  (List.range 32).foldl (fun res s => (backtrack (infoV2 h1 h2 s) 32 0#32 (St.fresh res)).results) []

/-- one candidate of `Pkg2VersionGenV3::calc_hash` (pkg2.rs 162-171, 175-176) -/
def infoV3 (h1 h2 : BitVec 32) (s : Nat) : Info :=
  { hash1 := h1, hash2 := h2, s := s + (h1 &&& 0xf#32).toNat, lowBitLen := 4, lowBits := BitVec.ofNat 32 s,
    target := ~~~h2 ^^^ h1, validator := verifyV3 }

/-- `Pkg2VersionGenV3::calc_hash` (pkg2.rs 158-181) -/
def genV3 (h1 h2 : BitVec 32) : List (BitVec 32) :=
  (List.range 16).foldl (fun res s => (backtrack (infoV3 h1 h2 s) 32 0#32 (St.fresh res)).results) []

/-- `brute_force_hash` (pkg2.rs 433-448): `0..u32::MAX` excludes the last value.  Simplification: rayon's
ordered parallel `filter().collect()` gives the same list as the sequential one. -/
def bruteForce (h1 h2 : BitVec 32) (verifier : BitVec 32 → BitVec 32 → BitVec 32 → Bool) : List (BitVec 32) :=
  ((List.range (2 ^ 32 - 1)).map (BitVec.ofNat 32)).filter fun t => verifier h1 h2 t

/-- `Pkg2VersionGenV4::calc_hash` (pkg2.rs 215-217) -/
def genV4 (h1 h2 : BitVec 32) : List (BitVec 32) := bruteForce h1 h2 verifyV4
/-- `Pkg2VersionGenV5::calc_hash` (pkg2.rs 251-253) -/
def genV5 (h1 h2 : BitVec 32) : List (BitVec 32) := bruteForce h1 h2 verifyV5
/-- `Pkg2VersionGenV6::calc_hash` (pkg2.rs 279-281) -/
def genV6 (h1 h2 : BitVec 64) : List (BitVec 64) := [h1 ^^^ h2 ^^^ verifyKeyV6]

/-! ### `VersionGen` -/

/-- `VersionGen` (pkg2.rs 59-64).  A generator is represented by the list its `get_iter` yields. -/
structure VGen where
  current : Option (List (BitVec 32))
  generators : List (List (BitVec 32))

/-- `VersionGen::new` (pkg2.rs 334-345) -/
def VGen.new (h1 h2 : BitVec 32) : VGen := ⟨none, [genV1 h1 h2, genV2 h1 h2, genV3 h1 h2]⟩

/-- the second half of `next` (pkg2.rs 361-370): take the last generator -/
def VGen.nextGen (g : VGen) : Option (BitVec 32) × VGen :=
  match g.generators.getLast? with
  | none => (none, g)
  | some l =>
    match l with
    | [] => (none, ⟨some [], g.generators.dropLast⟩)
    | x :: xs => (some x, ⟨some xs, g.generators.dropLast⟩)

/-- `Iterator::next` (pkg2.rs 351-370) -/
def VGen.next (g : VGen) : Option (BitVec 32) × VGen :=
  match g.current with
  | some (x :: xs) => (some x, { g with current := some xs })
  | some [] => VGen.nextGen { g with current := none }
  | none => VGen.nextGen g

/-- items until the first `None`, at most `fuel` of them -/
def VGen.collect : Nat → VGen → List (BitVec 32)
  | 0, _ => []
  | fuel + 1, g =>
    match g.next with
    | (none, _) => []
    | (some x, g') => x :: VGen.collect fuel g'

/-- the results of the first `n` calls of `next`, whether or not there was a `None` among them -/
def VGen.calls : Nat → VGen → List (Option (BitVec 32))
  | 0, _ => []
  | n + 1, g => g.next.1 :: VGen.calls n g.next.2

end Pkg2
end Wz
