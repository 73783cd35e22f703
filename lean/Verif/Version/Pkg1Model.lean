import Verif.Base
/-!
# PKG1 version hashes (`/repo/src/util/version/pkg1.rs`)
-/

set_option autoImplicit false

namespace Wz

/-- u32 addition `a + b` -/
def addU32 (m : Mode) (a b : Nat) : Except Err Nat :=
  if a + b < 2 ^ 32 then .ok (a + b)
  else match m with
    | .checked => .error .panicOverflow
    | .wrap => .ok ((a + b) % 2 ^ 32)

/-- i32 addition `a + b` -/
def addI32 (m : Mode) (a b : Int) : Except Err Int :=
  if -2 ^ 31 ≤ a + b ∧ a + b < 2 ^ 31 then .ok (a + b)
  else match m with
    | .checked => .error .panicOverflow
    | .wrap => .ok (Int.bmod (a + b) (2 ^ 32))

namespace Pkg1

/-- `char::to_ascii_lowercase() as u32` -/
def lowerCode (c : Char) : Nat := if 'A' ≤ c ∧ c ≤ 'Z' then c.toNat + 32 else c.toNat

/-- one round of the loop in `calculate_version_hash` (pkg1.rs 22-25) -/
def hashStep (m : Mode) (h : Nat) (c : Char) : Except Err Nat := do
  let x ← mulU32 m h 32
  let y ← addU32 m x (lowerCode c)
  addU32 m y 1

/-- `calculate_version_hash` (pkg1.rs 16-27) -/
def versionHash (m : Mode) (v : Int) : Except Err Nat :=
  (toString v).toList.foldlM (hashStep m) 0

/-- `VersionGen` (pkg1.rs 1-6) -/
structure Gen where
  encver : Int
  maxVersion : Int
  current : Int
deriving DecidableEq, Repr

/-- `VersionGen::new` (pkg1.rs 9-15) -/
def Gen.new (encver minVersion maxVersion : Int) : Gen := ⟨encver, maxVersion, minVersion⟩

/-- `check_and_get_version_hash` (pkg1.rs 28-46) -/
def Gen.checkHash (m : Mode) (g : Gen) : Except Err Nat := do
  let h ← versionHash m g.current
  if g.encver = g.current then pure h
  else
    let enc := 0xff ^^^ ((h >>> 24) &&& 0xff) ^^^ ((h >>> 16) &&& 0xff) ^^^ ((h >>> 8) &&& 0xff) ^^^ (h &&& 0xff)
    pure (if enc = asU32 g.encver then h else 0)

/-- `Iterator::next` (pkg1.rs 49-63): the item, if any, and the new state -/
def Gen.next (m : Mode) (g : Gen) : Except Err (Option (Int × Nat) × Gen) := do
  if g.current > g.maxVersion then pure (none, g)
  else
    let h ← g.checkHash m
    let c ← addI32 m g.current 1
    pure (some (g.current, h), { g with current := c })

/-- the items produced by calling `next` until it returns `None`, at most `fuel` calls -/
def Gen.collect (m : Mode) : Nat → Gen → Except Err (List (Int × Nat))
  | 0, _ => .error .fuel
  | fuel + 1, g => do
    match ← g.next m with
    | (none, _) => pure []
    | (some x, g') => do
      let xs ← Gen.collect m fuel g'
      pure (x :: xs)

/-- the generator `parse_pkg1` iterates when no patch version is given (file.rs 156-183): with a version
number `ev` in the header 1..2000, without one 770..780 and 770 in its place -/
def parseGen (ev : Option Nat) : Gen :=
  match ev with
  | some v => ⟨v, 2000, 1⟩
  | none => ⟨770, 780, 770⟩

end Pkg1
end Wz
