import Verif.Ms.FileSpec
/-!
# How the images of MS archives are encrypted

With numbers, not with the names of the model.
-/

set_option autoImplicit false

namespace Wz.Spec.Ms

open Wz.Spec.Snow

/-- the hash of the salt: FNV-1a of its characters, in 32 bits -/
def fnv (salt : List Char) : Nat := salt.foldl (fun h c => (h ^^^ c.toNat) * 16777619 % 4294967296) 2166136261

/-- the decimal digits of a number -/
def decDigits (n : Nat) : List Nat := if n < 10 then [n] else decDigits (n / 10) ++ [n % 10]
termination_by n
decreasing_by omega

/-- byte `i` of an image key, from a letter of the name, the digits of the hash, and the key of the entry -/
def imageKeyAt (ds : List Nat) (ekey : Bytes) (i letter : Nat) : Nat :=
  let digit := fun j => ds.getD (j % ds.length) 0
  i + letter * (digit i % 2 + (ekey.getD ((digit (i + 2) + i) % 16) 0#8).toNat + (digit (i + 1) + i) % 5)

/-- version 1: the letters are the bytes of the name, again and again -/
def imageKey1 (salt name : List Char) (ekey : Bytes) : Bytes :=
  (List.range 16).map fun i => BitVec.ofNat 8 (imageKeyAt (decDigits (fnv salt)) ekey i ((utf8EncStr name).getD (i % (utf8EncStr name).length) 0#8).toNat)

/-- version 2: the letters are the characters of the name, again and again -/
def imageKey2 (salt name : List Char) (ekey : Bytes) : Bytes :=
  xorBase ((List.range 32).map fun i => BitVec.ofNat 8 (imageKeyAt (decDigits (fnv salt)) ekey i (name.getD (i % name.length) 'A').toNat))

/-- the bytes nonce and counter are combined with -/
def hashMasks : Bytes := [0x5A#8, 0x9D#8, 0xE0#8, 0x03#8, 0x67#8, 0xA8#8, 0xAD#8, 0xCE#8, 0x70#8, 0xA7#8, 0xFA#8, 0x14#8]

/-- the nonce: four zeros, the hash, half the hash -/
def imageNonceOf (h : Nat) : Bytes := [0#8, 0#8, 0#8, 0#8] ++ List.zipWith (· ^^^ ·) (toLE 4 h ++ toLE 4 (h / 2)) hashMasks

/-- the number of the first block: half the hash, combined with 108 -/
def imageCounterOf (h : Nat) : Nat := leNat (List.zipWith (· ^^^ ·) (toLE 4 (h / 2 ^^^ 108)) (hashMasks.drop 8))

/-- version 1: everything encrypted, then the first 1024 bytes once more -/
def encryptTwice (z : Nat → BitVec 32) (p : Bytes) : Bytes := encrypt z 0 ((encrypt z 0 p).take 1024) ++ (encrypt z 0 p).drop 1024

/-- version 2: the first 1024 bytes combined with the key stream, from a block on -/
def encryptHead (ks : Nat → Bytes) (block : Nat) (p : Bytes) : Bytes :=
  (p.take 1024).mapIdx (fun i b => b ^^^ (ks (block + i / 64)).getD (i % 64) 0#8) ++ p.drop 1024

/-- The image's block is behind `pre`, and `size` of it belong to the image. -/
structure Sits (im : MsImage) (pre block : Bytes) (size : Nat) : Prop where
  place : im.offset = pre.length
  whole : im.blockSize = block.length
  used : im.entry.size = size
  small : size ≤ block.length

end Wz.Spec.Ms
