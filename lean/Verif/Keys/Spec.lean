import Verif.Keys.Model
/-!
# What the key stream is meant to be

Block 0 is the encryption of the IV repeated four times, block n+1 the encryption of block n, and the
stream is the concatenation of the blocks.  A zero IV means no encryption.
-/

set_option autoImplicit false

namespace Wz.Spec

/-- block `n` of the stream -/
def block (aes : Aes) (key iv : Bytes) : Nat → Bytes
  | 0 => aes key (iv ++ iv ++ iv ++ iv)
  | n + 1 => aes key (block aes key iv n)

/-- byte `i` of the stream -/
def stream (aes : Aes) (key iv : Bytes) (i : Nat) : Byte := (block aes key iv (i / 16)).getD (i % 16) 0#8

def ivZero : Bytes := [0#8, 0#8, 0#8, 0#8]

/-- byte `i` data is xored with -/
def keyByte (aes : Aes) (key iv : Bytes) (i : Nat) : Byte :=
  if iv = ivZero then 0#8 else stream aes key iv i

/-- xor data with a key stream -/
def xorStream (ks : Nat → Byte) (data : Bytes) : Bytes := data.mapIdx fun i b => b ^^^ ks i

/-- the AES key made from a user key of 128 bytes: every sixteenth byte, each followed by three zeros -/
def spreadKey (userKey : Bytes) : Bytes :=
  (List.range 32).map fun i => if i % 4 = 0 then userKey.getD (4 * i) 0#8 else 0#8

end Wz.Spec
