import Verif.Base
import Verif.Text.Model
/-!
# What the bytes of a WZ file mean (specification, independent of the reader model)
-/

set_option autoImplicit false

namespace Wz.Spec

/-- the bytes `bs` are stored in `buf` at position `p` -/
def Holds (buf : Bytes) (p : Nat) (bs : Bytes) : Prop :=
  ∃ pre post, buf = pre ++ bs ++ post ∧ pre.length = p

/-- the byte of a signed 8-bit number -/
def byteOf (v : Int) : Byte := BitVec.ofInt 8 v

/-- `bs` is a legal stored form of the compressed integer `v` whose long form has `w` bytes:
one byte for -127..127, or the marker 0x80 and `w` little-endian bytes. -/
inductive IsWzInt (w : Nat) (v : Int) : Bytes → Prop
  | short : -127 ≤ v → v ≤ 127 → IsWzInt w v [byteOf v]
  | long : -2 ^ (8 * w - 1) ≤ v → v < 2 ^ (8 * w - 1) → IsWzInt w v (0x80#8 :: toLE w (unsign (8 * w) v))

/-- length prefix of a string of `n` ASCII bytes -/
inductive IsAsciiLen (n : Nat) : Bytes → Prop
  | short : 1 ≤ n → n ≤ 127 → IsAsciiLen n [byteOf (-n)]
  | long : n < 2 ^ 31 → IsAsciiLen n (0x80#8 :: toLE 4 n)

/-- length prefix of a string of `n` UTF-16 units -/
inductive IsUnicodeLen (n : Nat) : Bytes → Prop
  | short : 1 ≤ n → n ≤ 126 → IsUnicodeLen n [byteOf n]
  | long : n < 2 ^ 30 → IsUnicodeLen n (0x7F#8 :: toLE 4 n)

/-- the stored form of ASCII payload `bs`: byte `i` is masked with `0xAA + i` and the key stream -/
def cipherAscii (ks : Nat → Byte) (bs : Bytes) : Bytes :=
  bs.mapIdx fun i b => b ^^^ BitVec.ofNat 8 (0xAA + i) ^^^ ks i

/-- little-endian bytes of UTF-16 units -/
def unitBytes (us : List (BitVec 16)) : Bytes := us.flatMap fun u => toLE 2 u.toNat

/-- the stored form of UTF-16 payload: unit `i` is masked with `0xAAAA + i`, then byte `j` of the result
with key byte `j` -/
def cipherUnicode (ks : Nat → Byte) (us : List (BitVec 16)) : Bytes :=
  (unitBytes (us.mapIdx fun i u => u ^^^ BitVec.ofNat 16 (0xAAAA + i))).mapIdx fun j b => b ^^^ ks j

/-- the stored form of a PKG2 directory name: only the key stream -/
def cipherPkg2 (ks2 : Nat → Byte) (us : List (BitVec 16)) : Bytes :=
  (unitBytes us).mapIdx fun j b => b ^^^ ks2 j

/-- `bs` is a stored (length-prefixed, encrypted) form of the text `s`. -/
inductive IsWzString (ks : Nat → Byte) (s : List Char) : Bytes → Prop
  | empty : s = [] → IsWzString ks s [0#8]
  | ascii (len : Bytes) : (∀ c ∈ s, c.toNat < 128) → IsAsciiLen s.length len →
      IsWzString ks s (len ++ cipherAscii ks (s.map fun c => BitVec.ofNat 8 c.toNat))
  | unicode (len : Bytes) : IsUnicodeLen (utf16EncStr s).length len →
      IsWzString ks s (len ++ cipherUnicode ks (utf16EncStr s))

end Wz.Spec
