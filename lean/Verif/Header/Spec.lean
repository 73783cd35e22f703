import Verif.Header.Model
import Verif.Reader.Spec
/-!
# What a container header looks like, byte by byte
-/

set_option autoImplicit false

namespace Wz.Spec

/-- ASCII text as bytes -/
def asciiBytes (s : String) : Bytes := s.toList.map fun c => BitVec.ofNat 8 c.toNat

/-- `buf` begins with the four letter name, the 64-bit size and the 32-bit start of the contents -/
def PlainHeader (buf : Bytes) (name : String) (fsize fstart : Nat) : Prop :=
  Holds buf 0 (asciiBytes name ++ toLE 8 fsize ++ toLE 4 fstart) ∧ fsize < 2 ^ 64 ∧ fstart < 2 ^ 32

/-- The 16-bit number `v` stored at the start of the contents is taken for a version checksum: the file
has room for it, it is a byte, and if it is `0x80` then the four bytes after it exist and are not a
positive multiple of 256 below 65536. -/
def VersionPresent (buf : Bytes) (fsize fstart v : Nat) : Prop :=
  Holds buf fstart (toLE 2 v) ∧ 2 ≤ fsize ∧ v < 256 ∧
    (v = 0x80 → ∃ n : Int, -2 ^ 31 ≤ n ∧ n < 2 ^ 31 ∧ Holds buf (fstart + 2) (toLE 4 (unsign 32 n)) ∧
      ¬ (0 < n ∧ n ≤ 0xffff ∧ 256 ∣ n))

/-- a PKG1 file without version field whose directory starts with the stored form of a count of
`256 * k` entries (`k` a byte): `80`, then the count in four bytes, then the first entry's type byte -/
def CountWithoutVersion (buf : Bytes) (fstart : Nat) (k t : Byte) : Prop :=
  Holds buf fstart ([0x80#8] ++ toLE 4 (256 * k.toNat) ++ [t])

/-- the bytes of a field are found at the given positions -/
def Scattered (buf : Bytes) (ps : List Nat) (bs : Bytes) : Prop :=
  ps.map (fun p => buf[p]?) = bs.map some

/-- Where the fields of a scrambled header are, lowest byte first: the two hashes and the size behind the header,
for headers of 150 bytes with 64-bit hashes and of 68 bytes with 32-bit hashes. -/
def pos64hash1 : List Nat := [72, 36, 15, 49, 70, 71, 99, 103]
def pos64hash2 : List Nat := [142, 140, 147, 14, 100, 123, 46, 77]
def pos64size : List Nat := [18, 9, 2, 149]
def pos32hash1 : List Nat := [67, 26, 48, 16]
def pos32hash2 : List Nat := [45, 7, 63, 46]
def pos32size : List Nat := [21, 25, 57, 65]

/-- store bytes at positions of a buffer -/
def scatter (buf : Bytes) : List Nat → Bytes → Bytes
  | p :: ps, b :: bs => scatter (buf.set p b) ps bs
  | _, _ => buf

end Wz.Spec
