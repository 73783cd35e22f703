import Verif.File.GuessModel
import Verif.Reader.Spec
/-!
# Specification: the key of an archive's names
-/

set_option autoImplicit false

namespace Wz.Spec

/-- how a name is stored: one byte for a character, two bytes, or two bytes as in PKG2 directories -/
inductive NameForm where
  | narrow | wide | dir
deriving DecidableEq, Repr

/-- the bytes a name is stored as -/
def nameBytes (ks : Nat → Byte) (s : List Char) : NameForm → Bytes
  | .narrow => cipherAscii ks (s.map fun c => BitVec.ofNat 8 c.toNat)
  | .wide => cipherUnicode ks (utf16EncStr s)
  | .dir => cipherPkg2 ks (utf16EncStr s)

/-- the bytes at `p` are an ASCII text of `n` characters, stored in this form under the key -/
def NameAt (buf : Bytes) (p n : Nat) (form : NameForm) (ks : Nat → Byte) : Prop :=
  ∃ s : List Char, (∀ c ∈ s, c.toNat < 128) ∧ s.length = n ∧ Holds buf p (nameBytes ks s form)

/-- the length in front of a name of `n` characters -/
inductive NameLen (n : Nat) : NameForm → Bytes → Prop
  | narrow {len : Bytes} : IsAsciiLen n len → NameLen n .narrow len
  | wide {len : Bytes} : IsUnicodeLen n len → NameLen n .wide len

/-- A directory begins at `start`: the number of its entries, the type of the first entry and the length of its name,
after which, at `p`, the name is expected. -/
def FirstName (buf : Bytes) (start : Nat) (count : Int) (t : Byte) (n : Nat) (form : NameForm) (p : Nat) : Prop :=
  ∃ cb len, IsWzInt 4 count cb ∧ NameLen n form len ∧ Holds buf start (cb ++ [t] ++ len) ∧
    p = start + (cb ++ [t] ++ len).length

/-- the same for a first name of a PKG2 directory, whose length is one byte -/
def FirstShort (buf : Bytes) (start : Nat) (count : Int) (t : Byte) (n p : Nat) : Prop :=
  ∃ cb, IsWzInt 4 count cb ∧ 1 ≤ n ∧ n ≤ 127 ∧ Holds buf start (cb ++ [t, byteOf (-n)]) ∧ p = start + cb.length + 2

/-- type of an entry that is a directory or an image -/
def PlainType (t : Byte) : Prop := t = 3#8 ∨ t = 4#8

/-- the number of entries is accepted: in PKG2 files it is encrypted -/
def CountFits (i : Pkg) (count : Int) : Prop :=
  match i with
  | .v1 => 1 ≤ count ∧ count ≤ 1000000
  | .v2 => True
  | .unknown => count ≠ 0

/-- the first of a list with a property -/
inductive FirstIn {α : Type} (P : α → Prop) : List α → Option α → Prop
  | none : FirstIn P [] none
  | hit (a : α) (as : List α) : P a → FirstIn P (a :: as) (some a)
  | miss (a : α) (as : List α) (r : Option α) : ¬P a → FirstIn P as r → FirstIn P (a :: as) r

/-- the keys of the versions known for names of one or two bytes a character; `st` gives the key stream for an IV -/
def plainKey (st : Bytes → Nat → Byte) : MapleVersion → Nat → Byte
  | .gms => st [0x4D#8, 0x23#8, 0xC7#8, 0x2B#8]
  | .ems => st [0xB9#8, 0x7D#8, 0x63#8, 0xE9#8]
  | _ => fun _ => 0#8

/-- the key of KMST1198 directories -/
def key1198 (i : Nat) : Byte := [0xEF#8, 0xBE#8, 0xBE#8, 0xAD#8, 0xAD#8, 0xDE#8, 0xDE#8, 0x00#8].getD (i % 8) 0#8

/-- the name is read as ASCII text with the key of the version: KMST1198 has names in the form of PKG2 directories, the
others in the form `form` -/
def ReadsAs (st : Bytes → Nat → Byte) (buf : Bytes) (p n : Nat) (form : NameForm) (v : MapleVersion) : Prop :=
  match v with
  | .kmst1198 => NameAt buf p n .dir key1198
  | v => NameAt buf p n form (plainKey st v)

/-- a decryptor made for an IV of four bytes; the zero IV stands for no encryption -/
def ivKey (st : Bytes → Nat → Byte) (iv : Bytes) : SKey :=
  ⟨false, if iv = [0#8, 0#8, 0#8, 0#8] then fun _ => 0#8 else st iv⟩

/-- how a file is opened with a key, or without one -/
def OpenedAs (f : WFile) (m : Mode) (buf : Bytes) (h : Header) (ks ks2 : Nat → Byte) (pkg2 verified : Bool) (patch : Option Int) : Prop :=
  f.env = ⟨m, buf, ks, ks2⟩ ∧ f.hdr = h ∧ f.keys2 = pkg2 ∧ f.verified = verified ∧ f.parsed = false ∧ f.hash = 0#64 ∧
    f.patch = (match patch with | some v => v | none => -1)

/-- the key with which a given decryptor reads a name of one or two bytes a character: PKG2 decryptors leave it as
it is -/
def keyForPlain (k : SKey) : Nat → Byte := if k.pkg2 then fun _ => 0#8 else k.ks

/-- the top bit of a byte -/
def top (b : Byte) : Bool := decide (128 ≤ b.toNat)

end Wz.Spec
