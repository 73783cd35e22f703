import Verif.File.IvModel
import Verif.File.GuessSpec

/-!
# Specification: the IV of an archive
-/

set_option autoImplicit false

namespace Wz.Spec

/-- the bytes a text is stored as: UTF-8 or UTF-16, masked and under the key -/
def textBytes (ks : Nat → Byte) (s : List Char) : NameForm → Bytes
  | .narrow => cipherAscii ks (utf8EncStr s)
  | .wide => cipherUnicode ks (utf16EncStr s)
  | .dir => cipherPkg2 ks (utf16EncStr s)

/-- the length stored with a text: bytes of UTF-8, or units of UTF-16 -/
def textLen (s : List Char) : NameForm → Nat
  | .narrow => (utf8EncStr s).length
  | _ => (utf16EncStr s).length

/-- the bytes at `p` are some text of stored length `n` under the key -/
def TextAt (buf : Bytes) (p n : Nat) (form : NameForm) (ks : Nat → Byte) : Prop :=
  ∃ s : List Char, textLen s form = n ∧ Holds buf p (textBytes ks s form)

/-- no encryption -/
def plainIv : Bytes := [0#8, 0#8, 0#8, 0#8]
/-- the IV of GMS -/
def ivOfGms : Bytes := [0x4D#8, 0x23#8, 0xC7#8, 0x2B#8]
/-- the IV of EMS -/
def ivOfEms : Bytes := [0xB9#8, 0x7D#8, 0x63#8, 0xE9#8]

/-- the key stream that belongs to an IV -/
def streamOfIv (st : Bytes → Nat → Byte) (iv : Bytes) : Nat → Byte := if iv = plainIv then fun _ => 0#8 else st iv

/-- the byte is the upper half of a UTF-16 surrogate, `D8` to `DF` -/
def SurrogateHalf (b : Byte) : Prop := 0xD8 ≤ b.toNat ∧ b.toNat ≤ 0xDF

end Wz.Spec
