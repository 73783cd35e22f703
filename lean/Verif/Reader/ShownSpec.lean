import Verif.Reader.Spec
/-!
# What stored text is shown as

`IsWzString` says how a text is stored; here, from the other side, what any stored bytes are taken for.
-/

set_option autoImplicit false

namespace Wz.Spec

/-- The bytes `bs` are shown as the text `s`: a length prefix and as many masked bytes or UTF-16 units.  What is no
proper UTF-8 or UTF-16 is shown with replacement characters. -/
inductive ShownAs (ks : Nat → Byte) (s : List Char) : Bytes → Prop
  | empty : s = [] → ShownAs ks s [0#8]
  | asciiShort (bs : Bytes) : 1 ≤ bs.length → bs.length ≤ 127 → s = utf8Lossy bs →
      ShownAs ks s (byteOf (-bs.length) :: cipherAscii ks bs)
  | asciiLong (bs : Bytes) : bs.length < 2 ^ 32 → s = utf8Lossy bs →
      ShownAs ks s (0x80#8 :: toLE 4 bs.length ++ cipherAscii ks bs)
  | unicodeShort (us : List (BitVec 16)) : 1 ≤ us.length → us.length ≤ 126 → s = utf16Lossy us →
      ShownAs ks s (byteOf us.length :: cipherUnicode ks us)
  | unicodeLong (us : List (BitVec 16)) : us.length < 2 ^ 31 → s = utf16Lossy us →
      ShownAs ks s (0x7F#8 :: toLE 4 us.length ++ cipherUnicode ks us)

/-- The same for the first name of a PKG2 directory, whose length has `w` bytes and is stored as a negative number; a
length that is not negative stands for no name. -/
inductive ShownAs2 (w : Nat) (ks2 : Nat → Byte) (s : List Char) : Bytes → Prop
  | empty (n : Nat) : n < 2 ^ (8 * w - 1) → s = [] → ShownAs2 w ks2 s (toLE w n)
  | units (us : List (BitVec 16)) : 1 ≤ us.length → us.length < 2 ^ (8 * w - 1) → s = utf16Lossy us →
      ShownAs2 w ks2 s (toLE w (unsign (8 * w) (-(us.length : Int))) ++ cipherPkg2 ks2 us)

end Wz.Spec
