import Verif.Reader.Spec

/-!
# Specification: texts without a key, as they start in a buffer
-/

set_option autoImplicit false

namespace Wz.Spec

/-- What the head of a text says: `wide` for UTF-16 units, the number of units or bytes, and where they start.  The number
can be negative in the long forms. -/
inductive TextHead (buf : Bytes) (p : Nat) : (wide : Bool) → (n : Int) → (start : Nat) → Prop
  | unicode (v : Int) : Holds buf p [byteOf v] → 1 ≤ v → v ≤ 126 → TextHead buf p true v (p + 1)
  | longUnicode (v : Int) : Holds buf p (0x7F#8 :: toLE 4 (unsign 32 v)) → -2 ^ 31 ≤ v → v < 2 ^ 31 →
      TextHead buf p true v (p + 5)
  | ascii (v : Int) : Holds buf p [byteOf (-v)] → 1 ≤ v → v ≤ 127 → TextHead buf p false v (p + 1)
  | longAscii (v : Int) : Holds buf p (0x80#8 :: toLE 4 (unsign 32 v)) → -2 ^ 31 ≤ v → v < 2 ^ 31 →
      TextHead buf p false v (p + 5)

/-- bytes for `n` units or characters -/
def textSize (wide : Bool) (n : Nat) : Nat := if wide then 2 * n else n

/-- `n` units or bytes stored at `start` without a key are this text; ill-formed pieces become U+FFFD -/
inductive TextData (buf : Bytes) (start : Nat) : (wide : Bool) → (n : Nat) → List Char → Prop
  | unicode (us : List (BitVec 16)) : Holds buf start (cipherUnicode (fun _ => 0#8) us) →
      TextData buf start true us.length (utf16Lossy us)
  | ascii (bs : Bytes) : Holds buf start (cipherAscii (fun _ => 0#8) bs) →
      TextData buf start false bs.length (utf8Lossy bs)

/-- the head is cut off: nothing at all, or a long form with fewer than four bytes of length -/
def HeadCut (buf : Bytes) (p : Nat) : Prop :=
  buf.length ≤ p ∨ (buf.length < p + 5 ∧ (Holds buf p [0x7F#8] ∨ Holds buf p [0x80#8]))

/-- the text without a key that starts at `p`: the length is not negative and all of it is there -/
def PlainTextAt (buf : Bytes) (p : Nat) (t : List Char) : Prop :=
  (Holds buf p [0#8] ∧ t = []) ∨ ∃ wide n start, TextHead buf p wide n start ∧ 0 ≤ n ∧ TextData buf start wide n.toNat t

/-- the head of the text at `p` gives a negative length -/
def NegativeAt (buf : Bytes) (p : Nat) : Prop := ∃ wide n start, TextHead buf p wide n start ∧ n < 0

/-- the text at `p` is longer than what is left of the buffer -/
def CutAt (buf : Bytes) (p : Nat) : Prop :=
  ∃ wide n start, TextHead buf p wide n start ∧ 0 < n ∧ buf.length < start + textSize wide n.toNat

end Wz.Spec
