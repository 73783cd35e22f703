import Verif.Property.Spec
/-!
# What an image is and how a file stores it
-/

set_option autoImplicit false

namespace Wz.Spec

/-- At `o` stands a head of the form 0x73, a name, a 16-bit number, and behind it a list of properties that ends at
`q`. -/
def HeadAndList (e : Env) (o : Nat) (name : List Char) (value : Nat) (kids : List (List Char × PTree)) (q : Nat) : Prop :=
  ∃ bs, IsWzString e.ks name bs ∧ value < 2 ^ 16 ∧ Holds e.buf o (0x73#8 :: (bs ++ toLE 2 value)) ∧
    StoredList e o kids (o + 1 + bs.length + 2) q

/-- A property image: the name is `Property`, the number 0. -/
def PropertyImage (e : Env) (o : Nat) (kids : List (List Char × PTree)) (q : Nat) : Prop :=
  HeadAndList e o "Property".toList 0 kids q

/-- the name of an image ends in this -/
def NameEnds (name suffix : List Char) : Prop := ∃ stem, name = stem ++ suffix

/-- an image file for which some IV makes sense: 0x73, then the name `Property` encrypted with the stream of the IV -/
def ImageOf (ks : Nat → Byte) (buf : Bytes) : Prop :=
  ∃ bs, IsWzString ks "Property".toList bs ∧ Holds buf 1 bs

end Wz.Spec
