import Verif.Keys.Model
/-!
# Specification of the PKG2 version equations

`Spec.SolvesN h1 h2 t` is the equation of generation `N` of the format between the two words of the header and
the version hash.
-/

set_option autoImplicit false

namespace Wz


namespace Spec

/-- generation 1 -/
def Solves1 (h1 h2 t : BitVec 32) : Prop := t = h1.rotateLeft 7 ^^^ h2

/-- generation 2 -/
def Solves2 (h1 h2 t : BitVec 32) : Prop :=
  (h1 ^^^ (t + 0x1A2B3C4D#32)).rotateLeft (t.toNat % 32) = t ^^^ h2

/-- generation 3 -/
def Solves3 (h1 h2 t : BitVec 32) : Prop :=
  (h1 ^^^ (t + 0x1A2B3C4D#32)).rotateLeft (t.toNat % 16 + h1.toNat % 16) = t ^^^ h1 ^^^ ~~~h2

/-- the mixed word of generations 4 and 5 -/
def mixed (h1 t : BitVec 32) : BitVec 32 := mixKmst1199 (h1 ^^^ t ^^^ 0x6D4C3B2A#32) ^^^ 0x91E10DA5#32

/-- the check word of generations 4 and 5 -/
def word4 (h1 t : BitVec 32) : BitVec 32 :=
  (h1 ^^^ (BitVec.ofNat 32 ((mixed h1 t).toNat % 65536) + t + 0x1A2B3C4D#32)).rotateLeft
      ((mixed h1 t ^^^ t).toNat % 16 + h1.toNat % 16) ^^^ ((h1 ^^^ t) + mixed h1 t)

/-- generation 4 -/
def Solves4 (h1 h2 t : BitVec 32) : Prop := h2 = ~~~word4 h1 t
/-- generation 5 -/
def Solves5 (h1 h2 t : BitVec 32) : Prop := h2 = word4 h1 t ^^^ 0x2A2C818B#32
/-- generation 6 -/
def Solves6 (h1 h2 t : BitVec 64) : Prop := h1 ^^^ h2 ^^^ t = 0xABCDEF0123456789#64

end Spec

end Wz
