import Verif.Value.SerdeSpec

/-!
# What can be read from JSON at all
-/

set_option autoImplicit false

namespace Wz.Spec

open Wz

/-- The numbers of an object that is read are within the bounds of their types, no raw data, video or script is read, and it does not say
where data would be. -/
def ReadableObj : SObj → Prop
  | .file d r => IsI32 d.patch ∧ IsI32 d.verHeader ∧ d.hash < 2 ^ 64 ∧ r = none
  | .msFile d r => IsI32 d.headerHash ∧ d.version < 256 ∧ IsI32 d.entryCount ∧ d.hstart < 2 ^ 64 ∧ d.estart < 2 ^ 64 ∧
      d.msVersion < 256 ∧ r = none
  | .image r | .msImage r | .directory r => r = none
  | .property .convex | .property .property => True
  | .property (.sound s) => s.duration < 2 ^ 32 ∧ s.offset = 0 ∧ s.length = 0
  | .property (.png p) => p.width < 2 ^ 32 ∧ p.height < 2 ^ 32 ∧ p.offset = 0 ∧ p.size = 0
  | .value (.short v) => -32768 ≤ v ∧ v ≤ 32767
  | .value (.int v) => IsI32 v
  | .value (.long v) => -9223372036854775808 ≤ v ∧ v ≤ 9223372036854775807
  | .value (.vector v) => IsI32 v.x ∧ IsI32 v.y
  | .value (.float _) | .value (.double _) | .value (.uol _) | .value (.str _) | .value (.parsed _) | .value .null => True
  | .value (.rawData _ _) | .value (.video _ _) | .value (.lua _ _) => False

/-- the bounds of the types of whole numbers -/
def numberBounds (t : List Char) : Option (Int × Int) :=
  if t = chars!"Short" then some (-32768, 32767)
  else if t = chars!"Int" then some (-2147483648, 2147483647)
  else if t = chars!"Long" then some (-9223372036854775808, 9223372036854775807)
  else none

end Wz.Spec
