import Verif.Pixel.Color
/-!
# What the pixel formats mean

Independent of the model: pixel values are numbers built from their fields.
-/

set_option autoImplicit false

namespace Wz.Spec

/-- the pixel value of the format RGB565: five bits red, six bits green, five bits blue, from the top -/
def pack565 (r g b : Nat) : Nat := (r * 64 + g) * 32 + b

/-- ARGB1555: one bit alpha, then five bits each for red, green and blue, from the top -/
def pack1555 (a r g b : Nat) : Nat := ((a * 32 + r) * 32 + g) * 32 + b

/-- BGRA4444: four bits each for alpha, red, green, blue, from the top of the 16-bit value -/
def pack4444 (a r g b : Nat) : Nat := ((a * 16 + r) * 16 + g) * 16 + b

/-- R10G10B10A2: two bits alpha, ten bits each for blue, green, red, from the top -/
def pack1010102 (a b g r : Nat) : Nat := ((a * 1024 + b) * 1024 + g) * 1024 + r

/-- A good way to widen `k` bits to eight: 0 to 0, full to 255, the order kept, and the value comes back as the
top `k` bits; never further than one from the exact ratio. -/
structure Widens (k : Nat) (f : Nat → Nat) : Prop where
  zero : f 0 = 0
  full : f (2 ^ k - 1) = 255
  mono : ∀ x y, x < y → y < 2 ^ k → f x < f y
  back : ∀ x, x < 2 ^ k → f x / 2 ^ (8 - k) = x
  near : ∀ x, x < 2 ^ k → f x * (2 ^ k - 1) < x * 255 + (2 ^ k - 1) ∧ x * 255 < f x * (2 ^ k - 1) + (2 ^ k - 1)

end Wz.Spec
