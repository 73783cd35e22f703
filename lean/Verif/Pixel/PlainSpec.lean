import Verif.Pixel.DxtSpec
/-!
# What the plain pixel formats mean
-/

set_option autoImplicit false

namespace Wz.Spec

/-- an ARGB1555 value as a colour -/
def Is1555 (v : Nat) (c : Rgba) : Prop := ∃ a r g b, a < 2 ∧ r < 32 ∧ g < 32 ∧ b < 32 ∧ v = pack1555 a r g b ∧
  c = ⟨BitVec.ofNat 8 (8 * r + r / 4), BitVec.ofNat 8 (8 * g + g / 4), BitVec.ofNat 8 (8 * b + b / 4), BitVec.ofNat 8 (255 * a)⟩

/-- a BGRA4444 value as a colour -/
def Is4444 (v : Nat) (c : Rgba) : Prop := ∃ a r g b, a < 16 ∧ r < 16 ∧ g < 16 ∧ b < 16 ∧ v = pack4444 a r g b ∧
  c = ⟨BitVec.ofNat 8 (17 * r), BitVec.ofNat 8 (17 * g), BitVec.ofNat 8 (17 * b), BitVec.ofNat 8 (17 * a)⟩

/-- a BGRA8888 value as a colour: blue is the lowest byte -/
def Is8888 (v : Nat) (c : Rgba) : Prop := v = ((c.a.toNat * 256 + c.r.toNat) * 256 + c.g.toNat) * 256 + c.b.toNat

/-- an R16 value as a colour -/
def IsR16 (v : Nat) (c : Rgba16) : Prop := v = c.r.toNat ∧ c.g = 0#16 ∧ c.b = 0#16 ∧ c.a = 0xFFFF#16

/-- an R10G10B10A2 value as a colour -/
def Is1010102 (v : Nat) (c : Rgba) : Prop := ∃ a b g r, a < 4 ∧ b < 1024 ∧ g < 1024 ∧ r < 1024 ∧ v = pack1010102 a b g r ∧
  c = ⟨BitVec.ofNat 8 (r / 4), BitVec.ofNat 8 (g / 4), BitVec.ofNat 8 (b / 4), BitVec.ofNat 8 (85 * a)⟩

/-- an image of the right size whose pixels are the values of `k` bytes each, row after row -/
def PlainImage {α : Type} (k : Nat) (is : Nat → α → Prop) (raw : Bytes) (w h : Nat) (img : List (List α)) : Prop :=
  Sized img w h ∧ ∀ x y, x < w → y < h → ∃ p, pixelAt img x y = some p ∧ is (leNat (bytesAt raw ((y * w + x) * k) ((y * w + x) * k + k))) p

/-- an image in which every pixel has the RGB565 value stored for its square of 16 × 16 pixels -/
def SquareImage (raw : Bytes) (w h : Nat) (img : List (List Rgb)) : Prop :=
  Sized img w h ∧ ∀ x y, x < w → y < h →
    ∃ p, pixelAt img x y = some p ∧ Is565 (leNat (bytesAt raw ((y / 16 * (w / 16) + x / 16) * 2) ((y / 16 * (w / 16) + x / 16) * 2 + 2))) p

end Wz.Spec
