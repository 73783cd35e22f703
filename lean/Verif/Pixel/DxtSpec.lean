import Verif.Pixel.ColorSpec
/-!
# What DXT3 and DXT5 data mean

A block of 16 bytes holds 4 × 4 pixels: eight bytes alpha, two colours of 16 bits, sixteen indices of two bits.
-/

set_option autoImplicit false

namespace Wz.Spec

/-- the bytes `a..b` -/
def bytesAt (chunk : Bytes) (a b : Nat) : Bytes := (chunk.drop a).take (b - a)

/-- the `k`-th group of so many bits, counted from the lowest bit of the little-endian number -/
def bitsAt (bits : Nat) (raw : Bytes) (k : Nat) : Nat := leNat raw / (2 ^ bits) ^ k % 2 ^ bits

/-- an RGB565 value as a colour -/
def Is565 (v : Nat) (c : Rgb) : Prop := ∃ r g b, r < 32 ∧ g < 64 ∧ b < 32 ∧ v = pack565 r g b ∧
  c = ⟨BitVec.ofNat 8 (8 * r + r / 4), BitVec.ofNat 8 (4 * g + g / 16), BitVec.ofNat 8 (8 * b + b / 4)⟩

/-- `t` is the value next to `n / d` -/
def Nearest (n d t : Nat) : Prop := 2 * d * t ≤ 2 * n + d ∧ 2 * n ≤ 2 * d * t + d

/-- two thirds of the way to `p` -/
def Third (p q t : Byte) : Prop := Nearest (2 * p.toNat + q.toNat) 3 t.toNat

/-- half way, rounded down -/
def Half (p q t : Byte) : Prop := t.toNat = (p.toNat + q.toNat) / 2

/-- the colour with index `i` between the two stored ones -/
def ColorAt (c0 c1 : Nat) (i : Nat) (c : Rgb) : Prop := ∃ p q, Is565 c0 p ∧ Is565 c1 q ∧
  ((i = 0 ∧ c = p) ∨ (i = 1 ∧ c = q) ∨
    (c1 < c0 ∧ i = 2 ∧ Third p.r q.r c.r ∧ Third p.g q.g c.g ∧ Third p.b q.b c.b) ∨
    (c1 < c0 ∧ i = 3 ∧ Third q.r p.r c.r ∧ Third q.g p.g c.g ∧ Third q.b p.b c.b) ∨
    (c0 ≤ c1 ∧ i = 2 ∧ Half p.r q.r c.r ∧ Half p.g q.g c.g ∧ Half p.b q.b c.b) ∨
    (c0 ≤ c1 ∧ i = 3 ∧ c = ⟨0#8, 0#8, 0#8⟩))

/-- alpha in DXT3: four bits for each pixel -/
def Alpha3 (chunk : Bytes) (k : Nat) (a : Byte) : Prop := a.toNat = 17 * bitsAt 4 (bytesAt chunk 0 8) k

/-- alpha with index `i` between the two stored ones -/
def AlphaAt (a0 a1 : Byte) (i : Nat) (a : Byte) : Prop :=
  (i = 0 ∧ a = a0) ∨ (i = 1 ∧ a = a1) ∨
  (a1.toNat < a0.toNat ∧ 2 ≤ i ∧ i < 8 ∧ Nearest ((8 - i) * a0.toNat + (i - 1) * a1.toNat) 7 a.toNat) ∨
  (a0.toNat ≤ a1.toNat ∧ 2 ≤ i ∧ i < 6 ∧ Nearest ((6 - i) * a0.toNat + (i - 1) * a1.toNat) 5 a.toNat) ∨
  (a0.toNat ≤ a1.toNat ∧ i = 6 ∧ a = 0#8) ∨ (a0.toNat ≤ a1.toNat ∧ i = 7 ∧ a = 255#8)

/-- alpha in DXT5: two values and an index of three bits for each pixel -/
def Alpha5 (chunk : Bytes) (k : Nat) (a : Byte) : Prop :=
  ∃ a0 a1, chunk[0]? = some a0 ∧ chunk[1]? = some a1 ∧ AlphaAt a0 a1 (bitsAt 3 (bytesAt chunk 2 8) k) a

/-- pixel `k` of a block, row by row -/
def Texel (alpha : Bytes → Nat → Byte → Prop) (chunk : Bytes) (k : Nat) (p : Rgba) : Prop :=
  ColorAt (leNat (bytesAt chunk 8 10)) (leNat (bytesAt chunk 10 12)) (bitsAt 2 (bytesAt chunk 12 16) k) ⟨p.r, p.g, p.b⟩ ∧ alpha chunk k p.a

/-- block number `n` -/
def blockAt (raw : Bytes) (n : Nat) : Bytes := bytesAt raw (16 * n) (16 * n + 16)

/-- the pixel at `x`, `y` -/
def pixelAt {α : Type} (img : List (List α)) (x y : Nat) : Option α := (img[y]?).bind fun row => row[x]?

/-- an image of this size -/
def Sized {α : Type} (img : List (List α)) (w h : Nat) : Prop := img.length = h ∧ ∀ row ∈ img, row.length = w

/-- An image of the right size in which every pixel comes from its own block: `⌈w / 4⌉` blocks in a row of blocks. -/
def DxtImage (alpha : Bytes → Nat → Byte → Prop) (raw : Bytes) (w h : Nat) (img : List (List Rgba)) : Prop :=
  Sized img w h ∧ ∀ x y, x < w → y < h → ∃ p, pixelAt img x y = some p ∧ Texel alpha (blockAt raw (y / 4 * ((w + 3) / 4) + x / 4)) (y % 4 * 4 + x % 4) p

end Wz.Spec
