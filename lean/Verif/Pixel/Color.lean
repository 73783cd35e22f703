import Verif.Base
/-!
# Model of the colour conversions (`util/color.rs`, the pixel parts of `property/png.rs`)
-/

set_option autoImplicit false

namespace Wz

/-- `image::Rgb<u8>` -/
structure Rgb where
  r : Byte
  g : Byte
  b : Byte
deriving DecidableEq, Repr

/-- `image::Rgba<u8>` -/
structure Rgba where
  r : Byte
  g : Byte
  b : Byte
  a : Byte
deriving DecidableEq, Repr

/-- `image::Rgba<u16>` -/
structure Rgba16 where
  r : BitVec 16
  g : BitVec 16
  b : BitVec 16
  a : BitVec 16
deriving DecidableEq, Repr

/-- `from_rgb565` (util/color.rs 11-17) for `Rgb` -/
def fromRgb565 (color : BitVec 16) : Rgb :=
  let r := ((color &&& 0xF800#16) >>> 11).setWidth 8
  let g := ((color &&& 0x07E0#16) >>> 5).setWidth 8
  let b := (color &&& 0x001F#16).setWidth 8
  ⟨(r <<< 3) ||| (r >>> 2), (g <<< 2) ||| (g >>> 4), (b <<< 3) ||| (b >>> 2)⟩

/-- `from_argb1555` (util/color.rs 30-37) for `Rgba` -/
def fromArgb1555 (color : BitVec 16) : Rgba :=
  let a := if color &&& 0x8000#16 ≠ 0#16 then 255#8 else 0#8
  let r := ((color &&& 0x7C00#16) >>> 10).setWidth 8
  let g := ((color &&& 0x03E0#16) >>> 5).setWidth 8
  let b := (color &&& 0x001F#16).setWidth 8
  ⟨(r <<< 3) ||| (r >>> 2), (g <<< 3) ||| (g >>> 2), (b <<< 3) ||| (b >>> 2), a⟩

/-- the pixel of `get_image_from_bgra4444` (property/png.rs 297-313, 317-334) -/
def fromBgra4444 (p0 p1 : Byte) : Rgba :=
  let b := p0 &&& 0x0F#8
  let b := b ||| (b <<< 4)
  let g := p0 &&& 0xF0#8
  let g := g ||| (g >>> 4)
  let r := p1 &&& 0x0F#8
  let r := r ||| (r <<< 4)
  let a := p1 &&& 0xF0#8
  let a := a ||| (a >>> 4)
  ⟨r, g, b, a⟩

/-- the pixel of `get_image_from_bgra8888` (property/png.rs 749-767) -/
def fromBgra8888 (p0 p1 p2 p3 : Byte) : Rgba := ⟨p2, p1, p0, p3⟩

/-- the pixel of `get_image_from_a16` (property/png.rs 821-824) -/
def fromR16 (p : BitVec 16) : Rgba16 := ⟨p, 0#16, 0#16, 0xffff#16⟩

/-- `pixel_to_rgba` of `get_image_from_r10g10b10a2` (property/png.rs 836-843).  The multiplication by 85 stays
below 256. -/
def fromRgba1010102 (pixel : BitVec 32) : Rgba :=
  ⟨((pixel &&& 0x3ff#32) >>> 2).setWidth 8, (((pixel >>> 10) &&& 0x3ff#32) >>> 2).setWidth 8,
    (((pixel >>> 20) &&& 0x3ff#32) >>> 2).setWidth 8, (((pixel >>> 30) &&& 0x03#32) * 85#32).setWidth 8⟩

end Wz
