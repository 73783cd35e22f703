import Verif.Pixel.Color
import Verif.Property.Model
import Verif.Version.Pkg1Model
/-!
# Model of the block-compressed and plain pixel formats (`property/png.rs`)

An image is its list of rows.  `ImageBuffer::new` fills the image with zero; `put_pixel` and `get_pixel` panic
outside the image.  Allocation failures for huge images are left out.
-/

set_option autoImplicit false

namespace Wz

/-- `a[i]`: panics outside the slice -/
def idx {α : Type} (l : List α) (i : Nat) : Except Err α :=
  match l[i]? with
  | some a => .ok a
  | none => .error .panicIndex

/-- `create_color_table` (property/png.rs 577-612) and `expand_color_table` (614-645): all values stay far below
`2^31`. -/
def colorTable (c0 c1 : BitVec 16) : List Rgb :=
  let p := fromRgb565 c0
  let q := fromRgb565 c1
  let two (x y : Byte) : Byte := BitVec.ofNat 8 ((x.toNat * 2 + y.toNat + 1) / 3)
  let half (x y : Byte) : Byte := BitVec.ofNat 8 ((x.toNat + y.toNat) / 2)
  if c0.toNat > c1.toNat then
    [p, q, ⟨two p.r q.r, two p.g q.g, two p.b q.b⟩, ⟨two q.r p.r, two q.g p.g, two q.b p.b⟩]
  else
    [p, q, ⟨half p.r q.r, half p.g q.g, half p.b q.b⟩, ⟨0#8, 0#8, 0#8⟩]

/-- the four indices in a byte (property/png.rs 660-664) -/
def colorIdx4 (color : Byte) : List Nat :=
  [(color &&& 0x03#8).toNat, ((color &&& 0x0C#8) >>> 2).toNat, ((color &&& 0x30#8) >>> 4).toNat, ((color &&& 0xC0#8) >>> 6).toNat]

/-- `expand_color_index_table` (property/png.rs 657-666) -/
def colorIdxTable (raw : Bytes) : Except Err (List Nat) := do
  let r0 ← idx raw 0
  let r1 ← idx raw 1
  let r2 ← idx raw 2
  let r3 ← idx raw 3
  return colorIdx4 r0 ++ colorIdx4 r1 ++ colorIdx4 r2 ++ colorIdx4 r3

/-- `expand_alpha_table_dxt3` (property/png.rs 678-688) -/
def alphaTable3 (raw : Bytes) : Except Err (List Byte) := do
  let bs ← (List.range 8).mapM (idx raw)
  let t : Bytes := bs.flatMap fun alpha => [alpha &&& 0x0F#8, (alpha &&& 0xF0#8) >>> 4]
  return t.map fun (x : Byte) => x ||| (x <<< 4)

/-- `expand_alpha_table_dxt5` (property/png.rs 700-717) -/
def alphaTable5 (a0 a1 : Byte) : List Byte :=
  if a0.toNat > a1.toNat then
    [a0, a1] ++ (List.range' 2 6).map fun i => BitVec.ofNat 8 (((8 - i) * a0.toNat + (i - 1) * a1.toNat + 3) / 7)
  else
    [a0, a1] ++ ((List.range' 2 4).map fun i => BitVec.ofNat 8 (((6 - i) * a0.toNat + (i - 1) * a1.toNat + 2) / 5)) ++ [0#8, 255#8]

/-- the eight indices in three bytes (property/png.rs 732-738) -/
def alphaIdx8 (b0 b1 b2 : Byte) : List Nat :=
  let flags : BitVec 32 := b0.setWidth 32 ||| (b1.setWidth 32 <<< 8) ||| (b2.setWidth 32 <<< 16)
  (List.range 8).map fun j => ((flags &&& (7#32 <<< (3 * j))) >>> (3 * j)).toNat

/-- `expand_alpha_index_table_dxt5` (property/png.rs 728-740); the values are below 8, so `as u8` keeps them -/
def alphaIdxTable5 (raw : Bytes) : Except Err (List Nat) := do
  let bs ← (List.range 6).mapM (idx raw)
  match bs with
  | [a, b, c, d, e, f] => return alphaIdx8 a b c ++ alphaIdx8 d e f
  | _ => throw .panicIndex

/-- alpha of the 16 pixels of a DXT3 block: `chunk[0..8]` and the table (property/png.rs 354, 413) -/
def blockAlpha3 (chunk : Bytes) : Except Err (List Byte) := do
  let s ← sliceIdx chunk 0 8
  alphaTable3 s

/-- alpha of the 16 pixels of a DXT5 block (property/png.rs 450-451, 470-471; 510-511, 530-531) -/
def blockAlpha5 (chunk : Bytes) : Except Err (List Byte) := do
  let a0 ← idx chunk 0
  let a1 ← idx chunk 1
  let s ← sliceIdx chunk 2 8
  let is ← alphaIdxTable5 s
  is.mapM (idx (alphaTable5 a0 a1))

/-- the 16 pixels of a block, row by row (property/png.rs 354-377 and the like); `alpha` is one of the two above -/
def dxtBlock (alpha : Bytes → Except Err (List Byte)) (chunk : Bytes) : Except Err (List Rgba) := do
  let al ← alpha chunk
  let u0 ← readAt chunk 2 8
  let u1 ← readAt chunk 2 10
  let s ← sliceIdx chunk 12 chunk.length
  let is ← colorIdxTable s
  let table := colorTable (BitVec.ofNat 16 u0) (BitVec.ofNat 16 u1)
  (List.range 16).mapM fun i => do
    let ci ← idx is i
    let c ← idx table ci
    let a ← idx al i
    return (⟨c.r, c.g, c.b, a⟩ : Rgba)

/-- `par_chunks(16)`: the last chunk may be shorter -/
def chunks16 (raw : Bytes) : List Bytes := (List.range ((raw.length + 15) / 16)).map fun i => (raw.drop (16 * i)).take 16

/-- an image made pixel by pixel, row after row (`ImageBuffer::from_fn`, `from_par_fn`) -/
def genImage {α : Type} (w h : Nat) (f : Nat → Nat → Except Err α) : Except Err (List (List α)) :=
  (List.range h).mapM fun y => (List.range w).mapM fun x => f x y

/-- `get_image_from_dxt3` and `get_image_from_dxt5` with the feature `rayon`, the default (property/png.rs 341-391,
437-488).  `x / 4 + y / 4 * grid_row_count` is at most `x / 4 + y / 4 * (w / 4)`, below `2^32` for all `u32`.
The order in which the blocks are decoded does not matter. -/
def dxtImagePar (alpha : Bytes → Except Err (List Byte)) (raw : Bytes) (w h : Nat) : Except Err (List (List Rgba)) := do
  let blocks ← (chunks16 raw).mapM (dxtBlock alpha)
  genImage w h fun x y => do
    let b ← idx blocks (x / 4 + y / 4 * (w / 4))
    idx b (y % 4 * 4 + x % 4)

/-- `put_pixel` -/
def putPixel {α : Type} (img : List (List α)) (x y : Nat) (p : α) : Except Err (List (List α)) :=
  match img[y]? with
  | none => .error .panicIndex
  | some row => if x < row.length then .ok (img.set y (row.set x p)) else .error .panicIndex

/-- `(0..n).step_by(4)` -/
def stepBy4 (n : Nat) : List Nat := (List.range ((n + 3) / 4)).map (4 * ·)

/-- the 16 positions of a block with the index of the pixel (property/png.rs 418-430) -/
def cells : List (Nat × Nat × Nat) := (List.range 16).map fun k => (k % 4, k / 4, k)

/-- the body of the loops over blocks (property/png.rs 408-431, 507-533) -/
def dxtPutBlock (alpha : Bytes → Except Err (List Byte)) (m : Mode) (raw : Bytes) (w : Nat) (img : List (List Rgba)) (xy : Nat × Nat) :
    Except Err (List (List Rgba)) := do
  let a ← mulU32 m xy.2 w
  let b ← mulU32 m xy.1 4
  let off ← addU32 m a b
  let chunk ← sliceIdx raw off (off + 16)
  let px ← dxtBlock alpha chunk
  cells.foldlM (fun img c => do
    let p ← idx px c.2.2
    putPixel img (xy.1 + c.1) (xy.2 + c.2.1) p) img

/-- `get_image_from_dxt3` and `get_image_from_dxt5` without the feature `rayon` (property/png.rs 393-435, 490-535).
`x + i` and `y + j` stay below `2^32 + 4`; an overflow there would need an image of the full width `2^32 - 1`. -/
def dxtImageSeq (alpha : Bytes → Except Err (List Byte)) (m : Mode) (raw : Bytes) (w h : Nat) : Except Err (List (List Rgba)) :=
  ((stepBy4 h).flatMap fun y => (stepBy4 w).map fun x => (x, y)).foldlM (dxtPutBlock alpha m raw w)
    (List.replicate h (List.replicate w ⟨0#8, 0#8, 0#8, 0#8⟩))

/-! ## Plain formats -/

/-- `(x + y * width) as usize * k` (property/png.rs 298, 750 and others) -/
def pixelPos (m : Mode) (w x y k : Nat) : Except Err Nat := do
  let a ← mulU32 m y w
  let b ← addU32 m x a
  return b * k

/-- `get_image_from_bgra4444` (property/png.rs 289-339) -/
def imageBgra4444 (m : Mode) (raw : Bytes) (w h : Nat) : Except Err (List (List Rgba)) :=
  genImage w h fun x y => do
    let i ← pixelPos m w x y 2
    let p0 ← idx raw i
    let p1 ← idx raw (i + 1)
    return fromBgra4444 p0 p1

/-- `get_image_from_bgra8888` (property/png.rs 742-771) -/
def imageBgra8888 (m : Mode) (raw : Bytes) (w h : Nat) : Except Err (List (List Rgba)) :=
  genImage w h fun x y => do
    let i ← pixelPos m w x y 4
    let p2 ← idx raw (i + 2)
    let p1 ← idx raw (i + 1)
    let p0 ← idx raw i
    let p3 ← idx raw (i + 3)
    return fromBgra8888 p0 p1 p2 p3

/-- `get_image_from_rgb565` (property/png.rs 773-790) -/
def imageRgb565 (m : Mode) (raw : Bytes) (w h : Nat) : Except Err (List (List Rgb)) :=
  genImage w h fun x y => do
    let i ← pixelPos m w x y 2
    let c ← readAt raw 2 i
    return fromRgb565 (BitVec.ofNat 16 c)

/-- `get_image_from_argb1555` (property/png.rs 792-809) -/
def imageArgb1555 (m : Mode) (raw : Bytes) (w h : Nat) : Except Err (List (List Rgba)) :=
  genImage w h fun x y => do
    let i ← pixelPos m w x y 2
    let c ← readAt raw 2 i
    return fromArgb1555 (BitVec.ofNat 16 c)

/-- `get_image_from_a16` (property/png.rs 811-828) -/
def imageR16 (m : Mode) (raw : Bytes) (w h : Nat) : Except Err (List (List Rgba16)) :=
  genImage w h fun x y => do
    let i ← pixelPos m w x y 2
    let p0 ← idx raw i
    let p1 ← idx raw (i + 1)
    return fromR16 (BitVec.ofNat 16 (p0.toNat + 256 * p1.toNat))

/-- `get_image_from_r10g10b10a2` (property/png.rs 830-857) -/
def imageRgba1010102 (m : Mode) (raw : Bytes) (w h : Nat) : Except Err (List (List Rgba)) :=
  genImage w h fun x y => do
    let i ← pixelPos m w x y 4
    let s ← sliceIdx raw i (i + 4)
    return fromRgba1010102 (BitVec.ofNat 32 (leNat s))

/-! ## The format 517 -/

/-- one write `pixels[i] = v` -/
def setIdx (l : Bytes) (i : Nat) (v : Byte) : Except Err Bytes :=
  if i < l.length then .ok (l.set i v) else .error .panicIndex

/-- the inner `for _ in 0..16` (property/png.rs 551-556): `n` turns -/
def fill517 (raw : Bytes) (i : Nat) : Nat → Bytes × Nat → Except Err (Bytes × Nat)
  | 0, s => .ok s
  | n + 1, (px, dst) => do
    let b0 ← idx raw i
    let px ← setIdx px dst b0
    let b1 ← idx raw (i + 1)
    let px ← setIdx px (dst + 1) b1
    fill517 raw i n (px, dst + 2)

/-- the copy loop `for source_idx in source_range` (property/png.rs 565-568): `n` turns from `src` -/
def copy517 : Nat → Nat → Bytes × Nat → Except Err (Bytes × Nat)
  | 0, _, s => .ok s
  | n + 1, src, (px, dst) => do
    let b ← idx px src
    let px ← setIdx px dst b
    copy517 n (src + 1) (px, dst + 1)

/-- one turn of the outer loop (property/png.rs 544-571): `s` is `pixels` and `line_index`.  The multiplications
`width * 2` and `width * 32` are `u32`. -/
def row517 (m : Mode) (raw : Bytes) (w : Nat) (s : Bytes × Nat) (j : Nat) : Except Err (Bytes × Nat) := do
  let s1 ← (List.range (w / 16)).foldlM (fun (t : Bytes × Nat) i => fill517 raw ((i + j * (w / 16)) * 2) 16 t) (s.1, s.2)
  let len ← mulU32 m w 2
  let s2 ← (List.range 15).foldlM (fun (t : Bytes × Nat) _ => copy517 len s.2 t) s1
  let step ← mulU32 m w 32
  return (s2.1, s.2 + step)

/-- `get_pixel_data_form_517` (property/png.rs 537-574).  The multiplication `width * height * 2` is `u32`. -/
def pixels517 (m : Mode) (raw : Bytes) (w h : Nat) : Except Err Bytes := do
  let a ← mulU32 m w h
  let size ← mulU32 m a 2
  let r ← (List.range (h / 16)).foldlM (row517 m raw w) (List.replicate size 0#8, 0)
  return r.1

end Wz
