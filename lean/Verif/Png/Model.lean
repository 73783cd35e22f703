import Verif.Pixel.Dxt
import Verif.Keys.Model
/-!
# Model of the data of a picture: formats, sizes, decryption (`property/png.rs`)

The decompression (`flate2`) and the BC7 decoder (`texture2ddecoder`) are parameters.
-/

set_option autoImplicit false

namespace Wz

/-- `WzPngFormat` (property/png.rs 82-105) -/
inductive Fmt where
  | unknown | bgra4444 | bgra8888 | argb1555 | rgb565 | rgb565_517 | dxt1 | dxt3 | dxt3sm | dxt5 | bc7 | r16 | a8 | rgba1010102 | rgba32float
deriving DecidableEq, Repr

/-- `From<u32> for WzPngFormat` (property/png.rs 107-128) -/
def fmtOf (value : Nat) : Fmt :=
  match value with
  | 1 => .bgra4444
  | 2 => .bgra8888
  | 257 => .argb1555
  | 513 => .rgb565
  | 517 => .rgb565_517
  | 4097 => .dxt1
  | 1026 => .dxt3
  | 3 => .dxt3sm
  | 2050 => .dxt5
  | 4098 => .bc7
  | 769 => .r16
  | 2304 => .a8
  | 2562 => .rgba1010102
  | 4100 => .rgba32float
  | _ => .unknown

/-- `format` (property/png.rs 172-175) -/
def Png.format (m : Mode) (p : Png) : Except Err Fmt := do
  let v ← addU32 m p.format1 p.format2
  return fmtOf v

/-- `has_zlib_header` (property/png.rs 176-182) -/
def Png.hasZlibHeader (p : Png) : Bool := p.header == 0x9C78 || p.header == 0xDA78 || p.header == 0x0178 || p.header == 0x5E78

/-- the error for a format that cannot be decoded -/
def unknownFormat : Err := .lib "UnknownFormat"

/-- `a * b * c` in u32 -/
def mul3 (m : Mode) (a b c : Nat) : Except Err Nat := do
  let x ← mulU32 m a b
  mulU32 m x c

/-- the cases of `get_buff_size` (property/png.rs 212-234) -/
def Fmt.buffSize (m : Mode) (f : Fmt) (w h : Nat) : Except Err Nat :=
  match f with
  | .bgra4444 | .argb1555 | .rgb565 | .r16 => mul3 m w h 2
  | .bgra8888 | .rgba1010102 => mul3 m w h 4
  | .dxt3sm => mul3 m w h 4
  | .dxt3 | .dxt5 => mul3 m ((w + 3) / 4) ((h + 3) / 4) 16
  | .bc7 => mulU32 m w (h - h % 4)
  | .a8 => mulU32 m w h
  | .rgba32float => mul3 m w h 16
  | .rgb565_517 => do
    let x ← mulU32 m w h
    return x / 128
  | .unknown | .dxt1 => throw unknownFormat

/-- `get_buff_size` (property/png.rs 211-235) -/
def Png.buffSize (m : Mode) (p : Png) : Except Err Nat := do
  let f ← p.format m
  f.buffSize m p.width p.height

/-- The loop of `get_raw_data` (property/png.rs 256-271).  `n` bounds the number of turns; every turn moves the offset
by four at least.  `read_i32_at(offset).unwrap() as usize` makes a negative length huge. -/
def rawChunks (aes : Aes) (m : Mode) (buf : Bytes) (stop : Nat) : Nat → Nat → Bytes → Ecb → Except Err (Bytes × Ecb)
  | n, offset, acc, keys =>
    if offset < stop then
      match n with
      | 0 => .error .fuel
      | n + 1 =>
        match readAt buf 4 offset with
        | .error _ => .error .panicUnwrap
        | .ok v =>
          match addU m (offset + 4) (asUsize (signed 32 v)) with
          | .error e => .error e
          | .ok last =>
            match sliceIdx buf (offset + 4) last with
            | .error e => .error e
            | .ok data =>
              match keys.ensure aes data.length with
              | .error _ => .error .panicUnwrap
              | .ok keys =>
                match keys.decrypt data with
                | .error e => .error e
                | .ok out => rawChunks aes m buf stop n last (acc ++ out) keys
    else .ok (acc, keys)

/-- `inflate(with_header, data, capacity)` (property/png.rs 275-286) is a parameter. -/
abbrev Inflate := Bool → Bytes → Nat → Except Err Bytes

/-- `get_raw_data` (property/png.rs 236-273) on the buffer, with the key stream of the reader; `keys` is not changed if the
data is plain. -/
def Png.rawData (inflate : Inflate) (aes : Aes) (m : Mode) (buf : Bytes) (p : Png) (data : Bytes) (keys : Ecb) : Except Err (Bytes × Ecb) := do
  let capacity ← p.buffSize m
  let first := if p.hasZlibHeader then inflate true data capacity else .error (.lib "UnsupportedHeader")
  match first with
  | .ok r => return (r, keys)
  | .error _ => do
    let stop ← addU m p.offset p.size
    let (plain, keys) ← rawChunks aes m buf stop (stop - p.offset) p.offset [] keys
    let z ← sliceIdx plain 2 plain.length
    let r ← inflate false z capacity
    return (r, keys)

/-- `DynamicImage`: the three kinds that are made -/
inductive Img8 where
  | rgba (rows : List (List Rgba))
  | rgb (rows : List (List Rgb))
  | rgba16 (rows : List (List Rgba16))
deriving DecidableEq, Repr

/-- `decode_bc7` with the conversion of its pixels (property/png.rs 859-887) is a parameter. -/
abbrev Bc7 := Bytes → Nat → Nat → Except Err (List (List Rgba))

/-- the decoders of `extract_png` (property/png.rs 189-209), with the default feature `rayon` -/
def decodePixels (bc7 : Bc7) (m : Mode) (f : Fmt) (px : Bytes) (w h : Nat) : Except Err Img8 :=
  match f with
  | .bgra4444 => (imageBgra4444 m px w h).map .rgba
  | .bgra8888 => (imageBgra8888 m px w h).map .rgba
  | .dxt3 | .dxt3sm => (dxtImagePar blockAlpha3 px w h).map .rgba
  | .argb1555 => (imageArgb1555 m px w h).map .rgba
  | .rgb565 => (imageRgb565 m px w h).map .rgb
  | .rgb565_517 => do
    let d ← pixels517 m px w h
    (imageRgb565 m d w h).map .rgb
  | .dxt5 => (dxtImagePar blockAlpha5 px w h).map .rgba
  | .r16 => (imageR16 m px w h).map .rgba16
  | .rgba1010102 => (imageRgba1010102 m px w h).map .rgba
  | .bc7 => (bc7 px w h).map .rgba
  | .unknown | .dxt1 | .a8 | .rgba32float => .error unknownFormat

/-- `extract_png` (property/png.rs 182-210) -/
def Png.extract (inflate : Inflate) (bc7 : Bc7) (aes : Aes) (m : Mode) (buf : Bytes) (p : Png) (keys : Ecb) : Except Err (Img8 × Ecb) := do
  let stop ← addU m p.offset p.size
  let data ← sliceIdx buf p.offset stop
  let (px, keys) ← p.rawData inflate aes m buf data keys
  let f ← p.format m
  let img ← decodePixels bc7 m f px p.width p.height
  return (img, keys)

end Wz
