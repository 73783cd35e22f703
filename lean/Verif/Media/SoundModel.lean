import Verif.Property.Model
import Verif.Version.Pkg1Model
/-!
# Model of sounds (`property/sound.rs`)
-/

set_option autoImplicit false

namespace Wz

/-- `WAV_HEADER` (property/sound.rs 53-62) -/
def wavHeader0 : Bytes :=
  [0x52#8, 0x49#8, 0x46#8, 0x46#8, 0#8, 0#8, 0#8, 0#8, 0x57#8, 0x41#8, 0x56#8, 0x45#8, 0x66#8, 0x6d#8, 0x74#8, 0x20#8, 0x10#8, 0#8, 0#8, 0#8,
   0#8, 0#8, 0#8, 0#8, 0#8, 0#8, 0#8, 0#8, 0#8, 0#8, 0#8, 0#8, 0#8, 0#8, 0#8, 0#8, 0x64#8, 0x61#8, 0x74#8, 0x61#8, 0#8, 0#8, 0#8, 0#8]

/-- `dst[a..b].copy_from_slice(src)`: panics if the range does not fit or the lengths differ -/
def copyInto (dst : Bytes) (a b : Nat) (src : Bytes) : Except Err Bytes :=
  if a ≤ b ∧ b ≤ dst.length ∧ src.length = b - a then .ok (dst.take a ++ src ++ dst.drop b) else .error .panicIndex

/-- `get_wav_header` (property/sound.rs 113-127) -/
def Sound.wavHeader (m : Mode) (buf : Bytes) (s : Sound) : Except Err Bytes := do
  let hend ← addU m s.headerOffset s.headerSize
  let header ← sliceIdx buf s.headerOffset hend
  let chunk ← addU32 m s.length 36
  let fmt ← sliceIdx header 0x34 (0x34 + 16)
  let h ← copyInto wavHeader0 4 8 (toLE 4 chunk)
  let h ← copyInto h 20 36 fmt
  copyInto h 40 44 (toLE 4 s.length)

/-- `get_buffer` (property/sound.rs 147-158) -/
def Sound.getBuffer (m : Mode) (buf : Bytes) (s : Sound) : Except Err Bytes := do
  let last ← addU m s.offset s.length
  let data ← sliceIdx buf s.offset last
  match s.ty with
  | .wav => do
    let h ← s.wavHeader m buf
    return h ++ data
  | _ => return data

/-- `write_to` (property/sound.rs 128-145) with any writer: `put` is its `write_all`, on a state `σ` -/
def Sound.writeTo {σ : Type} (put : σ → Bytes → Except Err σ) (m : Mode) (buf : Bytes) (s : Sound) (w : σ) : Except Err σ := do
  let last ← addU m s.offset s.length
  let data ← sliceIdx buf s.offset last
  match s.ty with
  | .wav => do
    let h ← s.wavHeader m buf
    let w ← put w h
    put w data
  | _ => put w data

end Wz
