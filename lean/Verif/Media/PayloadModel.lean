import Verif.Media.SoundModel
/-!
# Model of raw data and videos, and of the names of saved sounds

(`property/raw_data.rs`, `property/video.rs`, `save` of `property/sound.rs`.)
-/

set_option autoImplicit false

namespace Wz

/-- `WzRawData::get_buffer` with its range (property/raw_data.rs 20-28) -/
def rawBuffer (m : Mode) (buf : Bytes) (offset size : Nat) : Except Err Bytes := do
  let last ← addU m offset size
  sliceIdx buf offset last

/-- `WzVideo::get_buffer` with its range (property/video.rs 20-28) -/
def videoBuffer (m : Mode) (buf : Bytes) (offset size : Nat) : Except Err Bytes := do
  let last ← addU m offset size
  sliceIdx buf offset last

/-- the text before and behind the last dot -/
def splitDot : List Char → Option (List Char × List Char)
  | [] => none
  | c :: s => match splitDot s with
    | some (a, b) => some (c :: a, b)
    | none => if c = '.' then some ([], s) else none

/-- `Path::file_stem` of the standard library, on a file name -/
def nameStem (name : List Char) : List Char :=
  if name = ['.', '.'] then name
  else match splitDot name with
    | some (a, _) => if a = [] then name else a
    | none => name

/-- the file that `save` creates (property/sound.rs 160-170), in the folder that is given; `name` is the last component of the path.
`Path::with_extension` is the standard library's: the text behind the last dot is replaced. -/
def Sound.saveName (s : Sound) (name : List Char) : List Char :=
  match s.ty with
  | .wav => nameStem name ++ ['.', 'w', 'a', 'v']
  | .mp3 => nameStem name ++ ['.', 'm', 'p', '3']
  | .binary => name

end Wz
