import Verif.Whole.Model
import Verif.Node.PictureModel
import Verif.Png.Model
import Verif.Media.SoundModel
import Verif.Media.LuaModel
import Verif.Media.PayloadModel

/-!
# What a user gets out of the nodes of an archive: texts, pictures, sounds, data and scripts

The accessors of nodes (node_cast.rs) on the values of `Whole/Model.lean`, and behind them the models of the payloads.
The reader `e` is the one of the archive, all values of an archive share it.
-/

set_option autoImplicit false

namespace Wz

/-- the value of a kind of node (object.rs 25-35), `none` for containers and links -/
def NKind.leaf : NKind → Option Leaf58
  | .other v => Encodable.decode (α := Leaf58) v
  | _ => none

/-- the value in a node -/
def NHeap.leaf (h : NHeap) (i : Nat) : Option Leaf58 :=
  match h.cell i with
  | none => none
  | some c => c.kind.leaf

/-- is the value a picture? (png.rs 58) -/
def leafPng (v : Nat) : Bool :=
  match Encodable.decode (α := Leaf58) v with
  | some (.prop (.canvas _)) => true
  | _ => false

/-- the text of a value that is a string (node_cast.rs 91-98, string.rs 158-164), `none` if there is none or it cannot be read -/
def leafText (e : Env) (v : Nat) : Option (List Char) :=
  match Encodable.decode (α := Leaf58) v with
  | some (.prop (.str m)) => match resolveMeta e m.ty m.offset m.length with
    | .ok s => some s
    | .error _ => none
  | _ => none

/-- `get_image` (png.rs 55-81) on a node of an archive: the links (`getImage`), then the picture of the node they lead to
(77).  `keys` is the decryptor of the reader. -/
def NHeap.picture (content : Content) (inflate : Inflate) (bc7 : Bc7) (aes : Aes) (e : Env) (keys : Ecb) (fuel : Nat) (h : NHeap)
    (i : Nat) : Except Err (Img8 × Ecb) × NHeap :=
  match NHeap.getImage content leafPng (leafText e) fuel h [] i with
  | (.error x, g) => (.error x, g)
  | (.ok k, g) => match g.leaf k with
    | some (.prop (.canvas p)) => (p.extract inflate bc7 aes e.mode e.buf keys, g)
    | _ => (.error (.lib "NotPngProperty"), g)

/-- `try_as_string` (node_cast.rs 91-98) and `get_string` (string.rs 158-164).  Of a link that cannot be read the kind of
error is not kept. -/
def NKind.text (e : Env) : NKind → Except Err (List Char)
  | .uol (some s) => .ok s
  | .uol none => .error .decode
  | k => match k.leaf with
    | some (.prop (.str m)) => resolveMeta e m.ty m.offset m.length
    | _ => .error (.lib "NotStringProperty")

/-- `resolve_string_from_node` (string.rs 167-175) -/
def NHeap.nodeText (e : Env) (h : NHeap) (i : Nat) : Except Err (List Char) :=
  match h.cell i with
  | none => .error .panicUnwrap
  | some c => c.kind.text e

/-- `try_as_sound` (node_cast.rs 84-90) and `get_buffer` (sound.rs 147-158) -/
def NHeap.soundFile (e : Env) (h : NHeap) (i : Nat) : Option (Except Err Bytes) :=
  match h.leaf i with
  | some (.prop (.sound s)) => some (s.getBuffer e.mode e.buf)
  | _ => none

/-- `try_as_raw_data` (node_cast.rs 119) and `get_buffer` (raw_data.rs 20-28) -/
def NHeap.rawData (e : Env) (h : NHeap) (i : Nat) : Option (Except Err Bytes) :=
  match h.leaf i with
  | some (.prop (.raw off len)) => some (rawBuffer e.mode e.buf off len)
  | _ => none

/-- `try_as_video` (node_cast.rs 120) and `get_buffer` (video.rs 20-28) -/
def NHeap.videoData (e : Env) (h : NHeap) (i : Nat) : Option (Except Err Bytes) :=
  match h.leaf i with
  | some (.prop (.video off len)) => some (videoBuffer e.mode e.buf off len)
  | _ => none

/-- `try_as_lua` (node_cast.rs 118) and `extract_lua` (lua.rs 37-57); the keys are those all readers share -/
def NHeap.scriptText (aes : Aes) (e : Env) (keys : GlobalKeys) (h : NHeap) (i : Nat) : Option (Except Err (List Char)) :=
  match h.leaf i with
  | some (.lua off len) => some ((extractLua aes e.mode e.buf off len keys).map Prod.fst)
  | _ => none

end Wz
