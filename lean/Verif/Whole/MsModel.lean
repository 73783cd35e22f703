import Verif.Whole.Model
import Verif.Ms.FileModel

/-!
# From the bytes of an MS archive to its nodes
-/

set_option autoImplicit false

namespace Wz

/-- The reader of the image that is made of an MS image: its own copy of the decrypted bytes (reader.rs 264-281; one byte 0 if there are none) and
the keys of an unknown version, which are those of the initialisation vector 0 and so all 0 (util/string_decryptor/mod.rs 199-211,
ecb_decryptor.rs 97-105; C07).  The other keys, here a parameter, are not used in images. -/
def msEnv (m : Mode) (ks2 : Nat → Byte) (data : Bytes) : Env :=
  { mode := m, buf := if data = [] then [0#8] else data, ks := fun _ => 0#8, ks2 := ks2 }

/-- the nodes of the images of an MS archive (ms/file.rs 142-150, 224-232); the number of an image is where it is read from -/
def msForest : Nat → List MsImage → Forest
  | _, [] => .nil
  | k, im :: ims => .node im.entry.name (.msImage k) .nil (msForest (k + 1) ims)

/-- the children of an MS image (node.rs 207-213, ms/ms_image.rs 54-60) -/
def msImageForest (m : Mode) (C : ChaCha) (ks2 : Nat → Byte) (fuel : Nat) (f : MsFile) (im : MsImage) : Except Err Forest := do
  let w ← f.toWzImage m C im
  readImage (msEnv m ks2 w.data) fuel ⟨w.name, 0, w.blockSize⟩

/-- What the parsers give for the nodes of an MS archive (node.rs 194-213): the file, whose number is 0, its images, and these their
properties.  An image is in its node; here it is taken from the list once more. -/
def msContent (m : Mode) (C : ChaCha) (ks2 : Nat → Byte) (fuel : Nat) (f : MsFile) : Content := fun s =>
  match s with
  | 0 => (f.parse m C).map (msForest 1)
  | k + 1 => do
    let ims ← f.parse m C
    match ims[k]? with
    | none => .error (.lib "not a source")
    | some im => msImageForest m C ks2 fuel f im

end Wz
