import Verif.Media.PoisonModel
import Verif.Media.LuaProps
/-!
# What it means that a panic does no harm to others
-/

set_option autoImplicit false

namespace Wz.Spec

open Wz Wz.Props

/-- From `p` on up to `stop` there are chunks in the file, each a length and as many bytes; `total` is the number of bytes in them. -/
inductive ChunkRun (buf : Bytes) (stop : Nat) : Nat → Nat → Prop
  | done (p : Nat) : stop ≤ p → ChunkRun buf stop p 0
  | chunk (p len total : Nat) : p < stop → len < 2 ^ 31 → Holds buf p (toLE 4 len) → p + 4 + len ≤ buf.length →
      ChunkRun buf stop (p + 4 + len) total → ChunkRun buf stop p (len + total)

/-- the order in which a script tries the decryptors: it goes on to the next if the first 64 bytes are no text -/
inductive Tries (ks : Bytes → Nat → Byte) (data : Bytes) : List Slot → Slot → Prop
  | here (s : Slot) (rest : List Slot) : Tries ks data (s :: rest) s
  | there (s : Slot) (rest : List Slot) (t : Slot) : ¬ IsText (xorStream (ks (Slot.iv s)) (data.take 64)) → Tries ks data rest t →
      Tries ks data (s :: rest) t

/-- Which decryptors are needed.  For a picture: the decryptor of its file, if its data are there, its size is known and it cannot be
unpacked as it is. -/
def Needs (inflate : Inflate) (aes : Aes) (key : Bytes) (m : Mode) : Access → Slot → Prop
  | .text s _, t => t = s
  | .script buf o l, t => ∃ data, data.length = l ∧ Holds buf o data ∧ Tries (keyByte aes key) data [.kms, .gms, .general] t
  | .picture s buf p, t => t = s ∧ ∃ data capacity, data.length = p.size ∧ Holds buf p.offset data ∧ p.buffSize m = .ok capacity ∧
      (p.header ∈ [0x9C78, 0xDA78, 0x0178, 0x5E78] → ∃ e, inflate true data capacity = .error e)

/-- Damaged: the data are not chunks that lie in the file, or less than two bytes are in them. -/
def Damaged (buf : Bytes) (p : Png) : Prop := ¬ ∃ total, 2 ≤ total ∧ ChunkRun buf (p.offset + p.size) p.offset total

/-- the access leaves the decryptor unusable: a damaged picture that needs it -/
def Breaks (inflate : Inflate) (aes : Aes) (key : Bytes) (m : Mode) : Access → Slot → Prop
  | .picture s buf p, t => Needs inflate aes key m (.picture s buf p) t ∧ Damaged buf p
  | _, _ => False

/-- what an access gives in a program that does nothing else -/
def aloneGives (inflate : Inflate) (bc7 : Bc7) (aes : Aes) (key : Bytes) (m : Mode) : Access → Except Err Shown
  | .text s data => .ok (.text (xorStream (keyByte aes key (Slot.iv s)) data))
  | .script buf o l => (extractLua aes m buf o l (globalAfter aes key [] [] [])).map fun x => .script x.1
  | .picture s buf p => (p.extract inflate bc7 aes m buf (Ecb.new (Slot.iv s) key)).map fun x => .picture x.1

/-- places and lengths are machine words -/
def WordSized : Access → Prop
  | .text _ _ => True
  | .script buf o l => buf.length < 2 ^ 63 ∧ o < 2 ^ 64 ∧ l < 2 ^ 64
  | .picture _ buf p => buf.length < 2 ^ 63 ∧ p.offset < 2 ^ 64 ∧ p.size < 2 ^ 64

end Wz.Spec
