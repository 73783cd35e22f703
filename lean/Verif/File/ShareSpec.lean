import Verif.File.ShareModel
import Verif.Keys.Spec

/-!
# What it means that files do not disturb each other
-/

set_option autoImplicit false

namespace Wz.Spec

open Wz

/-- data that are decrypted with the decryptor at `k` are xored with this stream -/
def DecryptsWith (aes : Aes) (mem : DMem) (k : Nat) (ks : Nat → Byte) : Prop :=
  ∀ data, mem.decryptAt aes k data = .ok (xorStream ks data)

/-- the AES key of the game -/
def gameKey : Bytes :=
  [0x13, 0, 0, 0, 0x08, 0, 0, 0, 0x06, 0, 0, 0, 0xB4, 0, 0, 0, 0x1B, 0, 0, 0, 0x0F, 0, 0, 0, 0x33, 0, 0, 0, 0x52, 0, 0, 0].map (BitVec.ofNat 8)

/-- what a decryptor made from an IV puts on the data -/
def ivStream (aes : Aes) (iv : Bytes) : Nat → Byte := Spec.keyByte aes gameKey iv

/-- the decryptor at `k` is what a caller sees as `key` -/
structure HandleOf (aes : Aes) (mem : DMem) (k : Nat) (key : SKey) : Prop where
  stream : DecryptsWith aes mem k key.ks
  kind : ∃ d, mem[k]? = some d ∧ d.isPkg2 = key.pkg2

/-- A step a program may take.  A decryptor that is given to another file must exist and not be the PKG2 decryptor of a file
whose keys were not found when it was opened.  IVs have four bytes. -/
def AllowedShare (w : SWorld) : ShareOp → Prop
  | .openFile _ existing iv _ => (∀ b, iv = some b → b.length = 4) ∧
      ∀ k, existing = some k → k < w.mem.length ∧ ∀ f ∈ w.files, f.body.verified = false → f.pkg2 ≠ k
  | .byIv iv | .make iv => iv.length = 4
  | _ => True

/-- one step after the other, each allowed when it is taken -/
inductive SharedRun (aes : Aes) (m : Mode) : SWorld → List ShareOp → SWorld → Prop
  | nil (w : SWorld) : SharedRun aes m w [] w
  | cons (w w' : SWorld) (op : ShareOp) (ops : List ShareOp) : AllowedShare w op → SharedRun aes m (w.step aes m op) ops w' →
      SharedRun aes m w (op :: ops) w'

/-- a world that a program can get to from its start, when no file is open -/
def SharedWorld (aes : Aes) (m : Mode) (w : SWorld) : Prop :=
  ∃ mem ops, DMem.start = .ok mem ∧ SharedRun aes m ⟨mem, []⟩ ops w

end Wz.Spec
