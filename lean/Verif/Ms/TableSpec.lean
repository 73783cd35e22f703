import Verif.Ms.FileSpec
/-!
# What any bytes are taken for as a table of entries
-/

set_option autoImplicit false

namespace Wz.Spec.Ms

open Wz.Spec.Snow

/-- the image shown for an entry of a table that ends at `e`, whatever numbers the entry has: they are taken modulo `2 ^ 64` -/
def shownAt (e : Nat) (x : MsEntry) : MsImage :=
  { offset := unsign 64 (roundUp 1024 e + 1024 * x.startPos)
    blockSize := unsign 64 x.sizeAligned
    entry := { x with startPos := (BitVec.ofNat 32 (unsign 64 (roundUp 1024 e + 1024 * x.startPos))).toInt } }

/-- At `estart` in the file stand the fields of the entries, encrypted with the Snow2 key stream that name and salt give, and filled up to
whole words. -/
def Table1 (M : Maps) (buf : Bytes) (H : MsHeader) (es : List MsEntry) : Prop :=
  ∃ pre pad rest, pre.length = H.estart ∧
    ((es.flatMap fields1).flatten ++ pad).length = roundUp 4 (es.flatMap fields1).flatten.length ∧
    buf = pre ++ encrypt (keyWord M (signedKey (key2 (utf8EncStr H.nameWithSalt) 16))) 0 ((es.flatMap fields1).flatten ++ pad) ++ rest

/-- The same for version 2, with a ChaCha20 key stream that starts anew behind each field that ends with a block; the file goes on to the end
of the last block. -/
def Table2 (C : ChaCha) (buf : Bytes) (H : MsHeader) (es : List MsEntry) : Prop :=
  ∃ pre rest, pre.length = H.estart ∧ H.estart + roundUp 64 (es.flatMap fields2).flatten.length ≤ buf.length ∧
    buf = pre ++ restartEncrypt (C (xorBase (key2 (utf8EncStr H.nameWithSalt) 32)) (List.replicate 12 0#8)) 0 0 (es.flatMap fields2) ++ rest

/-- an entry of numbers of 32 bits, with a key of 16 bytes -/
structure Numbers32 (e : MsEntry) : Prop where
  name : (utf16EncStr e.name).length < 2147483648
  nums : ∀ v ∈ [e.checkSum, e.flags, e.startPos, e.size, e.sizeAligned, e.unk1, e.unk2, e.unk3, e.unk4], -2147483648 ≤ v ∧ v < 2147483648
  key : e.key.length = 16

/-- `ims` are the entries of the table, all of them in their order; an empty table need not be there -/
def Shown1 (M : Maps) (buf : Bytes) (H : MsHeader) (ims : List MsImage) : Prop :=
  H.nameWithSalt ≠ [] ∧ ∃ es : List MsEntry, H.entryCount = es.length ∧ (∀ e ∈ es, EntryOk e ∧ e.unk3 = 0 ∧ e.unk4 = 0) ∧
    (es ≠ [] → Table1 M buf H es) ∧ ims = es.map (shownAt (H.estart + roundUp 4 (es.flatMap fields1).flatten.length))

def Shown2 (C : ChaCha) (buf : Bytes) (H : MsHeader) (ims : List MsImage) : Prop :=
  ∃ es : List MsEntry, H.entryCount = es.length ∧ (∀ e ∈ es, Numbers32 e) ∧
    (es ≠ [] → H.nameWithSalt ≠ [] ∧ Table2 C buf H es) ∧ ims = es.map (shownAt (H.estart + roundUp 64 (es.flatMap fields2).flatten.length))

/-- names of less than a thousand million characters -/
def ShortNames (ims : List MsImage) : Prop := ∀ im ∈ ims, (utf16EncStr im.entry.name).length < 1073741824

end Wz.Spec.Ms
