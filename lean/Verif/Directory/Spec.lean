import Verif.Directory.Model
import Verif.Reader.Spec
import Verif.Offset.Spec
/-!
# What a directory looks like in a file

Written from the side of a tool that creates files, in terms of stored bytes (`Holds`), stored numbers
(`IsWzInt`), stored names (`IsWzString`) and stored offsets (`storedOffset`).
-/

set_option autoImplicit false

namespace Wz.Spec

/-- The type byte of a node (3 directory, 4 image), its offset and its size. -/
inductive NodeIs : Byte → Nat → Nat → DNode → Prop
  | dir (o s : Nat) (kids : List (List Char × DNode)) : NodeIs 3#8 o s (.dir o s kids)
  | image (o s : Nat) : NodeIs 4#8 o s (.image o s)

/-- What the node refers to is in the file: an image starts with one of the three image marks, a directory with
a number that is not negative. -/
def Located (x : DirCtx) : DNode → Prop
  | .image o s => o + s ≤ x.env.buf.length ∧ ∃ b, Holds x.env.buf o [b] ∧ (b = 0x73#8 ∨ b = 0x01#8 ∨ b = 0x23#8)
  | .dir o s _ => o + s ≤ x.env.buf.length ∧
      ∃ c bs, (0 : Int) ≤ c ∧ Holds x.env.buf o bs ∧ IsWzInt (if x.hdr.isPkg2_64 then 8 else 4) c bs
  | .none => False

/-- the four bytes of a stored offset -/
def offsetBytes (x : DirCtx) (ver : OffsetVersion) (hash : BitVec 64) (pos real : Nat) : Bytes :=
  toLE 4 (storedOffset ver pos x.hdr.fstart (hash.toNat % 2 ^ 32) (x.hdr.hash1.toNat % 2 ^ 32) real)

/-- A PKG1 directory entry stored at `p .. q`. -/
inductive Entry1 (x : DirCtx) (hash : BitVec 64) : Nat → List Char × DNode → Nat → Prop
  /-- type, name, size, checksum, offset -/
  | direct (p : Nat) (t : Byte) (name : List Char) (node : DNode) (o s : Nat) (sum : Int) (nm sz sm : Bytes) :
      NodeIs t o s node → Located x node → o < 2 ^ 32 →
      IsWzString x.env.ks name nm → IsWzInt 4 s sz → IsWzInt 4 sum sm →
      Holds x.env.buf p ([t] ++ nm ++ sz ++ sm ++
        offsetBytes x .pkg1 hash (p + (1 + nm.length + sz.length + sm.length)) o) →
      Entry1 x hash p (name, node) (p + (1 + nm.length + sz.length + sm.length) + 4)
  /-- type 2 and the place (counted from the header start) where the real type and the name are, then size,
  checksum, offset -/
  | byRef (p : Nat) (t : Byte) (name : List Char) (node : DNode) (o s so : Nat) (sum : Int) (nm sz sm : Bytes) :
      NodeIs t o s node → Located x node → o < 2 ^ 32 → so < 2 ^ 31 →
      IsWzString x.env.ks name nm → IsWzInt 4 s sz → IsWzInt 4 sum sm →
      Holds x.env.buf (x.hdr.fstart + so) ([t] ++ nm) →
      Holds x.env.buf p ([2#8] ++ toLE 4 so ++ sz ++ sm ++
        offsetBytes x .pkg1 hash (p + (5 + sz.length + sm.length)) o) →
      Entry1 x hash p (name, node) (p + (5 + sz.length + sm.length) + 4)

/-- `n` PKG1 entries stored at `p .. q`; a chunk of type 1 has ten more bytes and no meaning. -/
inductive Entries1 (x : DirCtx) (hash : BitVec 64) : Nat → Nat → List (List Char × DNode) → Nat → Prop
  | nil (p : Nat) : Entries1 x hash 0 p [] p
  | skip (n p q : Nat) (items : List (List Char × DNode)) (junk : Bytes) : junk.length = 10 →
      Holds x.env.buf p ([1#8] ++ junk) → Entries1 x hash n (p + 11) items q → Entries1 x hash (n + 1) p items q
  | cons (n p q r : Nat) (it : List Char × DNode) (items : List (List Char × DNode)) :
      Entry1 x hash p it q → Entries1 x hash n q items r → Entries1 x hash (n + 1) p (it :: items) r

/-- the entries of a PKG1 directory at `p`: their number, then the entries -/
def Block1 (x : DirCtx) (hash : BitVec 64) (p : Nat) (items : List (List Char × DNode)) : Prop :=
  ∃ n cb q, n ≤ 1000000 ∧ IsWzInt 4 (n : Nat) cb ∧ Holds x.env.buf p cb ∧ Entries1 x hash n (p + cb.length) items q

/-- the length prefix and payload of a PKG2 directory name with `w` length bytes -/
def IsPkg2Name (w : Nat) (ks2 : Nat → Byte) (name : List Char) (bs : Bytes) : Prop :=
  (utf16EncStr name).length ≠ 0 ∧ (utf16EncStr name).length < 2 ^ (8 * w - 1) ∧
  bs = toLE w (unsign (8 * w) (-((utf16EncStr name).length : Int))) ++ cipherPkg2 ks2 (utf16EncStr name)

/-- the stored name of a PKG2 entry: the first one uses the PKG2 form if the file is read with PKG2 keys -/
def IsName2 (x : DirCtx) (first : Bool) (name : List Char) (bs : Bytes) : Prop :=
  if first && x.keys2 then IsPkg2Name (if x.hdr.isPkg2_64 then 2 else 1) x.env.ks2 name bs
  else IsWzString x.env.ks name bs

/-- The first part of PKG2 entries stored at `p .. q`: type, name, size, checksum. -/
inductive Entries2 (x : DirCtx) : Bool → Nat → List (List Char × DNode) → Nat → Prop
  | nil (first : Bool) (p : Nat) : Entries2 x first p [] p
  | cons (first : Bool) (p q : Nat) (t : Byte) (name : List Char) (node : DNode) (o s : Nat) (sum : Int)
      (nm sz sm : Bytes) (items : List (List Char × DNode)) :
      NodeIs t o s node → Located x node → o < 2 ^ 32 →
      IsName2 x first name nm → IsWzInt 4 s sz → IsWzInt 4 sum sm →
      Holds x.env.buf p ([t] ++ nm ++ sz ++ sm) →
      Entries2 x false (p + (1 + nm.length + sz.length + sm.length)) items q →
      Entries2 x first p ((name, node) :: items) q

/-- offset of a node -/
def offsetOf : DNode → Nat
  | .image o _ => o
  | .dir o _ _ => o
  | .none => 0

/-- The second part of PKG2 entries: the offsets, one after the other. -/
inductive Offsets2 (x : DirCtx) (ver : OffsetVersion) (hash : BitVec 64) : Nat → List (List Char × DNode) → Prop
  | nil (p : Nat) : Offsets2 x ver hash p []
  | cons (p : Nat) (it : List Char × DNode) (items : List (List Char × DNode)) :
      Holds x.env.buf p (offsetBytes x ver hash p (offsetOf it.2)) → Offsets2 x ver hash (p + 4) items →
      Offsets2 x ver hash p (it :: items)

/-- The entries of a (32-bit) PKG2 directory at `p`: an encrypted count, the entries, the same count again,
the offsets.  The first byte of the stored count must not look like an entry type (1 to 4). -/
def Block2 (x : DirCtx) (ver : OffsetVersion) (hash : BitVec 64) (p : Nat) (items : List (List Char × DNode)) : Prop :=
  ∃ (c : Int) (cb cb2 : Bytes) (q : Nat), IsWzInt 4 c cb ∧ Holds x.env.buf p cb ∧ items ≠ [] ∧
    Entries2 x true (p + cb.length) items q ∧ IsWzInt 4 c cb2 ∧ Holds x.env.buf q cb2 ∧
    (∃ b r, cb2 = b :: r ∧ (b.toNat = 0 ∨ 4 < b.toNat)) ∧ Offsets2 x ver hash (q + cb2.length) items

/-- The entries of a 64-bit PKG2 directory at `p`: the encrypted count, the entries, the offsets. -/
def Block64 (x : DirCtx) (hash : BitVec 64) (p : Nat) (items : List (List Char × DNode)) : Prop :=
  ∃ (noise : BitVec 16) (cb : Bytes) (q : Nat), items.length ≤ 1000000 ∧
    IsWzInt 8 (storedCount x.hdr.hash1 hash items.length noise).toInt cb ∧ Holds x.env.buf p cb ∧
    Entries2 x true (p + cb.length) items q ∧ Offsets2 x .pkg2_64V1 hash q items

/-- A directory with everything below it is stored at `p`: the block of its entries, and each subdirectory in turn
(a subdirectory of size 0 is empty).  Names in a subdirectory are distinct. -/
inductive HoldsDir (Block : Nat → List (List Char × DNode) → Prop) : Nat → List (List Char × DNode) → Prop
  | mk (p : Nat) (items : List (List Char × DNode)) : Block p items →
      (∀ name o kids, (name, DNode.dir o 0 kids) ∈ items → kids = []) →
      (∀ name o s kids, (name, DNode.dir o s kids) ∈ items → (kids.map Prod.fst).Nodup) →
      (∀ name o s kids, (name, DNode.dir o s kids) ∈ items → s ≠ 0 → HoldsDir Block o kids) →
      HoldsDir Block p items

end Wz.Spec
