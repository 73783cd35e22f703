import Verif.Directory.Spec
import Verif.Reader.ShownSpec
/-!
# What an accepted directory says about the file

`Spec.lean` describes directories as a tool writes them.  This file describes, from the bytes only, everything a reader
may take for a directory: names whose bytes are no proper text, chunks of type 1 whose ten bytes are missing, names
stored elsewhere, entries that refer to nothing, and several entries with one name.
-/

set_option autoImplicit false

namespace Wz.Spec

/-- `n` PKG1 entries at `p .. q` and what they are taken for. -/
inductive Found1 (x : DirCtx) (hash : BitVec 64) : Nat → Nat → List (List Char × DNode) → Nat → Prop
  | nil (p : Nat) : Found1 x hash 0 p [] p
  /-- a chunk of type 1 is passed over, with ten more bytes -/
  | skip (n p q : Nat) (items : List (List Char × DNode)) :
      Holds x.env.buf p [1#8] → Found1 x hash n (p + 11) items q → Found1 x hash (n + 1) p items q
  /-- type, name, size, checksum, offset -/
  | direct (n p r : Nat) (t : Byte) (name : List Char) (node : DNode) (o s : Nat) (sum : Int) (nm sz sm : Bytes)
      (items : List (List Char × DNode)) :
      NodeIs t o s node → Located x node → o < 2 ^ 32 →
      ShownAs x.env.ks name nm → IsWzInt 4 s sz → IsWzInt 4 sum sm →
      Holds x.env.buf p ([t] ++ nm ++ sz ++ sm ++
        offsetBytes x .pkg1 hash (p + (1 + nm.length + sz.length + sm.length)) o) →
      Found1 x hash n (p + (1 + nm.length + sz.length + sm.length) + 4) items r →
      Found1 x hash (n + 1) p ((name, node) :: items) r
  /-- type 2: the real type and the name are elsewhere -/
  | byRef (n p r : Nat) (t : Byte) (name : List Char) (node : DNode) (o s so : Nat) (sum : Int) (nm sz sm : Bytes)
      (items : List (List Char × DNode)) :
      NodeIs t o s node → Located x node → o < 2 ^ 32 → so < 2 ^ 31 →
      ShownAs x.env.ks name nm → IsWzInt 4 s sz → IsWzInt 4 sum sm →
      Holds x.env.buf (x.hdr.fstart + so) ([t] ++ nm) →
      Holds x.env.buf p ([2#8] ++ toLE 4 so ++ sz ++ sm ++
        offsetBytes x .pkg1 hash (p + (5 + sz.length + sm.length)) o) →
      Found1 x hash n (p + (5 + sz.length + sm.length) + 4) items r →
      Found1 x hash (n + 1) p ((name, node) :: items) r
  /-- the real type is 2 again: an entry that is neither a directory nor an image -/
  | nothing (n p r : Nat) (name : List Char) (o s so : Nat) (sum : Int) (nm sz sm : Bytes)
      (items : List (List Char × DNode)) :
      o + s ≤ x.env.buf.length → o < 2 ^ 32 → so < 2 ^ 31 →
      ShownAs x.env.ks name nm → IsWzInt 4 s sz → IsWzInt 4 sum sm →
      Holds x.env.buf (x.hdr.fstart + so) ([2#8] ++ nm) →
      Holds x.env.buf p ([2#8] ++ toLE 4 so ++ sz ++ sm ++
        offsetBytes x .pkg1 hash (p + (5 + sz.length + sm.length)) o) →
      Found1 x hash n (p + (5 + sz.length + sm.length) + 4) items r →
      Found1 x hash (n + 1) p ((name, .none) :: items) r
  /-- the real type is 1: passed over, with ten more bytes -/
  | skipRef (n p r so : Nat) (size sum : Int) (sz sm off : Bytes) (items : List (List Char × DNode)) :
      so < 2 ^ 31 → IsWzInt 4 size sz → IsWzInt 4 sum sm → off.length = 4 →
      Holds x.env.buf (x.hdr.fstart + so) [1#8] →
      Holds x.env.buf p ([2#8] ++ toLE 4 so ++ sz ++ sm ++ off) →
      Found1 x hash n (p + (5 + sz.length + sm.length) + 14) items r →
      Found1 x hash (n + 1) p items r

/-- a PKG1 directory at `p`: the number of its entries, then the entries -/
def FoundBlock1 (x : DirCtx) (hash : BitVec 64) (p : Nat) (items : List (List Char × DNode)) : Prop :=
  ∃ n cb q, n ≤ 1000000 ∧ IsWzInt 4 (n : Nat) cb ∧ Holds x.env.buf p cb ∧ Found1 x hash n (p + cb.length) items q

/-- the stored name of a PKG2 entry -/
def ShownName2 (x : DirCtx) (first : Bool) (name : List Char) (bs : Bytes) : Prop :=
  if first && x.keys2 then ShownAs2 (if x.hdr.isPkg2_64 then 2 else 1) x.env.ks2 name bs
  else ShownAs x.env.ks name bs

/-- The first part of PKG2 entries at `p .. q`: type, name, size, checksum. -/
inductive Found2 (x : DirCtx) : Bool → Nat → List (List Char × DNode) → Nat → Prop
  | nil (first : Bool) (p : Nat) : Found2 x first p [] p
  | cons (first : Bool) (p q : Nat) (t : Byte) (name : List Char) (node : DNode) (o s : Nat) (sum : Int)
      (nm sz sm : Bytes) (items : List (List Char × DNode)) :
      NodeIs t o s node → Located x node → o < 2 ^ 32 →
      ShownName2 x first name nm → IsWzInt 4 s sz → IsWzInt 4 sum sm →
      Holds x.env.buf p ([t] ++ nm ++ sz ++ sm) →
      Found2 x false (p + (1 + nm.length + sz.length + sm.length)) items q →
      Found2 x first p ((name, node) :: items) q

/-- a (32-bit) PKG2 directory at `p`: a number, at least one entry, the same number again, the offsets -/
def FoundBlock2 (x : DirCtx) (ver : OffsetVersion) (hash : BitVec 64) (p : Nat) (items : List (List Char × DNode)) : Prop :=
  ∃ (c : Int) (cb cb2 : Bytes) (q : Nat), IsWzInt 4 c cb ∧ Holds x.env.buf p cb ∧ items ≠ [] ∧
    Found2 x true (p + cb.length) items q ∧ IsWzInt 4 c cb2 ∧ Holds x.env.buf q cb2 ∧
    (∃ b r, cb2 = b :: r ∧ (b.toNat = 0 ∨ 4 < b.toNat)) ∧ Offsets2 x ver hash (q + cb2.length) items

/-- a 64-bit PKG2 directory at `p`: the encrypted number of entries, the entries, the offsets -/
def FoundBlock64 (x : DirCtx) (hash : BitVec 64) (p : Nat) (items : List (List Char × DNode)) : Prop :=
  ∃ (noise : BitVec 16) (cb : Bytes) (q : Nat), items.length ≤ 1000000 ∧
    IsWzInt 8 (storedCount x.hdr.hash1 hash items.length noise).toInt cb ∧ Holds x.env.buf p cb ∧
    Found2 x true (p + cb.length) items q ∧ Offsets2 x .pkg2_64V1 hash q items

/-- `kids` is `raw` with only the last of several entries with one name -/
def LastWins (raw kids : List (List Char × DNode)) : Prop :=
  (kids.map Prod.fst).Nodup ∧
  ∀ n v, (n, v) ∈ kids ↔ ∃ before after, raw = before ++ (n, v) :: after ∧ ∀ it ∈ after, it.1 ≠ n

/-- A directory with everything below it, as found at `p`: a subdirectory of size 0 has nothing in it, any other has what
is stored at its offset. -/
inductive FoundDir (Block : Nat → List (List Char × DNode) → Prop) : Nat → List (List Char × DNode) → Prop
  | mk (p : Nat) (items : List (List Char × DNode)) (below : List Char × DNode → List (List Char × DNode)) :
      Block p items →
      (∀ name o kids, (name, DNode.dir o 0 kids) ∈ items → kids = []) →
      (∀ name o s kids, (name, DNode.dir o s kids) ∈ items → s ≠ 0 → FoundDir Block o (below (name, .dir o s kids))) →
      (∀ name o s kids, (name, DNode.dir o s kids) ∈ items → s ≠ 0 → LastWins (below (name, .dir o s kids)) kids) →
      FoundDir Block p items

end Wz.Spec
