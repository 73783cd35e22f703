import Verif.Property.TakenSpec
/-!
# What direct access gives, for any bytes

Direct access looks one node up by its path without reading the whole list.  Entries that do not have the name looked for
are passed over: of these only what says how long they are has to be there.
-/

set_option autoImplicit false

namespace Wz.Spec

/-- A value with the code `ty` at `p` is passed over: a reader is at `q` then. -/
inductive PassedValue (e : Env) : Byte → Nat → Nat → Prop
  | null (p : Nat) : PassedValue e 0#8 p p
  | short (ty : Byte) (p : Nat) : ty = 2#8 ∨ ty = 11#8 → PassedValue e ty p (p + 2)
  | int (ty : Byte) (p : Nat) (v : Int) (bs : Bytes) : ty = 3#8 ∨ ty = 19#8 → IsWzInt 4 v bs → Holds e.buf p bs →
      PassedValue e ty p (p + bs.length)
  | long (p : Nat) (v : Int) (bs : Bytes) : IsWzInt 8 v bs → Holds e.buf p bs → PassedValue e 20#8 p (p + bs.length)
  | float (p : Nat) : Holds e.buf p [0x80#8] → PassedValue e 4#8 p (p + 5)
  | smallFloat (p : Nat) (b : Byte) : b ≠ 0x80#8 → Holds e.buf p [b] → PassedValue e 4#8 p (p + 1)
  | double (p : Nat) : PassedValue e 5#8 p (p + 8)
  | text (p q : Nat) (t : Byte) (m : StrMeta) (lb : Bytes) : t = 0x00#8 ∨ t = 0x73#8 → Announced (p + 1) lb m q →
      Holds e.buf p (t :: lb) → PassedValue e 8#8 p q
  | textElsewhere (p : Nat) (t : Byte) : t = 0x01#8 ∨ t = 0x1B#8 → Holds e.buf p [t] → PassedValue e 8#8 p (p + 5)
  | noText (p : Nat) (t : Byte) : t ∉ [0x00#8, 0x73#8, 0x01#8, 0x1B#8] → Holds e.buf p [t] → PassedValue e 8#8 p (p + 1)
  | block (p size : Nat) : size < 2 ^ 32 → Holds e.buf p (toLE 4 size) → PassedValue e 9#8 p (p + 4 + size)

/-- entries with these names and codes are passed over one after the other -/
inductive PassedAll (e : Env) (o : Nat) : List (List Char × Byte) → Nat → Nat → Prop
  | nil (p : Nat) : PassedAll e o [] p p
  | cons (p p1 p2 q : Nat) (name : List Char) (ty : Byte) (rest : List (List Char × Byte)) : TextBlock e o p name p1 →
      Holds e.buf p1 [ty] → PassedValue e ty (p1 + 1) p2 → PassedAll e o rest p2 q →
      PassedAll e o ((name, ty) :: rest) p q

/-- Of the list at `p` the first entry for which `P` holds has the name and the code `y`.  It begins at `p1`, its code is
at `p2`.  The entries before are passed over. -/
def FirstAt (e : Env) (o : Nat) (P : List Char × Byte → Prop) (p p1 p2 : Nat) (y : List Char × Byte) : Prop :=
  ∃ n nb passed, IsWzInt 4 n nb ∧ Holds e.buf p nb ∧ PassedAll e o passed (p + nb.length) p1 ∧ (passed.length : Int) < n ∧
    (∀ z ∈ passed, ¬ P z) ∧ P y ∧ TextBlock e o p1 y.1 p2 ∧ Holds e.buf p2 [y.2]

/-- the list at `p` has no entry for which `P` holds; a reader that has passed over all of them is at `q` -/
def NoneAt (e : Env) (o : Nat) (P : List Char × Byte → Prop) (p q : Nat) : Prop :=
  ∃ n nb passed, IsWzInt 4 n nb ∧ Holds e.buf p nb ∧ PassedAll e o passed (p + nb.length) q ∧ passed.length = n.toNat ∧
    ∀ z ∈ passed, ¬ P z

/-- `Reached e o name rest p x`: with the path `name` followed by the components `rest`, direct access from the list at
`p` gives `x`. -/
inductive Reached (e : Env) (o : Nat) : List Char → List (List Char) → Nat → List Char × PNode → Prop
  /-- the first entry with the last name is the node -/
  | last (cur : List Char) (p p1 p2 q : Nat) (ty : Byte) (x : List Char × PNode) :
      FirstAt e o (fun z => z.1 = cur) p p1 p2 (cur, ty) → Taken e o (.items [x]) p1 q → Reached e o cur [] p x
  /-- before that, the first block with the name is entered, whatever its kind: behind a text two bytes, then a list -/
  | enter (cur next : List Char) (rest : List (List Char)) (p p1 p2 p3 : Nat) (m : StrMeta) (x : List Char × PNode) :
      FirstAt e o (fun z => z = (cur, 9#8)) p p1 p2 (cur, 9#8) → MetaBlock e o (p2 + 5) m p3 →
      Reached e o next rest (p3 + 2) x → Reached e o cur (next :: rest) p x
  /-- if there is none, the same name is looked for in what follows the list, and the next component is dropped -/
  | stay (cur next : List Char) (rest : List (List Char)) (p p1 : Nat) (x : List Char × PNode) :
      NoneAt e o (fun z => z = (cur, 9#8)) p p1 → Reached e o cur rest p1 x → Reached e o cur (next :: rest) p x

/-- the same for a path that leads to nothing: the last list has no such name -/
inductive NotReached (e : Env) (o : Nat) : List Char → List (List Char) → Nat → Prop
  | last (cur : List Char) (p q : Nat) : NoneAt e o (fun z => z.1 = cur) p q → q < 2 ^ 64 → NotReached e o cur [] p
  | enter (cur next : List Char) (rest : List (List Char)) (p p1 p2 p3 : Nat) (m : StrMeta) :
      FirstAt e o (fun z => z = (cur, 9#8)) p p1 p2 (cur, 9#8) → MetaBlock e o (p2 + 5) m p3 →
      NotReached e o next rest (p3 + 2) → NotReached e o cur (next :: rest) p
  | stay (cur next : List Char) (rest : List (List Char)) (p p1 : Nat) :
      NoneAt e o (fun z => z = (cur, 9#8)) p p1 → NotReached e o cur rest p1 → NotReached e o cur (next :: rest) p

/-- the bytes at `p` may be taken for the list `raw`, and its entries are shown with the names they are stored with -/
def ListIs (e : Env) (o : Nat) (raw : List (List Char × PNode)) (p : Nat) : Prop :=
  ∃ nb labels q, IsWzInt 4 raw.length nb ∧ Holds e.buf p nb ∧ Taken e o (.items raw) (p + nb.length) q ∧
    PassedAll e o labels (p + nb.length) q ∧ labels.map Prod.fst = raw.map Prod.fst

/-- The path leads from the list at `p` through properties, and in the lists on its way no component is the name of several
entries.  The last component may be missing. -/
inductive ClearWay (e : Env) (o : Nat) : List Char → List (List Char) → Nat → Prop
  | last (cur : List Char) (p : Nat) (raw : List (List Char × PNode)) : ListIs e o raw p →
      (raw.map Prod.fst).count cur ≤ 1 → ClearWay e o cur [] p
  | step (cur next : List Char) (rest : List (List Char)) (p p1 p2 p3 : Nat) (raw : List (List Char × PNode)) :
      ListIs e o raw p → (raw.map Prod.fst).count cur = 1 →
      FirstAt e o (fun z => z.1 = cur) p p1 p2 (cur, 9#8) → TextBlock e o (p2 + 5) "Property".toList p3 →
      ClearWay e o next rest (p3 + 2) → ClearWay e o cur (next :: rest) p

end Wz.Spec
