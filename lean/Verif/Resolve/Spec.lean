import Verif.Resolve.Model
/-!
# Specification: numbered parts and merged folders
-/

set_option autoImplicit false

namespace Wz.Spec

/-- the name without its extension -/
inductive StemOf : FName → FName → Prop
  | dotted (a e : FName) : a ≠ [] → '.' ∉ e → StemOf (a ++ '.' :: e) a
  | plain (a : FName) : '.' ∉ a → StemOf a a
  | hidden (a : FName) : '.' ∉ a → StemOf ('.' :: a) ('.' :: a)

/-- the value of a sequence of digits -/
def digitsValue : FName → Nat
  | [] => 0
  | c :: cs => (c.toNat - 48) * 10 ^ cs.length + digitsValue cs

/-- a number that fits 16 bits, maybe after a plus sign -/
def SmallNumber (s : FName) : Prop :=
  ∃ ds, (s = ds ∨ s = '+' :: ds) ∧ ds ≠ [] ∧ (∀ c ∈ ds, '0' ≤ c ∧ c ≤ '9') ∧ digitsValue ds < 65536

/-- a name whose stem ends in an underscore and a number -/
def PartName (name : FName) : Prop :=
  ∃ stem base num, StemOf name stem ∧ stem = base ++ '_' :: num ∧ SmallNumber num

/-- what is known in a call: the folder, what opening an archive gives, and what resolving a subfolder gives -/
structure Setting where
  disk : Disk
  op : FPath → Opening
  again : FPath → Except Err RNode
  dir : FPath

/-- the entry is a part that can be read and has the child -/
def Supplies (s : Setting) (e : FEntry) (key : FName) (n : RNode) : Prop :=
  e.kind = .file ∧ PartName e.name ∧ ∃ names, s.op (s.dir ++ [e.name]) = .parsed names ∧ key ∈ names ∧
    n = .child (s.dir ++ [e.name]) key

/-- the entry is a subfolder whose archive takes the place of the child of that name -/
def Replaces (s : Setting) (e : FEntry) (key : FName) (n : RNode) : Prop :=
  e.kind = .folder ∧ e.name = key ∧ s.disk.tryExists (s.dir ++ [key, key ++ ".wz".toList]) ≠ none ∧
    s.again (s.dir ++ [key, key ++ ".wz".toList]) = .ok n

/-- the node under a name in the end: the entry that was read last counts; a subfolder only counts when there is a
child of its name at that time -/
def Merged (s : Setting) (own : RKids) (es : List FEntry) (key : FName) (n : RNode) : Prop :=
  (∃ pre e post, es = pre ++ e :: post ∧
    (Supplies s e key n ∨ Replaces s e key n ∧ ((∃ m, (key, m) ∈ own) ∨ ∃ x ∈ pre, ∃ m, Supplies s x key m)) ∧
    ∀ x ∈ post, ∀ m, ¬Supplies s x key m ∧ ¬Replaces s x key m) ∨
  ((key, n) ∈ own ∧ ∀ x ∈ es, ∀ m, ¬Supplies s x key m ∧ ¬Replaces s x key m)

end Wz.Spec
