import Verif.Node.SpoilModel
import Verif.Node.PlaceSpec

/-!
# Specification: calls on nodes after a panic

What a call gives as long as no lock is poisoned, and which nodes it locks.
-/

set_option autoImplicit false

namespace Wz.Spec

open Wz

/-- what a call gives, and the nodes after it, where no lock is poisoned -/
def soundly (content : Content) (h : NHeap) : LockCall → Except Err LockReply × NHeap
  | .parse i => ((h.parse content i).1.map fun _ => .done, (h.parse content i).2)
  | .forget i => (.ok .done, h.unparse i)
  | .find i path => ((h.atPathParsed content i path).1.map fun j => .node (some j), (h.atPathParsed content i path).2)
  | .look i path => (.ok (.node (h.atPath i path)), h)
  | .fullPath fuel i => (.ok (.path (h.fullPath fuel i)), h)
  | .outlink fuel i path =>
    match h.filterParent NCell.isBase fuel i with
    | none => (.error .fuel, h)
    | some none => (.ok (.node none), h)
    | some (some b) =>
      match h.atPathParsed content b path with
      | (.ok j, g) => (.ok (.node (some j)), g)
      | (.error e, g) => (if e.isPanic ∨ e = .lib "deadlock" then .error e else .ok (.node none), g)

/-- the calls one after the other where no lock is poisoned -/
def soundCalls (content : Content) (h : NHeap) : List LockCall → List (Except Err LockReply) × NHeap
  | [] => ([], h)
  | c :: cs => ((soundly content h c).1 :: (soundCalls content (soundly content h c).2 cs).1,
      (soundCalls content (soundly content h c).2 cs).2)

/-- the child a name leads to -/
def FirstKid (h : NHeap) (i : Nat) (n : List Char) (j : Nat) : Prop :=
  ∃ c pre post, h.cell i = some c ∧ c.kids = pre ++ (n, j) :: post ∧ ∀ x ∈ pre, x.1 ≠ n

/-- from child to child along names -/
inductive Trail (h : NHeap) : Nat → List (List Char) → Nat → Prop
  | here (i : Nat) : Trail h i [] i
  | on (i j k : Nat) (n : List Char) (ns : List (List Char)) : FirstKid h i n j → Trail h j ns k → Trail h i (n :: ns) k

/-- From child to child along names, where each node is parsed (without an error) before its child is looked up, and
`start` is not met. -/
inductive ParsedTrail (content : Content) (start : Nat) : NHeap → Nat → List (List Char) → Nat → Prop
  | here (h : NHeap) (i : Nat) : ParsedTrail content start h i [] i
  | on (h g : NHeap) (i j k : Nat) (n : List Char) (ns : List (List Char)) : i ≠ start → h.parse content i = (.ok (), g) →
      FirstKid g i n j → ParsedTrail content start g j ns k → ParsedTrail content start h i (n :: ns) k

/-- the node is met within so many steps up -/
inductive Over (h : NHeap) : Nat → Nat → Nat → Prop
  | here (fuel i : Nat) : Over h fuel i i
  | up (fuel i p k : Nat) : ParentOf h i p → Over h fuel p k → Over h (fuel + 1) i k

/-- the same on the way to the nearest file called "Base" -/
inductive OverToBase (h : NHeap) : Nat → Nat → Nat → Prop
  | here (fuel i : Nat) : OverToBase h fuel i i
  | up (fuel i p k : Nat) : ¬ BaseFile h i → ParentOf h i p → OverToBase h fuel p k → OverToBase h (fuel + 1) i k

/-- `at_path_parsed` on node `i` locks node `k`: it lies on the path, before its end -/
def FindLocks (content : Content) (h : NHeap) (i : Nat) (path : List Char) (k : Nat) : Prop :=
  ∃ n ns ms j, Pieces path (n :: (ns ++ ms)) ∧ ms ≠ [] ∧ FirstKid h i n j ∧ ParsedTrail content i h j ns k

/-- the nodes a call locks -/
inductive CallLocks (content : Content) (h : NHeap) : LockCall → Nat → Prop
  | parse (i : Nat) : CallLocks content h (.parse i) i
  | forget (i : Nat) : CallLocks content h (.forget i) i
  | findStart (i : Nat) (path : List Char) : CallLocks content h (.find i path) i
  | find (i k : Nat) (path : List Char) : FindLocks content h i path k → CallLocks content h (.find i path) k
  | look (i k : Nat) (path : List Char) (ns ms : List (List Char)) : Pieces path (ns ++ ms) → ms ≠ [] → Trail h i ns k →
      CallLocks content h (.look i path) k
  | fullPath (fuel i k : Nat) : Over h fuel i k → CallLocks content h (.fullPath fuel i) k
  | outStart (fuel i : Nat) (path : List Char) : CallLocks content h (.outlink fuel i path) i
  | outUp (fuel i p k : Nat) (path : List Char) : ParentOf h i p → OverToBase h fuel p k →
      CallLocks content h (.outlink (fuel + 1) i path) k
  | outFind (fuel i p b k : Nat) (path : List Char) : ParentOf h i p → OverToBase h fuel p b → BaseFile h b →
      FindLocks content h b path k → CallLocks content h (.outlink (fuel + 1) i path) k

/-- reading this node panics by itself, at some time after `h` -/
def PanicsAlone (content : Content) (h : NHeap) (i : Nat) : Prop :=
  ∃ g e, ReadHistory content h g ∧ (g.parse content i).1 = .error e ∧ e.isPanic = true

/-- no lock is poisoned -/
def allSound (h : NHeap) : Locked := ⟨h, fun _ => false⟩

end Wz.Spec
