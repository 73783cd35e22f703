import Verif.Thread.Model
import Verif.Whole.LinkSpec

/-!
# What threads that share a tree may rely on
-/

set_option autoImplicit false

namespace Wz.Spec

open Wz

/-- the thread has its answer -/
def Answer {α : Type} (th : Thread α) (a : α) : Prop := th.prog = .done a

/-- all threads have their answers -/
def AllDone {α : Type} (P : Pool α) : Prop := ∀ th ∈ P.threads, ∃ a, Answer th a

/-- Deadlock: some thread is not done, and no thread can go on. -/
def Deadlock {α : Type} (queue : Bool) (P : Pool α) : Prop := ¬ AllDone P ∧ ∀ t, P.next queue t = none

/-- There is no schedule that goes on for ever. -/
def Ends {α : Type} (queue : Bool) (P : Pool α) : Prop :=
  ¬ ∃ f : Nat → Pool α, f 0 = P ∧ ∀ n, ∃ t, (f n).next queue t = some (f (n + 1))

/-- No two threads have the lock of one node unless both only read. -/
def Exclusive {α : Type} (P : Pool α) : Prop :=
  ∀ (s t i : Nat) (a b : Thread α) (m : LMode), s ≠ t → P.threads[s]? = some a → P.threads[t]? = some b →
    (LMode.write, i) ∈ a.held → (m, i) ∉ b.held

/-- The program changes a node that others may know of only while it has that node locked for writing.  It starts with the
locks `held` and ends with `fin`. -/
inductive WritesLocked {α : Type} (fin : List (LMode × Nat)) : List (LMode × Nat) → Prog α → Prop
  | done (a : α) : WritesLocked fin fin (.done a)
  | acquire (held : List (LMode × Nat)) (m : LMode) (i : Nat) (k : Prog α) : WritesLocked fin ((m, i) :: held) k →
      WritesLocked fin held (.acquire m i k)
  | release (held : List (LMode × Nat)) (m : LMode) (i : Nat) (k : Prog α) : (m, i) ∈ held → WritesLocked fin (held.erase (m, i)) k →
      WritesLocked fin held (.release m i k)
  | act (held : List (LMode × Nat)) (upd : NHeap → NHeap) (k : NHeap → Prog α) :
      (∀ (h : NHeap) (x : Nat), x < h.length → (upd h).cell x ≠ h.cell x → (LMode.write, x) ∈ held) →
      (∀ h, WritesLocked fin held (k h)) → WritesLocked fin held (.act upd k)

/-- every node was made before the nodes in it: so it is with everything that is read, as long as no link leads back -/
def MadeBefore (h : NHeap) : Prop := ∀ (i : Nat) (c : NCell) (n : List Char) (k : Nat), h.cell i = some c → (n, k) ∈ c.kids → i < k

/-- calls that lead downwards, from any node a thread may have -/
inductive TreeCall where
  /-- `node.write().unwrap().parse(&node)` -/
  | parse (i : Nat)
  /-- `node.write().unwrap().unparse()` -/
  | unparse (i : Nat)
  /-- `node.read().unwrap().at_path(path)` -/
  | peek (i : Nat) (path : List Char)
  /-- `node.read().unwrap().at_path_parsed(path)`, or with `write()` -/
  | find (m : LMode) (i : Nat) (path : List Char)
  /-- `walk_node(&node, force, |node| …)`, the callback looks at the node it is given (`touch`), or only keeps it -/
  | walk (force touch : Bool) (fuel : Nat) (i : Nat)

/-- the call, and the nodes it gives -/
def callProg (content : Content) : TreeCall → Prog (List Nat)
  | .parse i => (parseProg content i).bind fun _ => .done []
  | .unparse i => (unparseProg i).bind fun _ => .done []
  | .peek i p => (peekProg i p).bind fun r => .done r.toList
  | .find m i p => (findProg content m i p).bind fun r => .done (match r with
    | .ok j => [j]
    | .error _ => [])
  | .walk force touch fuel i => walkProg content force (fun j => if touch then lookProg j else .done ()) fuel i

/-- A thread that makes such calls, one after the other; what it asks next may depend on the answers. -/
inductive CallsDown (content : Content) {α : Type} : Prog α → Prop
  | done (a : α) : CallsDown content (.done a)
  | call (c : TreeCall) (k : List Nat → Prog α) : (∀ a, CallsDown content (k a)) → CallsDown content ((callProg content c).bind k)

/-- A program that locks only for reading and changes nothing. -/
inductive OnlyReads {α : Type} : Prog α → Prop
  | done (a : α) : OnlyReads (.done a)
  | acquire (i : Nat) (k : Prog α) : OnlyReads k → OnlyReads (.acquire .read i k)
  | release (m : LMode) (i : Nat) (k : Prog α) : OnlyReads k → OnlyReads (.release m i k)
  | look (k : NHeap → Prog α) : (∀ h, OnlyReads (k h)) → OnlyReads (Prog.look k)

/-- the answer of a program that nobody disturbs, and the heap it leaves -/
def runAlone {α : Type} : NHeap → Prog α → α × NHeap
  | h, .done a => (a, h)
  | h, .acquire _ _ k => runAlone h k
  | h, .release _ _ k => runAlone h k
  | h, .act upd k => runAlone (upd h) (k h)

/-- what a thread does with an open archive, whose root is node `i` -/
inductive ThreadOp where
  /-- `root.read().unwrap().at_path(path)` -/
  | peek (path : List Char)
  /-- `root.read().unwrap().at_path_parsed(path)` -/
  | find (path : List Char)
  /-- the same, and `parse` of the node that is found -/
  | load (path : List Char)
  /-- the same, and `unparse` of the node that is found -/
  | close (path : List Char)

/-- the answer of `at_path`, put like that of `at_path_parsed` -/
def ofOption : Option Nat → Except Err Nat
  | some j => .ok j
  | none => .error (.lib "NodeNotFound")

/-- the calls of one operation; the answer is that of the look-up -/
def opProg (content : Content) (i : Nat) : ThreadOp → Prog (Except Err Nat)
  | .peek p => (peekProg i p).bind fun r => .done (ofOption r)
  | .find p => findProg content .read i p
  | .load p => (findProg content .read i p).bind fun r => match r with
    | .ok j => (parseProg content j).bind fun _ => .done r
    | .error _ => .done r
  | .close p => (findProg content .read i p).bind fun r => match r with
    | .ok j => (unparseProg j).bind fun _ => .done r
    | .error _ => .done r

/-- the operations of one thread, one after the other, and their answers -/
def opsProg (content : Content) (i : Nat) : List ThreadOp → Prog (List (Except Err Nat))
  | [] => .done []
  | op :: ops => (opProg content i op).bind fun a => (opsProg content i ops).bind fun as => .done (a :: as)

/-- what a thread may do: the path is one of those `C70` speaks of; no directory is closed -/
def AllowedThread (arch : List (List Char × ATree)) : ThreadOp → Prop
  | .peek p => ∃ ns, Pieces p ns ∧ LinksOn arch ns
  | .find p => ∃ ns, Pieces p ns ∧ LinksOn arch ns
  | .load p => ∃ ns, Pieces p ns ∧ LinksOn arch (ns ++ [[]])
  | .close p => ∃ ns, Pieces p ns ∧ LinksOn arch ns ∧ ∀ n, ¬ ArcSees arch ns (some (n, .dir))

/-- The answer `x` to a question for `path` is what is seen there: a node with that name and that value, or no node. -/
def RightAnswer (e : Env) (arch : List (List Char × ATree)) (g : NHeap) (path : List Char) (x : Except Err Nat) : Prop :=
  ∀ ns r, Pieces path ns → ArcSees arch ns r → match r with
    | some (name, v) => ∃ j c, x = .ok j ∧ g.cell j = some c ∧ c.name = name ∧ LinkShows e c.kind v
    | none => x = .error (.lib "NodeNotFound")

/-- The right answer for each operation.  `at_path` does not read: it may find nothing where something is. -/
def RightFor (e : Env) (arch : List (List Char × ATree)) (g : NHeap) : ThreadOp → Except Err Nat → Prop
  | .peek p, x => RightAnswer e arch g p x ∨ x = .error (.lib "NodeNotFound")
  | .find p, x => RightAnswer e arch g p x
  | .load p, x => RightAnswer e arch g p x
  | .close p, x => RightAnswer e arch g p x

/-- one answer for each operation, all right -/
inductive RightAnswers (e : Env) (arch : List (List Char × ATree)) (g : NHeap) : List ThreadOp → List (Except Err Nat) → Prop
  | nil : RightAnswers e arch g [] []
  | cons (op : ThreadOp) (ops : List ThreadOp) (x : Except Err Nat) (xs : List (Except Err Nat)) :
      RightFor e arch g op x → RightAnswers e arch g ops xs → RightAnswers e arch g (op :: ops) (x :: xs)

end Wz.Spec
