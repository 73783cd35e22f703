import Verif.Node.Model

/-!
# Threads that share a tree

Every node is behind its own `RwLock` (`WzNodeArc`, node.rs 46).  A call of the library is a program that takes and gives
back locks and, in between, looks at the heap and changes it.  What is done under a lock is one action: `parse` and
`unparse` touch the node that is locked for writing and nodes that nobody else can have yet (`parse_frame`).  Locks of the
keys and of the profile cache are not part of this model: they are taken last and given back at once (`C07`, `C44`).  A
thread that panics would leave its locks poisoned; here it gives its error back like any other.
-/

set_option autoImplicit false

namespace Wz

/-- `RwLock::read` or `RwLock::write` -/
inductive LMode where
  | read
  | write
  deriving DecidableEq, Repr

/-- What a call does, lock by lock (`WzNodeArc`, node.rs 46).  `act upd k`: the heap `h` becomes `upd h`, and the call goes
on with `k h`. -/
inductive Prog (α : Type) : Type where
  | done (a : α)
  | acquire (m : LMode) (i : Nat) (k : Prog α)
  | release (m : LMode) (i : Nat) (k : Prog α)
  | act (upd : NHeap → NHeap) (k : NHeap → Prog α)

/-- one call after the other -/
def Prog.bind {α β : Type} : Prog α → (α → Prog β) → Prog β
  | .done a, f => f a
  | .acquire m i k, f => .acquire m i (k.bind f)
  | .release m i k, f => .release m i (k.bind f)
  | .act upd k, f => .act upd fun h => (k h).bind f

/-- a look at the heap that changes nothing -/
def Prog.look {α : Type} (k : NHeap → Prog α) : Prog α := .act id k

/-! ## The calls -/

/-- `node.write().unwrap().parse(&node)` (node_util.rs 6-8, node.rs 174-229) -/
def parseProg (content : Content) (i : Nat) : Prog (Except Err Unit) :=
  .acquire .write i (.act (fun h => (h.parse content i).2) fun h => .release .write i (.done (h.parse content i).1))

/-- `node.write().unwrap().unparse()` (node.rs 233-248) -/
def unparseProg (i : Nat) : Prog Unit :=
  .acquire .write i (.act (fun h => h.unparse i) fun _ => .release .write i (.done ()))

/-- `WzNode::at_path_parsed` after the first piece (node.rs 439-443): the lock of the node is held for `parse` and `at`
and given back before the next node is locked -/
def foldProg (content : Content) : Nat → List (List Char) → Prog (Except Err Nat)
  | j, [] => .done (.ok j)
  | j, x :: xs => .acquire .write j (.act (fun h => (h.parse content j).2) fun h => .release .write j
      (match h.parse content j with
        | (.error e, _) => .done (.error e)
        | (.ok _, g) => match g.at j x with
          | none => .done (.error (.lib "NodeNotFound"))
          | some k => foldProg content k xs))

/-- `WzNode::at_path_parsed` (node.rs 434-447) on a node that its caller has locked -/
def findFrom (content : Content) (h : NHeap) (i : Nat) (path : List Char) : Prog (Except Err Nat) :=
  match splitSlash path with
  | [] => .done (.error .panicUnwrap)
  | x :: xs => match h.at i x with
    | none => .done (.error (.lib "NodeNotFound"))
    | some j => foldProg content j xs

/-- `node.read().unwrap().at_path_parsed(path)` (node.rs 434-447), or with `write()` (node_util.rs 24): the node is locked
until the call is over -/
def findProg (content : Content) (m : LMode) (i : Nat) (path : List Char) : Prog (Except Err Nat) :=
  .acquire m i (.look fun h => (findFrom content h i path).bind fun r => .release m i (.done r))

/-- `WzNode::at_path` after the first piece (node.rs 428): each node is locked for reading while its child is looked up -/
def foldPeek : Nat → List (List Char) → Prog (Option Nat)
  | j, [] => .done (some j)
  | j, x :: xs => .acquire .read j (.look fun h => .release .read j (match h.at j x with
      | none => .done none
      | some k => foldPeek k xs))

/-- `WzNode::at_path` (node.rs 424-432) on a node that its caller has locked; `split` gives at least one piece, `unwrap`
(426) does not panic -/
def peekFrom (h : NHeap) (i : Nat) (path : List Char) : Prog (Option Nat) :=
  match splitSlash path with
  | [] => .done none
  | x :: xs => match h.at i x with
    | none => .done none
    | some j => foldPeek j xs

/-- `node.read().unwrap().at_path(path)` (node.rs 424-432) -/
def peekProg (i : Nat) (path : List Char) : Prog (Option Nat) :=
  .acquire .read i (.look fun h => (peekFrom h i path).bind fun r => .release .read i (.done r))

/-- the loop of `get_full_path` and `filter_parent` (node.rs 274-278, 496-508): up from parent to parent, each locked for
reading while it is looked at.  The loop has no bound, `fuel` cuts it. -/
def climbProg (stop : NCell → Bool) : Nat → Option Nat → Prog (Option Nat)
  | _, none => .done none
  | 0, some _ => .done none
  | fuel + 1, some p => .acquire .read p (.look fun h => .release .read p (match h.cell p with
      | none => .done none
      | some c => if stop c then .done (some p) else climbProg stop fuel (h.up p)))

/-- `node.read().unwrap().filter_parent(stop)` (node.rs 492-509), and, with a test that is never met, the locks of
`node.read().unwrap().get_full_path()` (node.rs 271-280): the node stays locked while its parents are -/
def upProg (stop : NCell → Bool) (fuel : Nat) (i : Nat) : Prog (Option Nat) :=
  .acquire .read i (.look fun h => (climbProg stop fuel (h.up i)).bind fun r => .release .read i (.done r))

/-- `resolve_outlink` with `force_parse = true` (node_util.rs 20-28): the base is locked for writing while the nodes of the
path are -/
def outlinkProg (content : Content) (fuel : Nat) (i : Nat) (path : List Char) : Prog (Except Err Nat) :=
  (upProg NCell.isBase fuel i).bind fun r => match r with
    | none => .done (.error (.lib "NodeNotFound"))
    | some b => findProg content .write b path

/-- `node.read().unwrap()` to look at the node, what a callback does (examples/parsing_wz_file.rs) -/
def lookProg (i : Nat) : Prog Unit := .acquire .read i (.look fun _ => .release .read i (.done ()))

/-- the loop over the children in `walk_node` (util/walk.rs 14-16) -/
def walkKids (rec : Nat → Prog (List Nat)) : List (List Char × Nat) → Prog (List Nat)
  | [] => .done []
  | (_, c) :: ks => (rec c).bind fun a => (walkKids rec ks).bind fun b => .done (a ++ b)

/-- `walk_node` (util/walk.rs 6-23).  `f` is the callback; the result is the nodes it was called for.  The walk has no
bound, `fuel` cuts it.  The children are those the node has when it is locked (14): nobody can change them while the lock is
held. -/
def walkProg (content : Content) (force : Bool) (f : Nat → Prog Unit) : Nat → Nat → Prog (List Nat)
  | 0, _ => .done []
  | fuel + 1, i =>
    (if force then (parseProg content i).bind fun _ => .done () else .done ()).bind fun _ =>
    (f i).bind fun _ =>
    Prog.acquire .read i (.look fun h =>
      (walkKids (walkProg content force f fuel) (match h.cell i with
        | none => []
        | some c => c.kids)).bind fun vs =>
      .release .read i
        (if force then .acquire .read i (.look fun h => .release .read i
            (if h.isImage i then (unparseProg i).bind fun _ => .done (i :: vs) else .done (i :: vs)))
          else .done (i :: vs)))

/-! ## Running threads -/

/-- a thread: the locks it has, and what it still has to do -/
structure Thread (α : Type) where
  held : List (LMode × Nat)
  prog : Prog α

/-- the shared tree and the threads -/
structure Pool (α : Type) where
  heap : NHeap
  threads : List (Thread α)

/-- is the thread waiting to write to node `i`? -/
def Thread.wantsWrite {α : Type} (th : Thread α) (i : Nat) : Bool := match th.prog with
  | .acquire .write j _ => i == j
  | _ => false

/-- Can the lock of node `i` be had?  For writing: nobody has it.  For reading: nobody writes.  The standard library leaves
open whether a reader is made to wait for a writer that waits, it depends on the operating system; `queue` says that it is.  A thread has its own locks like any
other: taking a lock twice waits for ever (or panics). -/
def canTake {α : Type} (queue : Bool) (ts : List (Thread α)) : LMode → Nat → Bool
  | .write, i => ts.all fun th => th.held.all fun x => !(x.2 == i)
  | .read, i => ts.all fun th => (th.held.all fun x => !(x == (.write, i))) && !(queue && th.wantsWrite i)

/-- the next step of thread `t`; `none` if it is done or has to wait -/
def Pool.next {α : Type} (queue : Bool) (P : Pool α) (t : Nat) : Option (Pool α) :=
  match P.threads[t]? with
  | none => none
  | some th => match th.prog with
    | .done _ => none
    | .acquire m i k =>
      if canTake queue P.threads m i then some ⟨P.heap, P.threads.set t ⟨(m, i) :: th.held, k⟩⟩ else none
    | .release m i k => some ⟨P.heap, P.threads.set t ⟨th.held.erase (m, i), k⟩⟩
    | .act upd k => some ⟨upd P.heap, P.threads.set t ⟨th.held, k P.heap⟩⟩

/-- a schedule: whose turn it is, step by step -/
def Pool.run {α : Type} (queue : Bool) : List Nat → Pool α → Option (Pool α)
  | [], P => some P
  | t :: ts, P => match P.next queue t with
    | none => none
    | some Q => Q.run queue ts

/-- threads that start with these programs -/
def Pool.start {α : Type} (h : NHeap) (ps : List (Prog α)) : Pool α := ⟨h, ps.map fun p => ⟨[], p⟩⟩

end Wz
