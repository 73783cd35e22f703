import Verif.Node.Model

/-!
# Locks of nodes that a panic spoils

Every node stands behind an `RwLock`.  A panic while a thread has the write lock of a node poisons the lock for good,
and from then on `read().unwrap()` and `write().unwrap()` on it panic.  A panic under a read lock poisons nothing.

Here one thread makes one call after the other and goes on after each panic (`catch_unwind`, or a thread for each call).
What the cipher streams shared by the nodes suffer from a panic is modelled in `Media/PoisonModel`.  A node that was
being read when the panic came may be left half changed; the model leaves it as it was, which cannot be told apart
because nobody gets its lock any more.
-/

set_option autoImplicit false

namespace Wz

/-- the nodes, and which of their locks are poisoned -/
structure Locked where
  heap : NHeap
  bad : Nat → Bool

/-- a panic under the write lock of node `i` (`std::sync::RwLock`) -/
def Locked.mark (st : Locked) (i : Nat) : Locked :=
  { st with bad := fun j => if j = i then true else st.bad j }

/-- `node.write().unwrap().parse(&node)` (util/node_util.rs 6-8, node.rs 174-229).  Looking for the targets of links
locks only nodes the parse made itself, which nobody else knows yet. -/
def Locked.parse (content : Content) (st : Locked) (i : Nat) : Except Err Unit × Locked :=
  if st.bad i then (.error .panicUnwrap, st)
  else match st.heap.parse content i with
    | (.ok _, g) => (.ok (), { st with heap := g })
    | (.error e, g) =>
      (.error e, if e.isPanic then Locked.mark { st with heap := g } i else { st with heap := g })

/-- `WzNode::at_path_parsed` after the first piece (node.rs 439-443).  `held` is the node the call was made on, see
`NHeap.foldParsed`. -/
def Locked.fold (content : Content) (held : Nat) : Locked → Nat → List (List Char) → Except Err Nat × Locked
  | st, i, [] => (.ok i, st)
  | st, i, x :: xs =>
    if i = held then (.error (.lib "deadlock"), st)
    else match st.parse content i with
      | (.error e, st') => (.error e, st')
      | (.ok _, st') => match st'.heap.at i x with
        | none => (.error (.lib "NodeNotFound"), st')
        | some j => Locked.fold content held st' j xs

/-- `at_path_parsed` (node.rs 434-447) by a caller that has the lock of the node -/
def Locked.findIn (content : Content) (st : Locked) (i : Nat) (path : List Char) : Except Err Nat × Locked :=
  match splitSlash path with
  | [] => (.error .panicUnwrap, st)
  | x :: xs => match st.heap.at i x with
    | none => (.error (.lib "NodeNotFound"), st)
    | some j => Locked.fold content i st j xs

/-- `node.read().unwrap().at_path_parsed(path)` (node.rs 434-447) -/
def Locked.find (content : Content) (st : Locked) (i : Nat) (path : List Char) : Except Err Nat × Locked :=
  if st.bad i then (.error .panicUnwrap, st) else st.findIn content i path

/-- `WzNode::at_path` after the first piece (node.rs 428): every node is read while its child is looked up -/
def Locked.lookFold (st : Locked) : Nat → List (List Char) → Except Err (Option Nat)
  | i, [] => .ok (some i)
  | i, x :: xs =>
    if st.bad i then .error .panicUnwrap
    else match st.heap.at i x with
      | none => .ok none
      | some j => st.lookFold j xs

/-- `node.read().unwrap().at_path(path)` (node.rs 424-432) -/
def Locked.look (st : Locked) (i : Nat) (path : List Char) : Except Err (Option Nat) :=
  if st.bad i then .error .panicUnwrap
  else match splitSlash path with
    | [] => .ok none
    | x :: xs => match st.heap.at i x with
      | none => .ok none
      | some j => st.lookFold j xs

/-- loop of `get_full_path` (node.rs 274-278) -/
def Locked.climb (st : Locked) : Nat → Option Nat → List Char → Except Err (Option (List Char))
  | _, none, path => .ok (some path)
  | 0, some _, _ => .ok none
  | fuel + 1, some p, path =>
    if st.bad p then .error .panicUnwrap
    else st.climb fuel (st.heap.up p) (st.heap.nameOf p ++ '/' :: path)

/-- `node.read().unwrap().get_full_path()` (node.rs 271-280) -/
def Locked.fullPath (st : Locked) (fuel i : Nat) : Except Err (Option (List Char)) :=
  if st.bad i then .error .panicUnwrap else st.climb fuel (st.heap.up i) (st.heap.nameOf i)

/-- `node.write().unwrap().unparse()` (node.rs 233-248) -/
def Locked.unparse (st : Locked) (i : Nat) : Except Err Unit × Locked :=
  if st.bad i then (.error .panicUnwrap, st) else (.ok (), { st with heap := st.heap.unparse i })

/-- loop of `filter_parent` (node.rs 496-508) with the test of `get_base_wz_file` (517-521) -/
def Locked.baseLoop (st : Locked) : Nat → Option Nat → Except Err (Option Nat)
  | _, none => .ok none
  | 0, some _ => .error .fuel
  | fuel + 1, some p =>
    if st.bad p then .error .panicUnwrap
    else match st.heap.cell p with
      | none => .ok none
      | some c => if c.isBase then .ok (some p) else st.baseLoop fuel (st.heap.up p)

/-- `resolve_outlink(path, &node, true)` (util/node_util.rs 20-28): the base stays locked for writing while nodes below it
are parsed (24), so their panics poison it as well.  `.ok()` makes `None` of errors. -/
def Locked.outlink (content : Content) (st : Locked) (fuel i : Nat) (path : List Char) :
    Except Err (Option Nat) × Locked :=
  if st.bad i then (.error .panicUnwrap, st)
  else match st.baseLoop fuel (st.heap.up i) with
    | .error e => (.error e, st)
    | .ok none => (.ok none, st)
    | .ok (some b) =>
      if st.bad b then (.error .panicUnwrap, st)
      else match st.findIn content b path with
        | (.ok j, st') => (.ok (some j), st')
        | (.error e, st') =>
          if e.isPanic then (.error e, st'.mark b)
          else if e = .lib "deadlock" then (.error e, st')
          else (.ok none, st')

/-- the calls on nodes -/
inductive LockCall where
  | parse (i : Nat)
  | forget (i : Nat)
  | find (i : Nat) (path : List Char)
  | look (i : Nat) (path : List Char)
  | fullPath (fuel i : Nat)
  | outlink (fuel i : Nat) (path : List Char)
deriving DecidableEq, Repr

/-- what they give -/
inductive LockReply where
  | done
  | node (j : Option Nat)
  | path (p : Option (List Char))
deriving DecidableEq, Repr

/-- one call -/
def Locked.call (content : Content) (st : Locked) : LockCall → Except Err LockReply × Locked
  | .parse i => ((st.parse content i).1.map fun _ => .done, (st.parse content i).2)
  | .forget i => ((st.unparse i).1.map fun _ => .done, (st.unparse i).2)
  | .find i path => ((st.find content i path).1.map fun j => .node (some j), (st.find content i path).2)
  | .look i path => ((st.look i path).map .node, st)
  | .fullPath fuel i => ((st.fullPath fuel i).map .path, st)
  | .outlink fuel i path => ((st.outlink content fuel i path).1.map .node, (st.outlink content fuel i path).2)

/-- one call after the other -/
def Locked.calls (content : Content) (st : Locked) : List LockCall → List (Except Err LockReply) × Locked
  | [] => ([], st)
  | c :: cs =>
    ((st.call content c).1 :: ((st.call content c).2.calls content cs).1, ((st.call content c).2.calls content cs).2)

end Wz
