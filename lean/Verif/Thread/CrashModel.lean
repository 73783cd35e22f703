import Verif.Thread.Model

/-!
# Threads that panic

A thread may panic at any point: while it reads damaged data, in a callback of the program, or by `unwrap` of a poisoned lock.
Its stack is unwound: all locks it has are given back, and those it had for writing are poisoned (`std::sync::RwLock`).  All
calls of the library take locks with `.read().unwrap()` or `.write().unwrap()` (node.rs, node_util.rs), so a thread that comes
to a poisoned lock panics as well.

Simplifications: a lock counts as poisoned from the panic on, not from the moment it is given back: nobody else can have it
in between.  Which panics really happen is left open: every thread may panic before each of its steps.  A panic in the middle
of `parse` is one right after it: `NHeap.parse` says what it leaves.
-/

set_option autoImplicit false

namespace Wz

/-- The stack is unwound: all locks are given back, the last first (drop of the guards).  There is no answer. -/
def unwindProg {α : Type} : List (LMode × Nat) → Prog (Option α)
  | [] => .done none
  | (m, i) :: held => .release m i (unwindProg held)

/-- the nodes locked for writing -/
def writeHeld (held : List (LMode × Nat)) : List Nat := held.filterMap fun x => match x.1 with
  | .write => some x.2
  | .read => none

/-- threads of which some have panicked (`gone`); the poisoned locks (`bad`) -/
structure CrashPool (α : Type) where
  pool : Pool (Option α)
  bad : List Nat
  gone : List Nat

/-- thread `t` panics -/
def CrashPool.panic {α : Type} (C : CrashPool α) (t : Nat) (th : Thread (Option α)) : CrashPool α :=
  ⟨⟨C.pool.heap, C.pool.threads.set t ⟨th.held, unwindProg th.held⟩⟩, writeHeld th.held ++ C.bad, t :: C.gone⟩

/-- what can happen: a thread does its next step, or panics -/
inductive Event where
  | go (t : Nat)
  | crash (t : Nat)
deriving DecidableEq, Repr

/-- One event; `none` if it cannot happen now.  `go`: a poisoned lock is waited for like any other, then `unwrap` panics
(`at_path`, `at_path_parsed`, node.rs 424-447, and everywhere else; the lock itself is not kept).  `crash`: a thread that is not done panics; while it is
unwound it does nothing but give back its locks. -/
def CrashPool.next {α : Type} (queue : Bool) (C : CrashPool α) : Event → Option (CrashPool α)
  | .go t => match C.pool.threads[t]? with
    | none => none
    | some th => match th.prog with
      | .acquire m i k =>
        if i ∈ C.bad then (if canTake queue C.pool.threads m i then some (C.panic t th) else none)
        else (C.pool.next queue t).map fun P => { C with pool := P }
      | _ => (C.pool.next queue t).map fun P => { C with pool := P }
  | .crash t =>
    if t ∈ C.gone then none
    else match C.pool.threads[t]? with
      | none => none
      | some th => match th.prog with
        | .done _ => none
        | _ => some (C.panic t th)

/-- several events -/
def CrashPool.run {α : Type} (queue : Bool) : List Event → CrashPool α → Option (CrashPool α)
  | [], C => some C
  | ev :: evs, C => match C.next queue ev with
    | none => none
    | some D => D.run queue evs

/-- threads that start with these programs, no lock poisoned -/
def CrashPool.start {α : Type} (h : NHeap) (ps : List (Prog α)) : CrashPool α :=
  ⟨Pool.start h (ps.map fun p => p.bind fun a => .done (some a)), [], []⟩

end Wz
