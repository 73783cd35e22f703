import Verif.Thread.CrashModel
import Verif.Thread.Spec

/-!
# What is left when a thread panics
-/

set_option autoImplicit false

namespace Wz.Spec

open Wz

/-- some thread is not done, and none can go on -/
def Stuck {α : Type} (queue : Bool) (C : CrashPool α) : Prop := ¬ AllDone C.pool ∧ ∀ t, C.next queue (.go t) = none

/-- the events are steps, none is a panic -/
def NoCrash (evs : List Event) : Prop := ∀ ev ∈ evs, ∃ t, ev = .go t

/-- there is no endless row of events -/
def EndsAnyway {α : Type} (queue : Bool) (C : CrashPool α) : Prop :=
  ¬ ∃ f : Nat → CrashPool α, f 0 = C ∧ ∀ n, ∃ ev, (f n).next queue ev = some (f (n + 1))

end Wz.Spec
