import Verif.Thread.Spec
import Verif.Thread.JsonModel

/-!
# Threads that export, read and forget
-/

set_option autoImplicit false

namespace Wz.Spec

open Wz

/-- A thread that looks up, parses, unparses, walks and exports, one call after the other; what it asks next may depend on the answers. -/
inductive CallsAndExports (content : Content) {α : Type} : Prog α → Prop
  | done (a : α) : CallsAndExports content (.done a)
  | call (c : TreeCall) (k : List Nat → Prog α) : (∀ a, CallsAndExports content (k a)) → CallsAndExports content ((callProg content c).bind k)
  | json (e : Env) (fuel i : Nat) (k : Option (Except Err Json) → Prog α) : (∀ a, CallsAndExports content (k a)) →
      CallsAndExports content ((exportProg e fuel i).bind k)

end Wz.Spec
