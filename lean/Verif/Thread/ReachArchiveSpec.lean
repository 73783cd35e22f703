import Verif.Thread.ReachSpec
import Verif.Thread.JsonSpec
import Verif.Whole.Spec
import Verif.Whole.Props
import Verif.Whole.JsonSpec

/-!
# Threads that export in an archive without links
-/

set_option autoImplicit false

namespace Wz.Spec

open Wz Wz.Props

/-- no image of the archive has a link in it -/
inductive NoUolArchive : List (List Char × ATree) → Prop
  | nil : NoUolArchive []
  | dir (n : List Char) (ks rest : List (List Char × ATree)) : NoUolArchive ks → NoUolArchive rest → NoUolArchive ((n, .dir ks) :: rest)
  | image (n : List Char) (ps : List (List Char × PTree)) (rest : List (List Char × ATree)) : NoUol ps → NoUolArchive rest →
      NoUolArchive ((n, .image ps) :: rest)
  | text (n : List Char) (d : Bytes) (rest : List (List Char × ATree)) : NoUolArchive rest → NoUolArchive ((n, .text d) :: rest)
  | script (n : List Char) (d : Bytes) (rest : List (List Char × ATree)) : NoUolArchive rest → NoUolArchive ((n, .script d) :: rest)

/-- `a` is what some thread gets that makes some calls and then exports node `i`, while others do whatever they do -/
def ExportedBy (content : Content) (g : NHeap) (e : Env) (fuel i : Nat) (a : Option (Except Err Json)) : Prop :=
  ∃ (ps : List (Prog (Option (Except Err Json)))) (queue : Bool) (sched : List Nat) (P : Pool (Option (Except Err Json))) (t : Nat)
    (before : Prog Unit) (th : Thread (Option (Except Err Json))), (∀ p ∈ ps, CallsAndExports content p) ∧ CallsAndExports content before ∧
    ps[t]? = some (before.bind fun _ => exportProg e fuel i) ∧ (Pool.start g ps).run queue sched = some P ∧ P.threads[t]? = some th ∧ Answer th a

/-- The root is the only node yet and is parsed, which succeeds.  Then threads look up, parse, unparse, walk and export, in whatever order they get
their turns.
* They never all wait for each other, and all get done.
* Whoever exports an image, after whatever calls, gets nothing (`null`), or what is exported after reading the image alone.
* So for each image of the archive with finite numbers only there is a JSON that shows all its properties, and whoever exports the image gets
  `null` or that. -/
def SharedExports (content : Content) (e : Env) (arch : List (List Char × ATree)) : Prop :=
  ∀ (name : List Char), ∃ g, NHeap.parse [some ⟨name, .file false (Encodable.encode Src58.file), none, []⟩] content 0 = (.ok (), g) ∧
    (∀ (ps : List (Prog (Option (Except Err Json)))), (∀ p ∈ ps, CallsAndExports content p) →
      ∀ (queue : Bool) (sched : List Nat) (P : Pool (Option (Except Err Json))), (Pool.start g ps).run queue sched = some P →
        ¬ Deadlock queue P ∧ ∃ more P', P.run queue more = some P' ∧ AllDone P') ∧
    (∀ (i : Nat) (c : NCell) (p : Bool) (s : Nat), g.cell i = some c → c.kind = .image p s →
      ∀ (e : Env) (fuel : Nat) (a : Option (Except Err Json)), ExportedBy content g e (fuel + 1) i a →
        a = some (.ok .null) ∨ a = (g.parse content i).2.exportJson e (fuel + 1) i) ∧
    ∀ (path : List Char) (ns : List (List Char)) (props : List (List Char × PTree)), Pieces path ns → imageAt arch ns = some props →
      FiniteNumbers props → ∃ i j N, g.atPath 0 path = some i ∧ ShowsJson (.node .sub props) j ∧
        ∀ (fuel : Nat) (a : Option (Except Err Json)), N ≤ fuel → ExportedBy content g e fuel i a → a = some (.ok .null) ∨ a = some (.ok j)

end Wz.Spec
