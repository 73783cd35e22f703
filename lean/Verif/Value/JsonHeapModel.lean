import Verif.Value.Model
import Verif.Node.Model

/-!
# The JSON export of nodes that links have tied together
-/

set_option autoImplicit false

namespace Wz

/-- the loop over the children (node.rs 587-590), with `to_simple_json` of a child as a parameter -/
def NHeap.jsonLoop (rec : Nat → Option (Except Err Json)) :
    List (List Char × Nat) → List (List Char × Json) → Option (Except Err (List (List Char × Json)))
  | [], m => some (.ok m)
  | (n, j) :: ks, m =>
    match rec j with
    | none => none
    | some (.error e) => some (.error e)
    | some (.ok v) => NHeap.jsonLoop rec ks (jsonInsert m n v)

/-- `to_simple_json` (node.rs 550-593) on the heap.  `obj i` is the object type of node `i`; the heap says what
its children are.  A node that is a child is alive, so the case of a dead one does not come up.  `none`: deeper
than the fuel. -/
def NHeap.json (obj : Nat → Obj) (h : NHeap) : Nat → Nat → Option (Except Err Json)
  | 0, _ => none
  | fuel + 1, i =>
    match h.cell i with
    | none => some (obj i).leafJson
    | some c => match c.kids with
      | [] => some (obj i).leafJson
      | k :: ks => match NHeap.jsonLoop (NHeap.json obj h fuel) (k :: ks) (obj i).ownEntries with
        | none => none
        | some (.error e) => some (.error e)
        | some (.ok m) => some (.ok (.obj m))

end Wz
