import Verif.Thread.Model
import Verif.Whole.JsonModel

/-!
# The JSON export as a program of a thread
-/

set_option autoImplicit false

namespace Wz

/-- the loop over the children in `to_simple_json` (node.rs 587-590), `rec` locks a child and exports it -/
def exportKids (rec : Nat → Prog (Option (Except Err Json))) :
    List (List Char × Nat) → List (List Char × Json) → Prog (Option (Except Err (List (List Char × Json))))
  | [], m => .done (some (.ok m))
  | (n, c) :: ks, m => (rec c).bind fun r => match r with
    | none => .done none
    | some (.error e) => .done (some (.error e))
    | some (.ok v) => exportKids rec ks (jsonInsert m n v)

/-- what becomes of the entries (node.rs 589, 592) -/
def wrapObject : Option (Except Err (List (List Char × Json))) → Option (Except Err Json)
  | none => none
  | some (.error e) => some (.error e)
  | some (.ok m) => some (.ok (.obj m))

/-- the object type of a node of a heap read by `e`, and its children -/
def lookObject (e : Env) (h : NHeap) (i : Nat) : Obj × List (List Char × Nat) := match h.cell i with
  | none => (.value .null, [])
  | some c => (kindObject e c.kind, c.kids)

/-- the body of `to_simple_json` (node.rs 554-592), for a node of type `o` with these children -/
def exportInside (rec : Nat → Prog (Option (Except Err Json))) (o : Obj) : List (List Char × Nat) → Prog (Option (Except Err Json))
  | [] => .done (some o.leafJson)
  | k :: ks => (exportKids rec (k :: ks) o.ownEntries).bind fun r => .done (wrapObject r)

/-- `node.read().unwrap().to_simple_json()` (node.rs 550-593).  A node is locked for reading as long as the export is in it: the caller
has the lock of the first (as in node.rs 794), the loop takes those of the children (588).  What stands in the node when it is locked stays
there, since nobody can write to it meanwhile.  An error is a panic (`C46_panics`); it gives back the locks, and locks for reading are
not poisoned.  `none`: deeper than the fuel. -/
def exportProg (e : Env) : Nat → Nat → Prog (Option (Except Err Json))
  | 0, _ => .done none
  | fuel + 1, i => .acquire .read i (.look fun h =>
    (exportInside (exportProg e fuel) (lookObject e h i).1 (lookObject e h i).2).bind fun r =>
    .release .read i (.done r))

end Wz
