import Verif.Whole.Model
import Verif.Value.JsonHeapModel

/-!
# The JSON export of the nodes of an archive
-/

set_option autoImplicit false

namespace Wz

/-- the object type of a parsed property (object.rs 22-35, property/mod.rs 44-81); texts keep the reader of their archive
(property/string.rs 101-108) -/
def PObj.object (e : Env) : PObj → Obj
  | .null => .value .null
  | .short v => .value (.short v)
  | .int v => .value (.int v)
  | .long v => .value (.long v)
  | .float b => .value (.float b)
  | .double b => .value (.double b)
  | .str m => .value (.str ⟨e, m⟩)
  | .property => .property .property
  | .canvas p => .property (.png p)
  | .convex => .property .convex
  | .vector x y => .value (.vector ⟨x, y⟩)
  | .sound s => .property (.sound s)
  | .uol m => .value (.uol ⟨e, m⟩)
  | .raw o s => .value (.rawData o s)
  | .video o s => .value (.video o s)

/-- The object type of a node of an archive read by `e` (object.rs 22-35).  A link that was not resolved is exported as its text,
or as an empty one if it cannot be read (property/mod.rs 103-105).  Numbers that are no code of a value do not occur. -/
def kindObject (e : Env) : NKind → Obj
  | .dir _ _ s => .directory s
  | .file _ s => .file s
  | .msFile _ s => .msFile s
  | .image _ s => .image s
  | .msImage s => .msImage s
  | .uol (some t) => .value (.parsed t)
  | .uol none => .value (.parsed [])
  | .other v => match Encodable.decode (α := Leaf58) v with
    | some (.prop o) => o.object e
    | some (.lua o l) => .value (.lua o l)
    | _ => .value .null

/-- `to_simple_json` (node.rs 550-593) of node `i` of an archive read by `e`; `none`: deeper than the fuel -/
def NHeap.exportJson (e : Env) (h : NHeap) (fuel i : Nat) : Option (Except Err Json) :=
  NHeap.json (fun k => match h.cell k with
    | none => .value .null
    | some c => kindObject e c.kind) h fuel i

end Wz
