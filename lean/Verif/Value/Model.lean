import Verif.Property.Model
import Verif.Version.Pkg1Model
/-!
# Model of values: objects, typed access, vectors, JSON

(`object.rs`, `node_cast.rs`, `property/vector.rs`, `property/mod.rs`, `node.rs` 550-593)
-/

set_option autoImplicit false

namespace Wz

/-! ## Vectors -/

/-- `Vector2D` (property/vector.rs 7-9) -/
structure V2 where
  x : Int
  y : Int
deriving DecidableEq, Repr

/-- i32 subtraction -/
def subI32 (m : Mode) (a b : Int) : Except Err Int :=
  if -2 ^ 31 ≤ a - b ∧ a - b < 2 ^ 31 then .ok (a - b)
  else match m with
    | .checked => .error .panicOverflow
    | .wrap => .ok (Int.bmod (a - b) (2 ^ 32))

/-- i32 division: division by zero and `MIN / -1` panic in every build -/
def divI32 (a b : Int) : Except Err Int :=
  if b = 0 ∨ (a = -2 ^ 31 ∧ b = -1) then .error .panicOverflow else .ok (a.tdiv b)

/-- `Add` (property/vector.rs 28-34) -/
def V2.add (m : Mode) (a b : V2) : Except Err V2 := do
  let x ← addI32 m a.x b.x
  let y ← addI32 m a.y b.y
  return ⟨x, y⟩

/-- `Sub` (property/vector.rs 36-42) -/
def V2.sub (m : Mode) (a b : V2) : Except Err V2 := do
  let x ← subI32 m a.x b.x
  let y ← subI32 m a.y b.y
  return ⟨x, y⟩

/-- `Mul` (property/vector.rs 44-50) -/
def V2.mul (m : Mode) (a b : V2) : Except Err V2 := do
  let x ← mulI32 m a.x b.x
  let y ← mulI32 m a.y b.y
  return ⟨x, y⟩

/-- `Div` (property/vector.rs 52-58) -/
def V2.div (a b : V2) : Except Err V2 := do
  let x ← divI32 a.x b.x
  let y ← divI32 a.y b.y
  return ⟨x, y⟩

/-- the differences `distance` is computed from (property/vector.rs 15-19); the floating point square root behind it
is not modelled -/
def V2.diff (m : Mode) (a b : V2) : Except Err V2 := do
  let x ← subI32 m b.x a.x
  let y ← subI32 m b.y a.y
  return ⟨x, y⟩

/-- `PartialEq`, derived (property/vector.rs 8) -/
def V2.eq (a b : V2) : Bool := a.x == b.x && a.y == b.y

/-! ## Objects -/

/-- `WzString` (property/string.rs 48-56): where the text is, and the reader with its keys -/
structure StrRef where
  env : Env
  pos : StrMeta

/-- `WzString::get_string` (property/string.rs 160-166) -/
def StrRef.get (r : StrRef) : Except Err (List Char) := resolveMeta r.env r.pos.ty r.pos.offset r.pos.length

/-- `WzValue` (property/mod.rs 56-81).  Floats are kept as their bits; raw data, video and scripts are an offset and a length. -/
inductive Val where
  | rawData (offset length : Nat)
  | video (offset length : Nat)
  | lua (offset length : Nat)
  | short (v : Int)
  | int (v : Int)
  | long (v : Int)
  | float (bits : Nat)
  | double (bits : Nat)
  | vector (v : V2)
  | uol (s : StrRef)
  | str (s : StrRef)
  | parsed (s : List Char)
  | null

/-- `WzSubProperty` (property/mod.rs 44-54) -/
inductive Sub where
  | convex
  | sound (s : Sound)
  | png (p : Png)
  | property

/-- `WzObjectType` (object.rs 22-35).  The contents of files, images and directories do not matter here; a number tells them
apart. -/
inductive Obj where
  | file (id : Nat)
  | msFile (id : Nat)
  | image (id : Nat)
  | msImage (id : Nat)
  | directory (id : Nat)
  | property (s : Sub)
  | value (v : Val)

namespace Obj

/-- `try_as!` (node_cast.rs 45-55) for files (70) -/
def asFile : Obj → Option Nat
  | .file f => some f
  | _ => none
/-- `try_as!` for directories (node_cast.rs 71) -/
def asDirectory : Obj → Option Nat
  | .directory f => some f
  | _ => none
/-- `try_as!` for images (node_cast.rs 72) -/
def asImage : Obj → Option Nat
  | .image f => some f
  | _ => none
/-- `try_as!` for sub properties (node_cast.rs 74) -/
def asSub : Obj → Option Sub
  | .property s => some s
  | _ => none
/-- `try_as!` for values (node_cast.rs 75) -/
def asValue : Obj → Option Val
  | .value v => some v
  | _ => none
/-- `try_as_png` (node_cast.rs 77-83) -/
def asPng : Obj → Option Png
  | .property (.png p) => some p
  | _ => none
/-- `try_as_sound` (node_cast.rs 84-90) -/
def asSound : Obj → Option Sound
  | .property (.sound s) => some s
  | _ => none
/-- `try_as_string` (node_cast.rs 91-98) -/
def asString : Obj → Option StrRef
  | .value (.str s) => some s
  | .value (.uol s) => some s
  | _ => none
/-- `is_sub_property` (node_cast.rs 99-105) -/
def isSub : Obj → Bool
  | .property .property => true
  | _ => false
/-- `is_convex` (node_cast.rs 106-112) -/
def isConvex : Obj → Bool
  | .property .convex => true
  | _ => false
/-- `is_null` (node_cast.rs 113-116) -/
def isNull : Obj → Bool
  | .value .null => true
  | _ => false
/-- `try_as_wz_value!` (node_cast.rs 57-67) for scripts (118) -/
def asLua : Obj → Option (Nat × Nat)
  | .value (.lua o l) => some (o, l)
  | _ => none
/-- the same for raw data (node_cast.rs 119) -/
def asRawData : Obj → Option (Nat × Nat)
  | .value (.rawData o l) => some (o, l)
  | _ => none
/-- the same for video (node_cast.rs 120) -/
def asVideo : Obj → Option (Nat × Nat)
  | .value (.video o l) => some (o, l)
  | _ => none
/-- the same for vectors (node_cast.rs 122) -/
def asVector : Obj → Option V2
  | .value (.vector v) => some v
  | _ => none
/-- the same for i16 (node_cast.rs 123) -/
def asShort : Obj → Option Int
  | .value (.short v) => some v
  | _ => none
/-- the same for i32 (node_cast.rs 124) -/
def asInt : Obj → Option Int
  | .value (.int v) => some v
  | _ => none
/-- the same for i64 (node_cast.rs 125) -/
def asLong : Obj → Option Int
  | .value (.long v) => some v
  | _ => none
/-- the same for f32 (node_cast.rs 126) -/
def asFloat : Obj → Option Nat
  | .value (.float v) => some v
  | _ => none
/-- the same for f64 (node_cast.rs 127) -/
def asDouble : Obj → Option Nat
  | .value (.double v) => some v
  | _ => none
/-- the same for UOL (node_cast.rs 128) -/
def asUol : Obj → Option StrRef
  | .value (.uol s) => some s
  | _ => none

/-! `From` conversions (object.rs 37-63), one for each line of the list (object.rs 65-83) -/

/-- `From<WzFile>` (object.rs 65) -/
def ofFile (f : Nat) : Obj := .file f
/-- `From<WzDirectory>` (object.rs 66) -/
def ofDirectory (f : Nat) : Obj := .directory f
/-- `From<WzImage>` (object.rs 67) -/
def ofImage (f : Nat) : Obj := .image f
/-- `From<MsFile>` (object.rs 68) -/
def ofMsFile (f : Nat) : Obj := .msFile f
/-- `From<MsImage>` (object.rs 69) -/
def ofMsImage (f : Nat) : Obj := .msImage f
/-- `From<i16>` (object.rs 71) -/
def ofI16 (v : Int) : Obj := .value (.short v)
/-- `From<i32>` (object.rs 72) -/
def ofI32 (v : Int) : Obj := .value (.int v)
/-- `From<i64>` (object.rs 73) -/
def ofI64 (v : Int) : Obj := .value (.long v)
/-- `From<f32>` (object.rs 74) -/
def ofF32 (v : Nat) : Obj := .value (.float v)
/-- `From<f64>` (object.rs 75) -/
def ofF64 (v : Nat) : Obj := .value (.double v)
/-- `From<WzString>` (object.rs 76) -/
def ofString (s : StrRef) : Obj := .value (.str s)
/-- `From<Vector2D>` (object.rs 77) -/
def ofVector (v : V2) : Obj := .value (.vector v)
/-- `From<WzRawData>` (object.rs 78) -/
def ofRawData (o l : Nat) : Obj := .value (.rawData o l)
/-- `From<WzVideo>` (object.rs 79) -/
def ofVideo (o l : Nat) : Obj := .value (.video o l)
/-- `From<WzLua>` (object.rs 80) -/
def ofLua (o l : Nat) : Obj := .value (.lua o l)
/-- `From<WzPng>` (object.rs 82) -/
def ofPng (p : Png) : Obj := .property (.png p)
/-- `From<WzSound>` (object.rs 83) -/
def ofSound (s : Sound) : Obj := .property (.sound s)

end Obj

/-! ## JSON -/

/-- `serde_json::Value`; an object is the list of its entries (the order, which `serde_json` does not keep either, has no
meaning).  A number is an integer or a float (its bits); arrays do not occur. -/
inductive Json where
  | null
  | int (v : Int)
  | float (bits : Nat)
  | str (s : List Char)
  | obj (m : List (List Char × Json))

/-- `Map::insert` -/
def jsonInsert : List (List Char × Json) → List Char → Json → List (List Char × Json)
  | [], k, v => [(k, v)]
  | e :: m, k, v => if e.1 = k then (k, v) :: m else e :: jsonInsert m k v

/-- `f64::is_finite` -/
def finite64 (bits : Nat) : Bool := bits / 2 ^ 52 % 2 ^ 11 != 2047

/-- `f64::from(f32)`; what becomes of the payload of a NaN does not matter here -/
def f64OfF32 (bits : Nat) : Nat :=
  let s := bits / 2 ^ 31 * 2 ^ 63
  let e := bits / 2 ^ 23 % 2 ^ 8
  let f := bits % 2 ^ 23
  if e = 255 then s + 2047 * 2 ^ 52 + f * 2 ^ 29
  else if e = 0 then
    if f = 0 then s else s + (f.log2 + 874) * 2 ^ 52 + (f - 2 ^ f.log2) * 2 ^ (52 - f.log2)
  else s + (e + 896) * 2 ^ 52 + f * 2 ^ 29

/-- `Value::Number(Number::from_f64(v).unwrap())` (property/mod.rs 95-96) -/
def jsonFloat (bits : Nat) : Except Err Json := if finite64 bits then .ok (.float bits) else .error .panicUnwrap

/-- `string.get_string().unwrap_or_default().into()` (property/mod.rs 103-105) -/
def jsonStr (s : StrRef) : Except Err Json :=
  match s.get with
  | .ok t => .ok (.str t)
  | .error e => if e.isPanic then .error e else .ok (.str [])

/-- `From<WzValue> for Value` (property/mod.rs 85-109) -/
def Val.json : Val → Except Err Json
  | .null => .ok .null
  | .rawData _ _ => .ok .null
  | .video _ _ => .ok .null
  | .lua _ _ => .ok .null
  | .short v => .ok (.int v)
  | .int v => .ok (.int v)
  | .long v => .ok (.int v)
  | .float b => jsonFloat (f64OfF32 b)
  | .double b => jsonFloat b
  | .vector v => .ok (.obj (jsonInsert (jsonInsert [] ['x'] (.int v.x)) ['y'] (.int v.y)))
  | .uol s => jsonStr s
  | .str s => jsonStr s
  | .parsed s => .ok (.str s)

/-- `to_value` of a picture: the fields that are not skipped (property/png.rs 128-148) -/
def Png.json (p : Png) : List (List Char × Json) :=
  [(['w', 'i', 'd', 't', 'h'], .int p.width), (['h', 'e', 'i', 'g', 'h', 't'], .int p.height)]

/-- the name of a sound type as serde writes it (property/sound.rs 27-34) -/
def SoundType.name : SoundType → List Char
  | .mp3 => ['M', 'p', '3']
  | .wav => ['W', 'a', 'v']
  | .binary => ['B', 'i', 'n', 'a', 'r', 'y']

/-- `to_value` of a sound (property/sound.rs 36-51) -/
def Sound.json (s : Sound) : List (List Char × Json) :=
  [(['d', 'u', 'r', 'a', 't', 'i', 'o', 'n'], .int s.duration), (['s', 'o', 'u', 'n', 'd', '_', 't', 'y', 'p', 'e'], .str s.ty.name)]

/-- a node with its children, as a tree -/
inductive JNode where
  | node (obj : Obj) (kids : List (List Char × JNode))

/-- the result for a node without children (node.rs 554-561) -/
def Obj.leafJson : Obj → Except Err Json
  | .value v => v.json
  | .property (.png p) => .ok (.obj p.json)
  | .property (.sound s) => .ok (.obj s.json)
  | _ => .ok .null

/-- the entries put into the object before the children (node.rs 565-585) -/
def Obj.ownEntries : Obj → List (List Char × Json)
  | .property (.png p) => p.json.foldl (fun m e => jsonInsert m e.1 e.2) []
  | .property (.sound s) => s.json.foldl (fun m e => jsonInsert m e.1 e.2) []
  | _ => []

mutual
/-- `to_simple_json` (node.rs 550-593) on a tree.  (In the program a UOL can make a node its own descendant: see the
tree model.) -/
def JNode.json : JNode → Except Err Json
  | .node o [] => o.leafJson
  | .node o (k :: ks) => do
    let m ← kidsJson (k :: ks) o.ownEntries
    return .obj m
/-- the loop over the children (node.rs 587-590) -/
def kidsJson : List (List Char × JNode) → List (List Char × Json) → Except Err (List (List Char × Json))
  | [], m => .ok m
  | k :: ks, m => do
    let j ← k.2.json
    kidsJson ks (jsonInsert m k.1 j)
end

end Wz
