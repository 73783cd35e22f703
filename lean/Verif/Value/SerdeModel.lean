import Verif.Value.Model
import Verif.Reader.Model

/-!
# Model of the full JSON of a node (`to_json` and serde's `Deserialize`)

(`node.rs`, `object.rs`, `property/mod.rs`, `property/string.rs`, `file.rs`, `ms/header.rs` with their serde attributes.)
The code that serde derives is not in the repository.  It is modelled after serde's documentation: `tag`/`content` (adjacently
tagged), `untagged` variants tried in order after the tagged ones, `other`, `alias`, `flatten`, `skip`, `with`.
Messages of errors are left out.  Of the forms that serde reads, only those that it also writes are modelled: no array for a struct, no object
for the name of a variant, no integer for a float.
-/

set_option autoImplicit false

namespace Wz

open Lean in
/-- a text as a list of characters -/
macro:max "chars!" s:str : term => do
  let cs := (s.getString.toList.map fun c => Syntax.mkCharLit c).toArray
  `([$cs,*])

/-- `serde_json::Value`.  An object is the list of its entries, each key once; their order has no meaning. -/
inductive JVal where
  | null
  | bool (b : Bool)
  | int (v : Int)
  | float (bits : Nat)
  | str (s : List Char)
  | arr (l : List JVal)
  | obj (m : List (List Char × JVal))

/-- the value of a key -/
def jget : List (List Char × JVal) → List Char → Option JVal
  | [], _ => none
  | e :: m, k => if e.1 = k then some e.2 else jget m k

/-- `WzFileMeta` (file.rs 40-55) -/
structure FileMeta where
  path : List Char
  patch : Int
  verHeader : Int
  withEnc : Bool
  hash : Nat
  verified : Bool
deriving DecidableEq

/-- `MsHeader` (ms/header.rs 30-48) -/
structure MsMeta where
  keySalt : List Char
  nameWithSalt : List Char
  headerHash : Int
  version : Nat
  entryCount : Int
  hstart : Nat
  estart : Nat
  msVersion : Nat
deriving DecidableEq

/-- `WzObjectType` (object.rs 22-35).  `rest` stands for the fields that are skipped (reader, offsets, state): a number tells them apart,
`none` are the defaults. -/
inductive SObj where
  | file (d : FileMeta) (rest : Option Nat)
  | msFile (d : MsMeta) (rest : Option Nat)
  | image (rest : Option Nat)
  | msImage (rest : Option Nat)
  | directory (rest : Option Nat)
  | property (s : Sub)
  | value (v : Val)

/-- `WzNode` (node.rs 33-44) with everything below it, as a tree.  Of the parent only is kept whether there is one. -/
inductive SNode where
  | node (name : List Char) (obj : SObj) (parent : Bool) (kids : List (List Char × SNode))

/-! ## Writing -/

/-- `serialize_f64` of `serde_json`'s `to_value`: what is not finite becomes null -/
def jfloat (bits : Nat) : JVal := if finite64 bits then .float bits else .null

/-- `Serialize` of a `WzString` (property/string.rs 231-241) -/
def StrRef.write (s : StrRef) : Except Err JVal :=
  match s.get with
  | .ok t => .ok (.str t)
  | .error e => if e.isPanic then .error e else .ok (.str [])

/-- `WzFileMeta` inside of `WzFile` (file.rs 40-72) -/
def FileMeta.write (d : FileMeta) : JVal :=
  .obj [(chars!"path", .str d.path), (chars!"patch_version", .int d.patch), (chars!"wz_version_header", .int d.verHeader),
    (chars!"wz_with_encrypt_version_header", .bool d.withEnc), (chars!"hash", .int d.hash), (chars!"string_decryptor_verified", .bool d.verified)]

/-- `MsHeader` inside of `MsFile` (ms/file.rs 32-43, ms/header.rs 30-48) -/
def MsMeta.write (d : MsMeta) : JVal :=
  .obj [(chars!"key_salt", .str d.keySalt), (chars!"name_with_salt", .str d.nameWithSalt), (chars!"header_hash", .int d.headerHash),
    (chars!"version", .int d.version), (chars!"entry_count", .int d.entryCount), (chars!"hstart", .int d.hstart), (chars!"estart", .int d.estart),
    (chars!"ms_file_version", .int d.msVersion)]

/-- the entry `type` and, if there is something in the variant, the entry `data` -/
def tagged (t : List Char) (d : Option JVal) : List (List Char × JVal) :=
  match d with
  | none => [(chars!"type", .str t)]
  | some d => [(chars!"type", .str t), (chars!"data", d)]

/-- `Serialize` of `WzSubProperty` (property/mod.rs 46-54) with those of a picture (property/png.rs 128-148) and a sound
(property/sound.rs 27-51) -/
def Sub.write : Sub → List (List Char × JVal)
  | .convex => tagged chars!"Convex" none
  | .sound s => tagged chars!"Sound" (some (.obj [(chars!"duration", .int s.duration), (chars!"sound_type", .str s.ty.name)]))
  | .png p => tagged chars!"PNG" (some (.obj [(chars!"width", .int p.width), (chars!"height", .int p.height)]))
  | .property => tagged chars!"Property" none

/-- `Serialize` of `WzValue` (property/mod.rs 57-81).  Skipped variants cannot be written. -/
def Val.write : Val → Except Err (List (List Char × JVal))
  | .rawData _ _ | .video _ _ | .lua _ _ => .error (.lib "the enum variant cannot be serialized")
  | .short v => .ok (tagged chars!"Short" (some (.int v)))
  | .int v => .ok (tagged chars!"Int" (some (.int v)))
  | .long v => .ok (tagged chars!"Long" (some (.int v)))
  | .float b => .ok (tagged chars!"Float" (some (jfloat (f64OfF32 b))))
  | .double b => .ok (tagged chars!"Double" (some (jfloat b)))
  | .vector v => .ok (tagged chars!"Vector" (some (.arr [.int v.x, .int v.y])))
  | .uol s => s.write.map fun j => tagged chars!"UOL" (some j)
  | .str s => s.write.map fun j => tagged chars!"String" (some j)
  | .parsed s => .ok (tagged chars!"ParsedString" (some (.str s)))
  | .null => .ok (tagged chars!"Null" none)

/-- `Serialize` of `WzObjectType` (object.rs 22-35) -/
def SObj.write : SObj → Except Err (List (List Char × JVal))
  | .file d _ => .ok (tagged chars!"File" (some d.write))
  | .msFile d _ => .ok (tagged chars!"MsFile" (some d.write))
  | .image _ => .ok (tagged chars!"Image" (some (.obj [])))
  | .msImage _ => .ok (tagged chars!"MsImage" (some (.obj [])))
  | .directory _ => .ok (tagged chars!"Directory" (some (.obj [])))
  | .property s => .ok s.write
  | .value v => v.write

mutual
/-- `to_json` (node.rs 542-546): `Serialize` of `WzNode` (33-44) -/
def SNode.toJson : SNode → Except Err JVal
  | .node name obj _ kids => do
    let o ← obj.write
    let ks ← writeKids kids
    return .obj ([(chars!"name", .str name)] ++ o ++ [(chars!"children", .obj ks)])
/-- `arc_node_serde::serialize` (node.rs 605-618) -/
def writeKids : List (List Char × SNode) → Except Err (List (List Char × JVal))
  | [] => .ok []
  | k :: ks => do
    let j ← k.2.toJson
    let js ← writeKids ks
    return (k.1, j) :: js
end

/-! ## Reading -/

/-- rounding to the nearest multiple of `2 ^ s`, ties to even, in units of `2 ^ s` -/
def roundEven (n s : Nat) : Nat :=
  if n % 2 ^ s * 2 > 2 ^ s ∨ (n % 2 ^ s * 2 = 2 ^ s ∧ n / 2 ^ s % 2 = 1) then n / 2 ^ s + 1 else n / 2 ^ s

/-- `f64 as f32`, as serde reads a `f32` (a NaN becomes some NaN) -/
def f32OfF64 (bits : Nat) : Nat :=
  let s := bits / 2 ^ 63 * 2 ^ 31
  let e := bits / 2 ^ 52 % 2 ^ 11
  let f := bits % 2 ^ 52
  if e = 2047 then s + 255 * 2 ^ 23 + (if f = 0 then 0 else 2 ^ 22)
  else if e = 0 then s
  else if e < 897 then s + roundEven (2 ^ 52 + f) (29 + (897 - e))
  else
    let r := (e - 897) * 2 ^ 23 + roundEven (2 ^ 52 + f) 29
    s + (if r < 255 * 2 ^ 23 then r else 255 * 2 ^ 23)

/-- an integer of a type with these bounds -/
def jint (lo hi : Int) : Option JVal → Option Int
  | some (.int v) => if lo ≤ v ∧ v ≤ hi then some v else none
  | _ => none

/-- an unsigned integer with so many bits -/
def juint (n : Nat) (j : Option JVal) : Option Nat := (jint 0 (2 ^ n - 1) j).map Int.toNat

/-- a `String` -/
def jstr : Option JVal → Option (List Char)
  | some (.str s) => some s
  | _ => none

/-- a `bool` -/
def jbool : Option JVal → Option Bool
  | some (.bool b) => some b
  | _ => none

/-- a float -/
def jnum : Option JVal → Option Nat
  | some (.float b) => some b
  | _ => none

/-- the entries of a struct -/
def jobj : Option JVal → Option (List (List Char × JVal))
  | some (.obj m) => some m
  | _ => none

/-- nothing in the variant: no entry `data`, or null -/
def jnothing : Option JVal → Bool
  | none | some .null => true
  | _ => false

/-- `Deserialize` of a `WzString` (property/string.rs 244-269): `from_str` (110-138) with a zero IV.  `m` is the arithmetic of the build
that will read it. -/
def StrRef.make (m : Mode) (s : List Char) : StrRef :=
  let w := WzStr.fromStr (fun _ => 0#8) s
  ⟨⟨m, w.buf, fun _ => 0#8, fun _ => 0#8⟩, ⟨w.offset, w.length, w.ty⟩⟩

/-- `Deserialize` of `WzFileMeta` inside of `WzFile` (file.rs 40-72) -/
def FileMeta.read (m : List (List Char × JVal)) : Option FileMeta := do
  let path ← jstr (jget m chars!"path")
  let patch ← jint (-2 ^ 31) (2 ^ 31 - 1) (jget m chars!"patch_version")
  let verHeader ← jint (-2 ^ 31) (2 ^ 31 - 1) (jget m chars!"wz_version_header")
  let withEnc ← jbool (jget m chars!"wz_with_encrypt_version_header")
  let hash ← juint 64 (jget m chars!"hash")
  let verified ← jbool (jget m chars!"string_decryptor_verified")
  return ⟨path, patch, verHeader, withEnc, hash, verified⟩

/-- `Deserialize` of `MsHeader` inside of `MsFile` (ms/file.rs 32-43, ms/header.rs 30-48) -/
def MsMeta.read (m : List (List Char × JVal)) : Option MsMeta := do
  let keySalt ← jstr (jget m chars!"key_salt")
  let nameWithSalt ← jstr (jget m chars!"name_with_salt")
  let headerHash ← jint (-2 ^ 31) (2 ^ 31 - 1) (jget m chars!"header_hash")
  let version ← juint 8 (jget m chars!"version")
  let entryCount ← jint (-2 ^ 31) (2 ^ 31 - 1) (jget m chars!"entry_count")
  let hstart ← juint 64 (jget m chars!"hstart")
  let estart ← juint 64 (jget m chars!"estart")
  let msVersion ← juint 8 (jget m chars!"ms_file_version")
  return ⟨keySalt, nameWithSalt, headerHash, version, entryCount, hstart, estart, msVersion⟩

/-- the tagged variants of `WzObjectType` (object.rs 26-30).  The skipped fields get their defaults. -/
def SObj.readTagged (t : List Char) (d : Option JVal) : Option SObj :=
  if t = chars!"File" then ((jobj d).bind FileMeta.read).map (SObj.file · none)
  else if t = chars!"MsFile" then ((jobj d).bind MsMeta.read).map (SObj.msFile · none)
  else if t = chars!"Image" then (jobj d).map fun _ => SObj.image none
  else if t = chars!"MsImage" then (jobj d).map fun _ => SObj.msImage none
  else if t = chars!"Directory" then (jobj d).map fun _ => SObj.directory none
  else none

/-- the name of a sound type (property/sound.rs 27-34) -/
def SoundType.ofName (s : List Char) : Option SoundType :=
  if s = chars!"Mp3" then some .mp3 else if s = chars!"Wav" then some .wav else if s = chars!"Binary" then some .binary else none

/-- `Deserialize` of `WzSubProperty` (property/mod.rs 46-54): every tag that is not one of its own is taken for `Property` (52-53) -/
def Sub.read (t : List Char) (d : Option JVal) : Option Sub :=
  if t = chars!"Convex" then if jnothing d then some .convex else none
  else if t = chars!"Sound" then do
    let m ← jobj d
    let duration ← juint 32 (jget m chars!"duration")
    let ty ← (jstr (jget m chars!"sound_type")).bind SoundType.ofName
    return .sound ⟨0, 0, 0, 0, duration, ty⟩
  else if t = chars!"PNG" then do
    let m ← jobj d
    let width ← juint 32 (jget m chars!"width")
    let height ← juint 32 (jget m chars!"height")
    return .png ⟨0, 0, 0, 0, 0, 0, width, height⟩
  else if jnothing d then some .property else none

/-- `Deserialize` of `Vector2D` (property/vector.rs 7-9) -/
def V2.read : Option JVal → Option V2
  | some (.arr [a, b]) => do
    let x ← jint (-2 ^ 31) (2 ^ 31 - 1) (some a)
    let y ← jint (-2 ^ 31) (2 ^ 31 - 1) (some b)
    return ⟨x, y⟩
  | _ => none

/-- `Deserialize` of `WzValue` (property/mod.rs 57-81): every tag that is not one of its own is taken for `Null` (78-80) -/
def Val.read (m : Mode) (t : List Char) (d : Option JVal) : Option Val :=
  if t = chars!"Short" then (jint (-2 ^ 15) (2 ^ 15 - 1) d).map Val.short
  else if t = chars!"Int" ∨ t = chars!"number" then (jint (-2 ^ 31) (2 ^ 31 - 1) d).map Val.int
  else if t = chars!"Long" then (jint (-2 ^ 63) (2 ^ 63 - 1) d).map Val.long
  else if t = chars!"Float" then (jnum d).map fun b => Val.float (f32OfF64 b)
  else if t = chars!"Double" then (jnum d).map Val.double
  else if t = chars!"Vector" then (V2.read d).map Val.vector
  else if t = chars!"UOL" then (jstr d).map fun s => Val.uol (StrRef.make m s)
  else if t = chars!"String" then (jstr d).map fun s => Val.str (StrRef.make m s)
  else if t = chars!"ParsedString" then (jstr d).map Val.parsed
  else if jnothing d then some .null else none

/-- `Deserialize` of `WzObjectType` (object.rs 22-35): the tagged variants, then the untagged ones in their order -/
def SObj.read (m : Mode) (e : List (List Char × JVal)) : Option SObj :=
  match jget e chars!"type" with
  | some (.str t) => match SObj.readTagged t (jget e chars!"data") with
    | some o => some o
    | none => match Sub.read t (jget e chars!"data") with
      | some s => some (.property s)
      | none => (Val.read m t (jget e chars!"data")).map SObj.value
  | _ => none

mutual
/-- `Deserialize` of `WzNode` (node.rs 33-44).  The parent is skipped (40-41) and comes back empty. -/
def SNode.ofJson (m : Mode) : JVal → Option SNode
  | .obj e => match jstr (jget e chars!"name"), SObj.read m e, readChildren m e with
    | some name, some obj, some kids => some (.node name obj false kids)
    | _, _, _ => none
  | _ => none
/-- the entry `children` -/
def readChildren (m : Mode) : List (List Char × JVal) → Option (List (List Char × SNode))
  | [] => none
  | (k, v) :: e => if k = chars!"children" then
      match v with
      | .obj ks => readKids m ks
      | _ => none
    else readChildren m e
/-- `arc_node_serde::deserialize` (node.rs 620-630) -/
def readKids (m : Mode) : List (List Char × JVal) → Option (List (List Char × SNode))
  | [] => some []
  | (k, v) :: e => match SNode.ofJson m v, readKids m e with
    | some n, some r => some ((k, n) :: r)
    | _, _ => none
end

end Wz
