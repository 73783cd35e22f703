import Verif.Value.SerdeModel
import Verif.Value.JsonProps

/-!
# What should come back from the full JSON of a node
-/

set_option autoImplicit false

namespace Wz.Spec

open Wz

/-- a 32-bit float that is a number (its exponent is not all ones) -/
def FiniteF32 (bits : Nat) : Prop := bits < 2 ^ 32 ∧ bits / 2 ^ 23 % 256 ≠ 255

/-- a 64-bit float that is a number -/
def FiniteF64 (bits : Nat) : Prop := bits < 2 ^ 64 ∧ bits / 2 ^ 52 % 2048 ≠ 2047

/-- an `i32` -/
def IsI32 (v : Int) : Prop := -2147483648 ≤ v ∧ v ≤ 2147483647

/-- a text that is read without an error, with characters of one unit only, shorter than `2 ^ 30` -/
def PlainText (s : StrRef) : Prop := ∃ t, s.get = .ok t ∧ t.length < 2 ^ 30 ∧ ∀ c ∈ t, c.toNat < 0x10000

/-- An object that can be kept in JSON: numbers within the bounds of their types and finite, plain texts; neither null nor raw data, video
or script. -/
def Keepable : SObj → Prop
  | .file d _ => IsI32 d.patch ∧ IsI32 d.verHeader ∧ d.hash < 2 ^ 64
  | .msFile d _ => IsI32 d.headerHash ∧ d.version < 256 ∧ IsI32 d.entryCount ∧ d.hstart < 2 ^ 64 ∧ d.estart < 2 ^ 64 ∧ d.msVersion < 256
  | .image _ | .msImage _ | .directory _ => True
  | .property .convex | .property .property => True
  | .property (.sound s) => s.duration < 2 ^ 32
  | .property (.png p) => p.width < 2 ^ 32 ∧ p.height < 2 ^ 32
  | .value (.short v) => -32768 ≤ v ∧ v ≤ 32767
  | .value (.int v) => IsI32 v
  | .value (.long v) => -9223372036854775808 ≤ v ∧ v ≤ 9223372036854775807
  | .value (.float b) => FiniteF32 b
  | .value (.double b) => FiniteF64 b
  | .value (.vector v) => IsI32 v.x ∧ IsI32 v.y
  | .value (.uol s) | .value (.str s) => PlainText s
  | .value (.parsed _) => True
  | .value .null | .value (.rawData _ _) | .value (.video _ _) | .value (.lua _ _) => False

/-- What comes back: the same type with the same number or text, size or duration.  Where the data are is lost. -/
inductive SameObj : SObj → SObj → Prop
  | file (d : FileMeta) (r : Option Nat) : SameObj (.file d r) (.file d none)
  | msFile (d : MsMeta) (r : Option Nat) : SameObj (.msFile d r) (.msFile d none)
  | image (r : Option Nat) : SameObj (.image r) (.image none)
  | msImage (r : Option Nat) : SameObj (.msImage r) (.msImage none)
  | directory (r : Option Nat) : SameObj (.directory r) (.directory none)
  | convex : SameObj (.property .convex) (.property .convex)
  | property : SameObj (.property .property) (.property .property)
  | sound (s t : Sound) : t.duration = s.duration → t.ty = s.ty → t.offset = 0 → t.length = 0 → SameObj (.property (.sound s)) (.property (.sound t))
  | png (p q : Png) : q.width = p.width → q.height = p.height → q.offset = 0 → q.size = 0 → SameObj (.property (.png p)) (.property (.png q))
  | short (v : Int) : SameObj (.value (.short v)) (.value (.short v))
  | int (v : Int) : SameObj (.value (.int v)) (.value (.int v))
  | long (v : Int) : SameObj (.value (.long v)) (.value (.long v))
  | float (b : Nat) : SameObj (.value (.float b)) (.value (.float b))
  | double (b : Nat) : SameObj (.value (.double b)) (.value (.double b))
  | vector (v : V2) : SameObj (.value (.vector v)) (.value (.vector v))
  | uol (s t : StrRef) (x : List Char) : s.get = .ok x → t.get = .ok x → SameObj (.value (.uol s)) (.value (.uol t))
  | str (s t : StrRef) (x : List Char) : s.get = .ok x → t.get = .ok x → SameObj (.value (.str s)) (.value (.str t))
  | parsed (s : List Char) : SameObj (.value (.parsed s)) (.value (.parsed s))

mutual
/-- the same names and objects in the same places; no node has a parent -/
inductive ReadBack : SNode → SNode → Prop
  | node (n : List Char) (o o' : SObj) (p : Bool) (ks ks' : List (List Char × SNode)) : SameObj o o' → ReadBackAll ks ks' →
      ReadBack (.node n o p ks) (.node n o' false ks')
/-- the children, one by one -/
inductive ReadBackAll : List (List Char × SNode) → List (List Char × SNode) → Prop
  | nil : ReadBackAll [] []
  | cons (k : List Char) (a b : SNode) (ks ks' : List (List Char × SNode)) : ReadBack a b → ReadBackAll ks ks' →
      ReadBackAll ((k, a) :: ks) ((k, b) :: ks')
end

mutual
/-- this holds of the object and parent of every node of the tree -/
inductive Throughout (P : SObj → Bool → Prop) : SNode → Prop
  | node (n : List Char) (o : SObj) (p : Bool) (ks : List (List Char × SNode)) : P o p → ThroughoutAll P ks → Throughout P (.node n o p ks)
/-- and of its children -/
inductive ThroughoutAll (P : SObj → Bool → Prop) : List (List Char × SNode) → Prop
  | nil : ThroughoutAll P []
  | cons (k : List Char) (a : SNode) (ks : List (List Char × SNode)) : Throughout P a → ThroughoutAll P ks → ThroughoutAll P ((k, a) :: ks)
end

/-- raw data, a video or a script -/
def IsBinary : SObj → Prop
  | .value (.rawData _ _) | .value (.video _ _) | .value (.lua _ _) => True
  | _ => False

/-- a text whose reading panics -/
def TextPanics : SObj → Prop
  | .value (.uol s) | .value (.str s) => ∃ e, s.get = .error e ∧ e.isPanic = true
  | _ => False

/-- the types that are known -/
def knownTypes : List (List Char) :=
  [chars!"File", chars!"MsFile", chars!"Image", chars!"MsImage", chars!"Directory", chars!"Convex", chars!"Sound", chars!"PNG",
    chars!"Property", chars!"Short", chars!"Int", chars!"number", chars!"Long", chars!"Float", chars!"Double", chars!"Vector",
    chars!"UOL", chars!"String", chars!"ParsedString", chars!"Null"]

/-- the name of the type in JSON -/
def typeName : SObj → List Char
  | .file _ _ => chars!"File"
  | .msFile _ _ => chars!"MsFile"
  | .image _ => chars!"Image"
  | .msImage _ => chars!"MsImage"
  | .directory _ => chars!"Directory"
  | .property .convex => chars!"Convex"
  | .property (.sound _) => chars!"Sound"
  | .property (.png _) => chars!"PNG"
  | .property .property => chars!"Property"
  | .value (.rawData _ _) => chars!"RawData"
  | .value (.video _ _) => chars!"Video"
  | .value (.lua _ _) => chars!"Lua"
  | .value (.short _) => chars!"Short"
  | .value (.int _) => chars!"Int"
  | .value (.long _) => chars!"Long"
  | .value (.float _) => chars!"Float"
  | .value (.double _) => chars!"Double"
  | .value (.vector _) => chars!"Vector"
  | .value (.uol _) => chars!"UOL"
  | .value (.str _) => chars!"String"
  | .value (.parsed _) => chars!"ParsedString"
  | .value .null => chars!"Null"

/-- the fields that are visible in a JSON object, no others -/
def JsonFields (d : Option JVal) (fs : List (List Char × JVal)) : Prop :=
  ∃ m, d = some (.obj m) ∧ m.length = fs.length ∧ ∀ k v, (k, v) ∈ fs → jget m k = some v

/-- the data in JSON -/
def DataOf : SObj → Option JVal → Prop
  | .file f _, d => JsonFields d [(chars!"path", .str f.path), (chars!"patch_version", .int f.patch), (chars!"wz_version_header", .int f.verHeader),
      (chars!"wz_with_encrypt_version_header", .bool f.withEnc), (chars!"hash", .int f.hash),
      (chars!"string_decryptor_verified", .bool f.verified)]
  | .msFile f _, d => JsonFields d [(chars!"key_salt", .str f.keySalt), (chars!"name_with_salt", .str f.nameWithSalt),
      (chars!"header_hash", .int f.headerHash), (chars!"version", .int f.version), (chars!"entry_count", .int f.entryCount),
      (chars!"hstart", .int f.hstart), (chars!"estart", .int f.estart), (chars!"ms_file_version", .int f.msVersion)]
  | .image _, d | .msImage _, d | .directory _, d => JsonFields d []
  | .property .convex, d | .property .property, d | .value .null, d => d = none
  | .property (.sound s), d => JsonFields d [(chars!"duration", .int s.duration), (chars!"sound_type", .str
      (match s.ty with | .mp3 => chars!"Mp3" | .wav => chars!"Wav" | .binary => chars!"Binary"))]
  | .property (.png p), d => JsonFields d [(chars!"width", .int p.width), (chars!"height", .int p.height)]
  | .value (.short v), d | .value (.int v), d | .value (.long v), d => d = some (.int v)
  | .value (.float b), d => (FiniteF32 b → ∃ c, d = some (.float c) ∧ num64 c = num32 b * 2 ^ 925 ∧ c / 2 ^ 63 = b / 2 ^ 31) ∧ (b / 2 ^ 23 % 256 = 255 → d = some .null)
  | .value (.double b), d => (FiniteF64 b → d = some (.float b)) ∧ (b / 2 ^ 52 % 2048 = 2047 → d = some .null)
  | .value (.vector v), d => d = some (.arr [.int v.x, .int v.y])
  | .value (.uol s), d | .value (.str s), d => (∀ t, s.get = .ok t → d = some (.str t)) ∧ (∀ e, s.get = .error e → d = some (.str []))
  | .value (.parsed s), d => d = some (.str s)
  | .value (.rawData _ _), _ | .value (.video _ _), _ | .value (.lua _ _), _ => False

mutual
/-- the JSON of a node: its name, its type, its data and its children under their names -/
inductive Describes : SNode → JVal → Prop
  | node (n : List Char) (o : SObj) (p : Bool) (ks : List (List Char × SNode)) (e js : List (List Char × JVal)) :
      jget e chars!"name" = some (.str n) → jget e chars!"type" = some (.str (typeName o)) → DataOf o (jget e chars!"data") →
      jget e chars!"children" = some (.obj js) → DescribesAll ks js → Describes (.node n o p ks) (.obj e)
/-- the children -/
inductive DescribesAll : List (List Char × SNode) → List (List Char × JVal) → Prop
  | nil : DescribesAll [] []
  | cons (k : List Char) (a : SNode) (j : JVal) (ks : List (List Char × SNode)) (js : List (List Char × JVal)) : Describes a j →
      DescribesAll ks js → DescribesAll ((k, a) :: ks) ((k, j) :: js)
end

end Wz.Spec
