import Verif.Reader.Model
import Verif.Directory.Model
/-!
# The property tree of an image (`/repo/src/util/parse_property.rs`)

A node is modelled by its value and its children.  Left out: the back pointer to the parent (see the tree
model), the name stored inside a node besides the key (both are set from the same variable), and the second
result of the parser, the list of UOL nodes, which can be read off the tree.
-/

set_option autoImplicit false

namespace Wz

/-- `WzSoundType` (property/sound.rs 23-31) -/
inductive SoundType where
  | mp3
  | wav
  | binary
deriving DecidableEq, Repr

/-- `get_frequency_header` (property/sound.rs 64-70) -/
def soundFreq (header : Bytes) : Nat :=
  if header.length ≤ 0x3c then 0 else leNat ((header.drop 0x38).take 4)

/-- `get_sound_type_from_header` (property/sound.rs 72-83) -/
def soundTypeOf (header : Bytes) (size duration : Nat) : SoundType :=
  if header.length = 0x46 then
    if soundFreq header = size ∧ duration = 1000 then .binary else .wav
  else .mp3

/-- `WzPng` without its reader (property/png.rs 130-151) -/
structure Png where
  offset : Nat
  size : Nat
  format1 : Nat
  format2 : Nat
  header : Nat
  pages : Int
  width : Nat
  height : Nat
deriving DecidableEq, Repr

/-- `WzSound` without its reader (property/sound.rs 36-51) -/
structure Sound where
  offset : Nat
  length : Nat
  headerOffset : Nat
  headerSize : Nat
  duration : Nat
  ty : SoundType
deriving DecidableEq, Repr

/-- the values `WzObjectType` a parsed property can have (object.rs, property/mod.rs 30-84).  Floats are kept
as their bit patterns. -/
inductive PObj where
  | null
  | short (v : Int)
  | int (v : Int)
  | long (v : Int)
  | float (bits : Nat)
  | double (bits : Nat)
  | str (m : StrMeta)
  | property
  | canvas (p : Png)
  | convex
  | vector (x y : Int)
  | sound (s : Sound)
  | uol (m : StrMeta)
  | raw (offset size : Nat)
  | video (offset size : Nat)
deriving DecidableEq, Repr

/-- a parsed node: value and children, the map of children in order of insertion -/
inductive PNode where
  | node (obj : PObj) (kids : List (List Char × PNode))

def PNode.obj : PNode → PObj
  | .node o _ => o

def PNode.kids : PNode → List (List Char × PNode)
  | .node _ ks => ks

/-- `n as f32` for a byte `n`: the bits of the float (exact, as `n < 2 ^ 24`) -/
def f32OfNat (n : Nat) : Nat :=
  if n = 0 then 0 else (127 + n.log2) * 2 ^ 23 + (n - 2 ^ n.log2) * 2 ^ (23 - n.log2)

/-- subtraction on `usize` -/
def subU (m : Mode) (a b : Nat) : Except Err Nat :=
  if b ≤ a then .ok (a - b) else
    match m with
    | .checked => .error .panicOverflow
    | .wrap => .ok ((a + 2 ^ 64 - b) % 2 ^ 64)

/-- `x - 1` on `i32` -/
def decI32 (m : Mode) (x : Int) : Except Err Int :=
  if x ≠ -2 ^ 31 then .ok (x - 1) else
    match m with
    | .checked => .error .panicOverflow
    | .wrap => .ok (2 ^ 31 - 1)

/-- indexing a slice with a range: panics unless `s ≤ t ≤ len` -/
def sliceIdx (buf : Bytes) (s t : Nat) : Except Err Bytes :=
  if s ≤ t ∧ t ≤ buf.length then .ok ((buf.drop s).take (t - s)) else .error .panicIndex

/-- the kinds of extended properties `parse_more` knows (parse_property.rs 189-405) -/
inductive Kind where
  | property
  | canvas
  | convex
  | vector
  | sound
  | uol
  | raw
  | video
deriving DecidableEq, Repr

/-- the name of a kind in a file -/
def Kind.text : Kind → List Char
  | .property => ['P', 'r', 'o', 'p', 'e', 'r', 't', 'y']
  | .canvas => ['C', 'a', 'n', 'v', 'a', 's']
  | .convex => ['S', 'h', 'a', 'p', 'e', '2', 'D', '#', 'C', 'o', 'n', 'v', 'e', 'x', '2', 'D']
  | .vector => ['S', 'h', 'a', 'p', 'e', '2', 'D', '#', 'V', 'e', 'c', 't', 'o', 'r', '2', 'D']
  | .sound => ['S', 'o', 'u', 'n', 'd', '_', 'D', 'X', '8']
  | .uol => ['U', 'O', 'L']
  | .raw => ['R', 'a', 'w', 'D', 'a', 't', 'a']
  | .video => ['C', 'a', 'n', 'v', 'a', 's', '#', 'V', 'i', 'd', 'e', 'o']

/-- the `match` on the kind (parse_property.rs 189) -/
def Kind.of (t : List Char) : Option Kind :=
  if t = Kind.property.text then some .property
  else if t = Kind.canvas.text then some .canvas
  else if t = Kind.convex.text then some .convex
  else if t = Kind.vector.text then some .vector
  else if t = Kind.sound.text then some .sound
  else if t = Kind.uol.text then some .uol
  else if t = Kind.raw.text then some .raw
  else if t = Kind.video.text then some .video
  else none

/-- `i.to_string()` -/
def decimal (i : Nat) : List Char := Nat.toDigits 10 i

/-- what `parse_extended_prop` gives besides a node: the name and value of the node, or the name inside
`WzPropertyParseError::UnknownExtendedPropertyType`, the one error the caller handles. -/
abbrev ExtRes := Except (List Char) (List Char × PNode)

namespace Rd

/-- the parameters of the code below the list: `parse_extended_prop` with the end of block and the name -/
abbrev Ext := Nat → List Char → Rd ExtRes

/-- type code 4 (parse_property.rs 92-105) -/
def readFloatObj : Rd PObj := do
  let t ← readU8
  if t = 0x80 then do
    let v ← readU32
    return .float v
  else return .float (f32OfNat t)

/-- the value of a node that is not an extended property (parse_property.rs 72-115, 147-153): the type codes
except 9. -/
def readPlain (o ty : Nat) : Rd PObj :=
  if ty = 0 then return .null
  else if ty = 2 ∨ ty = 11 then do return .short (← readI16)
  else if ty = 3 ∨ ty = 19 then do return .int (← readWzInt)
  else if ty = 20 then do return .long (← readWzInt64)
  else if ty = 4 then readFloatObj
  else if ty = 5 then do return .double (← readLE 8)
  else if ty = 8 then do return .str (← readWzStringBlockMeta o)
  else fail (.lib "UnknownPropertyType")

/-- `parse_property_node` (parse_property.rs 62-156) -/
def parseNode (ext : Ext) (o : Nat) (name : List Char) (ty : Nat) : Rd (List Char × PNode) :=
  if ty = 9 then do
    let size ← readU32
    let p ← getPos
    let e ← getEnv
    let next ← lift (addU e.mode p size)
    let r ← ext next name
    match r with
    | .ok n => do
      seek next
      return n
    | .error name' => do
      seek next
      return (name', .node .null [])
  else do
    let v ← readPlain o ty
    return (name, .node v [])

/-- one entry of a list (parse_property.rs 41-50) -/
def parseItem (ext : Ext) (o : Nat) : Rd (List Char × PNode) := do
  let name ← readWzStringBlock o
  let ty ← readU8
  parseNode ext o name ty

/-- the loop of `parse_property_list` (parse_property.rs 40-57) -/
def parseItems (ext : Ext) (o : Nat) : Nat → Rd (List (List Char × PNode))
  | 0 => return []
  | n + 1 => do
    let x ← parseItem ext o
    let xs ← parseItems ext o n
    return x :: xs

/-- `parse_property_list` (parse_property.rs 29-60).  `Vec::with_capacity` of a negative count panics
("capacity overflow"); running out of memory for a large count is not modelled. -/
def parseListWith (ext : Ext) (o : Nat) : Rd (List (List Char × PNode)) := do
  let count ← readWzInt
  if count < 0 then fail .panicUnwrap
  else parseItems ext o count.toNat

/-- skipping two bytes, reading a list and putting it into a map (parse_property.rs 198-208, 226-234,
368-376) -/
def parseKids (ext : Ext) (o : Nat) : Rd (List (List Char × PNode)) := do
  skip 2
  let ks ← parseListWith ext o
  return childInsertAll [] ks

/-- the fields of a canvas behind its children (parse_property.rs 237-260).  The header is a `u16` kept as
`i32`. -/
def parsePng : Rd Png := do
  let width ← readWzInt
  let height ← readWzInt
  let format1 ← readWzInt
  let scale ← readI8
  let pages ← readWzInt
  let _ ← readWzInt
  skip 2
  let n ← readI32
  let e ← getEnv
  let n1 ← lift (decI32 e.mode n)
  skip 1
  let off ← getPos
  let header ← readU16
  return { offset := off, size := asUsize n1, format1 := asU32 format1, format2 := asU32 scale, header := header, pages := pages, width := asU32 width, height := asU32 height }

/-- children of a canvas or of raw data (parse_property.rs 225-235, 367-377) -/
def parseKidsIf (ext : Ext) (o : Nat) (has : Bool) : Rd (List (List Char × PNode)) :=
  if has then parseKids ext o else return []

/-- the loop over the points of a convex shape (parse_property.rs 278-295); `i` is the next name, `acc` the
map of children.  An unknown kind inside leaves the loop. -/
def convexLoop (ext : Ext) (eob : Nat) :
    Nat → Nat → List (List Char × PNode) → Rd (Except (List Char) (List (List Char × PNode)))
  | 0, _, acc => return .ok acc
  | n + 1, i, acc => do
    let r ← ext eob (decimal i)
    match r with
    | .ok kid => convexLoop ext eob n (i + 1) (childInsert acc kid.1 kid.2)
    | .error name' => return .error name'

/-- `"Sound_DX8"` (parse_property.rs 305-334) -/
def parseSound (eob : Nat) : Rd PObj := do
  skip 1
  let size ← readWzInt
  let duration ← readWzInt
  let e ← getEnv
  let off ← lift (subU e.mode eob (asU32 size))
  let hoff ← getPos
  let hsize ← lift (subU e.mode off hoff)
  let hend ← lift (addU e.mode hoff hsize)
  let header ← lift (sliceIdx e.buf hoff hend)
  return .sound { offset := off, length := asU32 size, headerOffset := hoff, headerSize := hsize, duration := asU32 duration, ty := soundTypeOf header (asU32 size) (asU32 duration) }

/-- has this raw data children? (parse_property.rs 350-356) -/
def rawHasKids : Rd Bool := do
  let version ← readU8
  if version = 1 then do
    let b ← readU8
    return b == 1
  else return false

/-- `parse_more` (parse_property.rs 180-406) with the recursive calls as parameter -/
def parseMore (ext : Ext) (o eob : Nat) (name : List Char) : Option Kind → Rd ExtRes
  | some .property => do
    let ks ← parseKids ext o
    return .ok (name, .node .property ks)
  | some .canvas => do
    skip 1
    let b ← readU8
    let ks ← parseKidsIf ext o (b == 1)
    let png ← parsePng
    return .ok (name, .node (.canvas png) ks)
  | some .convex => do
    let count ← readWzInt
    if count < 0 then fail .panicUnwrap
    else do
      let r ← convexLoop ext eob count.toNat 0 []
      match r with
      | .ok ks => return .ok (name, .node .convex ks)
      | .error name' => return .error name'
  | some .vector => do
    let x ← readWzInt
    let y ← readWzInt
    return .ok (name, .node (.vector x y) [])
  | some .sound => do
    let s ← parseSound eob
    return .ok (name, .node s [])
  | some .uol => do
    skip 1
    let m ← readWzStringBlockMeta o
    return .ok (name, .node (.uol m) [])
  | some .raw => do
    let has ← rawHasKids
    let ks ← parseKidsIf ext o has
    let size ← readWzInt
    let off ← getPos
    return .ok (name, .node (.raw off (asUsize size)) ks)
  | some .video => do
    skip 3
    let size ← readWzInt
    let off ← getPos
    return .ok (name, .node (.video off (asUsize size)) [])
  | none => return .error name

/-- `parse_extended_prop` (parse_property.rs 158-178), with a bound on the depth of the recursion -/
def parseExt (o : Nat) : Nat → Ext
  | 0, _, _ => fail .fuel
  | fuel + 1, eob, name => do
    let t ← readWzStringBlock o
    parseMore (parseExt o fuel) o eob name (Kind.of t)

/-- `parse_property_list` -/
def parseList (o fuel : Nat) : Rd (List (List Char × PNode)) := parseListWith (parseExt o fuel) o

/-! ## Looking a single node up (`get_node`, parse_property.rs 408-504) -/

/-- passing over a string block (parse_property.rs 462-473) -/
def skipStr : Rd Unit := do
  let t ← readU8
  if t = 0 ∨ t = 0x73 then do
    let _ ← readWzStringMeta
    return ()
  else if t = 1 ∨ t = 0x1B then skip 4
  else return ()

/-- passing over a float (parse_property.rs 452-458) -/
def skipFloat : Rd Unit := do
  let t ← readU8
  if t = 0x80 then skip 4 else return ()

/-- passing over the value of an entry that is not an extended property (parse_property.rs 441-474, 488-494) -/
def skipPlain (ty : Nat) : Rd Unit :=
  if ty = 0 then return ()
  else if ty = 2 ∨ ty = 11 then skip 2
  else if ty = 3 ∨ ty = 19 then do
    let _ ← readWzInt
    return ()
  else if ty = 20 then do
    let _ ← readWzInt64
    return ()
  else if ty = 4 then skipFloat
  else if ty = 5 then skip 8
  else if ty = 8 then skipStr
  else fail (.lib "UnknownPropertyType")

/-- what the loop over the entries ends with: a node, a block entered, or neither -/
inductive Found where
  | node (x : List Char × PNode)
  | enter
  | none

/-- the loop over the entries (parse_property.rs 425-496) for the path component `cur`; `last` says that no
component follows -/
def findItems (ext : Ext) (o : Nat) (cur : List Char) (last : Bool) : Nat → Rd Found
  | 0 => return .none
  | n + 1 => do
    let name ← readWzStringBlock o
    let ty ← readU8
    if name = cur ∧ last = true then do
      let x ← parseNode ext o name ty
      return .node x
    else if ty = 9 then
      if name = cur then do
        skip 4
        let _ ← readWzStringBlockMeta o
        skip 2
        return .enter
      else do
        let size ← readU32
        skip size
        findItems ext o cur last n
    else do
      skipPlain ty
      findItems ext o cur last n

/-- the loop over the components (parse_property.rs 419-501): `cur` the current component, `rest` those the
iterator still has to give.  If no block was entered the current component stays. -/
def getNodeLoop (ext : Ext) (o : Nat) : List Char → List (List Char) → Rd (List Char × PNode)
  | cur, [] => do
    let count ← readWzInt
    let r ← findItems ext o cur true count.toNat
    match r with
    | .node x => return x
    | _ => fail (.lib "NodeNotFound")
  | cur, next :: rest => do
    let count ← readWzInt
    let r ← findItems ext o cur false count.toNat
    match r with
    | .node x => return x
    | .enter => getNodeLoop ext o next rest
    | .none => getNodeLoop ext o cur rest

end Rd

/-- `str::split('/')` -/
def splitSlash : List Char → List (List Char)
  | [] => [[]]
  | c :: s =>
    if c = '/' then [] :: splitSlash s
    else match splitSlash s with
      | x :: xs => (c :: x) :: xs
      | [] => [[c]]

/-- `get_node` (parse_property.rs 409-504) -/
def Rd.getNode (path : List Char) (o fuel : Nat) : Rd (List Char × PNode) :=
  if path = [] then Rd.fail (.lib "NodeNotFound")
  else match splitSlash path with
    | x :: xs => Rd.getNodeLoop (Rd.parseExt o fuel) o x xs
    | [] => Rd.fail (.lib "NodeNotFound")

end Wz

namespace Wz

/-- `WzNode::at` (node.rs 376-378) on a map of children -/
def childAt (ks : List (List Char × PNode)) (name : List Char) : Option PNode :=
  (ks.find? fun x => x.1 == name).map Prod.snd

/-- `WzNode::at_path` (node.rs 424-432) on a parsed tree: the components of the path, from the children of the
start node -/
def walk : List (List Char × PNode) → List (List Char) → Option PNode
  | _, [] => none
  | ks, [x] => childAt ks x
  | ks, x :: xs =>
    match childAt ks x with
    | some n => walk n.kids xs
    | none => none

end Wz
