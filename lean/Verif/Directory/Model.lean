import Verif.Reader.Model
import Verif.Offset.Model
/-!
# Directories (`/repo/src/directory.rs`)
-/

set_option autoImplicit false

namespace Wz

/-- `WzDirectoryType` (directory.rs 31-41) -/
inductive DirType where
  | unknown
  | metaAt
  | dir
  | image
  | other (b : Nat)
deriving DecidableEq, Repr

/-- `From<u8>` (directory.rs 43-53) -/
def DirType.ofByte (b : Nat) : DirType :=
  if b = 1 then .unknown else if b = 2 then .metaAt else if b = 3 then .dir else if b = 4 then .image else .other b

/-- `WzDirectoryEntry` (directory.rs 323-332) with its `Default` -/
structure Entry where
  name : StrMeta := StrMeta.none
  ty : DirType := .unknown
  size : Nat := 0
  calcOff : Nat := 0
  encOff : BitVec 32 := 0#32
  offset : Nat := 0
  checksum : Int := 0
deriving DecidableEq, Repr

/-- `is_valid_image_header` on a byte (wz_image.rs 227-234): header types `WithoutOffset` 0x73, `PlainText`
0x01, `PackText` 0x23 (wz_image.rs 30-51) -/
def validImageHeader (b : Nat) : Bool := b == 0x73 || b == 0x01 || b == 0x23

namespace Rd

/-- `read_u8_at` (reader.rs 727-729) -/
def readU8At (p : Nat) : Rd Nat := do
  let e ← getEnv
  lift (readAt e.buf 1 p)

/-- the common end of a PKG1 entry (directory.rs 361-366) -/
def pkg1Tail (name : StrMeta) (ty : DirType) : Rd Entry := do
  let size ← readWzInt
  let sum ← readWzInt
  let p ← getPos
  let enc ← readU32
  return { name := name, ty := ty, size := asUsize size, checksum := sum, calcOff := p, encOff := BitVec.ofNat 32 enc }

/-- `read_pkg1_entry` (directory.rs 335-367) -/
def readPkg1Entry (fstart : Nat) : Rd Entry := do
  let b ← readU8
  match DirType.ofByte b with
  | .unknown => return { ty := .unknown }
  | .other x => return { ty := .other x }
  | .metaAt =>
    let so ← readI32
    let e ← getEnv
    let off ← lift (addU e.mode fstart (asUsize so))
    let b2 ← readU8At off
    let p ← lift (addU e.mode off 1)
    let name ← readWzStringMetaAt p
    pkg1Tail name (DirType.ofByte b2)
  | ty =>
    let name ← readWzStringMeta
    pkg1Tail name ty

/-- the loop of `resolve_entry_pkg1` (directory.rs 161-179), `n` iterations -/
def pkg1Loop (fstart : Nat) : Nat → List Entry → Rd (List Entry)
  | 0, acc => return acc
  | n + 1, acc => do
    let en ← readPkg1Entry fstart
    match en.ty with
    | .unknown => do
      skip 10
      pkg1Loop fstart n acc
    | .other _ => fail (.lib "UnknownWzDirectoryType")
    | _ => pkg1Loop fstart n (acc ++ [en])

/-- `resolve_entry_pkg1` (directory.rs 152-182) -/
def entriesPkg1 (fstart : Nat) : Rd (List Entry) := do
  let count ← readWzInt
  if ¬(0 ≤ count ∧ count ≤ 1000000) then fail (.lib "InvalidEntryCount")
  else pkg1Loop fstart count.toNat []

/-- the name of a PKG2 entry (directory.rs 379-390) -/
def readName2 (keys2 is64 first : Bool) : Rd StrMeta :=
  if first && keys2 then (if is64 then readPkg2DirMeta 2 else readPkg2DirMeta 1) else readWzStringMeta

/-- `read_pkg2_entry` (directory.rs 369-412); `keys2` is `pkg2_keys.is_pkg2()`, `is64` is
`header.is_pkg2_64()`.  `current_pos - 1` cannot underflow because a byte was just read. -/
def readPkg2Entry (keys2 is64 : Bool) (encCount : Int) (first : Bool) : Rd Entry := do
  let b ← readU8
  let ty := DirType.ofByte b
  match ty with
  | .dir | .image => do
    let name ← readName2 keys2 is64 first
    let size ← readWzInt
    let sum ← readWzInt
    return { name := name, ty := ty, size := asUsize size, checksum := sum }
  | .other x => do
    let cur ← getPos
    seek (cur - 1)
    let t ← readWzInt
    if t = encCount then do
      seek (cur - 1)
      return { ty := .unknown }
    else return { ty := .other x }
  | _ => fail (.lib "InvalidWzVersion")

/-- the endless loop of `resolve_entry_pkg2` (directory.rs 190-209) with a bound -/
def pkg2Loop (keys2 : Bool) (encCount : Int) : Nat → List Entry → Rd (List Entry)
  | 0, _ => fail .fuel
  | fuel + 1, acc => do
    let en ← readPkg2Entry keys2 false encCount acc.isEmpty
    match en.ty with
    | .unknown => return acc
    | .other _ => fail (.lib "UnknownWzDirectoryType")
    | _ => pkg2Loop keys2 encCount fuel (acc ++ [en])

/-- reading the stored offsets (directory.rs 217-220, 256-259) -/
def readOffsets : List Entry → Rd (List Entry)
  | [] => return []
  | en :: es => do
    let p ← getPos
    let enc ← readU32
    let rest ← readOffsets es
    return { en with calcOff := p, encOff := BitVec.ofNat 32 enc } :: rest

/-- `resolve_entry_pkg2` (directory.rs 184-223) -/
def entriesPkg2 (keys2 : Bool) (fuel : Nat) : Rd (List Entry) := do
  let encCount ← readWzInt
  let es ← pkg2Loop keys2 encCount fuel []
  let offCount ← readWzInt
  if offCount ≠ encCount ∨ es = [] then fail (.lib "InvalidWzVersion")
  else readOffsets es

/-- the entry loop of `resolve_entry_pkg2_v64` (directory.rs 241-254): iterations `i ..` -/
def pkg2Loop64 (keys2 : Bool) (encCount : Int) : Nat → Nat → List Entry → Rd (List Entry)
  | 0, _, acc => return acc
  | n + 1, i, acc => do
    let en ← readPkg2Entry keys2 true encCount (i == 0)
    match en.ty with
    | .dir | .image => pkg2Loop64 keys2 encCount n (i + 1) (acc ++ [en])
    | .other _ => fail (.lib "UnknownWzDirectoryType")
    | _ => fail (.lib "InvalidWzVersion")

/-- `resolve_entry_pkg2_v64` (directory.rs 225-262); `encrypted as i32` keeps the low 32 bits.  Only the
64-bit offset version has an entry count calculator, the others hit `unreachable!()` (util/offset.rs 28-33). -/
def entriesPkg2_64 (v : OffsetVersion) (h : Header) (hash : BitVec 64) (keys2 : Bool) : Rd (List Entry) :=
  if v ≠ .pkg2_64V1 then fail .panicUnwrap
  else do
  let enc ← readWzInt64
  let count ← lift (entryCount64 h hash (BitVec.ofInt 64 enc))
  if ¬(count ≤ 1000000) then fail (.lib "InvalidEntryCount")
  else
    let es ← pkg2Loop64 keys2 (Int.bmod enc (2 ^ 32)) count 0 []
    readOffsets es

end Rd

/-- what a directory is read with: the reader, its header and whether `pkg2_keys.is_pkg2()` -/
structure DirCtx where
  env : Env
  hdr : Header
  keys2 : Bool

/-- `WzDirectoryVerifyStatus` (directory.rs 55-61); `Verified` is only ever set at the end of
`resolve_children` -/
inductive DirStatus where
  | init
  | created
  | verified
deriving DecidableEq, Repr

/-- `WzDirectory` (directory.rs 63-82); of the profile only the offset version is used here -/
structure Dir where
  offset : Nat
  blockSize : Nat
  hash : BitVec 64 := 0#64
  ver : OffsetVersion := .pkg1
  status : DirStatus := .init
  entries : List Entry := []

/-- `WzDirectory::prepare_entries` (directory.rs 264-288); `fuel` bounds the PKG2 entry loop -/
def prepareEntries (x : DirCtx) (fuel : Nat) (d : Dir) : Except Err Dir :=
  if d.status ≠ .init then .ok d
  else
    let rd : Rd (List Entry) :=
      match x.hdr.ident with
      | .v1 => Rd.entriesPkg1 x.hdr.fstart
      | .v2 => if x.hdr.isPkg2_64 then Rd.entriesPkg2_64 d.ver x.hdr d.hash x.keys2 else Rd.entriesPkg2 x.keys2 fuel
      | .unknown => Rd.fail (.lib "UnknownPkgVersion")
    match (rd.run x.env { pos := d.offset, saved := 0 }).1 with
    | .ok es => .ok { d with entries := es, status := .created }
    | .error e => .error e

/-- `WzDirectoryEntry::verify` (directory.rs 414-439) -/
def Entry.verify (x : DirCtx) (en : Entry) : Except Err Unit := do
  let stop ← addU x.env.mode en.offset en.size
  if ¬(stop ≤ x.env.buf.length) then throw (.lib "InvalidWzVersion")
  match en.ty with
  | .image =>
    let b ← readAt x.env.buf 1 en.offset
    if validImageHeader b then return () else throw (.lib "InvalidWzVersion")
  | .dir =>
    let rd := if x.hdr.isPkg2_64 then Rd.readWzInt64 else Rd.readWzInt
    let c ← (rd.run x.env { pos := en.offset, saved := 0 }).1
    if c < 0 then throw (.lib "InvalidWzVersion") else return ()
  | _ => return ()

/-- one iteration of `calculate_offset_and_verify` (directory.rs 295-307); an error other than a panic
becomes `InvalidWzVersion` -/
def Entry.locate (x : DirCtx) (hash : BitVec 64) (ver : OffsetVersion) (en : Entry) : Except Err Entry := do
  let off ← ver.calc x.env.mode x.hdr { hash := hash, encrypted := en.encOff, offset := en.calcOff }
  let en := { en with offset := off }
  match en.verify x with
  | .ok () => return en
  | .error e => throw (if e.isPanic then e else .lib "InvalidWzVersion")

/-- `calculate_offset_and_verify` (directory.rs 290-310).  Simplification: on failure the entries keep the
offsets they had; nothing reads them before they are calculated again. -/
def calcVerify (x : DirCtx) (d : Dir) : Except Err Dir := do
  let es ← d.entries.mapM (Entry.locate x d.hash d.ver)
  return { d with entries := es }

/-- what `calculate_offset_and_verify().is_err()` leaves of an error (directory.rs 120-122) -/
def isErrTo (tag : String) (e : Err) : Err := if e.isPanic ∨ e = .fuel then e else .lib tag

/-- `Result::unwrap` -/
def unwrapR {α : Type} : Except Err α → Except Err α
  | .ok a => .ok a
  | .error e => .error (if e.isPanic ∨ e = .fuel then e else .panicUnwrap)

/-- A node made from a directory entry, with its children.  `none` is `WzNode::empty()`. -/
inductive DNode where
  | image (offset size : Nat)
  | dir (offset size : Nat) (children : List (List Char × DNode))
  | none

/-- `write.children.insert(name, child)` (directory.rs 141-143) on a map represented by a list without
repeated names -/
def childInsert {ν : Type} (m : List (List Char × ν)) (k : List Char) (v : ν) : List (List Char × ν) :=
  if m.any (fun p => p.1 == k) then m.map (fun p => if p.1 == k then (k, v) else p) else m ++ [(k, v)]

/-- insertion of a list of nodes, in order -/
def childInsertAll {ν : Type} (m : List (List Char × ν)) (l : List (List Char × ν)) : List (List Char × ν) :=
  l.foldl (fun m p => childInsert m p.1 p.2) m

/-- `into_wz_node_tuple` (directory.rs 451-489): `unwrap` of the name -/
def Entry.toNode (x : DirCtx) (en : Entry) : Except Err (List Char × DNode) := do
  let name ← unwrapR (resolveMeta x.env en.name.ty en.name.offset en.name.length)
  return (name, match en.ty with
    | .dir => .dir en.offset en.size []
    | .image => .image en.offset en.size
    | _ => .none)

/-- `WzDirectory::resolve_children` (directory.rs 113-150); `fuel` bounds the nesting, `loopFuel` the PKG2
entry loop -/
def resolveDir (x : DirCtx) (loopFuel : Nat) : Nat → Dir → Except Err (List (List Char × DNode))
  | 0, _ => .error .fuel
  | fuel + 1, d =>
    if d.blockSize = 0 then .ok []
    else do
      let d ← prepareEntries x loopFuel d
      let d ← (calcVerify x d).mapError (isErrTo "InvalidWzVersion")
      let nodes ← d.entries.mapM (Entry.toNode x)
      nodes.mapM fun p => match p.2 with
        | .dir off size _ => do
          let kids ← resolveDir x loopFuel fuel { offset := off, blockSize := size, hash := d.hash, ver := d.ver }
          return (p.1, .dir off size (childInsertAll [] kids))
        | n => return (p.1, n)

/-- `WzDirectory::resolve_children` (directory.rs 113-150) with the directory after it: a success takes away the
entries (146-147).  After an error the directory is not given here. -/
def resolveDirSt (x : DirCtx) (loopFuel fuel : Nat) (d : Dir) : Except Err (List (List Char × DNode) × Dir) :=
  if d.blockSize = 0 then .ok ([], d)
  else match resolveDir x loopFuel fuel d with
    | .error e => .error e
    | .ok ns => .ok (ns, { d with status := .verified, entries := [] })

/-- `verify_string_decryptor` (directory.rs 312-320) -/
def verifyStringDecryptor (x : DirCtx) (d : Dir) : Except Err Bool :=
  if d.status ≠ .created then .ok false
  else match d.entries with
    | [] => .ok true
    | en :: _ =>
      match resolveMeta x.env en.name.ty en.name.offset en.name.length with
      | .ok _ => .ok true
      | .error e => if e.isPanic then .error e else .ok false

end Wz
