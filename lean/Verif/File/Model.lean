import Verif.Directory.Model
import Verif.Version.Pkg1Model
import Verif.Version.Pkg2Model

/-!
# Opening a file (`/repo/src/file.rs`, `/repo/src/util/profile.rs`)

A call that only fails goes on with the next candidate; a panic, or a recursion deeper than the fuel, ends the
whole call.
-/

set_option autoImplicit false

namespace Wz

/-- `Pkg2VersionGen` (util/version/pkg2.rs 17-27) -/
inductive VerGen where
  | v1 | v2 | v3 | v4 | v5 | v6 | unknown
deriving DecidableEq, Repr

/-- `WzProfileVersion` (profile.rs 7-18) -/
inductive ProfName where
  | pkg1 | v1202 | v1201 | v1200 | v1199 | v1198 | v1197 | v1196
deriving DecidableEq, Repr

/-- `WzProfile` (profile.rs 26-32) -/
structure Profile where
  name : ProfName
  dec : DecType
  gen : VerGen
  ver : OffsetVersion
deriving DecidableEq, Repr

/-- `should_be_pkg2_64` (profile.rs 46-48) -/
def Profile.is64 (p : Profile) : Bool := p.name == .v1202

/-- `get_all_pkg2_profiles` (profile.rs 67-112) -/
def allProfiles : List Profile :=
  [⟨.v1202, .kmst1202, .v6, .pkg2_64V1⟩, ⟨.v1201, .kmst1199, .v4, .pkg2V3⟩, ⟨.v1200, .kmst1199, .v5, .pkg2V3⟩,
   ⟨.v1199, .kmst1199, .v4, .pkg2V3⟩, ⟨.v1198, .kmst1198, .v3, .pkg2V2⟩, ⟨.v1197, .unknown, .v2, .pkg2V2⟩,
   ⟨.v1196, .unknown, .v1, .pkg2V1⟩]

/-- `get_hash_iter` (profile.rs 49-64) with `get_generator` and `get_generator_u64` (util/version/pkg2.rs 33-51).
The iterators are taken as lists; where the code finds hashes with several threads (rayon) it collects them in
the same order. -/
def Profile.hashes (p : Profile) (h1 h2 : BitVec 64) : Except Err (List (BitVec 64)) :=
  match p.gen with
  | .v6 => .ok (Pkg2.genV6 h1 h2)
  | .v1 => .ok ((Pkg2.genV1 (h1.setWidth 32) (h2.setWidth 32)).map (·.setWidth 64))
  | .v2 => .ok ((Pkg2.genV2 (h1.setWidth 32) (h2.setWidth 32)).map (·.setWidth 64))
  | .v3 => .ok ((Pkg2.genV3 (h1.setWidth 32) (h2.setWidth 32)).map (·.setWidth 64))
  | .v4 => .ok ((Pkg2.genV4 (h1.setWidth 32) (h2.setWidth 32)).map (·.setWidth 64))
  | .v5 => .ok ((Pkg2.genV5 (h1.setWidth 32) (h2.setWidth 32)).map (·.setWidth 64))
  | .unknown => .error .panicUnwrap

/-- `Pkg2Profile` (profile.rs 117-121) -/
structure Cached where
  profile : Profile
  hash : BitVec 64
deriving DecidableEq, Repr

/-- `Pkg2Profile::verify_hash` (profile.rs 128-137) -/
def Cached.verifyHash (c : Cached) (h1 h2 : BitVec 64) : Except Err Bool :=
  match c.profile.gen with
  | .v6 => .ok (Pkg2.verifyV6 h1 h2 c.hash)
  | .v1 => .ok (Pkg2.verifyV1 (h1.setWidth 32) (h2.setWidth 32) (c.hash.setWidth 32))
  | .v2 => .ok (Pkg2.verifyV2 (h1.setWidth 32) (h2.setWidth 32) (c.hash.setWidth 32))
  | .v3 => .ok (Pkg2.verifyV3 (h1.setWidth 32) (h2.setWidth 32) (c.hash.setWidth 32))
  | .v4 => .ok (Pkg2.verifyV4 (h1.setWidth 32) (h2.setWidth 32) (c.hash.setWidth 32))
  | .v5 => .ok (Pkg2.verifyV5 (h1.setWidth 32) (h2.setWidth 32) (c.hash.setWidth 32))
  | .unknown => .error .panicUnwrap

/-! ## One attempt -/

/-- the loop of `calculate_offset_and_verify` (directory.rs 295-307) on the entries in place: the result and the
entries after it.  The offset is stored (302) before the entry is checked (304). -/
def locateSt (x : DirCtx) (hash : BitVec 64) (ver : OffsetVersion) : List Entry → Except Err Unit × List Entry
  | [] => (.ok (), [])
  | en :: es =>
    match ver.calc x.env.mode x.hdr { hash := hash, encrypted := en.encOff, offset := en.calcOff } with
    | .error e => (.error e, en :: es)
    | .ok off =>
      let en := { en with offset := off }
      match en.verify x with
      | .error e => (.error (if e.isPanic then e else .lib "InvalidWzVersion"), en :: es)
      | .ok () => match locateSt x hash ver es with
        | (r, es') => (r, en :: es')

/-- `calculate_offset_and_verify` (directory.rs 290-310) with the directory after it -/
def calcVerifySt (x : DirCtx) (d : Dir) : Except Err Unit × Dir :=
  match locateSt x d.hash d.ver d.entries with
  | (r, es) => (r, { d with entries := es })

/-- does an error end the whole call, and not only the attempt? -/
def Err.ends (e : Err) : Bool := e.isPanic || e == .fuel

/-- `resolve_children` (directory.rs 113-150) with the directory after it, whatever the result.  The nodes are
made by `resolveDir` from the prepared directory. -/
def resolveChildrenSt (x : DirCtx) (loopFuel fuel : Nat) (d : Dir) : Except Err (List (List Char × DNode)) × Dir :=
  if d.blockSize = 0 then (.ok [], d)
  else match prepareEntries x loopFuel d with
    | .error e => (.error e, d)
    | .ok d1 => match calcVerifySt x d1 with
      | (.error e, d2) => (.error (if e.ends then e else .lib "InvalidWzVersion"), d2)
      | (.ok (), d2) => match resolveDir x loopFuel fuel d2 with
        | .error e => (.error e, d2)
        | .ok ns => (.ok ns, { d2 with status := .verified, entries := [] })

/-- the first image among the children (file.rs 336-338) -/
def firstImage : List (List Char × DNode) → Option Nat
  | [] => none
  | (_, .image off _) :: _ => some off
  | _ :: ns => firstImage ns

/-- `get_header_type` (wz_image.rs 145-148) with `read_u8_at(..).unwrap_or(0)`, and `is_valid_image_header` -/
def imageHeadOk (x : DirCtx) (off : Nat) : Bool :=
  match readAt x.env.buf 1 off with
  | .ok b => validImageHeader b
  | .error _ => false

/-- `try_decode_with_wz_version_number` (file.rs 324-362); of `meta` only the two fields it looks at -/
def tryDecode (x : DirCtx) (loopFuel fuel : Nat) (withEnc : Bool) (verHeader : Int) (d : Dir) :
    Except Err (List (List Char × DNode)) × Dir :=
  if d.hash = 0#64 then (.error (.lib "ErrorGameVerHash"), d)
  else match calcVerifySt x d with
    | (.error e, d1) => (.error (if e.ends then e else .lib "ErrorGameVerHash"), d1)
    | (.ok (), d1) => match resolveChildrenSt x loopFuel fuel d1 with
      | (.error e, d2) => (.error e, d2)
      | (.ok ns, d2) =>
        let bad : Bool := match firstImage ns with
          | none => false
          | some off => !imageHeadOk x off
        if bad then (.error (.lib "UnknownImageHeader"), d2)
        else if withEnc = false ∧ verHeader = 113 then (.error (.lib "ErrorGameVerHash"), d2)
        else (.ok ns, d2)

/-! ## The file -/

/-- `WzFile` with its `WzFileMeta` and reader (file.rs 40-71).  `env.ks2` and `keys2` are `reader.pkg2_keys`: its
key stream and `is_pkg2()`.  `offset` is `header.data_start`, `block_size` the length of the buffer (84, 114).
The path is left out. -/
structure WFile where
  env : Env
  hdr : Header
  keys2 : Bool
  patch : Int := -1
  verHeader : Int := 0
  withEnc : Bool := true
  hash : BitVec 64 := 0#64
  verified : Bool
  parsed : Bool := false

/-- how the file's directories are read -/
def WFile.ctx (f : WFile) : DirCtx := ⟨f.env, f.hdr, f.keys2⟩

/-- `WzDirectory::new` (directory.rs 90-101) for the root -/
def WFile.root (f : WFile) : Dir := { offset := f.hdr.dataStart, blockSize := f.env.buf.length }

/-- bounds for the model's recursions: length of a PKG2 entry loop, nesting of directories, number of versions -/
structure Fuel where
  loop : Nat
  nest : Nat

/-- the loop over the versions in `parse_pkg1` (file.rs 184-197): the version and hash that succeeded, and the
children -/
def pkg1Versions (F : Fuel) (f : WFile) (withEnc : Bool) : Nat → Pkg1.Gen → Dir →
    Except Err (Option (Int × Nat × List (List Char × DNode)))
  | 0, _, _ => .error .fuel
  | n + 1, g, d =>
    match g.next f.env.mode with
    | .error e => .error e
    | .ok (none, _) => .ok none
    | .ok (some (v, h), g') =>
      match tryDecode f.ctx F.loop F.nest withEnc v { d with hash := BitVec.ofNat 64 h } with
      | (.ok ns, _) => .ok (some (v, h, ns))
      | (.error e, d') => if e.ends then .error e else pkg1Versions F f withEnc n g' d'

/-- `parse_pkg1` (file.rs 147-213): the children and the file after it; `n` bounds the number of versions -/
def WFile.parsePkg1 (F : Fuel) (n : Nat) (f : WFile) (patch : Option Int) :
    Except Err (List (List Char × DNode)) × WFile :=
  let pv := patch.getD f.patch
  let withEnc := f.hdr.encVer.isSome
  if pv = -1 then
    match pkg1Versions F f withEnc n (Pkg1.parseGen f.hdr.encVer) f.root with
    | .error e => (.error e, f)
    | .ok none => (.error (.lib "ErrorGameVerHash"), f)
    | .ok (some (v, h, ns)) =>
      (.ok ns, { f with patch := v, verHeader := v, withEnc := withEnc, hash := BitVec.ofNat 64 h, parsed := true })
  else
    let vh : Int := match f.hdr.encVer with
      | some v => v
      | none => 770
    match (Pkg1.Gen.new vh pv 2000).checkHash f.env.mode with
    | .error e => (.error e, f)
    | .ok h =>
      match tryDecode f.ctx F.loop F.nest withEnc vh { f.root with hash := BitVec.ofNat 64 h } with
      | (.error e, _) => (.error e, f)
      | (.ok ns, _) =>
        (.ok ns, { f with patch := pv, verHeader := vh, withEnc := withEnc, hash := BitVec.ofNat 64 h, parsed := true })

/-- the key `update_keys` sets (file.rs 371-382), as a key stream -/
def profileKeys (p : Profile) (h1 hash : BitVec 64) : Nat → Byte :=
  let iv : BitVec 64 :=
    if p.is64 then kmst1202Key h1 hash else (kmst1199Key (h1.setWidth 32) (hash.setWidth 32)).setWidth 64
  fun i => ((Pkg2Dec.default.setIv iv p.dec).keyAt i).getD 0#8

/-- `update_keys` (file.rs 371-382).  Only called when no decryptor was found: `pkg2_keys` is then a
`Pkg2Decryptor` of this file alone (reader.rs 192, string_decryptor/mod.rs 198-201). -/
def WFile.updateKeys (f : WFile) (p : Profile) (hash : BitVec 64) : WFile :=
  { f with env := { f.env with ks2 := profileKeys p f.hdr.hash1 hash } }

/-- `try_pkg2_profile` (file.rs 305-322): the result, the file (its keys) and the directory after it -/
def tryProfile (F : Fuel) (f : WFile) (p : Profile) (hash : BitVec 64) (d : Dir) :
    Except Err (List (List Char × DNode)) × WFile × Dir :=
  if f.verified then
    match tryDecode f.ctx F.loop F.nest false 0 d with
    | (r, d') => (r, f, d')
  else
    let f := f.updateKeys p hash
    match prepareEntries f.ctx F.loop d with
    | .error e => (.error e, f, d)
    | .ok d1 => match verifyStringDecryptor f.ctx d1 with
      | .error e => (.error e, f, d1)
      | .ok false => (.error (.lib "FailedToVerifyStringDecryptor"), f, d1)
      | .ok true => match tryDecode f.ctx F.loop F.nest false 0 d1 with
        | (r, d') => (r, f, d')

/-- the directory before an attempt (file.rs 247-252, 274-281) -/
def setUp (p : Profile) (hash : BitVec 64) (d : Dir) : Dir :=
  let d := if p.is64 then { d with status := .init, entries := [] } else d
  { d with hash := hash, ver := p.ver }

/-- the loop over the cached profiles (file.rs 239-266); the third component says what succeeded -/
def cachedLoop (F : Fuel) (f : WFile) : List Cached → Dir →
    Except Err (Option (Cached × List (List Char × DNode))) × WFile × Dir
  | [], d => (.ok none, f, d)
  | c :: cs, d =>
    if c.profile.is64 ≠ f.hdr.isPkg2_64 then cachedLoop F f cs d
    else match c.verifyHash f.hdr.hash1 f.hdr.hash2 with
      | .error e => (.error e, f, d)
      | .ok false => cachedLoop F f cs d
      | .ok true => match tryProfile F f c.profile c.hash (setUp c.profile c.hash d) with
        | (.ok ns, f', d') => (.ok (some (c, ns)), f', d')
        | (.error e, f', d') => if e.ends then (.error e, f', d') else cachedLoop F f' cs d'

/-- the loop over the hashes of a profile (file.rs 275-299) -/
def hashLoop (F : Fuel) (p : Profile) : WFile → List (BitVec 64) → Dir →
    Except Err (Option (Cached × List (List Char × DNode))) × WFile × Dir
  | f, [], d => (.ok none, f, d)
  | f, h :: hs, d => match tryProfile F f p h (setUp p h d) with
    | (.ok ns, f', d') => (.ok (some (⟨p, h⟩, ns)), f', d')
    | (.error e, f', d') => if e.ends then (.error e, f', d') else hashLoop F p f' hs d'

/-- the loop over the profiles (file.rs 268-300) -/
def profileLoop (F : Fuel) : WFile → List Profile → Dir →
    Except Err (Option (Cached × List (List Char × DNode))) × WFile × Dir
  | f, [], d => (.ok none, f, d)
  | f, p :: ps, d =>
    if p.is64 ≠ f.hdr.isPkg2_64 then profileLoop F f ps d
    else match p.hashes f.hdr.hash1 f.hdr.hash2 with
      | .error e => (.error e, f, d)
      | .ok hs => match hashLoop F p f hs { d with ver := p.ver } with
        | (.error e, f', d') => (.error e, f', d')
        | (.ok (some r), f', d') => (.ok (some r), f', d')
        | (.ok none, f', d') => profileLoop F f' ps d'

/-- the file after a success (file.rs 262, 291 with 364-369) -/
def WFile.opened (f : WFile) (hash : BitVec 64) : WFile :=
  { f with patch := -1, verHeader := 0, withEnc := false, hash := hash, parsed := true }

/-- `parse_pkg2` (file.rs 215-303): the children and what succeeded, the file after it, and what is pushed to the
cache.  `cache` is the copy of the cache made at the start (237). -/
def WFile.parsePkg2 (F : Fuel) (f : WFile) (cache : List Cached) :
    Except Err (Cached × List (List Char × DNode)) × WFile × List Cached :=
  let d0 : Except Err Dir := if f.hdr.isPkg2_64 then .ok f.root else prepareEntries f.ctx F.loop f.root
  match d0 with
  | .error e => (.error e, f, [])
  | .ok d => match cachedLoop F f cache d with
    | (.error e, f', _) => (.error e, f', [])
    | (.ok (some (c, ns)), f', _) => (.ok (c, ns), f'.opened c.hash, [])
    | (.ok none, f', d') => match profileLoop F f' allProfiles d' with
      | (.error e, f', _) => (.error e, f', [])
      | (.ok (some (c, ns)), f', _) => (.ok (c, ns), f'.opened c.hash, [c])
      | (.ok none, f', _) => (.error (.lib "ErrorGameVerHash"), f', [])

end Wz
