import Verif.File.Model
import Verif.Header.Model
import Verif.Image.Model

/-!
# The key of an archive's names (`/repo/src/util/string_decryptor/mod.rs`, `/repo/src/file.rs` 75-145)
-/

set_option autoImplicit false

namespace Wz

/-- A string decryptor as a reader sees it: `is_pkg2()` and the bytes it puts on the data.  That a shared, growing
decryptor gives one fixed stream is proved for `Keys`. -/
structure SKey where
  pkg2 : Bool
  ks : Nat → Byte

/-- the stream of `GLOBAL_STRING_DECRYPTOR.general`, made from a zero IV: data stay as they are
(ecb_decryptor.rs 97-105) -/
def noKeys : Nat → Byte := fun _ => 0#8

/-- `WzSliceReader::new` (reader.rs 284-300) and `with_existing_keys` (reader.rs 204-216): a PKG2 decryptor is used
for PKG2 directory names only -/
def SKey.env (k : SKey) (m : Mode) (buf : Bytes) : Env := ⟨m, buf, if k.pkg2 then noKeys else k.ks, k.ks⟩

/-- `pread::<WzHeader>(0).unwrap_or(WzHeader::default())` (reader.rs 303, 184-187, 218-223).  Reading a header does not panic
(`C16_no_panic`). -/
def headerOf (buf : Bytes) : Header :=
  match Header.readFromBuf buf with
  | .ok (h, _) => h
  | .error _ => {}

namespace Rd

/-- the test of the entry count in `try_get_first_wz_name_meta` (string_decryptor/mod.rs 55-70) -/
def firstCount (h : Header) (count : Int) : Rd Int :=
  match h.ident with
  | .v1 => if 0 ≤ count ∧ count ≤ 1000000 then return count else fail (.lib "DecryptError")
  | .v2 => do
    let p ← getPos
    let b ← readU8At p
    match DirType.ofByte b with
    | .dir | .image => return 1
    | _ => fail (.lib "DecryptError")
  | .unknown => return count

/-- the name of the first entry (string_decryptor/mod.rs 76-88) -/
def firstNameTail (h : Header) : Rd StrMeta := do
  let b ← readU8
  match DirType.ofByte b with
  | .metaAt =>
    let so ← readI32
    let e ← getEnv
    let off ← lift (addU e.mode h.dataStart (asUsize so))
    let p ← lift (addU e.mode off 1)
    readWzStringMetaAt p
  | .dir | .image => readWzStringMeta
  | _ => fail (.lib "DecryptError")

/-- `try_get_first_wz_name_meta` (string_decryptor/mod.rs 47-91) -/
def firstName (h : Header) : Rd StrMeta := do
  seek h.dataStart
  let count ← readWzInt
  let count ← firstCount h count
  if count = 0 then fail (.lib "DecryptError") else firstNameTail h

/-- `try_get_first_wz_name_pkg2_meta_from_wz_file` (string_decryptor/mod.rs 93-121); a byte was just read, so the
subtraction (113) cannot fail -/
def firstName2 (h : Header) : Rd StrMeta :=
  if h.ident ≠ .v2 then fail (.lib "DecryptError")
  else do
    seek h.dataStart
    let count ← readWzInt
    let b ← readU8
    if b = 128 then do
      let p ← getPos
      seek (p - 1)
      let again ← readWzInt
      if again = count then return StrMeta.none else fail (.lib "DecryptError")
    else readPkg2DirMeta 1

end Rd

/-- the reader with which both functions look for the first name (string_decryptor/mod.rs 48-49, 96-97) -/
def plainEnv (m : Mode) (buf : Bytes) : Env := SKey.env ⟨false, noKeys⟩ m buf

/-- `verify_decryptor_from_wz_file_with_meta` (string_decryptor/mod.rs 123-140): errors mean no, panics stay -/
def verifyMeta (m : Mode) (buf : Bytes) (k : SKey) (sm : StrMeta) : Except Err Bool :=
  match tryResolveMeta (k.env m buf) sm.ty sm.offset sm.length with
  | .ok s => .ok (isAsciiStr s)
  | .error x => if x.isPanic then .error x else .ok false

/-- `verify_decryptor_from_wz_file` (string_decryptor/mod.rs 142-148) with `is_ok()` -/
def verifyKey (m : Mode) (buf : Bytes) (k : SKey) : Except Err Bool :=
  match ((Rd.firstName (headerOf buf)).run (plainEnv m buf) ⟨0, 0⟩).1 with
  | .error x => if x.isPanic then .error x else .ok false
  | .ok sm => verifyMeta m buf k sm

/-- `.ok().or(Some(WzStringMeta::empty()))?` (string_decryptor/mod.rs 157-159, 173-175) -/
def orNone (r : Except Err StrMeta) : Except Err StrMeta :=
  match r with
  | .ok sm => .ok sm
  | .error x => if x.isPanic then .error x else .ok StrMeta.none

/-- `get_key_by_maple_version` (util/version/mod.rs 17-23) for KMST1198 and the decryptor made from it
(string_decryptor/mod.rs 242-245) -/
def kmst1198Stream : Nat → Byte := fun i => ((Pkg2Dec.newWithKey 0xDEADBEEF#64 .kmst1198).keyAt i).getD 0#8

/-- `get_decryptor_by_version` (string_decryptor/mod.rs 212-222) with the global decryptors (233-246); `st iv` is the
stream of the decryptor made from a (non-zero) IV.  The KMST1199 case is not used here. -/
def versionKey (st : Bytes → Nat → Byte) : MapleVersion → SKey
  | .gms => ⟨false, st [0x4D#8, 0x23#8, 0xC7#8, 0x2B#8]⟩
  | .ems => ⟨false, st [0xB9#8, 0x7D#8, 0x63#8, 0xE9#8]⟩
  | .kmst1198 => ⟨true, kmst1198Stream⟩
  | .kmst1199 => ⟨true, noKeys⟩
  | _ => ⟨false, noKeys⟩

/-- the loops of `guess_decryptor_from_wz_file` (string_decryptor/mod.rs 162-168, 178-184) -/
def guessLoop (m : Mode) (st : Bytes → Nat → Byte) (buf : Bytes) (sm : StrMeta) :
    List MapleVersion → Except Err (Option MapleVersion)
  | [] => .ok none
  | v :: vs => match verifyMeta m buf (versionKey st v) sm with
    | .error x => .error x
    | .ok true => .ok (some v)
    | .ok false => guessLoop m st buf sm vs

/-- the test of one list of versions (string_decryptor/mod.rs 161-169, 177-185) -/
def guessAmong (m : Mode) (st : Bytes → Nat → Byte) (buf : Bytes) (sm : StrMeta) (vs : List MapleVersion) :
    Except Err (Option MapleVersion) :=
  if sm.ty = .empty then .ok none else guessLoop m st buf sm vs

/-- `guess_decryptor_from_wz_file` (string_decryptor/mod.rs 150-188): the version whose decryptor is given -/
def guessKey (m : Mode) (st : Bytes → Nat → Byte) (buf : Bytes) : Except Err (Option MapleVersion) :=
  match orNone ((Rd.firstName (headerOf buf)).run (plainEnv m buf) ⟨0, 0⟩).1 with
  | .error x => .error x
  | .ok sm => match guessAmong m st buf sm [.bms, .gms, .ems] with
    | .error x => .error x
    | .ok (some v) => .ok (some v)
    | .ok none => match orNone ((Rd.firstName2 (headerOf buf)).run (plainEnv m buf) ⟨0, 0⟩).1 with
      | .error x => .error x
      | .ok sm2 => guessAmong m st buf sm2 [.kmst1198]

/-- the key a caller gives (file.rs 88-96): an existing decryptor goes before an IV; a zero IV gives a decryptor that
leaves data as they are (ecb_decryptor.rs 97-105) -/
def givenKey (st : Bytes → Nat → Byte) (existing : Option SKey) (iv : Option Bytes) : Option SKey :=
  match existing, iv with
  | some k, _ => some k
  | none, some iv => some ⟨false, if iv = [0#8, 0#8, 0#8, 0#8] then noKeys else st iv⟩
  | none, none => none

/-- the key a file is opened with (file.rs 98-107) -/
def openKey (m : Mode) (st : Bytes → Nat → Byte) (buf : Bytes) (given : Option SKey) : Except Err (Option SKey) :=
  let guess : Except Err (Option SKey) :=
    match guessKey m st buf with
    | .error x => .error x
    | .ok r => .ok (r.map (versionKey st))
  match given with
  | none => guess
  | some k => match verifyKey m buf k with
    | .error x => .error x
    | .ok true => .ok (some k)
    | .ok false => guess

/-- the file made with a key (file.rs 108-133): without one the reader has the decryptor without a key and a new PKG2
decryptor (reader.rs 188-193) -/
def WFile.made (m : Mode) (buf : Bytes) (patch : Option Int) (key : Option SKey) : WFile :=
  { env := (key.getD ⟨true, noKeys⟩).env m buf, hdr := headerOf buf, keys2 := (key.getD ⟨true, noKeys⟩).pkg2,
    patch := patch.getD (-1), verified := key.isSome }

/-- `WzFile::from_file` (file.rs 74-134) on the contents of the file; opening and mapping it are left out -/
def WFile.fromBuf (m : Mode) (st : Bytes → Nat → Byte) (buf : Bytes) (existing : Option SKey) (iv : Option Bytes)
    (patch : Option Int) : Except Err WFile :=
  match openKey m st buf (givenKey st existing iv) with
  | .error x => .error x
  | .ok key => .ok (WFile.made m buf patch key)

/-- `WzFile::parse` (file.rs 135-145): the children, the file after it and what is pushed to the cache; `n` bounds the
number of versions -/
def WFile.parseTop (F : Fuel) (n : Nat) (f : WFile) (patch : Option Int) (cache : List Cached) :
    Except Err (List (List Char × DNode)) × WFile × List Cached :=
  match f.hdr.ident with
  | .v1 => match f.parsePkg1 F n patch with
    | (r, f') => (r, f', [])
  | .v2 => match f.parsePkg2 F cache with
    | (.ok (_, ns), f', c) => (.ok ns, f', c)
    | (.error e, f', c) => (.error e, f', c)
  | .unknown => (.error (.lib "UnknownPkgVersion"), f, [])

end Wz
