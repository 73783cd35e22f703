import Verif.File.GuessModel

/-!
# Decryptors shared by the files of a program (`/repo/src/util/string_decryptor/mod.rs`, `/repo/src/reader.rs`, `/repo/src/file.rs`)

Decryptors live behind `Arc<RwLock<..>>`.  An `Arc` is the index of a decryptor in a list that only gets longer, a lock makes
every step below atomic.
-/

set_option autoImplicit false

namespace Wz

/-- `dyn Decryptor` (string_decryptor/mod.rs 16-26) -/
inductive Dec where
  | ecb (d : Ecb)
  | pkg2 (d : Pkg2Dec)

namespace Dec

/-- `is_pkg2` (ecb_decryptor.rs 73-75, pkg2_decryptor.rs 55-57) -/
def isPkg2 : Dec → Bool
  | ecb _ => false
  | pkg2 _ => true

/-- `set_iv` (ecb_decryptor.rs 64-67, pkg2_decryptor.rs 59-62) -/
def setIv (key : BitVec 64) (t : DecType) : Dec → Dec
  | ecb d => ecb (d.setIv key.toNat t)
  | pkg2 d => pkg2 (d.setIv key t)

/-- the keys are made long enough (reader.rs 932-940): `is_enough` and `ensure_key_size`; a PKG2 decryptor always has enough
(pkg2_decryptor.rs 70-72, 88-90) -/
def grow (aes : Aes) (n : Nat) : Dec → Except Err Dec
  | ecb d => (d.grow aes n).map ecb
  | pkg2 d => .ok (pkg2 d)

/-- `decrypt_slice` (ecb_decryptor.rs 97-105, pkg2_decryptor.rs 82-86) -/
def decrypt (data : Bytes) : Dec → Except Err Bytes
  | ecb d => d.decrypt data
  | pkg2 d => d.decrypt data

/-- the byte that position `i` is xored with when it is decrypted -/
def keyByte (aes : Aes) (d : Dec) (i : Nat) : Byte :=
  match d with
  | ecb d => match d.grow aes (i + 1) with
    | .ok d' => if d'.withoutDecrypt then 0#8 else (d'.tryAt i).getD 0#8
    | .error _ => 0#8
  | pkg2 d => (d.keyAt i).getD 0#8

end Dec

/-- the decryptors in memory -/
abbrev DMem := List Dec

/-- `GLOBAL_STRING_DECRYPTOR.gms` (string_decryptor/mod.rs 191, 234-236) -/
def gmsAt : Nat := 0
/-- `GLOBAL_STRING_DECRYPTOR.kms` (string_decryptor/mod.rs 192, 237-239) -/
def kmsAt : Nat := 1
/-- `GLOBAL_STRING_DECRYPTOR.general` (string_decryptor/mod.rs 193, 241) -/
def generalAt : Nat := 2
/-- `GLOBAL_STRING_DECRYPTOR.kmst1198` (string_decryptor/mod.rs 195, 242-245) -/
def kmst1198At : Nat := 3

/-- `GLOBAL_STRING_DECRYPTOR` (string_decryptor/mod.rs 233-246) at the start.  `get_iv_by_maple_version` and
`get_key_by_maple_version` are those of util/version/mod.rs 7-23.  The field `custom` (240) starts empty and is never set by
the library. -/
def DMem.start : Except Err DMem := do
  let gms ← Ecb.fromIv gmsIv
  let kms ← Ecb.fromIv mseaIv
  let general ← Ecb.fromIv [0#8, 0#8, 0#8, 0#8]
  return [.ecb gms, .ecb kms, .ecb general, .pkg2 (Pkg2Dec.newWithKey 0xDEADBEEF#64 .kmst1198)]

namespace DMem

/-- `Arc::new(RwLock::new(..))`: the new index and the memory with it -/
def alloc (mem : DMem) (d : Dec) : Nat × DMem := (mem.length, mem ++ [d])

/-- `get_decryptor` (string_decryptor/mod.rs 198-211).  `custom` is empty. -/
def byType (mem : DMem) : DecType → Except Err (Nat × DMem)
  | .gms => .ok (gmsAt, mem)
  | .kms => .ok (kmsAt, mem)
  | .custom => .error .panicUnwrap
  | .kmst1198 => .ok (kmst1198At, mem)
  | .kmst1199 | .kmst1202 => .ok (mem.alloc (.pkg2 Pkg2Dec.default))
  | .bms | .unknown => .ok (generalAt, mem)

/-- `get_decryptor_by_version` (string_decryptor/mod.rs 212-222) -/
def byVersion (mem : DMem) : MapleVersion → Nat × DMem
  | .gms => (gmsAt, mem)
  | .ems => (kmsAt, mem)
  | .kmst1198 => (kmst1198At, mem)
  | .kmst1199 => mem.alloc (.pkg2 Pkg2Dec.default)
  | _ => (generalAt, mem)

/-- `get_decryptor_by_iv` (string_decryptor/mod.rs 223-230) -/
def byIv (mem : DMem) (iv : Bytes) : Except Err (Nat × DMem) :=
  if iv = gmsIv then .ok (gmsAt, mem)
  else if iv = mseaIv then .ok (kmsAt, mem)
  else if iv = [0#8, 0#8, 0#8, 0#8] then .ok (generalAt, mem)
  else do
    let d ← Ecb.fromIv iv
    return mem.alloc (.ecb d)

/-- `get_decrypt_slice` (reader.rs 925-945) with the decryptor at `k` -/
def decryptAt (aes : Aes) (mem : DMem) (k : Nat) (data : Bytes) : Except Err Bytes :=
  match mem[k]? with
  | none => .error (.lib "no decryptor")
  | some d => match d.grow aes data.length with
    | .error x => .error x
    | .ok d' => d'.decrypt data

/-- the first half of `get_decrypt_slice` (reader.rs 932-940) -/
def growAt (aes : Aes) (mem : DMem) (k n : Nat) : DMem :=
  match mem[k]? with
  | none => mem
  | some d => match d.grow aes n with
    | .error _ => mem
    | .ok d' => mem.set k d'

/-- how a reader sees the decryptor at `k` -/
def skey (aes : Aes) (mem : DMem) (k : Nat) : SKey :=
  match mem[k]? with
  | none => ⟨false, noKeys⟩
  | some d => ⟨d.isPkg2, d.keyByte aes⟩

/-- the loops of `guess_decryptor_from_wz_file` (string_decryptor/mod.rs 162-168, 178-184) over the decryptors in memory.  That
decrypting a name makes the keys longer is left out here (see `growAt`), and none of the versions makes a new decryptor. -/
def guessLoop (aes : Aes) (m : Mode) (mem : DMem) (buf : Bytes) (sm : StrMeta) : List MapleVersion → Except Err (Option Nat)
  | [] => .ok none
  | v :: vs => match verifyMeta m buf (mem.skey aes (mem.byVersion v).1) sm with
    | .error x => .error x
    | .ok true => .ok (some (mem.byVersion v).1)
    | .ok false => guessLoop aes m mem buf sm vs

/-- the test of one list of versions (string_decryptor/mod.rs 161-169, 177-185) -/
def guessAmong (aes : Aes) (m : Mode) (mem : DMem) (buf : Bytes) (sm : StrMeta) (vs : List MapleVersion) : Except Err (Option Nat) :=
  if sm.ty = .empty then .ok none else guessLoop aes m mem buf sm vs

/-- `guess_decryptor_from_wz_file` (string_decryptor/mod.rs 150-188) -/
def guess (aes : Aes) (m : Mode) (mem : DMem) (buf : Bytes) : Except Err (Option Nat) :=
  match orNone ((Rd.firstName (headerOf buf)).run (plainEnv m buf) ⟨0, 0⟩).1 with
  | .error x => .error x
  | .ok sm => match guessAmong aes m mem buf sm [.bms, .gms, .ems] with
    | .error x => .error x
    | .ok (some k) => .ok (some k)
    | .ok none => match orNone ((Rd.firstName2 (headerOf buf)).run (plainEnv m buf) ⟨0, 0⟩).1 with
      | .error x => .error x
      | .ok sm2 => guessAmong aes m mem buf sm2 [.kmst1198]

/-- the decryptor a caller gives (file.rs 88-96) -/
def given (mem : DMem) (existing : Option Nat) (iv : Option Bytes) : Except Err (Option Nat × DMem) :=
  match existing, iv with
  | some k, _ => .ok (some k, mem)
  | none, some iv => (Ecb.fromIv iv).map fun d => (some (mem.alloc (.ecb d)).1, (mem.alloc (.ecb d)).2)
  | none, none => .ok (none, mem)

/-- the given decryptor if it fits, or the one that is guessed (file.rs 98-107) -/
def chosen (aes : Aes) (m : Mode) (mem : DMem) (buf : Bytes) (k : Option Nat) : Except Err (Option Nat) :=
  match k with
  | none => mem.guess aes m buf
  | some k => match verifyKey m buf (mem.skey aes k) with
    | .error x => .error x
    | .ok true => .ok (some k)
    | .ok false => mem.guess aes m buf

end DMem

/-- A file with the two decryptors of its reader (reader.rs 37-41).  In `body` the key streams and `keys2` are not used, they
are looked up in memory. -/
structure SFile where
  keys : Nat
  pkg2 : Nat
  body : WFile

/-- all files of a program and the decryptors they use -/
structure SWorld where
  mem : DMem
  files : List SFile

/-- the file as it reads: with the streams its decryptors have now -/
def SFile.view (aes : Aes) (mem : DMem) (f : SFile) : WFile :=
  { f.body with
    env := { f.body.env with ks := (mem.skey aes f.keys).ks, ks2 := (mem.skey aes f.pkg2).ks }
    keys2 := (mem.skey aes f.pkg2).pkg2 }

/-- The reader of a file (file.rs 110-114).  With a decryptor (`with_existing_keys`, reader.rs 204-216) a PKG2 decryptor is used
for PKG2 names only.  Without one (`WzReader::new`, reader.rs 183-194) there is a new PKG2 decryptor. -/
def DMem.reader (mem : DMem) (k : Option Nat) : (Nat × Nat) × DMem :=
  match k with
  | some k => ((if (mem[k]?.map Dec.isPkg2) = some true then generalAt else k, k), mem)
  | none => ((generalAt, (mem.alloc (.pkg2 Pkg2Dec.default)).1), (mem.alloc (.pkg2 Pkg2Dec.default)).2)

namespace SWorld

/-- `WzFile::from_file` (file.rs 74-134) on the contents of the file.  An error or panic leaves no file. -/
def openFile (aes : Aes) (m : Mode) (w : SWorld) (buf : Bytes) (existing : Option Nat) (iv : Option Bytes) (patch : Option Int) :
    Except Err SWorld :=
  match w.mem.given existing iv with
  | .error x => .error x
  | .ok (k, mem) => match mem.chosen aes m buf k with
    | .error x => .error x
    | .ok k =>
      let r := mem.reader k
      .ok ⟨r.2, w.files ++ [⟨r.1.1, r.1.2, WFile.made m buf patch (k.map (mem.skey aes))⟩]⟩

/-- The start of `try_pkg2_profile` (file.rs 314-315) with `update_keys` (371-382) for the file at `i`.  The flag
`string_decryptor_verified` is set when a file is opened and copied by every parse (163, 224). -/
def attempt (w : SWorld) (i : Nat) (p : Profile) (hash : BitVec 64) : SWorld :=
  match w.files[i]? with
  | none => w
  | some f =>
    if f.body.verified then w
    else
      let iv : BitVec 64 :=
        if p.is64 then kmst1202Key f.body.hdr.hash1 hash
        else (kmst1199Key (f.body.hdr.hash1.setWidth 32) (hash.setWidth 32)).setWidth 64
      match w.mem[f.pkg2]? with
      | none => w
      | some d => ⟨w.mem.set f.pkg2 (d.setIv iv p.dec), w.files⟩

end SWorld

/-- what happens in a program, by any thread: a file is opened, a parse of a file tries a profile, the keys of a decryptor are made
long enough for data of `n` bytes (the first half of `get_decrypt_slice`, reader.rs 932-940; decrypting itself, 942, changes
nothing), a decryptor is asked for or made -/
inductive ShareOp where
  | openFile (buf : Bytes) (existing : Option Nat) (iv : Option Bytes) (patch : Option Int)
  | attempt (i : Nat) (p : Profile) (hash : BitVec 64)
  | grow (k n : Nat)
  | byType (t : DecType)
  | byVersion (v : MapleVersion)
  | byIv (iv : Bytes)
  | make (iv : Bytes)

/-- the world after one step; a step that fails leaves it as it is -/
def SWorld.step (aes : Aes) (m : Mode) (w : SWorld) : ShareOp → SWorld
  | .openFile buf existing iv patch => match w.openFile aes m buf existing iv patch with
    | .ok w' => w'
    | .error _ => w
  | .attempt i p hash => w.attempt i p hash
  | .grow k n => { w with mem := w.mem.growAt aes k n }
  | .byType t => match w.mem.byType t with
    | .ok (_, mem) => { w with mem := mem }
    | .error _ => w
  | .byVersion v => { w with mem := (w.mem.byVersion v).2 }
  | .byIv iv => match w.mem.byIv iv with
    | .ok (_, mem) => { w with mem := mem }
    | .error _ => w
  | .make iv => match Ecb.fromIv iv with
    | .ok d => { w with mem := (w.mem.alloc (.ecb d)).2 }
    | .error _ => w

end Wz
