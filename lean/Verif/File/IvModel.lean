import Verif.File.GuessModel

/-!
# The IV of an archive (`/repo/src/util/version/mod.rs` 104-186)
-/

set_option autoImplicit false

namespace Wz

/-- the decryptor made from an IV (util/version/mod.rs 107); a zero IV leaves data as they are
(ecb_decryptor.rs 97-105), `st iv` is the stream for any other -/
def fileIvKey (st : Bytes → Nat → Byte) (iv : Bytes) : SKey :=
  ⟨false, if iv = [0#8, 0#8, 0#8, 0#8] then noKeys else st iv⟩

/-- `verify_iv_from_wz_file` (util/version/mod.rs 106-169) with `is_ok()`: errors mean no, panics stay.  The lines 110-161 up to
the reading of the name are those of `try_get_first_wz_name_meta` (string_decryptor/mod.rs 51-88), so `Rd.firstName` stands for
both; the name is resolved after it (145-149, 154-158). -/
def verifyFileIv (m : Mode) (st : Bytes → Nat → Byte) (buf iv : Bytes) : Except Err Bool :=
  let e := (fileIvKey st iv).env m buf
  let r : Except Err (List Char) := match ((Rd.firstName (headerOf buf)).run e ⟨0, 0⟩).1 with
    | .error x => .error x
    | .ok sm => tryResolveMeta e sm.ty sm.offset sm.length
  match r with
  | .ok _ => .ok true
  | .error x => if x.isPanic then .error x else .ok false

/-- the loop of `guess_iv_from_wz_file` (util/version/mod.rs 178-183) -/
def guessFileIvLoop (m : Mode) (st : Bytes → Nat → Byte) (buf : Bytes) : List MapleVersion → Except Err (Option Bytes)
  | [] => .ok none
  | v :: vs => match verifyFileIv m st buf (ivOfVersion v) with
    | .error x => .error x
    | .ok true => .ok (some (ivOfVersion v))
    | .ok false => guessFileIvLoop m st buf vs

/-- `guess_iv_from_wz_file` (util/version/mod.rs 171-186) -/
def guessFileIv (m : Mode) (st : Bytes → Nat → Byte) (buf : Bytes) : Except Err (Option Bytes) :=
  guessFileIvLoop m st buf [.bms, .gms, .ems]

end Wz
