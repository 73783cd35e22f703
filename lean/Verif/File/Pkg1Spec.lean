import Verif.File.Model
import Verif.Version.Pkg1Props
/-!
# Specification: which version a PKG1 file is opened with
-/

set_option autoImplicit false

namespace Wz.Spec

/-- the versions tried when none is given: with a number in the header those from 1 to 2000 that fit it, without one
only 770 -/
def TriedVersion (encVer : Option Nat) (v : Nat) : Prop :=
  match encVer with
  | some ev => 1 ≤ v ∧ v ≤ 2000 ∧ VersionFits ev v
  | none => v = 770

/-- the version given by the caller is acceptable: it fits the number of the header, or is 770 if there is none -/
def GivenVersion (encVer : Option Nat) (v : Nat) : Prop :=
  match encVer with
  | some ev => VersionFits ev v
  | none => v = 770

/-- reading the directory with the hash of a version, with nothing tried before -/
def attempt1 (F : Fuel) (f : WFile) (v : Nat) : Except Err (List (List Char × DNode)) :=
  resolveDir f.ctx F.loop F.nest
    { offset := f.hdr.dataStart, blockSize := f.env.buf.length, hash := BitVec.ofNat 64 (verHash v), ver := .pkg1 }

/-- the version does not open the file, and finding out does not crash -/
def Refused1 (F : Fuel) (f : WFile) (v : Nat) : Prop := ∃ e, attempt1 F f v = .error e ∧ e.ends = false

end Wz.Spec
