import Verif.File.IvProps
import Verif.File.GuessExamples

/-!
# C56: archives meeting the hypotheses, and an archive whose IV is mistaken
-/

set_option autoImplicit false

namespace Wz.Props

open Wz Wz.Spec

/-- an archive with one image `a`, its name stored with two bytes a character under the key `ks` -/
def exWideA (ks : Nat → Byte) : Bytes := exDir1 4#8 1#8 (nameBytes ks ['a'] .wide)

theorem exWideA_header (ks : Nat → Byte) : Header.readFromBuf (exWideA ks) = .ok (exHeader1, 16) := by
  exact C16_pkg1_version _ 100 16 45 ⟨⟨[], _, rfl, rfl⟩, by omega, by omega⟩ ⟨⟨exHead1.take 16, _, rfl, rfl⟩, by omega, by omega, by omega⟩

/-- C56 fails: the name `a` of an archive is written under the key of GMS, this IV is accepted for it and gives the name, but the IV
found is that of no encryption — for every key whose second byte is not one of `D8` to `DF`. -/
theorem C56_wide_counterexample (m : Mode) (st : Bytes → Nat → Byte) (h : ¬SurrogateHalf (st ivOfGms 1)) :
    Holds (exWideA (st ivOfGms)) 21 (nameBytes (st ivOfGms) ['a'] .wide) ∧
    verifyFileIv m st (exWideA (st ivOfGms)) ivOfGms = .ok true ∧
    guessFileIv m st (exWideA (st ivOfGms)) = .ok (some plainIv) := by
  have hb : (exWideA (st ivOfGms)).length < 2 ^ 63 := by
    have : (exWideA (st ivOfGms)).length = 25 := rfl
    omega
  have hf : FirstName (exWideA (st ivOfGms)) exHeader1.dataStart 1 4#8 ['a'].length .wide 21 :=
    exDir1_first (.wide (.short (by decide) (by decide)))
  have hw : Holds (exWideA (st ivOfGms)) 21 (nameBytes (st ivOfGms) ['a'] .wide) := exDir1_name
  have hc : CountFits exHeader1.ident 1 := ⟨by decide, by decide⟩
  have hg : streamOfIv st ivOfGms = st ivOfGms := rfl
  refine ⟨hw, (C56_found m st _ ivOfGms exHeader1 16 1 4#8 21 .wide ['a'] hb (exWideA_header _) hf (.inr rfl) hc (by simp) hw).1, ?_⟩
  refine C56_wide_taken_for_plain m st _ exHeader1 16 1 4#8 21 ['a'] (st ivOfGms) hb (exWideA_header _) hf (.inr rfl) hc (by decide) hw ?_
  intro i hi
  have : i = 0 := by simpa using hi
  subst this
  exact h

/-- such a stream -/
example : ¬SurrogateHalf (exStream ivOfGms 1) := by unfold SurrogateHalf; decide

/-- opening the same archive finds the right key (C55) -/
example : guessKey .checked exStream (exWideA (exStream ivOfGms)) = .ok (some .gms) := by decide +kernel

/-! ## Archives meeting the hypotheses -/

/-- `C56_verify`, `C56_guess`, `C56_weaker`, `C56_narrow`, `C56_found`, `C56_right_iv_partial`: the archive `exBase` of C55 -/
example : guessFileIv .checked exStream exBase = .ok (some ivOfGms) := by decide +kernel

example : verifyFileIv .checked exStream exBase plainIv = .ok false ∧ verifyFileIv .checked exStream exBase ivOfGms = .ok true := by
  decide +kernel

example : verifyKey .checked exBase (ivKey exStream ivOfGms) = .ok true := by decide +kernel

example : [plainIv, ivOfGms, ivOfEms] = [plainIv] ++ ivOfGms :: [ivOfEms] := rfl

example : ¬TextAt exBase 21 4 .narrow (streamOfIv exStream plainIv) := by
  obtain ⟨b, h1, h2⟩ := C56_verify .checked exStream exBase plainIv exHeader1 16 1 3#8 4 21 .narrow (by decide +kernel) (by decide +kernel)
    (exDir1_first (.narrow (.short (by decide) (by decide)))) (.inl rfl) ⟨by decide, by decide⟩
  rw [show verifyFileIv .checked exStream exBase plainIv = .ok false by decide +kernel] at h1
  cases h1
  exact fun h => by cases h2.mpr h

/-- a first name that is not ASCII, of two and of one byte a character, is accepted with its IV: unlike C55 -/
def exKorean : Bytes := exDir1 3#8 1#8 (textBytes (exStream ivOfGms) ['맵'] .wide)

example : Header.readFromBuf exKorean = .ok (exHeader1, 16) := by decide +kernel

example : FirstName exKorean exHeader1.dataStart 1 3#8 (textLen ['맵'] .wide) .wide 21 :=
  exDir1_first (.wide (.short (by decide) (by decide)))

example : Holds exKorean 21 (textBytes (streamOfIv exStream ivOfGms) ['맵'] .wide) := exDir1_name

example : verifyFileIv .checked exStream exKorean ivOfGms = .ok true ∧ guessKey .checked exStream exKorean = .ok none := by decide +kernel

def exUtf8 : Bytes := exDir1 3#8 0xFE#8 (textBytes (exStream ivOfEms) ['é'] .narrow)

example : FirstName exUtf8 exHeader1.dataStart 1 3#8 (textLen ['é'] .narrow) .narrow 21 :=
  exDir1_first (.narrow (.short (by decide) (by decide)))

example : verifyFileIv .checked exStream exUtf8 ivOfEms = .ok true := by decide +kernel

/-- `C56_wide`: a key that is refused; the keys differ by `D8` in the second byte -/
example : verifyFileIv .checked (fun iv _ => if iv = ivOfGms then 0xD8#8 else 0#8) (exWideA fun _ => 0#8) ivOfGms = .ok false := by
  decide +kernel

/-- `C56_no_name`, `C56_empty_name`, `C56_length_panics`: the archives of C55 -/
example : guessFileIv .checked exStream (exPkg1 [0#8]) = .ok none ∧ guessFileIv .checked exStream (exPkg1 [1#8, 3#8, 0#8]) = .ok (some plainIv) ∧
    guessFileIv .checked exStream exPanic = .error .panicOverflow := by decide +kernel

end Wz.Props
