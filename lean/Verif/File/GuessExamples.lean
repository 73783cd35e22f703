import Verif.File.GuessEdgeProps
import Verif.File.CacheProps

/-!
# C55: archives meeting the hypotheses, and archives opened with the wrong key
-/

set_option autoImplicit false

namespace Wz.Props

open Wz Wz.Spec

/-- a key stream for examples: the bytes of the IV over and over -/
def exStream : Bytes → Nat → Byte := fun iv i => iv.getD (i % 4) 0#8

/-- the head of a PKG1 archive with a version field: the directory begins at 18 -/
def exHead1 : Bytes := [0x50#8, 0x4B#8, 0x47#8, 0x31#8] ++ toLE 8 100 ++ toLE 4 16 ++ toLE 2 45

/-- a PKG1 archive with the directory `d` -/
def exPkg1 (d : Bytes) : Bytes := exHead1 ++ d

/-- a PKG2 archive with the directory `d`, which begins at 24 -/
def exPkg2 (d : Bytes) : Bytes :=
  [0x50#8, 0x4B#8, 0x47#8, 0x32#8] ++ toLE 8 100 ++ toLE 4 16 ++ toLE 4 1 ++ toLE 4 0xCBA98756 ++ d

/-- the header of these PKG1 archives -/
def exHeader1 : Header := { ident := .v1, fsize := 100, fstart := 16, dataStart := 18, encVer := some 45 }

/-- A KMST1198 archive with one image `a`. -/
def exKmst : Bytes :=
  exPkg2 ([0x80#8] ++ toLE 4 7 ++ [4#8, 0xFF#8, 0x61#8 ^^^ 0xEF#8, 0xBE#8, 1#8, 0#8] ++ [0x80#8] ++ toLE 4 7 ++
    toLE 4 2150150694 ++ [0x73#8])

/-- the KMST1198 key as a decryptor -/
def exKey1198 : SKey := ⟨true, key1198⟩

/-- the header of `exKmst` -/
def exKmstHeader : Header × Nat := (headerOf exKmst, 16)

theorem exKmst_header : Header.readFromBuf exKmst = .ok exKmstHeader := by decide +kernel

/-- the names of the children, or the error -/
def topNames (r : Except Err (List (List Char × DNode))) : Except Err (List (List Char)) := r.map (·.map Prod.fst)

/-- C55 fails: a KMST1198 archive whose first name is short is taken for one without encryption, and then its directory cannot be read,
whatever versions are remembered.  With the right key and the version remembered it is opened. -/
theorem C55_kmst1198_counterexample (st : Bytes → Nat → Byte) :
    FirstShort exKmst 24 7 4#8 1 31 ∧ Holds exKmst 31 (nameBytes key1198 ['a'] .dir) ∧
    (∃ f, WFile.fromBuf .checked st exKmst none none none = .ok f ∧
      ∀ cache, (f.parseTop ⟨10, 10⟩ 10 none cache).1 = .error (.lib "UnknownWzDirectoryType")) ∧
    (∃ f, WFile.fromBuf .checked st exKmst (some exKey1198) none none = .ok f ∧
      topNames (f.parseTop ⟨10, 10⟩ 10 none [⟨row1198, 16#64⟩]).1 = .ok [['a']]) := by
  have hf : FirstShort exKmst 24 7 4#8 1 31 :=
    ⟨0x80#8 :: toLE 4 7, .long (v := 7) (by omega) (by omega), by omega, by omega,
      ⟨exKmst.take 24, exKmst.drop 31, by decide +kernel, by decide +kernel⟩, rfl⟩
  have hw : Holds exKmst 31 (nameBytes key1198 ['a'] .dir) := ⟨exKmst.take 31, exKmst.drop 33, by decide +kernel, by decide +kernel⟩
  refine ⟨hf, hw, ⟨WFile.made .checked exKmst none (some ⟨false, noKeys⟩), ?_, ?_⟩, ⟨WFile.made .checked exKmst none (some exKey1198), ?_, ?_⟩⟩
  · have hg : guessKey .checked st exKmst = .ok (some .bms) :=
      C55_kmst1198_short .checked st exKmst exKmstHeader.1 exKmstHeader.2 7 4#8 31 ['a'] (by decide +kernel) exKmst_header (by decide +kernel)
        (by rw [show exKmstHeader.1.dataStart = 24 by decide +kernel]; exact hf) (Or.inr rfl) (by decide) (by decide) hw
    unfold WFile.fromBuf openKey givenKey
    dsimp only
    rw [hg]
    rfl
  · intro cache
    have h1 : (headerOf exKmst).ident = .v2 := by decide +kernel
    have h2 : (headerOf exKmst).isPkg2_64 = false := by decide +kernel
    have h3 : (match prepareEntries (WFile.made .checked exKmst none (some ⟨false, noKeys⟩)).ctx 10
          (WFile.made .checked exKmst none (some ⟨false, noKeys⟩)).root with
        | .error e => decide (e = .lib "UnknownWzDirectoryType")
        | .ok _ => false) = true := by decide +kernel
    unfold WFile.parseTop
    rw [show (WFile.made .checked exKmst none (some ⟨false, noKeys⟩)).hdr = headerOf exKmst from rfl, h1]
    dsimp only
    unfold WFile.parsePkg2
    rw [show (WFile.made .checked exKmst none (some ⟨false, noKeys⟩)).hdr = headerOf exKmst from rfl, h2]
    generalize prepareEntries (WFile.made .checked exKmst none (some ⟨false, noKeys⟩)).ctx 10
          (WFile.made .checked exKmst none (some ⟨false, noKeys⟩)).root = r at h3
    cases r with
    | ok _ => cases h3
    | error e => rw [of_decide_eq_true h3]; rfl
  · have hv : verifyKey .checked exKmst exKey1198 = .ok true := by decide +kernel
    unfold WFile.fromBuf openKey givenKey
    dsimp only
    rw [hv]
  · decide +kernel

/-- A PKG1 archive whose only entry has its name elsewhere: the name `a`, masked and under the key byte `x`, is part of a record (type,
length, name, size 0) that begins 8 bytes after the beginning of the contents. -/
def exElsewhere (x : Byte) : Bytes :=
  exPkg1 ([1#8, 2#8] ++ toLE 4 8 ++ [4#8, 0xFF#8] ++ cipherAscii (fun _ => x) [0x61#8] ++ [0#8])

/-- C55 fails for a first name stored elsewhere in an archive with a version field: no key is found although one of the known keys
reads the name, since it is looked for two bytes too far. -/
theorem C55_name_elsewhere_counterexample (st : Bytes → Nat → Byte) :
    ∃ h k, Header.readFromBuf (exElsewhere (plainKey st .gms 0)) = .ok (h, k) ∧ h.fstart = 16 ∧ h.dataStart = 18 ∧
      NameAt (exElsewhere (plainKey st .gms 0)) (h.fstart + 8 + 2) 1 .narrow (plainKey st .gms) ∧
      guessKey .checked st (exElsewhere (plainKey st .gms 0)) = .ok none := by
  generalize hx : plainKey st .gms 0 = x
  have h1 : ∀ x : Byte, Header.readFromBuf (exElsewhere x) = .ok (exHeader1, 16) := by decide +kernel
  have h2 : ∀ x : Byte, orNone ((Rd.firstName exHeader1).run (plainEnv .checked (exElsewhere x)) ⟨0, 0⟩).1 = .ok StrMeta.none := by
    decide +kernel
  refine ⟨exHeader1, 16, h1 x, rfl, rfl, ⟨['a'], by decide, rfl, ⟨(exElsewhere x).take 26, [0#8], ?_, rfl⟩⟩, ?_⟩
  · subst hx; rfl
  · refine guess_nothing (by rw [headerOf_ok (h1 x), h2]) ?_
    rw [headerOf_ok (h1 x), firstName2_other (by decide)]
    rfl

/-! ## Archives meeting the hypotheses -/

/-- the GMS stream of the examples -/
def exGms : Nat → Byte := plainKey exStream .gms

/-- a directory of PKG1 with one entry, whose name has this form -/
def exDir1 (t len : Byte) (nm : Bytes) : Bytes := exPkg1 ([1#8, t, len] ++ nm ++ [1#8, 0#8])

theorem exDir1_first {t len : Byte} {nm : Bytes} {n : Nat} {form : NameForm} (h : NameLen n form [len]) :
    FirstName (exDir1 t len nm) exHeader1.dataStart 1 t n form 21 :=
  ⟨[byteOf 1], [len], .short (by omega) (by omega), h, ⟨exHead1, nm ++ [1#8, 0#8], by unfold exDir1 exPkg1; simp [byteOf], rfl⟩, rfl⟩

theorem exDir1_name {t len : Byte} {nm : Bytes} : Holds (exDir1 t len nm) 21 nm :=
  ⟨exHead1 ++ [1#8, t, len], [1#8, 0#8], by unfold exDir1 exPkg1; simp, rfl⟩

/-- `C55_guess_pkg1`, `C55_found_narrow`, `C55_given_used`, `C55_found_used`: the directory `Base` under the GMS key -/
def exBase : Bytes := exDir1 3#8 0xFC#8 (nameBytes exGms ['B', 'a', 's', 'e'] .narrow)

example : Header.readFromBuf exBase = .ok (exHeader1, 16) := by decide +kernel

example : exHeader1.ident = .v1 ∧ exBase.length < 2 ^ 63 ∧ PlainType 3#8 ∧ CountFits exHeader1.ident 1 :=
  ⟨rfl, by decide +kernel, .inl rfl, by decide, by decide⟩

example : FirstName exBase exHeader1.dataStart 1 3#8 ['B', 'a', 's', 'e'].length .narrow 21 :=
  exDir1_first (.narrow (.short (by decide) (by decide)))

example : Holds exBase 21 (nameBytes (plainKey exStream .gms) ['B', 'a', 's', 'e'] .narrow) := exDir1_name

example : guessKey .checked exStream exBase = .ok (some .gms) := by decide +kernel

example : verifyKey .checked exBase ⟨false, exGms⟩ = .ok true := by decide +kernel

example : verifyKey .checked exBase ⟨false, plainKey exStream .ems⟩ = .ok false := by decide +kernel

/-- `C55_found_wide`: the image `ab` with two bytes a character -/
def exWide : Bytes := exDir1 4#8 2#8 (nameBytes exGms ['a', 'b'] .wide)

example : Header.readFromBuf exWide = .ok (exHeader1, 16) := by decide +kernel

example : FirstName exWide exHeader1.dataStart 1 4#8 ['a', 'b'].length .wide 21 :=
  exDir1_first (.wide (.short (by decide) (by decide)))

example : guessKey .checked exStream exWide = .ok (some .gms) := by decide +kernel

/-- `C55_other_text`: a name that is not ASCII; no key is found -/
def exOther : Bytes := exDir1 4#8 1#8 (nameBytes exGms ['é'] .wide)

example : Header.readFromBuf exOther = .ok (exHeader1, 16) := by decide +kernel

example : FirstName exOther exHeader1.dataStart 1 4#8 (utf16EncStr ['é']).length .wide 21 :=
  exDir1_first (.wide (.short (by decide) (by decide)))

example : guessKey .checked exStream exOther = .ok none := by decide +kernel

/-- `C55_kmst1198_long`, `C55_guess_pkg2`: a first name of eight characters; `C55_given_pkg2`: its own key is dropped, and found
again -/
def exLong : Bytes :=
  exPkg2 ([7#8, 4#8, 0xF8#8] ++ nameBytes key1198 ['A', 'b', 'c', 'd', 'e', 'f', 'g', 'h'] .dir ++ [1#8, 0#8, 7#8])

example : Header.readFromBuf exLong = .ok (headerOf exLong, 16) := by decide +kernel

example : (headerOf exLong).dataStart = 24 ∧ (headerOf exLong).ident = .v2 := by decide +kernel

example : FirstShort exLong 24 7 4#8 ['A', 'b', 'c', 'd', 'e', 'f', 'g', 'h'].length 27 :=
  ⟨[byteOf 7], .short (by omega) (by omega), by decide, by decide, ⟨exLong.take 24, exLong.drop 27, by decide +kernel, by decide +kernel⟩, rfl⟩

example : Holds exLong 27 (nameBytes key1198 ['A', 'b', 'c', 'd', 'e', 'f', 'g', 'h'] .dir) :=
  ⟨exLong.take 27, exLong.drop 43, by decide +kernel, by decide +kernel⟩

example : guessKey .checked exStream exLong = .ok (some .kmst1198) := by decide +kernel

example : verifyKey .checked exLong exKey1198 = .ok false := by decide +kernel

/-- `C55_guess_pkg2_wide`: a PKG2 archive with a first name of two bytes a character -/
def exPkg2Wide : Bytes := exPkg2 ([7#8, 3#8, 2#8] ++ nameBytes exGms ['a', 'b'] .wide ++ [1#8, 0#8, 7#8])

example : Header.readFromBuf exPkg2Wide = .ok (headerOf exPkg2Wide, 16) ∧ (headerOf exPkg2Wide).ident = .v2 ∧
    (headerOf exPkg2Wide).dataStart = 24 := by decide +kernel

example : FirstName exPkg2Wide 24 7 3#8 2 .wide 27 :=
  ⟨[byteOf 7], [2#8], .short (by omega) (by omega), .wide (.short (by decide) (by decide)),
    ⟨exPkg2Wide.take 24, exPkg2Wide.drop 27, by decide +kernel, by decide +kernel⟩, rfl⟩

example : guessKey .checked exStream exPkg2Wide = .ok (some .gms) := by decide +kernel

/-- `C55_no_name`: no entries; `C55_empty_name`: an empty name -/
example : Header.readFromBuf (exPkg1 [0#8]) = .ok (exHeader1, 16) ∧ Header.readFromBuf (exPkg1 [1#8, 3#8, 0#8]) = .ok (exHeader1, 16) := by
  decide +kernel

example : Holds (exPkg1 [0#8]) 18 [byteOf 0] ∧ Holds (exPkg1 [1#8, 5#8]) 18 ([byteOf 1] ++ [5#8]) ∧
    Holds (exPkg1 [1#8, 3#8, 0#8]) 18 ([byteOf 1] ++ [3#8] ++ [0#8]) :=
  ⟨⟨exHead1, [], rfl, rfl⟩, ⟨exHead1, [], rfl, rfl⟩, ⟨exHead1, [], rfl, rfl⟩⟩

example : IsWzInt 4 0 [byteOf 0] ∧ ¬(1 ≤ (0 : Int) ∧ (0 : Int) ≤ 1000000) := ⟨.short (by omega) (by omega), by omega⟩

/-- `C55_pkg2_empty`: the number of entries is followed by itself -/
def exNone2 : Bytes := exPkg2 ([0x80#8] ++ toLE 4 7 ++ [0x80#8] ++ toLE 4 7)

example : Header.readFromBuf exNone2 = .ok (headerOf exNone2, 16) ∧ (headerOf exNone2).ident = .v2 ∧ (headerOf exNone2).dataStart = 24 := by
  decide +kernel

example : Holds exNone2 24 ((0x80#8 :: toLE 4 7) ++ (0x80#8 :: toLE 4 7)) :=
  ⟨exNone2.take 24, [], by decide +kernel, by decide +kernel⟩

/-- `C55_name_elsewhere`: a record `ab` 7 bytes after the beginning of the directory -/
def exElse : Bytes := exPkg1 ([1#8, 2#8] ++ toLE 4 7 ++ [0#8, 4#8, 0xFE#8] ++ cipherAscii exGms [0x61#8, 0x62#8])

example : Header.readFromBuf exElse = .ok (exHeader1, 16) := by decide +kernel

example : Holds exElse 18 ([byteOf 1] ++ [2#8] ++ toLE 4 7) ∧ NameLen 2 .narrow [0xFE#8] ∧ Holds exElse (18 + 7 + 1) [0xFE#8] :=
  ⟨⟨exHead1, exElse.drop 24, rfl, rfl⟩, .narrow (.short (by decide) (by decide)), ⟨exElse.take 26, exElse.drop 27, by decide +kernel, by decide +kernel⟩⟩

/-- `C55_length_panics`: the length -1 in the long form -/
def exPanic : Bytes := exPkg1 ([1#8, 4#8, 0x7F#8] ++ toLE 4 (unsign 32 (-1)))

example : Header.readFromBuf exPanic = .ok (exHeader1, 16) := by decide +kernel

example : Holds exPanic 18 ([byteOf 1] ++ [4#8] ++ (0x7F#8 :: toLE 4 (unsign 32 (-1)))) := ⟨exHead1, [], rfl, rfl⟩

end Wz.Props
