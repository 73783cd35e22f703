import Verif.Whole.OpenModel
import Verif.Whole.Spec
import Verif.Whole.MsSpec
import Verif.File.GuessSpec
import Verif.File.Pkg1Spec
import Verif.File.IvSpec
import Verif.Resolve.Spec
import Verif.Header.Spec

/-!
# What it means that a file is opened
-/

set_option autoImplicit false

namespace Wz.Spec

open Wz

/-- A PKG1 file begins with a header: its contents start at `fstart`, with the checksum `enc` of its version or without one. -/
def Pkg1Head (buf : Bytes) (fsize fstart : Nat) (enc : Option Nat) : Prop :=
  PlainHeader buf "PKG1" fsize fstart ∧ match enc with
    | some v => VersionPresent buf fsize fstart v
    | none => ∀ v, ¬VersionPresent buf fsize fstart v

/-- where its directory is -/
def pkg1Start (fstart : Nat) (enc : Option Nat) : Nat :=
  match enc with
  | some _ => fstart + 2
  | none => fstart

/-- the fields of such a header -/
def pkg1Fields (fsize fstart : Nat) (enc : Option Nat) : Header :=
  { ident := .v1, fsize := fsize, fstart := fstart, dataStart := pkg1Start fstart enc, encVer := enc, hash1 := 0#64, hash2 := 0#64,
    flags := ⟨0#8⟩ }

/-- A PKG2 file begins with a header and two numbers, or with a scrambled one of 68 or 150 bytes. -/
inductive Pkg2Head (buf : Bytes) : Header → Prop
  | plain (fsize fstart h1 h2 : Nat) : PlainHeader buf "PKG2" fsize fstart → Holds buf fstart (toLE 4 h1 ++ toLE 4 h2) → h1 < 2 ^ 32 →
      h2 < 2 ^ 32 → Pkg2Head buf ⟨.v2, fsize, fstart, fstart + 8, none, BitVec.ofNat 64 h1, BitVec.ofNat 64 h2, ⟨0#8⟩⟩
  | random32 (h1 h2 : BitVec 32) : 68 ≤ buf.length → buf.length - 68 < 2 ^ 32 →
      buf.take 4 ≠ asciiBytes "PKG1" → buf.take 4 ≠ asciiBytes "PKG2" →
      (∀ bs, Scattered buf pos64size bs → 150 ≤ buf.length → leNat bs ≠ buf.length - 150) →
      Scattered buf pos32hash1 (toLE 4 h1.toNat) → Scattered buf pos32hash2 (toLE 4 h2.toNat) →
      Scattered buf pos32size (toLE 4 (buf.length - 68)) →
      Pkg2Head buf ⟨.v2, buf.length - 68, 68, 68, none, h1.setWidth 64, h2.setWidth 64, ⟨2#8⟩⟩
  | random64 (h1 h2 : BitVec 64) : 150 ≤ buf.length → buf.length - 150 < 2 ^ 32 →
      buf.take 4 ≠ asciiBytes "PKG1" → buf.take 4 ≠ asciiBytes "PKG2" →
      Scattered buf pos64hash1 (toLE 8 h1.toNat) → Scattered buf pos64hash2 (toLE 8 h2.toNat) →
      Scattered buf pos64size (toLE 4 (buf.length - 150)) →
      Pkg2Head buf ⟨.v2, buf.length - 150, 150, 150, none, h1, h2, ⟨4#8⟩⟩

/-- a file before it is parsed -/
def unparsed (m : Mode) (buf : Bytes) (h : Header) (ks ks2 : Nat → Byte) (pkg2 verified : Bool) (patch : Int) : WFile :=
  { env := ⟨m, buf, ks, ks2⟩, hdr := h, keys2 := pkg2, patch := patch, verHeader := 0, withEnc := true, hash := 0#64,
    verified := verified, parsed := false }

/-- a file for which this version was found, or none -/
def foundFile (m : Mode) (st : Bytes → Nat → Byte) (buf : Bytes) (h : Header) : Option MapleVersion → WFile
  | some .kmst1198 => unparsed m buf h (fun _ => 0#8) key1198 true true (-1)
  | some v => unparsed m buf h (plainKey st v) (plainKey st v) false true (-1)
  | none => unparsed m buf h (fun _ => 0#8) (fun _ => 0#8) true false (-1)

/-- The first entry of the directory at `start` has a name of `n` characters in this form at `p`. -/
def FirstEntry (buf : Bytes) (start p n : Nat) (form : NameForm) : Prop :=
  ∃ count t, FirstName buf start count t n form p ∧ PlainType t ∧ 1 ≤ count ∧ count ≤ 1000000

/-- The call made a node with this name and parent.  Wherever it is, parsing it succeeds, and afterwards, whatever was looked up,
read and forgotten before, every path shows what is in the archive. -/
def OpensAs (r : Except Err (NCell × WFile)) (name : List Char) (parent : Option Nat) (content : WFile → Content) (e : Env)
    (arch : List (List Char × ATree)) : Prop :=
  ∃ c f, r = .ok (c, f) ∧ c.name = name ∧ c.parent = parent ∧ ∀ (h : NHeap) (i : Nat), h.cell i = some c →
    ∃ g, h.parse (content f) i = (.ok (), g) ∧
      ∀ ops, (∀ op ∈ ops, AllowedArc arch op) → FindsArchive (content f) e (runArc (content f) i g ops) i arch

/-- the call made a node of an image with this name, which can be parsed and then shows what is in it -/
def OpensImage (r : Except Err (NCell × Env)) (name : List Char) (parent : Option Nat) (fuel : Nat) (kids : List (List Char × PTree)) : Prop :=
  ∃ c e, r = .ok (c, e) ∧ c.name = name ∧ c.parent = parent ∧ ∀ (h : NHeap) (i : Nat), h.cell i = some c →
    ∃ g, h.parse (imgContent e fuel) i = (.ok (), g) ∧ ∀ path n ns, Pieces path (n :: ns) →
      match propAt kids (n :: ns) with
      | some v => ∃ j g' c, g.atPathParsed (imgContent e fuel) i path = (.ok j, g') ∧ g'.cell j = some c ∧
          (n :: ns).getLast? = some c.name ∧ KindShows e c.kind (.prop v)
      | none => (g.atPathParsed (imgContent e fuel) i path).1 = .error (.lib "NodeNotFound")

end Wz.Spec
