import Verif.File.Model
import Verif.File.Blind
import Verif.Version.Pkg2Spec
/-!
# Specification: which profile a PKG2 file is opened with
-/

set_option autoImplicit false

namespace Wz.Spec

/-- the low 32 bits -/
def lo32 (w : BitVec 64) : BitVec 32 := BitVec.ofNat 32 w.toNat

/-- the version hash `t` solves the equation of the generation for the two words of the header -/
def Equation (g : VerGen) (h1 h2 t : BitVec 64) : Prop :=
  match g with
  | .v1 => Solves1 (lo32 h1) (lo32 h2) (lo32 t)
  | .v2 => Solves2 (lo32 h1) (lo32 h2) (lo32 t)
  | .v3 => Solves3 (lo32 h1) (lo32 h2) (lo32 t)
  | .v4 => Solves4 (lo32 h1) (lo32 h2) (lo32 t)
  | .v5 => Solves5 (lo32 h1) (lo32 h2) (lo32 t)
  | .v6 => Solves6 h1 h2 t
  | .unknown => False

/-- solutions that are never looked for (the exceptions of C13) -/
def Overlooked (g : VerGen) (h1 t : BitVec 64) : Prop :=
  match g with
  | .v2 => t ≠ 0 ∧ t.toNat % 32 = 0
  | .v3 => t ≠ 0 ∧ t.toNat % 16 = 0 ∧ h1.toNat % 16 = 0
  | .v4 | .v5 => t.toNat = 2 ^ 32 - 1
  | _ => False

/-- the version hashes tried for a generation: the solutions, of 32 bits in the first five generations, that are
not overlooked -/
def Listed (g : VerGen) (h1 h2 t : BitVec 64) : Prop :=
  Equation g h1 h2 t ∧ (g ≠ .v6 → t.toNat < 2 ^ 32) ∧ ¬Overlooked g h1 t

/-- the profiles, newest first: one for headers with 64-bit words, six for headers with 32-bit words -/
def rows (wide : Bool) : List Profile :=
  if wide then [⟨.v1202, .kmst1202, .v6, .pkg2_64V1⟩]
  else [⟨.v1201, .kmst1199, .v4, .pkg2V3⟩, ⟨.v1200, .kmst1199, .v5, .pkg2V3⟩, ⟨.v1199, .kmst1199, .v4, .pkg2V3⟩,
    ⟨.v1198, .kmst1198, .v3, .pkg2V2⟩, ⟨.v1197, .unknown, .v2, .pkg2V2⟩, ⟨.v1196, .unknown, .v1, .pkg2V1⟩]

/-- a cached profile that fits the header -/
def Fits (h : Header) (c : Cached) : Prop :=
  (c.profile.name = .v1202 ↔ h.isPkg2_64 = true) ∧ Equation c.profile.gen h.hash1 h.hash2 c.hash

open Classical in
/-- the candidates in the order in which they are tried: the cached ones that fit, then every profile with its
hashes -/
def Candidates (h : Header) (cache cands : List Cached) : Prop :=
  ∃ lists : List (List (BitVec 64)),
    All2 (fun (p : Profile) hs => hs.Nodup ∧ ∀ t, t ∈ hs ↔ Listed p.gen h.hash1 h.hash2 t) (rows h.isPkg2_64) lists ∧
    cands = cache.filter (fun c => Fits h c) ++
      (List.zipWith (fun p hs => hs.map fun t => (⟨p, t⟩ : Cached)) (rows h.isPkg2_64) lists).flatten

/-- byte `i` of the key of the root directory's names made from a 64-bit word -/
def dirKey (w : BitVec 64) (i : Nat) : Byte :=
  BitVec.ofNat 8 (w.toNat / 256 ^ ([0, 1, 1, 2, 2, 3, 3, 4].getD (i % 8) 0) % 256)

/-- how the file is read for a candidate: if its string decryptor is not known, with the key of the candidate -/
def reading (f : WFile) (c : Cached) : DirCtx :=
  if f.verified then ⟨f.env, f.hdr, f.keys2⟩
  else
    let w : BitVec 64 :=
      if c.profile.name = .v1202 then kmst1202Key f.hdr.hash1 c.hash
      else BitVec.ofNat 64 (kmst1199Key (lo32 f.hdr.hash1) (lo32 c.hash)).toNat
    ⟨{ f.env with ks2 := dirKey w }, f.hdr, f.keys2⟩

/-- the root directory of a file of which nothing was read -/
def untouched (f : WFile) (c : Cached) : Dir :=
  { offset := f.hdr.dataStart, blockSize := f.env.buf.length, hash := c.hash, ver := c.profile.ver }

/-- reading the directory for a candidate, with nothing tried before -/
def attempt (F : Fuel) (f : WFile) (c : Cached) : Except Err (List (List Char × DNode)) :=
  resolveDir (reading f c) F.loop F.nest (untouched f c)

/-- the candidate opens the file -/
def Opens (F : Fuel) (f : WFile) (c : Cached) (kids : List (List Char × DNode)) : Prop :=
  c.hash ≠ 0 ∧ attempt F f c = .ok kids

/-- the candidate does not open the file, and finding out does not crash -/
def Refused (F : Fuel) (f : WFile) (c : Cached) : Prop :=
  (c.hash = 0 ∨ ∃ e, attempt F f c = .error e ∧ e.ends = false) ∧
  (f.verified = false → ∀ e, (prepareEntries (reading f c) F.loop (untouched f c) >>= verifyStringDecryptor (reading f c)) = .error e →
    e.ends = false)

end Wz.Spec
