import Verif.Directory.FoundProps
import Verif.File.CacheProps
import Verif.File.Pkg1Props
/-!
# C71 for whole files
-/

set_option autoImplicit false

namespace Wz.Props

open Spec

/-- C71: the tree of a PKG1 file that was opened without a version is stored in the file, for one of the versions tried. -/
theorem C71_pkg1_file (F : Fuel) (f : WFile) (n : Nat) (hn : F.nest ≠ 0) (hbuf : f.env.buf ≠ []) (hi : f.hdr.ident = .v1)
    (he : ∀ ev, f.hdr.encVer = some ev → ev < 2 ^ 16) (hp : f.patch = -1) (hfuel : 2000 < n) (hm : f.env.mode = .checked)
    (hf : f.hdr.fstart < 2 ^ 32) (hb : f.env.buf.length < 2 ^ 63)
    (kids : List (List Char × DNode)) (h : (f.parsePkg1 F n none).1 = .ok kids) :
    ∃ v, TriedVersion f.hdr.encVer v ∧
      FoundDir (FoundBlock1 ⟨f.env, f.hdr, f.keys2⟩ (BitVec.ofNat 64 (verHash v))) f.hdr.dataStart kids := by
  obtain ⟨v, -, hv, ha, -⟩ := C54_only F f n hn hbuf hi he hp hfuel kids h
  exact ⟨v, hv, C71_pkg1 f.ctx _ F.loop F.nest f.hdr.dataStart f.env.buf.length kids hm hi hf hb (by simpa using hbuf) ha⟩

/-- the file of C54 meets the hypotheses: it is opened -/
example : ∃ (F : Fuel) (kids : List (List Char × DNode)), F.nest ≠ 0 ∧ wfile1.env.buf ≠ [] ∧ wfile1.hdr.ident = .v1 ∧
    (∀ ev, wfile1.hdr.encVer = some ev → ev < 2 ^ 16) ∧ wfile1.patch = -1 ∧ wfile1.env.mode = .checked ∧
    wfile1.hdr.fstart < 2 ^ 32 ∧ wfile1.env.buf.length < 2 ^ 63 ∧ (wfile1.parsePkg1 F 2001 none).1 = .ok kids := by
  have h83 : verHash 83 = 1876 := by simp [verHash]
  obtain ⟨N, hN⟩ := C54_opens wfile1 83 [(['a'], .image 104 1), (['b'], .dir 94 10 [(['c'], .image 105 1)])] rfl (by decide) (by decide +kernel) (by decide +kernel)
    (by intro ev h; cases h; decide) rfl ⟨by omega, by omega, .inr (by rw [h83]; decide)⟩ (by rw [h83]; exact file1_holds)
  exact ⟨⟨N + 1, N + 1⟩, _, by simp, by decide +kernel, rfl, (by intro ev h; cases h; decide), rfl, rfl, by decide,
    by decide +kernel, (hN ⟨N + 1, N + 1⟩ (by simp) (by simp) 2001 (by omega) fun u h hu => absurd hu (no_earlier u h)).1⟩

/-- C71: or for the version given. -/
theorem C71_pkg1_given (F : Fuel) (f : WFile) (n v : Nat) (hn : F.nest ≠ 0) (hbuf : f.env.buf ≠ []) (hi : f.hdr.ident = .v1)
    (he : ∀ ev, f.hdr.encVer = some ev → ev < 2 ^ 16) (hv : v < 10 ^ 6) (hm : f.env.mode = .checked)
    (hf : f.hdr.fstart < 2 ^ 32) (hb : f.env.buf.length < 2 ^ 63)
    (kids : List (List Char × DNode)) (h : (f.parsePkg1 F n (some v)).1 = .ok kids) :
    FoundDir (FoundBlock1 ⟨f.env, f.hdr, f.keys2⟩ (BitVec.ofNat 64 (verHash v))) f.hdr.dataStart kids := by
  obtain ⟨h1, h2, -⟩ := C54_given F f n v hn hbuf hi he hv
  have hg : GivenVersion f.hdr.encVer v := by
    apply Classical.byContradiction
    intro hg
    rw [h1 hg] at h
    cases h
  exact C71_pkg1 f.ctx _ F.loop F.nest f.hdr.dataStart f.env.buf.length kids hm hi hf hb (by simpa using hbuf) ((h2 hg kids).1 h)

/-- C71: the tree of a PKG2 file is stored in the file, for the version hash and profile it was opened with. -/
theorem C71_pkg2_file (F : Fuel) (f : WFile) (cache : List Cached) (hn : F.nest ≠ 0) (hbuf : f.env.buf ≠ [])
    (hg : ∀ c ∈ cache, c.profile.gen ≠ .unknown) (hi : f.hdr.ident = .v2) (hm : f.env.mode = .checked)
    (hf : f.hdr.fstart < 2 ^ 32) (hb : f.env.buf.length < 2 ^ 63) (c : Cached)
    (kids : List (List Char × DNode)) (h : (f.parsePkg2 F cache).1 = .ok (c, kids)) :
    if f.hdr.isPkg2_64 then FoundDir (FoundBlock64 (reading f c) c.hash) f.hdr.dataStart kids
    else FoundDir (FoundBlock2 (reading f c) c.profile.ver c.hash) f.hdr.dataStart kids := by
  obtain ⟨cands, -, -, h3, -⟩ := C44_first F f cache hn hbuf hg
  obtain ⟨⟨-, ho⟩, -⟩ := h3 c kids h
  obtain ⟨k, hk⟩ := reading_key f c
  unfold attempt untouched at ho
  split
  · rename_i hx
    exact (C71_pkg2_64 (reading f c) c.hash c.profile.ver F.loop F.nest f.hdr.dataStart f.env.buf.length kids
      (by rw [hk]; exact hm) (by rw [hk]; exact hi) (by rw [hk]; exact hx) (by rw [hk]; exact hf) (by rw [hk]; exact hb)
      (by simpa using hbuf) ho).2
  · rename_i hx
    have hx : f.hdr.isPkg2_64 = false := by simpa using hx
    exact C71_pkg2 (reading f c) c.hash c.profile.ver F.loop F.nest f.hdr.dataStart f.env.buf.length kids
      (by rw [hk]; exact hm) (by rw [hk]; exact hi) (by rw [hk]; exact hx) (by rw [hk]; exact hf) (by rw [hk]; exact hb)
      (by simpa using hbuf) ho

end Wz.Props
