import Verif.File.Pkg1Loops
import Verif.Directory.Props
/-!
# Property theorems about opening PKG1 files: C54
-/

set_option autoImplicit false

namespace Wz.Props
open Spec

theorem fits_770 (v : Nat) : VersionFits 770 v ↔ v = 770 :=
  ⟨fun h => Decidable.byContradiction fun hv => C49_never_above v hv h, fun h => .inl (by omega)⟩

/-- the loop as called by `parsePkg1` -/
theorem versions_all {F : Fuel} {f : WFile} {n : Nat} (hn : F.nest ≠ 0) (hbuf : f.env.buf ≠ []) (hi : f.hdr.ident = .v1)
    (he : ∀ ev, f.hdr.encVer = some ev → ev < 2 ^ 16) (hfuel : 2000 < n) :
    let r := pkg1Versions F f f.hdr.encVer.isSome n (Pkg1.parseGen f.hdr.encVer) f.root
    (∀ v kids, TriedVersion f.hdr.encVer v → attempt1 F f v = .ok kids →
      (∀ u, TriedVersion f.hdr.encVer u → u < v → Refused1 F f u) → r = .ok (some ((v : Int), verHash v, kids))) ∧
    (∀ v h kids, r = .ok (some (v, h, kids)) → ∃ w : Nat, v = w ∧ h = verHash w ∧ TriedVersion f.hdr.encVer w ∧
      attempt1 F f w = .ok kids ∧ ∀ u, TriedVersion f.hdr.encVer u → u < w → Refused1 F f u) ∧
    ((∀ v, TriedVersion f.hdr.encVer v → Refused1 F f v) → r = .ok none) := by
  unfold TriedVersion
  cases hv : f.hdr.encVer with
  | some ev =>
    have := he ev hv
    obtain ⟨a, b, c⟩ := versions_loop (F := F) (f := f) (we := true) (ev := (ev : Int)) hn hbuf hi (fun h => by (cases h)) (by omega) (by omega)
      2000 1 n 2000 f.root (by omega) (by omega) hfuel (fun h => by (cases h)) (.start F f)
    refine ⟨fun v kids h1 h2 h3 => a v kids h1.1 (by omega) h1.2.2 h2 fun u x y z => h3 u ⟨x, by omega, z⟩ y, fun v h kids hr => ?_, fun hr => ?_⟩
    · obtain ⟨w, h1, h2, h3, h4, h5, h6, h7⟩ := b v h kids hr
      exact ⟨w, h1, h2, ⟨h3, by omega, h5⟩, h6, fun u x y => h7 u x.1 y x.2.2⟩
    · exact c fun v x y z => hr v ⟨x, by omega, z⟩
  | none =>
    obtain ⟨a, b, c⟩ := versions_loop (F := F) (f := f) (we := false) (ev := 770) hn hbuf hi (fun _ => rfl) (by omega) (by omega)
      11 770 n 780 f.root (by omega) (by omega) (by omega) (fun _ => .inl rfl) (.start F f)
    refine ⟨fun v kids h1 h2 h3 => ?_, fun v h kids hr => ?_, fun hr => ?_⟩
    · have h1 : v = 770 := h1
      subst h1
      exact a 770 kids (by omega) (by omega) ((fits_770 _).mpr rfl) h2 (fun u x y => by omega)
    · obtain ⟨w, h1, h2, h3, h4, h5, h6, h7⟩ := b v h kids hr
      have := (fits_770 w).mp h5
      exact ⟨w, h1, h2, this, h6, fun u (x : u = 770) y => by omega⟩
    · exact c fun v _ _ z => hr v ((fits_770 v).mp z)

/-- the file after it was opened with version `v` -/
def openedWith (f : WFile) (v : Nat) (f' : WFile) : Prop :=
  f'.patch = v ∧ f'.hash = BitVec.ofNat 64 (verHash v) ∧ f'.parsed = true ∧ f'.env = f.env ∧ f'.hdr = f.hdr ∧ f'.keys2 = f.keys2 ∧
    f'.verified = f.verified

/-- C54: without a given version, a PKG1 file is opened with the first version that fits its header and under which
its directory can be read; the children are those read with that version alone, and the version is remembered. -/
theorem C54_first (F : Fuel) (f : WFile) (n : Nat) (hn : F.nest ≠ 0) (hbuf : f.env.buf ≠ []) (hi : f.hdr.ident = .v1)
    (he : ∀ ev, f.hdr.encVer = some ev → ev < 2 ^ 16) (hp : f.patch = -1) (hfuel : 2000 < n) (v : Nat)
    (kids : List (List Char × DNode)) (hv : TriedVersion f.hdr.encVer v) (ha : attempt1 F f v = .ok kids)
    (hu : ∀ u, TriedVersion f.hdr.encVer u → u < v → Refused1 F f u) :
    (f.parsePkg1 F n none).1 = .ok kids ∧ openedWith f v (f.parsePkg1 F n none).2 := by
  have h := (versions_all hn hbuf hi he hfuel).1 v kids hv ha hu
  unfold WFile.parsePkg1
  dsimp only [Option.getD_none]
  rw [if_pos hp, h]
  exact ⟨rfl, rfl, rfl, rfl, rfl, rfl, rfl, rfl⟩

/-- C54: and if it is opened, then with such a version. -/
theorem C54_only (F : Fuel) (f : WFile) (n : Nat) (hn : F.nest ≠ 0) (hbuf : f.env.buf ≠ []) (hi : f.hdr.ident = .v1)
    (he : ∀ ev, f.hdr.encVer = some ev → ev < 2 ^ 16) (hp : f.patch = -1) (hfuel : 2000 < n)
    (kids : List (List Char × DNode)) (h : (f.parsePkg1 F n none).1 = .ok kids) :
    ∃ v, openedWith f v (f.parsePkg1 F n none).2 ∧ TriedVersion f.hdr.encVer v ∧ attempt1 F f v = .ok kids ∧
      ∀ u, TriedVersion f.hdr.encVer u → u < v → Refused1 F f u := by
  have key := (versions_all hn hbuf hi he hfuel).2.1
  unfold WFile.parsePkg1 at h ⊢
  dsimp only [Option.getD_none] at h ⊢
  rw [if_pos hp] at h ⊢
  cases hr : pkg1Versions F f f.hdr.encVer.isSome n (Pkg1.parseGen f.hdr.encVer) f.root with
  | error e => rw [hr] at h; cases h
  | ok o =>
    cases o with
    | none => rw [hr] at h; cases h
    | some t =>
      obtain ⟨v, w, ns⟩ := t
      rw [hr] at h
      injection h with h
      subst h
      obtain ⟨v', rfl, rfl, h1, h2, h3⟩ := key v w _ hr
      exact ⟨v', ⟨rfl, rfl, rfl, rfl, rfl, rfl, rfl⟩, h1, h2, h3⟩

/-- C54: if no version fits and opens, the error says so. -/
theorem C54_none (F : Fuel) (f : WFile) (n : Nat) (hn : F.nest ≠ 0) (hbuf : f.env.buf ≠ []) (hi : f.hdr.ident = .v1)
    (he : ∀ ev, f.hdr.encVer = some ev → ev < 2 ^ 16) (hp : f.patch = -1) (hfuel : 2000 < n)
    (hr : ∀ v, TriedVersion f.hdr.encVer v → Refused1 F f v) :
    (f.parsePkg1 F n none).1 = .error (.lib "ErrorGameVerHash") := by
  have h := (versions_all hn hbuf hi he hfuel).2.2 hr
  unfold WFile.parsePkg1
  dsimp only [Option.getD_none]
  rw [if_pos hp, h]

/-- a file without a version number whose directory says it has -1 entries -/
example : (({ env := ⟨.checked, [0xFF#8], fun _ => 0#8, fun _ => 0#8⟩, hdr := { ident := .v1, fstart := 0, dataStart := 0, encVer := none }, keys2 := false, verified := true } : WFile).parsePkg1
    ⟨1, 1⟩ 2001 none).1 = .error (.lib "ErrorGameVerHash") := by
  refine C54_none _ _ 2001 (by decide) (List.cons_ne_nil _ _) rfl (fun _ h => by cases h) rfl (by decide) fun v hv => ?_
  cases (show v = 770 from hv)
  exact ⟨_, rfl, rfl⟩

/-- C54: a call that fails leaves the file as it was. -/
theorem C54_failure (F : Fuel) (f : WFile) (n : Nat) (patch : Option Int) (e : Err) (h : (f.parsePkg1 F n patch).1 = .error e) :
    (f.parsePkg1 F n patch).2 = f := by
  unfold WFile.parsePkg1 at h ⊢
  dsimp only at h ⊢
  split
  · rename_i hp
    rw [if_pos hp] at h
    split
    · rfl
    · rfl
    · rename_i hr
      rw [hr] at h
      cases h
  · rename_i hp
    rw [if_neg hp] at h
    split
    · rfl
    · rename_i hr
      rw [hr] at h
      dsimp only at h
      split
      · rfl
      · rename_i hd
        rw [hd] at h
        cases h

/-- the file after a success with a version -/
def tried1 (f : WFile) (we : Bool) (v : Nat) (vh : Int) : WFile :=
  let h := BitVec.ofNat 64 (if VersionFits vh v then verHash v else 0)
  { f with patch := v, verHeader := vh, withEnc := we, hash := h, parsed := true }

/-- the call with a version, given or remembered -/
theorem with_version {F : Fuel} {f : WFile} {n : Nat} {patch : Option Int} {v : Nat} (hn : F.nest ≠ 0) (hbuf : f.env.buf ≠ [])
    (hi : f.hdr.ident = .v1) (he : ∀ ev, f.hdr.encVer = some ev → ev < 2 ^ 16) (hv : v < 10 ^ 6)
    (hp : patch.getD f.patch = v) :
    (¬GivenVersion f.hdr.encVer v → (f.parsePkg1 F n patch).1 = .error (.lib "ErrorGameVerHash")) ∧
    (GivenVersion f.hdr.encVer v → ∀ kids, (f.parsePkg1 F n patch).1 = .ok kids ↔ attempt1 F f v = .ok kids) ∧
    (∀ kids, (f.parsePkg1 F n patch).1 = .ok kids → openedWith f v (f.parsePkg1 F n patch).2) := by
  have hfit : ∃ vh : Int, (match f.hdr.encVer with | some v => (v : Int) | none => 770) = vh ∧ 0 ≤ vh ∧ vh < 2 ^ 16 ∧
      (GivenVersion f.hdr.encVer v ↔ VersionFits vh v) ∧ ¬(f.hdr.encVer.isSome = false ∧ vh = 113) := by
    unfold GivenVersion
    cases hv : f.hdr.encVer with
    | some ev =>
      have := he ev hv
      exact ⟨ev, rfl, by omega, by omega, Iff.rfl, fun h => by (cases h.1)⟩
    | none => exact ⟨770, rfl, by omega, by omega, (fits_770 v).symm, fun h => by omega⟩
  obtain ⟨vh, hvh, h0, h1, hiff, h113⟩ := hfit
  have hc := checkHash_eq f.env.mode (Pkg1.Gen.new vh v 2000) v rfl hv (by show -2 ^ 31 ≤ vh; omega) (by show vh < 2 ^ 31; omega)
  have hrun : f.parsePkg1 F n patch =
      match tryDecode f.ctx F.loop F.nest f.hdr.encVer.isSome vh
          { f.root with hash := BitVec.ofNat 64 (if VersionFits vh v then verHash v else 0) } with
      | (.error e, _) => (.error e, f)
      | (.ok ns, _) => (.ok ns, tried1 f f.hdr.encVer.isSome v vh) := by
    unfold WFile.parsePkg1
    dsimp only
    rw [hp, if_neg (by omega)]
    have e : (match f.hdr.encVer with | some v => (v : Int) | none => 770) = vh := hvh
    revert e
    cases f.hdr.encVer <;> (intro e; dsimp only at e ⊢; subst e; rw [hc]; rfl)
  rw [hrun, hiff]
  by_cases hf : VersionFits vh v
  · rw [if_pos hf]
    have key := decode1 (v := v) (we := f.hdr.encVer.isSome) (vh := vh) hn hbuf hi hv
      ((Halfway.start F f).hash (BitVec.ofNat 64 (verHash v))) rfl h113
    refine ⟨fun h => absurd hf h, fun _ kids => ⟨fun h => ?_, fun h => ?_⟩, fun kids h => ?_⟩
    · cases ha : attempt1 F f v with
      | ok k =>
        have := key.1 k ha
        split at h
        · rename_i hd
          rw [hd] at this; cases this
        · rename_i hd
          rw [hd] at this
          cases this
          exact h
      | error e =>
        obtain ⟨e', h1, -⟩ := key.2 e ha
        split at h
        · cases h
        · rename_i hd
          rw [hd] at h1; cases h1
    · have := key.1 kids h
      split
      · rename_i hd
        rw [hd] at this; cases this
      · rename_i hd
        rw [hd] at this
        exact this
    · split
      · rename_i hd
        rw [hd] at h; cases h
      · exact ⟨rfl, by unfold tried1; rw [if_pos hf], rfl, rfl, rfl, rfl, rfl⟩
  · rw [if_neg hf, tryDecode_zero _ _ _ _ _ _ rfl]
    exact ⟨fun _ => rfl, fun h => absurd h hf, fun kids h => by (cases h)⟩

/-- C54: a version given by the caller is the only one tried, whatever the file remembers.  One that does not fit the
header is an error, even if the directory could be read with it. -/
theorem C54_given (F : Fuel) (f : WFile) (n : Nat) (v : Nat) (hn : F.nest ≠ 0) (hbuf : f.env.buf ≠ [])
    (hi : f.hdr.ident = .v1) (he : ∀ ev, f.hdr.encVer = some ev → ev < 2 ^ 16) (hv : v < 10 ^ 6) :
    (¬GivenVersion f.hdr.encVer v → (f.parsePkg1 F n (some v)).1 = .error (.lib "ErrorGameVerHash")) ∧
    (GivenVersion f.hdr.encVer v → ∀ kids, (f.parsePkg1 F n (some v)).1 = .ok kids ↔ attempt1 F f v = .ok kids) ∧
    (∀ kids, (f.parsePkg1 F n (some v)).1 = .ok kids → openedWith f v (f.parsePkg1 F n (some v)).2) :=
  with_version hn hbuf hi he hv rfl

/-- C54: so a file without a version number in its header can be opened with version 770 and no other, even if the
caller knows better. -/
theorem C54_given_headerless (F : Fuel) (f : WFile) (n : Nat) (v : Nat) (hn : F.nest ≠ 0) (hbuf : f.env.buf ≠ [])
    (hi : f.hdr.ident = .v1) (he : f.hdr.encVer = none) (hv : v < 10 ^ 6) (h : v ≠ 770) :
    (f.parsePkg1 F n (some v)).1 = .error (.lib "ErrorGameVerHash") :=
  (C54_given F f n v hn hbuf hi (by rw [he]; intro ev h; cases h) hv).1 (by rw [he]; exact h)

example : (({ env := ⟨.checked, [0xFF#8], fun _ => 0#8, fun _ => 0#8⟩, hdr := { ident := .v1, fstart := 0, dataStart := 0, encVer := none }, keys2 := false, verified := true } : WFile).parsePkg1
    ⟨1, 1⟩ 2001 (some (83 : Nat))).1 = .error (.lib "ErrorGameVerHash") :=
  C54_given_headerless _ _ 2001 83 (by decide) (List.cons_ne_nil _ _) rfl rfl (by decide) (by decide)

/-- C54: a version number with seven or more digits crashes a build with overflow checks. -/
theorem C54_given_overflow (F : Fuel) (f : WFile) (n : Nat) (v : Nat) (hm : f.env.mode = .checked) (hv : 10 ^ 6 ≤ v) :
    (f.parsePkg1 F n (some v)).1 = .error .panicOverflow := by
  unfold WFile.parsePkg1
  dsimp only [Option.getD_some]
  rw [if_neg (by omega)]
  have h : ∀ vh : Int, (Pkg1.Gen.new vh v 2000).checkHash f.env.mode = .error .panicOverflow := by
    intro vh
    unfold Pkg1.Gen.checkHash
    rw [hm]
    have := C11_hash_overflow v hv
    show (Pkg1.versionHash .checked (v : Int) >>= _) = _
    rw [this]
    rfl
  rw [h]

/-- C54: parsing again after a success gives the same children, with the version remembered. -/
theorem C54_again (F : Fuel) (f : WFile) (n m : Nat) (hn : F.nest ≠ 0) (hbuf : f.env.buf ≠ []) (hi : f.hdr.ident = .v1)
    (he : ∀ ev, f.hdr.encVer = some ev → ev < 2 ^ 16) (hp : f.patch = -1) (hfuel : 2000 < n)
    (kids : List (List Char × DNode)) (h : (f.parsePkg1 F n none).1 = .ok kids) :
    ((f.parsePkg1 F n none).2.parsePkg1 F m none).1 = .ok kids ∧
    ((f.parsePkg1 F n none).2.parsePkg1 F m none).2.hash = (f.parsePkg1 F n none).2.hash ∧
    ((f.parsePkg1 F n none).2.parsePkg1 F m none).2.patch = (f.parsePkg1 F n none).2.patch := by
  obtain ⟨v, ho, ht, ha, -⟩ := C54_only F f n hn hbuf hi he hp hfuel kids h
  generalize (f.parsePkg1 F n none).2 = g at ho
  obtain ⟨o1, o2, o3, o4, o5, o6, o7⟩ := ho
  have hv : v < 10 ^ 6 ∧ GivenVersion g.hdr.encVer v := by
    rw [o5]
    unfold TriedVersion at ht
    unfold GivenVersion
    cases hx : f.hdr.encVer with
    | some ev => rw [hx] at ht; exact ⟨by have := ht.2.1; omega, ht.2.2⟩
    | none => rw [hx] at ht; exact ⟨by have : v = 770 := ht; omega, ht⟩
  have hw := with_version (F := F) (f := g) (n := m) (patch := none) (v := v) hn (by rw [o4]; exact hbuf) (by rw [o5]; exact hi)
    (by rw [o5]; exact he) hv.1 o1
  have hk : (g.parsePkg1 F m none).1 = .ok kids := by
    refine (hw.2.1 hv.2 kids).mpr ?_
    unfold attempt1 WFile.ctx at ha ⊢
    rw [o4, o5, o6]
    exact ha
  obtain ⟨p1, p2, -⟩ := hw.2.2 kids hk
  exact ⟨hk, by rw [p2, o2], by rw [p1, o1]⟩

/-- C54 from the side of the tool that writes the file: a file that holds a directory written for a version that fits
its header is opened and gives exactly that directory, unless an earlier version opens it or crashes. -/
theorem C54_opens (f : WFile) (v : Nat) (items : List (List Char × DNode)) (hi : f.hdr.ident = .v1)
    (hf : f.hdr.fstart < 2 ^ 32) (hb : f.env.buf.length < 2 ^ 63) (hbuf : f.env.buf ≠ [])
    (he : ∀ ev, f.hdr.encVer = some ev → ev < 2 ^ 16) (hp : f.patch = -1) (hv : TriedVersion f.hdr.encVer v)
    (h : HoldsDir (Block1 ⟨f.env, f.hdr, f.keys2⟩ (BitVec.ofNat 64 (verHash v))) f.hdr.dataStart items) :
    ∃ N, ∀ F : Fuel, N ≤ F.loop → N ≤ F.nest → ∀ n, 2000 < n →
      (∀ u, TriedVersion f.hdr.encVer u → u < v → Refused1 F f u) →
      (f.parsePkg1 F n none).1 = .ok items ∧ openedWith f v (f.parsePkg1 F n none).2 := by
  obtain ⟨N, hN⟩ := C19_pkg1 f.ctx (BitVec.ofNat 64 (verHash v)) f.hdr.dataStart f.env.buf.length items hi hf hb (by simpa using hbuf) h
  exact ⟨N + 1, fun F h1 h2 n hfuel hu => C54_first F f n (by omega) hbuf hi he hp hfuel v items hv
    (hN F.loop F.nest (by omega) (by omega)) hu⟩

/-! ### a concrete file -/

/-- the file of C19, with the version number 172 of its version 83 in the header -/
def wfile1 : WFile :=
  { env := (ctx1 .checked file1).env, hdr := hdr1, keys2 := false, verified := true }

theorem no_earlier (u : Nat) (h : TriedVersion (some 172) u) : ¬u < 83 := by
  obtain ⟨h1, h2, h3⟩ := h
  intro hu
  have hd : ∀ a : Fin 10, ∀ b : Fin 10, 1 ≤ a.val → a.val * 10 + b.val < 83 → 172 ≠ verCheck ((a.val + 49) * 32 + b.val + 49) := by decide +kernel
  have hs : ∀ b : Fin 10, 172 ≠ verCheck (b.val + 49) := by decide +kernel
  rcases h3 with h3 | h3
  · omega
  · by_cases h10 : u < 10
    · rw [verHash_lt u h10] at h3
      exact hs ⟨u, h10⟩ (by show 172 = verCheck (u + 49); omega)
    · rw [verHash_ge u (by omega), verHash_lt (u / 10) (by omega)] at h3
      exact hd ⟨u / 10, by omega⟩ ⟨u % 10, by omega⟩ (by show 1 ≤ u / 10; omega) (by show u / 10 * 10 + u % 10 < 83; omega)
        (by show 172 = verCheck ((u / 10 + 49) * 32 + u % 10 + 49); omega)

example : ∃ N, ∀ F : Fuel, N ≤ F.loop → N ≤ F.nest → ∀ n, 2000 < n →
    (wfile1.parsePkg1 F n none).1 = .ok [(['a'], .image 104 1), (['b'], .dir 94 10 [(['c'], .image 105 1)])] ∧
    openedWith wfile1 83 (wfile1.parsePkg1 F n none).2 := by
  have h83 : verHash 83 = 1876 := by simp [verHash]
  obtain ⟨N, hN⟩ := C54_opens wfile1 83 [(['a'], .image 104 1), (['b'], .dir 94 10 [(['c'], .image 105 1)])] rfl (by decide) (by decide +kernel) (by decide +kernel)
    (by intro ev h; cases h; decide) rfl ⟨by omega, by omega, .inr (by rw [h83]; decide)⟩ (by rw [h83]; exact file1_holds)
  exact ⟨N, fun F h1 h2 n h3 => hN F h1 h2 n h3 fun u h hu => absurd hu (no_earlier u h)⟩

end Wz.Props
