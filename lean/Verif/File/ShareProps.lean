import Verif.File.ShareLemmas
import Verif.File.GuessExamples

/-!
# C62: files that share decryptors do not disturb each other
-/

set_option autoImplicit false

namespace Wz.Props

open Wz Wz.Spec

/-- C62: whatever else a program does, in any order and with any number of files: what the decryptor of a file's texts puts on data
never changes. -/
theorem C62_texts {aes : Aes} (ha : aes.Sized) {m : Mode} {w w' : SWorld} {ops : List ShareOp} (hw : SharedWorld aes m w)
    (hr : SharedRun aes m w ops w') {i : Nat} {f : SFile} (hf : w.files[i]? = some f) :
    w'.files[i]? = some f ∧ ∃ key, HandleOf aes w.mem f.keys key ∧ HandleOf aes w'.mem f.keys key := by
  have h := world_inv ha hw
  have h' := run_inv ha hr h
  obtain ⟨h1, _, h3⟩ := h.keysAt f (List.mem_of_getElem? hf)
  obtain ⟨e, hlt⟩ := run_skey ha hr h h1 fun v op hv _ hp he hs => by
    cases op with
    | attempt j p hash =>
      unfold ShareOp.sets at hs
      dsimp only at hs
      cases hg : v.files[j]? with
      | none => rw [hg] at hs; cases hs
      | some g =>
        rw [hg] at hs
        dsimp only at hs
        split at hs
        · cases hs
        · rename_i hn
          have := (hv.own g (List.mem_of_getElem? hg) (by simpa using hn)).2
          rw [Option.some.inj hs, he, h3] at this
          cases this
    | _ => cases hs
  exact ⟨run_files ha hr h hf, _, handle_of ha h h1, e ▸ handle_of ha h' hlt⟩

/-- C62: the decryptor of a file's PKG2 names changes only when the file itself tries keys, and never if its keys were found when it
was opened. -/
theorem C62_names {aes : Aes} (ha : aes.Sized) {m : Mode} {w w' : SWorld} {ops : List ShareOp} (hw : SharedWorld aes m w)
    (hr : SharedRun aes m w ops w') {i : Nat} {f : SFile} (hf : w.files[i]? = some f)
    (hi : f.body.verified = true ∨ ∀ p hash, ShareOp.attempt i p hash ∉ ops) :
    ∃ key, HandleOf aes w.mem f.pkg2 key ∧ HandleOf aes w'.mem f.pkg2 key := by
  have h := world_inv ha hw
  have h' := run_inv ha hr h
  obtain ⟨_, h2, _⟩ := h.keysAt f (List.mem_of_getElem? hf)
  obtain ⟨e, hlt⟩ := run_skey ha hr h h2 fun v op hv ho hp _ hs => by
    have hfv : v.files[i]? = some f := by
      obtain ⟨t, ht⟩ := hp
      rw [← ht, List.getElem?_append_left (List.getElem?_eq_some_iff.1 hf).1]
      exact hf
    cases op with
    | attempt j p hash =>
      unfold ShareOp.sets at hs
      dsimp only at hs
      cases hg : v.files[j]? with
      | none => rw [hg] at hs; cases hs
      | some g =>
        rw [hg] at hs
        dsimp only at hs
        split at hs
        · cases hs
        · rename_i hn
          by_cases hij : j = i
          · subst hij
            rw [hfv] at hg
            cases hg
            rcases hi with hi | hi
            · exact hn hi
            · exact hi p hash ho
          · exact hv.apart j i g f hg hfv hij (by simpa using hn) (Option.some.inj hs).symm
    | _ => cases hs
  exact ⟨_, handle_of ha h h2, e ▸ handle_of ha h' hlt⟩

/-- C62: when a file whose keys are not known tries keys, it reads its names with them and its texts as before (as `C44` and `C56`
take it for a file alone), and every other file reads as before. -/
theorem C62_attempt {aes : Aes} (ha : aes.Sized) {m : Mode} {w : SWorld} (hw : SharedWorld aes m w) {i : Nat} {f : SFile}
    (hf : w.files[i]? = some f) (hv : f.body.verified = false) (p : Profile) (hash : BitVec 64) :
    (w.step aes m (.attempt i p hash)).files = w.files ∧
    DecryptsWith aes (w.step aes m (.attempt i p hash)).mem f.pkg2 (profileKeys p f.body.hdr.hash1 hash) ∧
    f.view aes (w.step aes m (.attempt i p hash)).mem = (f.view aes w.mem).updateKeys p hash ∧
    ∀ (j : Nat) (g : SFile), j ≠ i → w.files[j]? = some g → g.view aes (w.step aes m (.attempt i p hash)).mem = g.view aes w.mem := by
  have h := world_inv ha hw
  obtain ⟨mem, h1, h2, h3⟩ := attempt_run h hf hv p hash
  have hm := List.mem_of_getElem? hf
  have ho := h.own f hm hv
  have h4 : ShareInv aes ⟨mem, w.files⟩ := h.mem h2 fun k hk => by cases hk; exact ho.1
  have hlt := (h.keysAt f hm).2.1
  have keys : ∀ g ∈ w.files, mem.skey aes g.keys = w.mem.skey aes g.keys := fun g hg =>
    h2.same _ (h.keysAt g hg).1 fun e => by
      have := (h.keysAt g hg).2.2
      rw [Option.some.inj e, ho.2] at this
      cases this
  show (w.attempt i p hash).files = _ ∧ DecryptsWith aes (w.attempt i p hash).mem _ _ ∧ f.view aes (w.attempt i p hash).mem = _ ∧
    ∀ (j : Nat) (g : SFile), j ≠ i → w.files[j]? = some g → g.view aes (w.attempt i p hash).mem = _
  rw [h1]
  refine ⟨rfl, ?_, ?_, fun j g hj hg => ?_⟩
  · have := (handle_of ha h4 (Nat.lt_of_lt_of_le hlt h2.long)).stream
    dsimp only at this
    rw [h3] at this
    exact this
  · unfold SFile.view WFile.updateKeys
    dsimp only
    have hk := ho.2
    rw [keys f hm, h3, hk]
  · have hmg := List.mem_of_getElem? hg
    unfold SFile.view
    rw [keys g hmg, h2.same _ (h.keysAt g hmg).2.1 fun e => h.apart i j f g hf hg (Ne.symm hj) hv (Option.some.inj e)]

/-- C62: opening a file after any history gives what opening it alone gives (`C55`, `C56`): the same keys are found, the same error is
met.  The keys of the known versions are still the right ones. -/
theorem C62_open {aes : Aes} (ha : aes.Sized) {m : Mode} {w : SWorld} (hw : SharedWorld aes m w) {buf : Bytes} {existing : Option Nat}
    {iv : Option Bytes} {patch : Option Int} (hop : AllowedShare w (.openFile buf existing iv patch)) {given : Option SKey}
    (hg : ∀ k, existing = some k → ∃ key, given = some key ∧ HandleOf aes w.mem k key) (hn : existing = none → given = none) :
    (∃ w' f, w.openFile aes m buf existing iv patch = .ok w' ∧ w'.files = w.files ++ [f] ∧
      WFile.fromBuf m (ivStream aes) buf given iv patch = .ok (f.view aes w'.mem) ∧
      HandleOf aes w'.mem f.pkg2 ⟨(f.view aes w'.mem).keys2, (f.view aes w'.mem).env.ks2⟩ ∧
      HandleOf aes w'.mem f.keys ⟨false, (f.view aes w'.mem).env.ks⟩ ∧
      ∀ g ∈ w.files, g.view aes w'.mem = g.view aes w.mem) ∨
    (∃ x, w.openFile aes m buf existing iv patch = .error x ∧ WFile.fromBuf m (ivStream aes) buf given iv patch = .error x) := by
  have h := world_inv ha hw
  have he : given = existing.map (w.mem.skey aes) := by
    cases existing with
    | none => exact hn rfl
    | some k =>
      obtain ⟨key, h1, h2⟩ := hg k rfl
      rw [h1, (handle_eq ha h h2).2]
      rfl
  rw [he]
  rcases open_same (buf := buf) (existing := existing) (iv := iv) (patch := patch) ha m h hop.1 hop.2 with
    ⟨w', f, h1, h2, h3, h4, h5⟩ | h1
  · have hf := h5.keysAt f (by rw [h2]; simp)
    refine .inl ⟨w', f, h1, h2, h3, handle_of ha h5 hf.2.1, ?_, fun g hgm => ?_⟩
    · have := handle_of ha h5 hf.1
      rw [← hf.2.2]
      exact this
    · have hk := h.keysAt g hgm
      unfold SFile.view
      rw [h4.same _ hk.1 (by simp), h4.same _ hk.2.1 (by simp)]
  · exact .inr h1

/-- C62: after any history the library still gives the decryptors of the known versions, always the same ones; for KMST1199 every
caller gets one of their own. -/
theorem C62_by_version {aes : Aes} (ha : aes.Sized) {m : Mode} {w : SWorld} (hw : SharedWorld aes m w) :
    (∃ k, ∀ v ∈ [MapleVersion.bms, .unknown], w.mem.byVersion v = (k, w.mem) ∧ HandleOf aes w.mem k ⟨false, noKeys⟩) ∧
    (∃ k, w.mem.byVersion .gms = (k, w.mem) ∧ HandleOf aes w.mem k ⟨false, ivStream aes [0x4D#8, 0x23#8, 0xC7#8, 0x2B#8]⟩) ∧
    (∃ k, w.mem.byVersion .ems = (k, w.mem) ∧ HandleOf aes w.mem k ⟨false, ivStream aes [0xB9#8, 0x7D#8, 0x63#8, 0xE9#8]⟩) ∧
    (∃ k, w.mem.byVersion .kmst1198 = (k, w.mem) ∧ HandleOf aes w.mem k ⟨true, key1198⟩) ∧
    (∃ k mem, w.mem.byVersion .kmst1199 = (k, mem) ∧ w.mem[k]? = none ∧ HandleOf aes mem k ⟨true, noKeys⟩) := by
  have h := world_inv ha hw
  have hl := h.long
  have h1 := handle_of ha h (k := 0) (by omega)
  have h2 := handle_of ha h (k := 1) (by omega)
  have h3 := handle_of ha h (k := 2) (by omega)
  have h4 := handle_of ha h (k := 3) (by omega)
  rw [h.gms] at h1
  rw [h.kms] at h2
  rw [h.general] at h3
  rw [h.kmst1198] at h4
  refine ⟨⟨2, fun v hv => ?_⟩, ⟨0, rfl, h1⟩, ⟨1, rfl, h2⟩, ⟨3, rfl, ?_⟩, ⟨w.mem.length, w.mem ++ [.pkg2 Pkg2Dec.default], rfl, by simp, ?_⟩⟩
  · simp only [List.mem_cons, List.not_mem_nil, or_false] at hv
    rcases hv with rfl | rfl <;> exact ⟨rfl, h3⟩
  · have : kmst1198Stream = key1198 := key1198_stream
    rw [← this]
    exact h4
  · have h5 : ShareInv aes ⟨w.mem ++ [.pkg2 Pkg2Dec.default], w.files⟩ := h.mem (MemStep.alloc good_default) fun k hk => by cases hk
    have := handle_of ha h5 (k := w.mem.length) (by simp)
    dsimp only at this
    rw [skey_new, default_stream] at this
    exact this

/-- C62: after any history a decryptor for an IV of four bytes uses that IV; the three known IVs have one decryptor each, other IVs
get a new one. -/
theorem C62_by_iv {aes : Aes} (ha : aes.Sized) {m : Mode} {w : SWorld} (hw : SharedWorld aes m w) {iv : Bytes} (hl : iv.length = 4) :
    ∃ k mem, w.mem.byIv iv = .ok (k, mem) ∧ HandleOf aes mem k ⟨false, ivStream aes iv⟩ ∧
      if iv ∈ [[0#8, 0#8, 0#8, 0#8], [0x4D#8, 0x23#8, 0xC7#8, 0x2B#8], [0xB9#8, 0x7D#8, 0x63#8, 0xE9#8]] then
        mem = w.mem else w.mem[k]? = none := by
  have h := world_inv ha hw
  have hlo := h.long
  unfold DMem.byIv
  split
  · rename_i e
    subst e
    have h1 := handle_of ha h (k := 0) (by omega)
    rw [h.gms] at h1
    exact ⟨0, w.mem, rfl, h1, by rw [if_pos (by decide)]⟩
  · split
    · rename_i e
      subst e
      have h1 := handle_of ha h (k := 1) (by omega)
      rw [h.kms] at h1
      exact ⟨1, w.mem, rfl, h1, by rw [if_pos (by decide)]⟩
    · split
      · rename_i e
        subst e
        have h1 := handle_of ha h (k := 2) (by omega)
        rw [h.general] at h1
        exact ⟨2, w.mem, rfl, (show noKeys = ivStream aes [0#8, 0#8, 0#8, 0#8] from funext fun i => (ivStream_zero i).symm) ▸ h1,
          by rw [if_pos (by decide)]⟩
      · rename_i e1 e2 e3
        rw [fromIv_ok]
        refine ⟨w.mem.length, w.mem ++ [.ecb (Ecb.new iv gameKey)], rfl, ?_, ?_⟩
        · have h5 : ShareInv aes ⟨w.mem ++ [.ecb (Ecb.new iv gameKey)], w.files⟩ :=
            h.mem (MemStep.alloc (good_ecb iv hl)) fun k hk => by cases hk
          have := handle_of ha h5 (k := w.mem.length) (by simp)
          dsimp only at this
          rw [skey_new, keyByte_new ha hl] at this
          exact this
        · rw [if_neg]
          · simp
          · simp only [List.mem_cons, List.not_mem_nil, or_false, not_or]
            exact ⟨e3, e1, e2⟩

/-- C62: what `get_decryptor` gives after any history.  It panics for `Custom`, which the library never sets. -/
theorem C62_by_type {aes : Aes} (ha : aes.Sized) {m : Mode} {w : SWorld} (hw : SharedWorld aes m w) :
    w.mem.byType .custom = .error .panicUnwrap ∧
    w.mem.byType .gms = .ok (w.mem.byVersion .gms) ∧ w.mem.byType .kms = .ok (w.mem.byVersion .ems) ∧
    w.mem.byType .kmst1198 = .ok (w.mem.byVersion .kmst1198) ∧
    (∀ t ∈ [DecType.bms, .unknown], w.mem.byType t = .ok (w.mem.byVersion .bms)) ∧
    ∀ t ∈ [DecType.kmst1199, .kmst1202], ∃ k mem, w.mem.byType t = .ok (k, mem) ∧ w.mem[k]? = none ∧ HandleOf aes mem k ⟨true, noKeys⟩ := by
  obtain ⟨_, _, _, _, k, mem, h1, h2, h3⟩ := C62_by_version ha hw
  refine ⟨rfl, rfl, rfl, rfl, fun t ht => ?_, fun t ht => ⟨k, mem, ?_, h2, h3⟩⟩
  · simp only [List.mem_cons, List.not_mem_nil, or_false] at ht
    rcases ht with rfl | rfl <;> rfl
  · rw [← h1]
    simp only [List.mem_cons, List.not_mem_nil, or_false] at ht
    rcases ht with rfl | rfl <;> rfl

/-! ## the rule for giving decryptors to other files is needed -/

/-- a PKG2 archive without entries: no keys can be found for it -/
def exNoEntries : Bytes := exPkg2 ([0x80#8] ++ toLE 4 7 ++ [0x80#8] ++ toLE 4 7)

/-- the profile of KMST1199 -/
def ex1199 : Profile := ⟨.v1199, .kmst1199, .v4, .pkg2V3⟩

/-- the decryptors at the start -/
def exStart : DMem := [.ecb (Ecb.new [0x4D#8, 0x23#8, 0xC7#8, 0x2B#8] gameKey), .ecb (Ecb.new [0xB9#8, 0x7D#8, 0x63#8, 0xE9#8] gameKey),
    .ecb (Ecb.new [0#8, 0#8, 0#8, 0#8] gameKey), .pkg2 (Pkg2Dec.newWithKey 0xDEADBEEF#64 .kmst1198)]

/-- the archive without entries is open -/
def exWorld1 : SWorld := ⟨exStart ++ [.pkg2 Pkg2Dec.default], [⟨2, 4, WFile.made .checked exNoEntries none none⟩]⟩

theorem exWorld1_step (aes : Aes) : SWorld.step aes .checked ⟨exStart, []⟩ (.openFile exNoEntries none none none) = exWorld1 := by
  have h1 : orNone ((Rd.firstName (headerOf exNoEntries)).run (plainEnv .checked exNoEntries) ⟨0, 0⟩).1 = .ok StrMeta.none := by decide +kernel
  have h2 : orNone ((Rd.firstName2 (headerOf exNoEntries)).run (plainEnv .checked exNoEntries) ⟨0, 0⟩).1 = .ok StrMeta.none := by decide +kernel
  unfold SWorld.step
  dsimp only
  unfold SWorld.openFile DMem.given DMem.chosen DMem.guess
  dsimp only
  rw [h1, h2]
  rfl

/-- its decryptor is given to another archive, which must not be done -/
def exWorld2 : SWorld :=
  ⟨exStart ++ [.pkg2 Pkg2Dec.default],
    [⟨2, 4, WFile.made .checked exNoEntries none none⟩, ⟨2, 4, WFile.made .checked exKmst none (some ⟨true, noKeys⟩)⟩]⟩

theorem exWorld2_step (aes : Aes) : SWorld.step aes .checked exWorld1 (.openFile exKmst (some 4) none none) = exWorld2 := by
  have h1 : verifyKey .checked exKmst ⟨true, noKeys⟩ = .ok true := by decide +kernel
  have h2 : DMem.skey aes exWorld1.mem 4 = ⟨true, noKeys⟩ := by
    show SKey.mk true _ = _
    rw [default_stream]
  unfold SWorld.step
  dsimp only
  unfold SWorld.openFile DMem.given DMem.chosen
  dsimp only
  rw [h2, h1]
  dsimp only [Option.map_some]
  rw [h2]
  rfl

/-- C62 fails without that rule: when the PKG2 decryptor of a file whose keys are not known is given to another file, the other
file's names are read with other keys as soon as the first file tries some. -/
theorem C62_lent_counterexample {aes : Aes} (ha : aes.Sized) :
    ∃ w f, SharedWorld aes .checked w ∧ ¬ AllowedShare w (.openFile exKmst (some 4) none none) ∧
      let w2 := w.step aes .checked (.openFile exKmst (some 4) none none)
      let w3 := w2.step aes .checked (.attempt 0 ex1199 5#64)
      w2.files[1]? = some f ∧ f.body.verified = true ∧ w3.files[1]? = some f ∧ DecryptsWith aes w2.mem f.pkg2 noKeys ∧
        ¬ DecryptsWith aes w3.mem f.pkg2 noKeys := by
  have h0 : SharedWorld aes .checked exWorld1 :=
    ⟨exStart, [.openFile exNoEntries none none none], start_run, .cons _ _ _ _ ⟨fun _ h => (by cases h), fun _ h => by cases h⟩
      (exWorld1_step aes ▸ .nil _)⟩
  have hd : DecryptsWith aes exWorld2.mem 4 noKeys := by
    have := decryptsWith_keyByte ha (mem := exWorld2.mem) (k := 4) (d := .pkg2 Pkg2Dec.default) rfl good_default
    rw [default_stream] at this
    exact this
  have h3 : exWorld2.step aes .checked (.attempt 0 ex1199 5#64) =
      ⟨exStart ++ [.pkg2 (Pkg2Dec.default.setIv ((kmst1199Key ((headerOf exNoEntries).hash1.setWidth 32) 5#32).setWidth 64) .kmst1199)], exWorld2.files⟩ := rfl
  refine ⟨exWorld1, ⟨2, 4, WFile.made .checked exKmst none (some ⟨true, noKeys⟩)⟩, h0, fun h => ?_, ?_⟩
  · exact (h.2 4 rfl).2 ⟨2, 4, WFile.made .checked exNoEntries none none⟩ (by simp [exWorld1]) rfl rfl
  · dsimp only
    rw [exWorld2_step, h3]
    refine ⟨rfl, rfl, rfl, hd, fun h => ?_⟩
    have hk := decryptsWith_keyByte (aes := aes) ha
      (mem := exStart ++ [.pkg2 (Pkg2Dec.default.setIv ((kmst1199Key ((headerOf exNoEntries).hash1.setWidth 32) 5#32).setWidth 64) .kmst1199)])
      (k := 4) rfl (good_pkg2 _ _ _)
    have := congrFun (decryptsWith_unique h hk) 0
    revert this
    show ¬ (0#8 = ((Pkg2Dec.default.setIv ((kmst1199Key ((headerOf exNoEntries).hash1.setWidth 32) 5#32).setWidth 64) .kmst1199).keyAt 0).getD 0#8)
    decide +kernel

/-! ## Examples -/

/-- a history: the archive without entries is opened, keys are tried for it, another is opened with keys that are guessed, decryptors
grow and are made, one more is opened with a decryptor of the library, keys are tried again -/
def exHistory : List ShareOp :=
  [.openFile exNoEntries none none none, .attempt 0 ex1199 5#64, .openFile exKmst none none none, .grow 0 5000, .byVersion .kmst1199,
    .openFile exKmst (some 3) none none, .attempt 0 ex1199 6#64, .grow 3 10, .make [1#8, 2#8, 3#8, 4#8]]

/-- one of the decryptors of the library may be given to any file -/
theorem allowed_global {aes : Aes} {w : SWorld} (h : ShareInv aes w) {buf : Bytes} {k : Nat} (hk : k < 4) {patch : Option Int} :
    AllowedShare w (.openFile buf (some k) none patch) := by
  refine ⟨fun _ h => (by cases h), fun j hj => ?_⟩
  cases hj
  exact ⟨Nat.lt_of_lt_of_le hk h.long, fun f hf hv => by have := (h.own f hf hv).1; omega⟩

theorem exHistory_run {aes : Aes} (ha : aes.Sized) (m : Mode) :
    SharedRun aes m ⟨exStart, []⟩ exHistory (exHistory.foldl (SWorld.step aes m) ⟨exStart, []⟩) := by
  have h0 : ShareInv aes ⟨exStart, []⟩ := start_inv ha start_run
  have none_ok : ∀ (w : SWorld) buf, AllowedShare w (.openFile buf none none none) := fun w buf => ⟨fun _ h => (by cases h), fun _ h => by cases h⟩
  have h1 := (step_run ha m h0 (none_ok _ exNoEntries)).2.1
  have h2 := (step_run ha m h1 (op := .attempt 0 ex1199 5#64) trivial).2.1
  have h3 := (step_run ha m h2 (none_ok _ exKmst)).2.1
  have h4 := (step_run ha m h3 (op := .grow 0 5000) trivial).2.1
  have h5 := (step_run ha m h4 (op := .byVersion .kmst1199) trivial).2.1
  exact .cons _ _ _ _ (none_ok _ _) (.cons _ _ _ _ trivial (.cons _ _ _ _ (none_ok _ _) (.cons _ _ _ _ trivial (.cons _ _ _ _ trivial
    (.cons _ _ _ _ (allowed_global h5 (by decide)) (.cons _ _ _ _ trivial (.cons _ _ _ _ trivial (.cons _ _ _ _ rfl (.nil _)))))))))

/-- a world with a file, and the history that goes on from it -/
example {aes : Aes} (ha : aes.Sized) : ∃ w', SharedWorld aes .checked exWorld1 ∧ SharedRun aes .checked exWorld1 (exHistory.drop 1) w' ∧
    exWorld1.files[0]? = some ⟨2, 4, WFile.made .checked exNoEntries none none⟩ ∧
    (WFile.made .checked exNoEntries none none).verified = false ∧ SharedWorld aes .checked w' := by
  have h := exHistory_run ha .checked
  have h' := h
  cases h with
  | cons _ _ _ _ hop hr =>
    rw [exWorld1_step] at hr
    exact ⟨_, ⟨exStart, [.openFile exNoEntries none none none], start_run, .cons _ _ _ _ hop (exWorld1_step aes ▸ .nil _)⟩, hr, rfl, rfl,
      ⟨exStart, exHistory, start_run, h'⟩⟩

/-- `C62_names` for a file that tried no keys: a history without attempts -/
example : ∀ p hash, ShareOp.attempt 0 p hash ∉ [ShareOp.openFile exKmst none none none, .grow 4 20, .attempt 1 ex1199 7#64] := by
  intro p hash h
  simp at h

/-- `C62_open`: the decryptor for KMST1198 is given to a second file -/
example {aes : Aes} (ha : aes.Sized) : SharedWorld aes .checked exWorld1 ∧ AllowedShare exWorld1 (.openFile exKmst (some 3) none none) ∧
    HandleOf aes exWorld1.mem 3 ⟨true, key1198⟩ := by
  have h0 : SharedWorld aes .checked exWorld1 :=
    ⟨exStart, [.openFile exNoEntries none none none], start_run, .cons _ _ _ _ ⟨fun _ h => (by cases h), fun _ h => by cases h⟩
      (exWorld1_step aes ▸ .nil _)⟩
  have h := world_inv ha h0
  obtain ⟨_, _, _, ⟨k, h1, h2⟩, _⟩ := C62_by_version ha h0
  cases h1
  exact ⟨h0, allowed_global h (by decide), h2⟩

end Wz.Props
