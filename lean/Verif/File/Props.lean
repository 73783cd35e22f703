import Verif.File.Loops
import Verif.Directory.Props
/-!
# C44: which profile a PKG2 file is opened with, and the cache of profiles
-/

set_option autoImplicit false

namespace Wz.Props
open Spec

/-! ## The first candidate that opens the file -/

theorem prepare_root_error {F : Fuel} {f : WFile} {c : Cached} {e : Err} (hx : f.hdr.isPkg2_64 = false)
    (h : prepareEntries f.ctx F.loop f.root = .error e) : prepareEntries (reading f c) F.loop (untouched f c) = .error e := by
  rw [prepare_reading]
  have := prepare_narrow f.ctx F.loop f.root c.hash c.profile.ver rfl (fun _ => hx)
  rw [h] at this
  exact this

/-- C44: the candidates (the cached ones that fit, in the order of the cache; then profiles from the newest to the
oldest with their version hashes) are tried in order, each as if nothing had been tried before.  The file is opened
with the first candidate that opens it, if those before it do not crash; a file opened with a candidate could not be
opened with an earlier one; and a file that no candidate opens gives an error. -/
theorem C44_first (F : Fuel) (f : WFile) (cache : List Cached) (hn : F.nest ≠ 0) (hbuf : f.env.buf ≠ [])
    (hg : ∀ c ∈ cache, c.profile.gen ≠ .unknown) :
    ∃ cands, Candidates f.hdr cache cands ∧
      (∀ before c after kids, cands = before ++ c :: after → (∀ b ∈ before, Refused F f b) → Opens F f c kids →
        (f.parsePkg2 F cache).1 = .ok (c, kids)) ∧
      (∀ c kids, (f.parsePkg2 F cache).1 = .ok (c, kids) → Opens F f c kids ∧
        ∃ before after, cands = before ++ c :: after ∧ ∀ b ∈ before, ∀ k, ¬Opens F f b k) ∧
      ((∀ c ∈ cands, Refused F f c) → ∃ e, (f.parsePkg2 F cache).1 = .error e ∧
        (e = .lib "ErrorGameVerHash" ∨ f.hdr.isPkg2_64 = false ∧ prepareEntries f.ctx F.loop f.root = .error e)) := by
  obtain ⟨cands, cached, rest, hc, rfl, -, -, h⟩ := parsePkg2_tried (F := F) hn hbuf hg
  refine ⟨_, hc, ?_⟩
  obtain ⟨n, hnn⟩ : ∃ n, F.nest = n + 1 := ⟨F.nest - 1, by omega⟩
  rcases h with ⟨e, hx, hp, h⟩ | ⟨t1, t2, h1, h2, h⟩
  · rw [h]
    refine ⟨fun before c after kids _ _ ho => ?_, fun c kids h => by (cases h), fun _ => ⟨e, rfl, .inr ⟨hx, hp⟩⟩⟩
    have := ho.2
    unfold attempt at this
    rw [hnn, resolveDir_rest _ _ _ _ (by simpa [untouched] using hbuf), prepare_root_error hx hp] at this
    cases this
  · have key := h1.andThen h2
    have hr : (f.parsePkg2 F cache).1 = match (andThen t1 t2).1 with
        | .error e => .error e
        | .ok (some r) => .ok r
        | .ok none => .error (.lib "ErrorGameVerHash") := by
      rw [h]
      obtain ⟨r, f', d'⟩ := t1
      cases r with
      | error e => rfl
      | ok o =>
        cases o with
        | some r => rfl
        | none =>
          unfold andThen
          dsimp only
          cases t2 f' d' with
          | mk r q =>
            cases r with
            | error e => rfl
            | ok o => cases o <;> rfl
    rw [hr]
    refine ⟨fun before c after kids hc hb ho => ?_, fun c kids h => ?_, fun hb => ⟨_, ?_, .inl rfl⟩⟩
    · rw [key.finds before c after kids hc hb ho]
    · cases ht : (andThen t1 t2).1 with
      | error e => rw [ht] at h; cases h
      | ok o =>
        cases o with
        | none => rw [ht] at h; cases h
        | some r =>
          rw [ht] at h
          cases h
          exact (key.found c kids ht).2
    · rw [key.refused hb]

/-- C44: the hash a file is opened with solves the equation of its profile for this file's header, whether the
profile came from the cache or not. -/
theorem C44_solves (F : Fuel) (f : WFile) (cache : List Cached) (hn : F.nest ≠ 0) (hbuf : f.env.buf ≠ [])
    (hg : ∀ c ∈ cache, c.profile.gen ≠ .unknown) (c : Cached) (kids : List (List Char × DNode))
    (h : (f.parsePkg2 F cache).1 = .ok (c, kids)) :
    c.hash ≠ 0 ∧ Equation c.profile.gen f.hdr.hash1 f.hdr.hash2 c.hash ∧ (c.profile.name = .v1202 ↔ f.hdr.isPkg2_64 = true) := by
  classical
  obtain ⟨cands, ⟨lists, hl, hc⟩, -, h2, -⟩ := C44_first F f cache hn hbuf hg
  obtain ⟨ho, before, after, hs, -⟩ := h2 c kids h
  have hm : c ∈ cands := by rw [hs]; simp
  rw [hc, List.mem_append] at hm
  refine ⟨ho.1, ?_⟩
  rcases hm with hm | hm
  · have := (List.mem_filter.mp hm).2
    simp only [decide_eq_true_eq] at this
    exact ⟨this.2, this.1⟩
  · have hrow : ∀ p ∈ rows f.hdr.isPkg2_64, p.name = .v1202 ↔ f.hdr.isPkg2_64 = true := by
      cases f.hdr.isPkg2_64 <;> decide
    generalize rows f.hdr.isPkg2_64 = ps at hl hm hrow
    clear hc
    induction hl with
    | nil => cases hm
    | @cons p hs ps lists h1 h2 ih =>
      rw [List.zipWith_cons_cons, List.flatten_cons, List.mem_append] at hm
      rcases hm with hm | hm
      · obtain ⟨t, ht, rfl⟩ := List.mem_map.mp hm
        exact ⟨((h1.2 t).mp ht).1, hrow p List.mem_cons_self⟩
      · exact ih hm fun p hp => hrow p (List.mem_cons_of_mem _ hp)

/-- C44: a PKG2 file that was opened has no game version, no version in its header, and says so. -/
theorem C44_no_version (F : Fuel) (f : WFile) (cache : List Cached) (c : Cached) (kids : List (List Char × DNode))
    (h : (f.parsePkg2 F cache).1 = .ok (c, kids)) :
    (f.parsePkg2 F cache).2.1.patch = -1 ∧ (f.parsePkg2 F cache).2.1.verHeader = 0 ∧ (f.parsePkg2 F cache).2.1.withEnc = false := by
  unfold WFile.parsePkg2 at h ⊢
  dsimp only at h ⊢
  generalize (if f.hdr.isPkg2_64 = true then Except.ok f.root else prepareEntries f.ctx F.loop f.root) = d0 at h ⊢
  cases d0 with
  | error e => cases h
  | ok d =>
    dsimp only at h ⊢
    generalize cachedLoop F f cache d = t1 at h ⊢
    obtain ⟨r, f', d'⟩ := t1
    cases r with
    | error e => cases h
    | ok o =>
      cases o with
      | some r => exact ⟨rfl, rfl, rfl⟩
      | none =>
        dsimp only at h ⊢
        generalize profileLoop F f' allProfiles d' = t2 at h ⊢
        obtain ⟨r, f'', d''⟩ := t2
        cases r with
        | error e => cases h
        | ok o =>
          cases o with
          | some r => exact ⟨rfl, rfl, rfl⟩
          | none => cases h

/-- C44: after a success the file stores the hash it was opened with, counts as parsed, and goes on to read its
directory names with the key it was opened with. -/
theorem C44_file_after (F : Fuel) (f : WFile) (cache : List Cached) (hn : F.nest ≠ 0) (hbuf : f.env.buf ≠ [])
    (hg : ∀ c ∈ cache, c.profile.gen ≠ .unknown) (c : Cached) (kids : List (List Char × DNode))
    (h : (f.parsePkg2 F cache).1 = .ok (c, kids)) :
    (f.parsePkg2 F cache).2.1.hash = c.hash ∧ (f.parsePkg2 F cache).2.1.parsed = true ∧
      (f.parsePkg2 F cache).2.1.ctx = reading f c ∧
      ((f.parsePkg2 F cache).2.2 = [] ∧ c ∈ cache ∨
        (f.parsePkg2 F cache).2.2 = [c] ∧ c.profile ∈ rows f.hdr.isPkg2_64 ∧ Listed c.profile.gen f.hdr.hash1 f.hdr.hash2 c.hash) := by
  obtain ⟨cands, cached, rest, hc, rfl, hca, hre, hp⟩ := parsePkg2_tried (F := F) hn hbuf hg
  rcases hp with ⟨e, hx, hp, h'⟩ | ⟨t1, t2, h1, h2, h'⟩
  · rw [h'] at h; cases h
  · rw [h'] at h ⊢
    obtain ⟨r, f', d'⟩ := t1
    cases r with
    | error e => cases h
    | ok o =>
      cases o with
      | some r =>
        obtain ⟨c', k⟩ := r
        cases h
        obtain ⟨q1, q2, before, after, q3, -⟩ := h1.found c kids rfl
        dsimp only at q1
        refine ⟨rfl, rfl, ?_, .inl ⟨rfl, hca c (by rw [q3]; simp)⟩⟩
        rw [q1]
        exact readFor_ctx f c
      | none =>
        obtain ⟨-, hs, hb⟩ := h1.failed rfl
        have h2 := h2 f' d' hs hb
        dsimp only at h ⊢
        revert h h2
        cases t2 f' d' with
        | mk r q =>
          intro h h2
          obtain ⟨f'', d''⟩ := q
          cases r with
          | error e => cases h
          | ok o =>
            cases o with
            | none => cases h
            | some r =>
              obtain ⟨c', k⟩ := r
              cases h
              obtain ⟨q1, q2, before, after, q3, -⟩ := h2.found c kids rfl
              dsimp only at q1
              refine ⟨rfl, rfl, ?_, .inr ⟨rfl, hre c (by rw [q3]; simp)⟩⟩
              rw [q1]
              exact readFor_ctx f c

/-- nothing is added to the cache by a file that is not opened -/
theorem C44_failure_not_cached (F : Fuel) (f : WFile) (cache : List Cached) (e : Err)
    (h : (f.parsePkg2 F cache).1 = .error e) : (f.parsePkg2 F cache).2.2 = [] := by
  unfold WFile.parsePkg2 at h ⊢
  dsimp only at h ⊢
  revert h
  cases (if f.hdr.isPkg2_64 then .ok f.root else prepareEntries f.ctx F.loop f.root : Except Err Dir) with
  | error e => intro _; rfl
  | ok d =>
    dsimp only
    cases cachedLoop F f cache d with
    | mk r q =>
      obtain ⟨f', d'⟩ := q
      cases r with
      | error e => intro _; rfl
      | ok o =>
        cases o with
        | some r => intro _; rfl
        | none =>
          dsimp only
          cases profileLoop F f' allProfiles d' with
          | mk r q =>
            cases r with
            | error e => intro _; rfl
            | ok o =>
              cases o with
              | none => intro _; rfl
              | some r => intro h; cases h

/-! ## Every history of opened files -/

/-- The global state: the cache, the files being opened with the copy of the cache they work with, and the files
opened so far with what they were opened with. -/
structure World where
  cache : List Cached := []
  running : List (WFile × List Cached) := []
  opened : List (WFile × Cached) := []

/-- what happens: a thread starts to open a file and copies the cache, or finishes.  The steps of different threads
come in any order. -/
inductive World.Step (F : Fuel) : World → World → Prop
  | start (w : World) (f : WFile) : f.env.buf ≠ [] → World.Step F w { w with running := w.running ++ [(f, w.cache)] }
  | finish (w : World) (a b : List (WFile × List Cached)) (f : WFile) (copy : List Cached) (c : Cached)
      (kids : List (List Char × DNode)) :
      w.running = a ++ (f, copy) :: b → (f.parsePkg2 F copy).1 = .ok (c, kids) →
      World.Step F w ⟨w.cache ++ (f.parsePkg2 F copy).2.2, a ++ b, w.opened ++ [(f, c)]⟩
  | fail (w : World) (a b : List (WFile × List Cached)) (f : WFile) (copy : List Cached) (e : Err) :
      w.running = a ++ (f, copy) :: b → (f.parsePkg2 F copy).1 = .error e →
      World.Step F w ⟨w.cache ++ (f.parsePkg2 F copy).2.2, a ++ b, w.opened⟩

/-- the states that can come about -/
inductive World.Reach (F : Fuel) : World → Prop
  | init : World.Reach F {}
  | step (w w' : World) : World.Reach F w → World.Step F w w' → World.Reach F w'

/-- what is true of every state -/
structure World.Good (F : Fuel) (w : World) : Prop where
  cache : ∀ c ∈ w.cache, ∃ f, (f, c) ∈ w.opened ∧ c.profile ∈ rows f.hdr.isPkg2_64 ∧
    Listed c.profile.gen f.hdr.hash1 f.hdr.hash2 c.hash
  copies : ∀ r ∈ w.running, r.1.env.buf ≠ [] ∧ ∀ c ∈ r.2, c ∈ w.cache
  opened : ∀ r ∈ w.opened, (∃ kids, Opens F r.1 r.2 kids) ∧ r.2.profile.name ≠ .v1199 ∧
    Equation r.2.profile.gen r.1.hdr.hash1 r.1.hdr.hash2 r.2.hash

theorem rows_gen {b : Bool} {p : Profile} (h : p ∈ rows b) : p.gen ≠ .unknown := by
  revert h; revert p; cases b <;> decide

/-- of the two identical profiles the newer one is found first -/
theorem not_1199 {F : Fuel} {f : WFile} {cache : List Cached} {c : Cached} {kids : List (List Char × DNode)} (hn : F.nest ≠ 0) (hbuf : f.env.buf ≠ [])
    (hg : ∀ c ∈ cache, c.profile.gen ≠ .unknown) (h9 : ∀ c ∈ cache, c.profile.name ≠ .v1199)
    (h : (f.parsePkg2 F cache).1 = .ok (c, kids)) : c.profile.name ≠ .v1199 := by
  classical
  intro hname
  have hx := (C44_solves F f cache hn hbuf hg c kids h).2.2
  have hx : f.hdr.isPkg2_64 = false := by
    cases hb : f.hdr.isPkg2_64 with
    | false => rfl
    | true => rw [hb, hname] at hx; exact absurd (hx.mpr rfl) (by decide)
  obtain ⟨cands, ⟨lists, hl, hc⟩, -, h2, -⟩ := C44_first F f cache hn hbuf hg
  obtain ⟨ho, before, after, hs, hno⟩ := h2 c kids h
  rw [hx] at hl hc
  have hrows : rows false = ⟨.v1201, .kmst1199, .v4, .pkg2V3⟩ :: ⟨.v1200, .kmst1199, .v5, .pkg2V3⟩ ::
    ⟨.v1199, .kmst1199, .v4, .pkg2V3⟩ :: [⟨.v1198, .kmst1198, .v3, .pkg2V2⟩, ⟨.v1197, .unknown, .v2, .pkg2V2⟩, ⟨.v1196, .unknown, .v1, .pkg2V1⟩] := rfl
  rw [hrows] at hl hc
  cases hl with
  | @cons _ l1 _ lists h11 hl =>
    cases hl with
    | @cons _ l2 _ lists h12 hl =>
      cases hl with
      | @cons _ l3 _ lists h13 hl =>
        simp only [List.zipWith_cons_cons, List.flatten_cons] at hc
        -- `c` comes from the third list, so its hash is in the first
        have hcp : c.profile = ⟨.v1199, .kmst1199, .v4, .pkg2V3⟩ ∧ c.hash ∈ l3 := by
          have hm : c ∈ cands := by rw [hs]; simp
          rw [hc] at hm
          simp only [List.mem_append] at hm
          rcases hm with hm | hm | hm | hm | hm
          · exact absurd hname (h9 c (List.mem_of_mem_filter hm))
          · obtain ⟨t, _, rfl⟩ := List.mem_map.mp hm; cases hname
          · obtain ⟨t, _, rfl⟩ := List.mem_map.mp hm; cases hname
          · obtain ⟨t, ht, rfl⟩ := List.mem_map.mp hm; exact ⟨rfl, ht⟩
          · exfalso
            clear hc
            have hps : ∀ p ∈ [(⟨.v1198, .kmst1198, .v3, .pkg2V2⟩ : Profile), ⟨.v1197, .unknown, .v2, .pkg2V2⟩, ⟨.v1196, .unknown, .v1, .pkg2V1⟩], p.name ≠ .v1199 := by decide
            generalize [(⟨.v1198, .kmst1198, .v3, .pkg2V2⟩ : Profile), ⟨.v1197, .unknown, .v2, .pkg2V2⟩, ⟨.v1196, .unknown, .v1, .pkg2V1⟩] = ps at hl hm hps
            induction hl with
            | nil => cases hm
            | @cons p hs ps lists h1 h2 ih =>
              rw [List.zipWith_cons_cons, List.flatten_cons, List.mem_append] at hm
              rcases hm with hm | hm
              · obtain ⟨t, ht, rfl⟩ := List.mem_map.mp hm
                exact hps p List.mem_cons_self hname
              · exact ih hm fun p hp => hps p (List.mem_cons_of_mem _ hp)
        have hl1 : c.hash ∈ l1 := (h11.2 _).mpr ((h13.2 _).mp hcp.2)
        have hopen : Opens F f ⟨⟨.v1201, .kmst1199, .v4, .pkg2V3⟩, c.hash⟩ kids := by
          refine ⟨ho.1, ?_⟩
          have := ho.2
          obtain ⟨cp, ch⟩ := c
          obtain ⟨rfl, -⟩ := hcp
          exact this
        -- and that candidate comes before `c`
        have hcc : c ∉ cache.filter (fun c => Fits f.hdr c) ++ l1.map fun t => (⟨⟨.v1201, .kmst1199, .v4, .pkg2V3⟩, t⟩ : Cached) := by
          intro hm
          rcases List.mem_append.mp hm with hm | hm
          · exact absurd hname (h9 c (List.mem_of_mem_filter hm))
          · obtain ⟨t, _, rfl⟩ := List.mem_map.mp hm; cases hname
        have hsplit := hs
        rw [hc, ← List.append_assoc] at hsplit
        rcases append_cons_cases hsplit with ⟨r, h3, h4⟩ | ⟨m, h3, h4⟩
        · exact hcc (by rw [h3]; simp)
        · refine hno ⟨⟨.v1201, .kmst1199, .v4, .pkg2V3⟩, c.hash⟩ ?_ kids hopen
          rw [h3]
          exact List.mem_append_left _ (List.mem_append_right _ (List.mem_map.mpr ⟨_, hl1, rfl⟩))

theorem World.good {F : Fuel} (hn : F.nest ≠ 0) {w : World} (h : World.Reach F w) : World.Good F w := by
  induction h with
  | init => exact ⟨fun c hc => by (cases hc), fun r hr => by (cases hr), fun r hr => by (cases hr)⟩
  | step w w' _ hstep ih =>
    cases hstep with
    | start f hbuf =>
      refine ⟨ih.cache, fun r hr => ?_, ih.opened⟩
      rcases List.mem_append.mp hr with hr | hr
      · exact ih.copies r hr
      · rw [List.mem_singleton] at hr
        subst hr
        exact ⟨hbuf, fun c hc => hc⟩
    | finish a b f copy c kids hrun hres =>
      have hf := ih.copies (f, copy) (by rw [hrun]; simp)
      have hg : ∀ c ∈ copy, c.profile.gen ≠ .unknown := fun c hc => by
        obtain ⟨_, _, h3, _⟩ := ih.cache c (hf.2 c hc)
        exact rows_gen h3
      have h9 : ∀ c ∈ copy, c.profile.name ≠ .v1199 := fun c hc => by
        obtain ⟨f', h2, _⟩ := ih.cache c (hf.2 c hc)
        exact (ih.opened _ h2).2.1
      obtain ⟨cands, -, -, hfound, -⟩ := C44_first F f copy hn hf.1 hg
      have hafter := (C44_file_after F f copy hn hf.1 hg c kids hres).2.2.2
      refine ⟨fun c' hc' => ?_, fun r hr => ?_, fun r hr => ?_⟩
      · rcases List.mem_append.mp hc' with hc' | hc'
        · obtain ⟨f', h1, h2⟩ := ih.cache c' hc'
          exact ⟨f', List.mem_append_left _ h1, h2⟩
        · rcases hafter with ⟨h1, _⟩ | ⟨h1, h2⟩
          · rw [h1] at hc'; cases hc'
          · rw [h1, List.mem_singleton] at hc'
            subst hc'
            exact ⟨f, List.mem_append_right _ List.mem_cons_self, h2⟩
      · obtain ⟨h1, h2⟩ := ih.copies r (by
          rw [hrun]
          rcases List.mem_append.mp hr with hr | hr
          · exact List.mem_append_left _ hr
          · exact List.mem_append_right _ (List.mem_cons_of_mem _ hr))
        exact ⟨h1, fun c hc => List.mem_append_left _ (h2 c hc)⟩
      · rcases List.mem_append.mp hr with hr | hr
        · exact ih.opened r hr
        · rw [List.mem_singleton] at hr
          subst hr
          exact ⟨⟨kids, (hfound c kids hres).1⟩, not_1199 hn hf.1 hg h9 hres, (C44_solves F f copy hn hf.1 hg c kids hres).2.1⟩
    | fail a b f copy e hrun hres =>
      rw [C44_failure_not_cached F f copy e hres, List.append_nil]
      refine ⟨ih.cache, fun r hr => ?_, ih.opened⟩
      exact ih.copies r (by
          rw [hrun]
          rcases List.mem_append.mp hr with hr | hr
          · exact List.mem_append_left _ hr
          · exact List.mem_append_right _ (List.mem_cons_of_mem _ hr))

/-- C44: whatever files were opened in whatever order, by any number of threads at once, everything in the cache is
a profile of the table together with a hash with which some file was opened, and which was found from that file's
header. -/
theorem C44_history (F : Fuel) (hn : F.nest ≠ 0) (w : World) (h : World.Reach F w) (c : Cached) (hc : c ∈ w.cache) :
    ∃ f kids, (f, c) ∈ w.opened ∧ c.profile ∈ rows f.hdr.isPkg2_64 ∧ Listed c.profile.gen f.hdr.hash1 f.hdr.hash2 c.hash ∧
      Opens F f c kids := by
  have hg := World.good hn h
  obtain ⟨f, h1, h2, h3⟩ := hg.cache c hc
  obtain ⟨kids, hk⟩ := (hg.opened _ h1).1
  exact ⟨f, kids, h1, h2, h3, hk⟩

/-- C44: in every history each file that was opened was opened with a candidate that opens it on its own. -/
theorem C44_history_opened (F : Fuel) (hn : F.nest ≠ 0) (w : World) (h : World.Reach F w) (f : WFile) (c : Cached)
    (hc : (f, c) ∈ w.opened) :
    (∃ kids, Opens F f c kids) ∧ Equation c.profile.gen f.hdr.hash1 f.hdr.hash2 c.hash :=
  ⟨((World.good hn h).opened _ hc).1, ((World.good hn h).opened _ hc).2.2⟩

/-- No file is ever opened with the profile of version 1199: that of 1201, which is tried first, differs in its name
only. -/
theorem C44_never_1199 (F : Fuel) (hn : F.nest ≠ 0) (w : World) (h : World.Reach F w) (f : WFile) (c : Cached)
    (hc : (f, c) ∈ w.opened) : c.profile.name ≠ .v1199 := ((World.good hn h).opened _ hc).2.1

end Wz.Props
