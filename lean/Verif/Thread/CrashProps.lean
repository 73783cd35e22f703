import Verif.Thread.CrashLemmas
import Verif.Thread.ArchiveProps
import Verif.Thread.MsProps

/-!
# C82: a thread that panics neither blocks the others nor makes them see something wrong
-/

set_option autoImplicit false

namespace Wz.Props

open Wz Wz.Spec Wz.Spec.Snow Wz.Spec.Ms

/-! ## whatever the threads do -/

/-- Everything ends, whoever panics and when. -/
theorem C82_every_schedule_ends {α : Type} {queue : Bool} {h : NHeap} {ps : List (Prog α)} {evs : List Event} {C : CrashPool α}
    (hr : (CrashPool.start h ps).run queue evs = some C) : EndsAnyway queue C :=
  crash_ends (crash_keeps (fun _ _ _ I hn => sorted_next I hn) evs _ C (sorted_start h ps) hr)

/-- While a thread writes to a node no other thread has that node, whoever panics and when. -/
theorem C82_exclusive {α : Type} {queue : Bool} {h : NHeap} {ps : List (Prog α)} {evs : List Event} {C : CrashPool α}
    (hr : (CrashPool.start h ps).run queue evs = some C) : Exclusive C.pool := by
  refine crash_keeps (I := fun C => Exclusive C.pool) (fun _ _ _ I hn => crash_exclusive I hn) evs _ C ?_ hr
  intro s t i a b m _ ha _ hw
  obtain ⟨p, _, rfl⟩ := List.mem_map.1 (List.mem_of_getElem? ha)
  cases hw

/-- **Who panics, and what it spoils.**  An event is a step that leaves all locks usable, or the panic of a thread.  It then is a panic
of its own or comes from a lock already poisoned, which the thread wants.  Exactly the nodes it has locked for writing become
unusable. -/
theorem C82_spoils {α : Type} {queue : Bool} {C D : CrashPool α} {ev : Event} (hn : C.next queue ev = some D) :
    (D.bad = C.bad ∧ D.gone = C.gone ∧ ∃ t, ev = .go t) ∨
    ∃ t th, C.pool.threads[t]? = some th ∧ D.gone = t :: C.gone ∧ D.pool.heap = C.pool.heap ∧
      (∀ i, i ∈ D.bad ↔ (LMode.write, i) ∈ th.held ∨ i ∈ C.bad) ∧
      (ev = .crash t ∨ (ev = .go t ∧ ∃ m i k, th.prog = .acquire m i k ∧ i ∈ C.bad)) := by
  rcases crash_next hn with ⟨t, P, h1, _, rfl, _⟩ | ⟨t, th, ht, rfl, _, h⟩
  · exact .inl ⟨rfl, rfl, t, h1⟩
  · refine .inr ⟨t, th, ht, rfl, rfl, fun i => ?_, ?_⟩
    · show i ∈ writeHeld th.held ++ C.bad ↔ _
      rw [List.mem_append]
      refine or_congr_left ?_
      unfold writeHeld
      rw [List.mem_filterMap]
      constructor
      · rintro ⟨⟨m, j⟩, h1, h2⟩
        cases m with
        | read => cases h2
        | write => cases h2; exact h1
      · exact fun h => ⟨_, h, rfl⟩
    · rcases h with ⟨h, _⟩ | h
      · exact .inl h
      · exact .inr h

/-- A poisoned lock is never had: a thread that wants it waits, or panics. -/
theorem C82_poisoned {α : Type} {queue : Bool} {C D : CrashPool α} {t : Nat} {th : Thread (Option α)} {m : LMode} {i : Nat}
    {k : Prog (Option α)} (ht : C.pool.threads[t]? = some th) (hp : th.prog = .acquire m i k) (hb : i ∈ C.bad)
    (hn : C.next queue (.go t) = some D) : t ∈ D.gone := by
  rcases crash_next hn with ⟨s, P, h1, _, rfl, h⟩ | ⟨s, th', _, rfl, _, h⟩
  · cases h1
    exact absurd hb (h th m i k ht hp)
  · rcases h with ⟨h, _⟩ | ⟨h, _⟩
    · cases h
    · cases h; exact List.mem_cons_self

/-- A thread that is done has its answer, unless it has panicked; then it has none. -/
theorem C82_answer_iff {α : Type} {queue : Bool} {h : NHeap} {ps : List (Prog α)} {evs : List Event} {C : CrashPool α}
    (hr : (CrashPool.start h ps).run queue evs = some C) {t : Nat} {th : Thread (Option α)} (ht : C.pool.threads[t]? = some th)
    {o : Option α} (ha : Answer th o) : o = none ↔ t ∈ C.gone := by
  have I : Sorted82 C := crash_keeps (fun _ _ _ I hn => sorted_next I hn) evs _ C (sorted_start h ps) hr
  obtain ⟨i1, i2⟩ := I t th ht
  unfold Answer at ha
  rw [ha] at i1 i2
  by_cases hg : t ∈ C.gone
  · cases i1 hg
    exact ⟨fun _ => hg, fun _ => rfl⟩
  · cases i2 hg
    exact ⟨fun h => (by cases h), fun h => absurd h hg⟩

/-- Without panics of their own nothing is different from `C76`: no lock is poisoned and no thread panics. -/
theorem C82_no_crash {α : Type} {queue : Bool} {h : NHeap} {ps : List (Prog α)} {evs : List Event} {C : CrashPool α}
    (hr : (CrashPool.start h ps).run queue evs = some C) (hev : NoCrash evs) : C.bad = [] ∧ C.gone = [] := by
  have main : ∀ (evs : List Event) (B : CrashPool α), NoCrash evs → B.bad = [] ∧ B.gone = [] → B.run queue evs = some C →
      C.bad = [] ∧ C.gone = [] := by
    intro evs
    induction evs with
    | nil => intro B _ hB hr; cases hr; exact hB
    | cons ev evs ih =>
      intro B hev hB hr
      obtain ⟨E, h1, h2⟩ := crashRun_cons hr
      refine ih E (fun e he => hev e (List.mem_cons_of_mem _ he)) ?_ h2
      rcases C82_spoils h1 with ⟨e1, e2, _⟩ | ⟨t, th, _, _, _, _, h⟩
      · rw [e1, e2]; exact hB
      · obtain ⟨s, hs⟩ := hev ev List.mem_cons_self
        rcases h with h | ⟨_, m, i, k, _, h⟩
        · rw [hs] at h; cases h
        · rw [hB.1] at h; cases h
  exact main evs _ hev ⟨rfl, rfl⟩ hr

/-! ## trees without links -/

/-- **Nobody waits for ever** for a thread that has panicked: calls that lead downwards in trees without links never get stuck,
whoever panics and when, and all threads get done, with an answer or a panic of their own.
`_partial`: as `C76_no_deadlock_partial`, which has counterexamples for other calls. -/
theorem C82_trees_partial {content : Content} (hL : ∀ s f, content s = .ok f → Spec.Forest.All NoLink f) {h : NHeap} (hm : MadeBefore h)
    {α : Type} {ps : List (Prog α)} (hp : ∀ p ∈ ps, CallsDown content p) {queue : Bool} {evs : List Event} {C : CrashPool α}
    (hr : (CrashPool.start h ps).run queue evs = some C) :
    ¬ Stuck queue C ∧ ∃ more D, NoCrash more ∧ C.run queue more = some D ∧ AllDone D.pool := by
  have S : PoolSafe Down id (fun _ _ _ => True) (Pool.start h ps) := by
    intro t th ht
    obtain ⟨p, h1, rfl⟩ := List.mem_map.1 (List.mem_of_getElem? ht)
    exact down_calls hL (hp p h1) h hm
  obtain ⟨h1, _⟩ := crashSafe_run down_rely evs _ C (crashSafe_start S) hr
  exact ⟨crashSafe_moves h1, crash_finishes (crash_keeps (fun _ _ _ I hn => sorted_next I hn) evs _ C (sorted_start h ps) hr)
    fun more D hD => crashSafe_moves (crashSafe_run down_rely more _ D h1 hD).1⟩

/-! ## archives -/

/-- Parsing the root succeeds.  Then, whatever threads look up, read and forget in the archive, in whatever order they get
their turns, and whichever of them panic at whatever point: nobody waits for ever, all get done, a thread that does not panic
gets right answers, and what is in memory is right. -/
def SurvivesPanics (content : Content) (e : Env) (arch : List (List Char × ATree)) : Prop :=
  ∀ h i, NewFile h i → ∃ g, h.parse content i = (.ok (), g) ∧
    ∀ (work : List (List ThreadOp)), (∀ ops ∈ work, ∀ op ∈ ops, AllowedThread arch op) →
    ∀ (queue : Bool) (evs : List Event) (C : CrashPool (List (Except Err Nat))),
      (CrashPool.start g (work.map (opsProg content i))).run queue evs = some C →
      ¬ Stuck queue C ∧ (∃ more D, NoCrash more ∧ C.run queue more = some D ∧ AllDone D.pool) ∧
      (∀ (t : Nat) (th : Thread (Option (List (Except Err Nat)))) (ops : List ThreadOp) (o : Option (List (Except Err Nat))),
        C.pool.threads[t]? = some th → work[t]? = some ops → Answer th o →
        th.held = [] ∧ (t ∈ C.gone ∧ o = none ∨ t ∉ C.gone ∧ ∃ answers, o = some answers ∧ RightAnswers e arch C.pool.heap ops answers)) ∧
      FindsThroughLinks content e C.pool.heap i arch

/-- the same for MS archives -/
def SurvivesMsPanics (content : Content) (reader : List Char → Env) (arch : List (List Char × ATree)) : Prop :=
  ∀ h i, NewMs h i → ∃ g, h.parse content i = (.ok (), g) ∧
    ∀ (work : List (List MsThreadOp)), (∀ ops ∈ work, ∀ op ∈ ops, AllowedMsThread arch op) →
    ∀ (queue : Bool) (evs : List Event) (C : CrashPool (List (Except Err Nat))),
      (CrashPool.start g (work.map (msOpsProg content i))).run queue evs = some C →
      ¬ Stuck queue C ∧ (∃ more D, NoCrash more ∧ C.run queue more = some D ∧ AllDone D.pool) ∧
      (∀ (t : Nat) (th : Thread (Option (List (Except Err Nat)))) (ops : List MsThreadOp) (o : Option (List (Except Err Nat))),
        C.pool.threads[t]? = some th → work[t]? = some ops → Answer th o →
        th.held = [] ∧ (t ∈ C.gone ∧ o = none ∨ t ∉ C.gone ∧ ∃ answers, o = some answers ∧ RightMsAnswers reader arch C.pool.heap ops answers)) ∧
      FindsMsLinks content reader C.pool.heap i arch ∧ ChildrenMsLinks content reader C.pool.heap i arch

/-- the common part -/
theorem survives {R : NHeap → NHeap → Prop} {rank : Nat → Nat} {α ω : Type} {Right : NHeap → ω → α → Prop} (hR : Rely R)
    {work : List ω} {prog : ω → Prog α} {g : NHeap}
    (hs : ∀ ops ∈ work, Safe R rank (fun g xs => Right g ops xs) [] g [] (prog ops))
    {queue : Bool} {evs : List Event} {C : CrashPool α} (hr : (CrashPool.start g (work.map prog)).run queue evs = some C) :
    ¬ Stuck queue C ∧ (∃ more D, NoCrash more ∧ C.run queue more = some D ∧ AllDone D.pool) ∧
      (∀ (t : Nat) (th : Thread (Option α)) (ops : ω) (o : Option α),
        C.pool.threads[t]? = some th → work[t]? = some ops → Answer th o →
        th.held = [] ∧ (t ∈ C.gone ∧ o = none ∨ t ∉ C.gone ∧ ∃ answers, o = some answers ∧ Right C.pool.heap ops answers)) ∧
      R g C.pool.heap := by
  have S : PoolSafe R rank (fun t g xs => ∀ ops, work[t]? = some ops → Right g ops xs) (Pool.start g (work.map prog)) := by
    intro t th ht
    simp only [Pool.start, List.getElem?_map] at ht
    cases hwt : work[t]? with
    | none => rw [hwt] at ht; cases ht
    | some ops =>
      rw [hwt] at ht
      cases ht
      refine (hs ops (List.mem_of_getElem? hwt)).weaken fun g xs hq ops' ho => ?_
      rw [hwt] at ho
      cases ho
      exact hq
  obtain ⟨h1, h2⟩ := crashSafe_run hR evs _ C (crashSafe_start S) hr
  refine ⟨crashSafe_moves h1, crash_finishes (crash_keeps (fun _ _ _ I hn => sorted_next I hn) evs _ C (sorted_start _ _) hr)
    fun more D hD => crashSafe_moves (crashSafe_run hR more _ D h1 hD).1, fun t th ops o ht ho ha => ?_, h2⟩
  obtain ⟨h3, h4⟩ := poolSafe_answer hR h1 ht ha
  refine ⟨h4, ?_⟩
  have hiff := C82_answer_iff hr ht ha
  cases o with
  | none => exact .inl ⟨hiff.1 rfl, rfl⟩
  | some xs => exact .inr ⟨fun hg => (by cases hiff.2 hg), xs, rfl, h3 xs rfl ops ho⟩

theorem survives_of {F : Fuel} {n fuel : Nat} {cache : List Cached} {f : WFile} {items : List (List Char × DNode)}
    {arch : List (List Char × ATree)} (ho : (f.parse F n cache).1 = .ok items)
    (R : ReadArchive (f.parse F n cache).2.env fuel items arch) :
    SurvivesPanics (arcContent F n fuel cache f) (f.parse F n cache).2.env arch := by
  intro h i hnew
  obtain ⟨g, hg, S⟩ := opens_stands ho R hnew
  refine ⟨g, hg, fun work hw queue evs C hr => ?_⟩
  have hF := S [] (by simp)
  obtain ⟨h1, h2, h3, h4⟩ := survives (keeps76_rely _ fuel)
    (fun ops hops => safe_ops arcContent_image ops g hF (hw ops hops)) hr
  exact ⟨h1, h2, h3, finds_through arcContent_image (h4.file hF)⟩

/-- C82 for any archive whose directory can be read. -/
theorem C82_archive (F : Fuel) (n : Nat) (cache : List Cached) (f : WFile) (items : List (List Char × DNode))
    (arch : List (List Char × ATree)) (ho : (f.parse F n cache).1 = .ok items) (hb : (f.parse F n cache).2.env.buf.length < 2 ^ 63)
    (ha : HoldsArchive (f.parse F n cache).2.env items arch) :
    ∃ N, ∀ fuel, N ≤ fuel → SurvivesPanics (arcContent F n fuel cache f) (f.parse F n cache).2.env arch := by
  obtain ⟨N, hN⟩ := holdsArchive_reads hb ha
  exact ⟨N, fun fuel hf => survives_of ho (hN fuel hf)⟩

/-- C82 for PKG1. -/
theorem C82_pkg1 (f : WFile) (v : Nat) (items : List (List Char × DNode)) (arch : List (List Char × ATree)) (cache : List Cached)
    (hi : f.hdr.ident = .v1) (hf : f.hdr.fstart < 2 ^ 32) (hb : f.env.buf.length < 2 ^ 63) (hbuf : f.env.buf ≠ [])
    (he : ∀ ev, f.hdr.encVer = some ev → ev < 2 ^ 16) (hp : f.patch = -1) (hv : TriedVersion f.hdr.encVer v)
    (hd : HoldsDir (Block1 ⟨f.env, f.hdr, f.keys2⟩ (BitVec.ofNat 64 (verHash v))) f.hdr.dataStart items)
    (ha : HoldsArchive f.env items arch) :
    ∃ N, ∀ F : Fuel, N ≤ F.loop → N ≤ F.nest → ∀ n fuel, 2000 < n → N ≤ fuel →
      (∀ u, TriedVersion f.hdr.encVer u → u < v → Refused1 F f u) → SurvivesPanics (arcContent F n fuel cache f) f.env arch := by
  obtain ⟨N, hN⟩ := C54_opens f v items hi hf hb hbuf he hp hv hd
  obtain ⟨M, hM⟩ := holdsArchive_reads hb ha
  refine ⟨N + M, fun F h1 h2 n fuel hn hfu hu => ?_⟩
  obtain ⟨p1, p2⟩ := hN F (by omega) (by omega) n hn hu
  have hpar : f.parse F n cache = f.parsePkg1 F n none := by unfold WFile.parse; rw [hi]
  have henv : (f.parse F n cache).2.env = f.env := by rw [hpar]; exact p2.2.2.2.1
  rw [← henv]
  exact survives_of (by rw [hpar]; exact p1) (by rw [henv]; exact hM fuel (by omega))

theorem pkg2_survives {F : Fuel} {n fuel : Nat} {cache : List Cached} {f : WFile} {c : Cached} {items : List (List Char × DNode)}
    {arch : List (List Char × ATree)} (hn : F.nest ≠ 0) (hi : f.hdr.ident = .v2) (hbuf : f.env.buf ≠ [])
    (hg : ∀ c ∈ cache, c.profile.gen ≠ .unknown) (h : (f.parsePkg2 F cache).1 = .ok (c, items))
    (R : ReadArchive (reading f c).env fuel items arch) : SurvivesPanics (arcContent F n fuel cache f) (reading f c).env arch := by
  have hx := (C44_file_after F f cache hn hbuf hg c items h).2.2.1
  have hpar : f.parse F n cache = (.ok items, (f.parsePkg2 F cache).2.1) := by
    unfold WFile.parse
    rw [hi]
    dsimp only
    generalize f.parsePkg2 F cache = z at h
    obtain ⟨r, f', l⟩ := z
    dsimp only at h
    subst h
    rfl
  have henv : (f.parse F n cache).2.env = (reading f c).env := by rw [hpar, ← hx]; rfl
  rw [← henv]
  exact survives_of (by rw [hpar]) (by rw [henv]; exact R)

/-- C82 for the 32-bit PKG2 formats. -/
theorem C82_pkg2 (f : WFile) (c : Cached) (items : List (List Char × DNode)) (arch : List (List Char × ATree))
    (hi : f.hdr.ident = .v2) (h64 : f.hdr.isPkg2_64 = false) (hf : f.hdr.fstart < 2 ^ 32) (hb : f.env.buf.length < 2 ^ 63)
    (hbuf : f.env.buf ≠ []) (hc : c.hash ≠ 0)
    (hd : HoldsDir (Block2 (reading f c) c.profile.ver c.hash) f.hdr.dataStart items)
    (ha : HoldsArchive (reading f c).env items arch) :
    ∃ N, ∀ F : Fuel, N ≤ F.loop → N ≤ F.nest → ∀ n fuel, N ≤ fuel → ∀ cache : List Cached,
      (∀ c ∈ cache, c.profile ∈ rows true ∨ c.profile ∈ rows false) →
      ∃ cands, Candidates f.hdr cache cands ∧ ∀ before after, cands = before ++ c :: after → (∀ b ∈ before, Refused F f b) →
        SurvivesPanics (arcContent F n fuel cache f) (reading f c).env arch := by
  obtain ⟨k, hk⟩ := reading_key f c
  obtain ⟨N, hN⟩ := C44_narrow_opens f c items hi h64 hf hb hbuf hc hd
  obtain ⟨M, hM⟩ := holdsArchive_reads (by rw [hk]; exact hb) ha
  refine ⟨N + M + 1, fun F h1 h2 n fuel hfu cache hg => ?_⟩
  obtain ⟨cands, hca, h⟩ := hN F (by omega) (by omega) cache hg
  exact ⟨cands, hca, fun before after hs hr => pkg2_survives (by omega) hi hbuf (fun c hc => (hg c hc).elim rows_gen rows_gen)
    (h before after hs hr) (hM fuel (by omega))⟩

/-- C82 for the 64-bit PKG2 format, as far as `C44_wide_opens` opens it. -/
theorem C82_pkg2_64_partial (f : WFile) (t : BitVec 64) (items : List (List Char × DNode)) (arch : List (List Char × ATree))
    (hi : f.hdr.ident = .v2) (h64 : f.hdr.isPkg2_64 = true) (hf : f.hdr.fstart < 2 ^ 32) (hb : f.env.buf.length < 2 ^ 63)
    (hbuf : f.env.buf ≠ []) (ht : Solves6 f.hdr.hash1 f.hdr.hash2 t) (h0 : t ≠ 0)
    (hd : HoldsDir (Block64 (reading f ⟨row1202, t⟩) t) f.hdr.dataStart items)
    (ha : HoldsArchive (reading f ⟨row1202, t⟩).env items arch) :
    ∃ N, ∀ F : Fuel, N ≤ F.loop → N ≤ F.nest → ∀ n fuel, N ≤ fuel → ∀ cache : List Cached,
      (∀ c ∈ cache, c.profile ∈ rows true ∨ c.profile ∈ rows false) →
      SurvivesPanics (arcContent F n fuel cache f) (reading f ⟨row1202, t⟩).env arch := by
  obtain ⟨k, hk⟩ := reading_key f ⟨row1202, t⟩
  obtain ⟨N, hN⟩ := C44_wide_opens f t items hi h64 hf hb hbuf ht h0 hd
  obtain ⟨M, hM⟩ := holdsArchive_reads (by rw [hk]; exact hb) ha
  refine ⟨N + M + 1, fun F h1 h2 n fuel hfu cache hg => ?_⟩
  exact pkg2_survives (by omega) hi hbuf (fun c hc => (hg c hc).elim rows_gen rows_gen)
    (hN F (by omega) (by omega) cache hg) (hM fuel (by omega))

/-- C82 for any MS archive whose images can be decrypted. -/
theorem C82_ms (m : Mode) (C : ChaCha) (ks2 : Nat → Byte) (f : MsFile) (ims : List MsImage) (files : List (List Char × MsItem))
    (hp : f.parse m C = .ok ims)
    (hd : All2 (fun im (x : List Char × MsItem) => f.toWzImage m C im = .ok ⟨x.1, x.2.data, x.2.data.length⟩) ims files)
    (hs : ∀ x ∈ files, MsStored m ks2 x) :
    ∃ N, ∀ fuel, N ≤ fuel → SurvivesMsPanics (msContent m C ks2 fuel f) (msReader m ks2 files) (msTree files) := by
  obtain ⟨N, hN⟩ := msRead_all hp hd hs
  refine ⟨N, fun fuel hf h i ⟨c, hc, hk, hks⟩ => ?_⟩
  have R := hN fuel hf [] rfl
  obtain ⟨g, hg, F⟩ := ms_fresh R hc hk hks (by show (f.parse m C).map (msForest 1) = _; rw [hp]; rfl)
  refine ⟨g, hg, fun work hw queue evs D hr => ?_⟩
  obtain ⟨h1, h2, h3, h4⟩ := survives (keeps77_rely _)
    (fun ops hops => safe_ops77 (msTree_flat hs) ops g (.start F.weaken) (hw ops hops)) hr
  exact ⟨h1, h2, h3, stands_finds70 (msTree_flat hs) (h4.stands F.weaken), stands_children70 (msTree_flat hs) (h4.stands F.weaken)⟩

/-- C82 for MS archives of version 1. -/
theorem C82_ms_v1 : ∃ M : Maps, M.Ok ∧ ∀ (C : ChaCha) (ks2 : Nat → Byte) (h : Head1) (name : List Char) (H : MsHeader) (es : List MsEntry)
    (gap pad rest : Bytes) (files : List (List Char × MsItem)),
    h.Ok name → name ≠ [] → h.result name = .ok H → i32At h.plain 5 = es.length → gap.length = 30 + 3 * nameSum name % 212 →
    (∀ e ∈ es, EntryOk e ∧ 0 ≤ e.startPos ∧ 0 ≤ e.sizeAligned ∧ e.unk3 = 0 ∧ e.unk4 = 0) →
    ((es.flatMap fields1).flatten ++ pad).length = roundUp 4 (es.flatMap fields1).flatten.length →
    ∀ buf, buf = h.bytes M name ++ gap ++ encrypt (keyWord M (signedKey (key2 (utf8EncStr (lower name ++ byteText h.chars)) 16))) 0 ((es.flatMap fields1).flatten ++ pad) ++ rest →
    buf.length < 2 ^ 63 →
    All2 (Writes1 M (byteText h.chars) buf ((h.bytes M name ++ gap).length + roundUp 4 (es.flatMap fields1).flatten.length)) es files →
    (∀ x ∈ files, MsStored .wrap ks2 x) →
    ∃ f, msOpen .wrap C buf name = .ok f ∧ ∃ N, ∀ fuel, N ≤ fuel →
      SurvivesMsPanics (msContent .wrap C ks2 fuel f) (msReader .wrap ks2 files) (msTree files) := by
  refine ⟨Snow.maps, Snow.maps_ok, fun C ks2 h name H es gap pad rest files hok hn hH hc hg hes hpad buf hbuf hlen hw hs => ?_⟩
  obtain ⟨f, ims, h1, h2, h3⟩ := ms1_images C h name H es gap pad rest files hok hn hH hc hg hes hpad buf hbuf hlen hw
  exact ⟨f, h1, C82_ms .wrap C ks2 f ims files h2 h3 hs⟩

/-! ## concrete cases -/

/-- `C82_pkg1`: `C77`'s two threads; one may panic anywhere, the other one still gets its answers, all that is in memory is right -/
example : ∃ (F : Fuel) (n fuel : Nat) (g : NHeap), heap58.parse (arcContent F n fuel [] wfile70) 0 = (.ok (), g) ∧
    ∀ queue evs C, (CrashPool.start g (work77.map (opsProg (arcContent F n fuel [] wfile70) 0))).run queue evs = some C →
      ¬ Stuck queue C ∧ (∃ more D, NoCrash more ∧ C.run queue more = some D ∧ AllDone D.pool) ∧
      (∀ th o, C.pool.threads[0]? = some th → Answer th o → th.held = [] ∧ (o = none ∨ ∃ xs, o = some xs ∧
        RightAnswers wfile70.env [(['a'], .image props70)] C.pool.heap [.find "a/d/u/l".toList, .load "a".toList] xs)) ∧
      FindsThroughLinks (arcContent F n fuel [] wfile70) wfile70.env C.pool.heap 0 [(['a'], .image props70)] := by
  have h83 : verHash 83 = 1876 := by simp [verHash]
  obtain ⟨N, hN⟩ := C82_pkg1 wfile70 83 _ [(['a'], .image props70)] [] rfl (by decide) (by decide +kernel) (by decide +kernel)
    (by intro ev h; cases h; decide) rfl ⟨by omega, by omega, .inr (by rw [h83]; decide)⟩ (by rw [h83]; exact file70_holds)
    (.image _ _ _ _ _ _ (by decide) stored70 .nil)
  have R := hN ⟨N, N⟩ (Nat.le_refl _) (Nat.le_refl _) 2001 N (by omega) (Nat.le_refl _) fun u h hu => absurd hu (no_earlier u h)
  obtain ⟨g, hg, H⟩ := R heap58 0 ⟨_, rfl, rfl, rfl⟩
  refine ⟨⟨N, N⟩, 2001, N, g, hg, fun queue evs C hr => ?_⟩
  obtain ⟨h1, h2, h3, h4⟩ := H work77 work77_allowed queue evs C hr
  refine ⟨h1, h2, fun th o ht ha => ?_, h4⟩
  obtain ⟨h5, h6⟩ := h3 0 th _ o ht rfl ha
  refine ⟨h5, ?_⟩
  rcases h6 with ⟨_, h6⟩ | ⟨_, xs, h6, h7⟩
  · exact .inl h6
  · exact .inr ⟨xs, h6, h7⟩

/-- all hypotheses of `C82_pkg2_64_partial` are met -/
example : ∃ (F : Fuel) (n fuel : Nat), SurvivesPanics (arcContent F n fuel [] wfile58w) wfile58w.env
    [(['a'], .image [(['n'], .node (.int 5) [])])] := by
  obtain ⟨N, hN⟩ := C82_pkg2_64_partial wfile58w 77#64 _ _ rfl (by decide) (by decide) (by decide +kernel) (by decide +kernel)
    (by unfold Solves6; decide +kernel) (by decide) wfile58w_holds
    (.image _ _ _ _ _ _ (by decide) (propImg_stored rfl (fun h => absurd (endsWith_iff.mpr h) (by decide)) (holds_slice 24 (by decide +kernel))) .nil)
  exact ⟨⟨N, N⟩, 0, N, hN ⟨N, N⟩ (Nat.le_refl _) (Nat.le_refl _) 0 N (Nat.le_refl _) [] (by simp)⟩

/-- all hypotheses of `C82_ms_v1` and with them of `C82_ms` are met -/
example : ∃ M : Maps, ∀ (C : ChaCha) (ks2 : Nat → Byte), ∃ f fuel, msOpen .wrap C (mlBytes M) ['h', 'h', 'h'] = .ok f ∧
    SurvivesMsPanics (msContent .wrap C ks2 fuel f) (msReader .wrap ks2 mlFiles) (msTree mlFiles) := by
  obtain ⟨M, _, hM⟩ := C82_ms_v1
  refine ⟨M, fun C ks2 => ?_⟩
  obtain ⟨f, h1, N, hN⟩ := hM C ks2 msHead ['h', 'h', 'h'] _ mlEntries msGap [] (mlRest M) mlFiles msHead_ok (by decide) msHead_result (by decide)
    (by decide +kernel) mlEntries_ok (by rw [List.append_nil, mlTable_length]; decide) (mlBytes M) rfl (mlBytes_length M) (mlFiles_written M)
    (mlFiles_stored _ _)
  exact ⟨f, N, h1, hN N (Nat.le_refl _)⟩

/-- two threads that look up the same property in an image not read yet -/
def looks82 : List (Prog (Except Err Nat)) := List.replicate 2 (findProg content76 .read 0 "d/i/p".toList)

/-- what can be seen of the threads: their answers, the poisoned locks, who panicked -/
def seen82 (queue : Bool) (evs : List Event) : Option (List (Option (Option (Except Err Nat))) × List Nat × List Nat) :=
  ((CrashPool.start tree76 looks82).run queue evs).map fun C => ((List.range 2).map (answer76 C.pool), C.bad, C.gone)

/-- `C82_answer_iff`, `C82_no_crash`: without a panic both threads find the property -/
example (queue : Bool) : seen82 queue (List.replicate 9 (.go 0) ++ List.replicate 9 (.go 1)) =
    some ([some (some (.ok 3)), some (some (.ok 3))], [], []) := by
  cases queue <;> decide +kernel

/-- `C82_spoils`: a thread that panics while it has locks for reading only spoils nothing; the other thread is not disturbed -/
example (queue : Bool) : seen82 queue (List.replicate 2 (.go 0) ++ [.crash 0, .go 0] ++ List.replicate 9 (.go 1)) =
    some ([some none, some (some (.ok 3))], [], [0]) := by
  cases queue <;> decide +kernel

/-- **One panic makes other threads panic**, as all calls `unwrap` the locks: the first thread panics while it has a node locked
for writing, and the second one, which does nothing but look up a path that is there, panics for it.  So does every later lookup
(`C80`). -/
theorem C82_spreads_counterexample (queue : Bool) :
    seen82 queue (List.replicate 9 (.go 1)) = some ([none, some (some (.ok 3))], [], []) ∧
    seen82 queue (List.replicate 3 (.go 0) ++ [.crash 0] ++ List.replicate 2 (.go 0) ++ List.replicate 4 (.go 1)) =
      some ([some none, some none], [1], [1, 0]) := by
  cases queue <;> exact ⟨by decide +kernel, by decide +kernel⟩

end Wz.Props
