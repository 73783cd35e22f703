import Verif.Thread.OpLemmas
import Verif.Thread.Props
import Verif.Whole.LinkExamples

/-!
# C77: threads that share an archive all get what stands in the file
-/

set_option autoImplicit false

namespace Wz.Props

open Wz Wz.Spec

/-- Parsing the root succeeds.  Then, whatever threads look up, read and forget in the archive, and in whatever order they
get their turns: they never wait for each other in a circle, they all get done, each answer is what is seen at the path,
links taken for what they lead to, and what is looked up afterwards is so as well. -/
def SharedReads (content : Content) (e : Env) (arch : List (List Char × ATree)) : Prop :=
  ∀ h i, NewFile h i → ∃ g, h.parse content i = (.ok (), g) ∧
    ∀ (work : List (List ThreadOp)), (∀ ops ∈ work, ∀ op ∈ ops, AllowedThread arch op) →
    ∀ (queue : Bool) (sched : List Nat) (P : Pool (List (Except Err Nat))),
      (Pool.start g (work.map (opsProg content i))).run queue sched = some P →
      ¬ Deadlock queue P ∧ (∃ more P', P.run queue more = some P' ∧ AllDone P') ∧
      (∀ (t : Nat) (th : Thread (List (Except Err Nat))) (ops : List ThreadOp) (answers : List (Except Err Nat)),
        P.threads[t]? = some th → work[t]? = some ops → Answer th answers →
        RightAnswers e arch P.heap ops answers ∧ th.held = []) ∧
      FindsThroughLinks content e P.heap i arch

theorem shared_of {e : Env} {fuel : Nat} {content : Content} {g : NHeap} {i : Nat} {arch : List (List Char × ATree)}
    (hcon : ∀ n o s, content (Encodable.encode (Src58.image n o s)) = readImage e fuel ⟨n, o, s⟩) (F : FileStands e fuel g i arch)
    (work : List (List ThreadOp)) (hw : ∀ ops ∈ work, ∀ op ∈ ops, AllowedThread arch op)
    (queue : Bool) (sched : List Nat) (P : Pool (List (Except Err Nat)))
    (hr : (Pool.start g (work.map (opsProg content i))).run queue sched = some P) :
    ¬ Deadlock queue P ∧ (∃ more P', P.run queue more = some P' ∧ AllDone P') ∧
      (∀ (t : Nat) (th : Thread (List (Except Err Nat))) (ops : List ThreadOp) (answers : List (Except Err Nat)),
        P.threads[t]? = some th → work[t]? = some ops → Answer th answers →
        RightAnswers e arch P.heap ops answers ∧ th.held = []) ∧
      FindsThroughLinks content e P.heap i arch := by
  have hR := keeps76_rely e fuel
  have S : PoolSafe (Keeps76 e fuel) (rank76 i) (fun t g xs => ∀ ops, work[t]? = some ops → RightAnswers e arch g ops xs)
      (Pool.start g (work.map (opsProg content i))) := by
    intro t th ht
    simp only [Pool.start, List.getElem?_map] at ht
    cases hwt : work[t]? with
    | none => rw [hwt] at ht; cases ht
    | some ops =>
      rw [hwt] at ht
      cases ht
      refine (safe_ops hcon ops g F (hw ops (List.mem_of_getElem? hwt))).weaken fun g xs hq ops' ho => ?_
      rw [hwt] at ho
      cases ho
      exact hq
  obtain ⟨h1, h2⟩ := poolSafe_run hR sched _ P S hr
  refine ⟨poolSafe_moves h1, finishes_of fun more P' hm => poolSafe_moves (poolSafe_run hR more _ P' h1 hm).1, fun t th ops xs ht ho ha => ?_,
    finds_through hcon (h2.file F)⟩
  obtain ⟨h3, h4⟩ := poolSafe_answer hR h1 ht ha
  exact ⟨h3 ops ho, h4⟩

theorem sharedReads_of {F : Fuel} {n fuel : Nat} {cache : List Cached} {f : WFile} {items : List (List Char × DNode)}
    {arch : List (List Char × ATree)} (ho : (f.parse F n cache).1 = .ok items)
    (R : ReadArchive (f.parse F n cache).2.env fuel items arch) :
    SharedReads (arcContent F n fuel cache f) (f.parse F n cache).2.env arch := by
  intro h i hnew
  obtain ⟨g, hg, S⟩ := opens_stands ho R hnew
  exact ⟨g, hg, shared_of arcContent_image (S [] (by simp))⟩

/-- C77 for any archive whose directory can be read. -/
theorem C77_archive (F : Fuel) (n : Nat) (cache : List Cached) (f : WFile) (items : List (List Char × DNode))
    (arch : List (List Char × ATree)) (ho : (f.parse F n cache).1 = .ok items) (hb : (f.parse F n cache).2.env.buf.length < 2 ^ 63)
    (ha : HoldsArchive (f.parse F n cache).2.env items arch) :
    ∃ N, ∀ fuel, N ≤ fuel → SharedReads (arcContent F n fuel cache f) (f.parse F n cache).2.env arch := by
  obtain ⟨N, hN⟩ := holdsArchive_reads hb ha
  exact ⟨N, fun fuel hf => sharedReads_of ho (hN fuel hf)⟩

/-- C77 for PKG1. -/
theorem C77_pkg1 (f : WFile) (v : Nat) (items : List (List Char × DNode)) (arch : List (List Char × ATree)) (cache : List Cached)
    (hi : f.hdr.ident = .v1) (hf : f.hdr.fstart < 2 ^ 32) (hb : f.env.buf.length < 2 ^ 63) (hbuf : f.env.buf ≠ [])
    (he : ∀ ev, f.hdr.encVer = some ev → ev < 2 ^ 16) (hp : f.patch = -1) (hv : TriedVersion f.hdr.encVer v)
    (hd : HoldsDir (Block1 ⟨f.env, f.hdr, f.keys2⟩ (BitVec.ofNat 64 (verHash v))) f.hdr.dataStart items)
    (ha : HoldsArchive f.env items arch) :
    ∃ N, ∀ F : Fuel, N ≤ F.loop → N ≤ F.nest → ∀ n fuel, 2000 < n → N ≤ fuel →
      (∀ u, TriedVersion f.hdr.encVer u → u < v → Refused1 F f u) → SharedReads (arcContent F n fuel cache f) f.env arch := by
  obtain ⟨N, hN⟩ := C54_opens f v items hi hf hb hbuf he hp hv hd
  obtain ⟨M, hM⟩ := holdsArchive_reads hb ha
  refine ⟨N + M, fun F h1 h2 n fuel hn hfu hu => ?_⟩
  obtain ⟨p1, p2⟩ := hN F (by omega) (by omega) n hn hu
  have hpar : f.parse F n cache = f.parsePkg1 F n none := by unfold WFile.parse; rw [hi]
  have henv : (f.parse F n cache).2.env = f.env := by rw [hpar]; exact p2.2.2.2.1
  rw [← henv]
  exact sharedReads_of (by rw [hpar]; exact p1) (by rw [henv]; exact hM fuel (by omega))

theorem pkg2_shared {F : Fuel} {n fuel : Nat} {cache : List Cached} {f : WFile} {c : Cached} {items : List (List Char × DNode)}
    {arch : List (List Char × ATree)} (hn : F.nest ≠ 0) (hi : f.hdr.ident = .v2) (hbuf : f.env.buf ≠ [])
    (hg : ∀ c ∈ cache, c.profile.gen ≠ .unknown) (h : (f.parsePkg2 F cache).1 = .ok (c, items))
    (R : ReadArchive (reading f c).env fuel items arch) : SharedReads (arcContent F n fuel cache f) (reading f c).env arch := by
  have hx := (C44_file_after F f cache hn hbuf hg c items h).2.2.1
  have hpar : f.parse F n cache = (.ok items, (f.parsePkg2 F cache).2.1) := by
    unfold WFile.parse
    rw [hi]
    dsimp only
    generalize f.parsePkg2 F cache = z at h
    obtain ⟨r, f', l⟩ := z
    dsimp only at h
    subst h
    rfl
  have henv : (f.parse F n cache).2.env = (reading f c).env := by rw [hpar, ← hx]; rfl
  rw [← henv]
  exact sharedReads_of (by rw [hpar]) (by rw [henv]; exact R)

/-- C77 for the 32-bit PKG2 formats. -/
theorem C77_pkg2 (f : WFile) (c : Cached) (items : List (List Char × DNode)) (arch : List (List Char × ATree))
    (hi : f.hdr.ident = .v2) (h64 : f.hdr.isPkg2_64 = false) (hf : f.hdr.fstart < 2 ^ 32) (hb : f.env.buf.length < 2 ^ 63)
    (hbuf : f.env.buf ≠ []) (hc : c.hash ≠ 0)
    (hd : HoldsDir (Block2 (reading f c) c.profile.ver c.hash) f.hdr.dataStart items)
    (ha : HoldsArchive (reading f c).env items arch) :
    ∃ N, ∀ F : Fuel, N ≤ F.loop → N ≤ F.nest → ∀ n fuel, N ≤ fuel → ∀ cache : List Cached,
      (∀ c ∈ cache, c.profile ∈ rows true ∨ c.profile ∈ rows false) →
      ∃ cands, Candidates f.hdr cache cands ∧ ∀ before after, cands = before ++ c :: after → (∀ b ∈ before, Refused F f b) →
        SharedReads (arcContent F n fuel cache f) (reading f c).env arch := by
  obtain ⟨k, hk⟩ := reading_key f c
  obtain ⟨N, hN⟩ := C44_narrow_opens f c items hi h64 hf hb hbuf hc hd
  obtain ⟨M, hM⟩ := holdsArchive_reads (by rw [hk]; exact hb) ha
  refine ⟨N + M + 1, fun F h1 h2 n fuel hfu cache hg => ?_⟩
  obtain ⟨cands, hca, h⟩ := hN F (by omega) (by omega) cache hg
  exact ⟨cands, hca, fun before after hs hr => pkg2_shared (by omega) hi hbuf (fun c hc => (hg c hc).elim rows_gen rows_gen)
    (h before after hs hr) (hM fuel (by omega))⟩

/-- C77 for the 64-bit PKG2 format, as far as `C44_wide_opens` opens it. -/
theorem C77_pkg2_64_partial (f : WFile) (t : BitVec 64) (items : List (List Char × DNode)) (arch : List (List Char × ATree))
    (hi : f.hdr.ident = .v2) (h64 : f.hdr.isPkg2_64 = true) (hf : f.hdr.fstart < 2 ^ 32) (hb : f.env.buf.length < 2 ^ 63)
    (hbuf : f.env.buf ≠ []) (ht : Solves6 f.hdr.hash1 f.hdr.hash2 t) (h0 : t ≠ 0)
    (hd : HoldsDir (Block64 (reading f ⟨row1202, t⟩) t) f.hdr.dataStart items)
    (ha : HoldsArchive (reading f ⟨row1202, t⟩).env items arch) :
    ∃ N, ∀ F : Fuel, N ≤ F.loop → N ≤ F.nest → ∀ n fuel, N ≤ fuel → ∀ cache : List Cached,
      (∀ c ∈ cache, c.profile ∈ rows true ∨ c.profile ∈ rows false) →
      SharedReads (arcContent F n fuel cache f) (reading f ⟨row1202, t⟩).env arch := by
  obtain ⟨k, hk⟩ := reading_key f ⟨row1202, t⟩
  obtain ⟨N, hN⟩ := C44_wide_opens f t items hi h64 hf hb hbuf ht h0 hd
  obtain ⟨M, hM⟩ := holdsArchive_reads (by rw [hk]; exact hb) ha
  refine ⟨N + M + 1, fun F h1 h2 n fuel hfu cache hg => ?_⟩
  exact pkg2_shared (by omega) hi hbuf (fun c hc => (hg c hc).elim rows_gen rows_gen)
    (hN F (by omega) (by omega) cache hg) (hM fuel (by omega))

/-- all hypotheses of `C77_pkg2_64_partial` are met -/
example : ∃ (F : Fuel) (n fuel : Nat), SharedReads (arcContent F n fuel [] wfile58w) wfile58w.env
    [(['a'], .image [(['n'], .node (.int 5) [])])] := by
  obtain ⟨N, hN⟩ := C77_pkg2_64_partial wfile58w 77#64 _ _ rfl (by decide) (by decide) (by decide +kernel) (by decide +kernel)
    (by unfold Solves6; decide +kernel) (by decide) wfile58w_holds
    (.image _ _ _ _ _ _ (by decide) (propImg_stored rfl (fun h => absurd (endsWith_iff.mpr h) (by decide)) (holds_slice 24 (by decide +kernel))) .nil)
  exact ⟨⟨N, N⟩, 0, N, hN ⟨N, N⟩ (Nat.le_refl _) (Nat.le_refl _) 0 N (Nat.le_refl _) [] (by simp)⟩

/-- two threads: one looks up a path over two links and reads the image, the other forgets the image and looks again -/
def work77 : List (List ThreadOp) := [[.find "a/d/u/l".toList, .load "a".toList], [.close "a".toList, .peek "a/l".toList, .find "a/l/n".toList]]

theorem work77_allowed : ∀ ops ∈ work77, ∀ op ∈ ops, AllowedThread [(['a'], .image props70)] op := by
  have hon : ∀ ns, LinksOn [(['a'], .image props70)] (['a'] :: ns) := fun ns => .inr (.inr ⟨distinct70, direct70⟩)
  intro ops h op ho
  simp only [work77, List.mem_cons, List.not_mem_nil, or_false] at h
  rcases h with rfl | rfl
  · simp only [List.mem_cons, List.not_mem_nil, or_false] at ho
    rcases ho with rfl | rfl
    · exact ⟨[['a'], ['d'], ['u'], ['l']], pieces_iff.2 (by decide), hon _⟩
    · exact ⟨[['a']], pieces_iff.2 (by decide), hon _⟩
  · simp only [List.mem_cons, List.not_mem_nil, or_false] at ho
    rcases ho with rfl | rfl | rfl
    · refine ⟨[['a']], pieces_iff.2 (by decide), hon _, ?_⟩
      rintro n (⟨_, h⟩ | ⟨_, h⟩ | ⟨_, _, _, _, _, h⟩) <;> cases h
    · exact ⟨[['a'], ['l']], pieces_iff.2 (by decide), hon _⟩
    · exact ⟨[['a'], ['l'], ['n']], pieces_iff.2 (by decide), hon _⟩

/-- All hypotheses of `C77_pkg1` are met.  Whatever the schedule, both threads get done, the first finds the number under the path over
two links, though the second forgets the image at any time, and the second finds nothing below the number. -/
example : ∃ (F : Fuel) (n fuel : Nat) (g : NHeap), heap58.parse (arcContent F n fuel [] wfile70) 0 = (.ok (), g) ∧
    ∀ queue sched P, (Pool.start g (work77.map (opsProg (arcContent F n fuel [] wfile70) 0))).run queue sched = some P →
      ¬ Deadlock queue P ∧ (∃ more P', P.run queue more = some P' ∧ AllDone P') ∧
      (∀ th xs, P.threads[0]? = some th → Answer th xs → ∃ j k c, xs = [.ok j, .ok k] ∧ P.heap.cell j = some c ∧ c.name = ['n'] ∧
        LinkShows wfile70.env c.kind (.prop (.int 5))) ∧
      (∀ th xs, P.threads[1]? = some th → Answer th xs → ∃ j x, xs = [.ok j, x, .error (.lib "NodeNotFound")]) := by
  have h83 : verHash 83 = 1876 := by simp [verHash]
  obtain ⟨N, hN⟩ := C77_pkg1 wfile70 83 _ [(['a'], .image props70)] [] rfl (by decide) (by decide +kernel) (by decide +kernel)
    (by intro ev h; cases h; decide) rfl ⟨by omega, by omega, .inr (by rw [h83]; decide)⟩ (by rw [h83]; exact file70_holds)
    (.image _ _ _ _ _ _ (by decide) stored70 .nil)
  have R := hN ⟨N, N⟩ (Nat.le_refl _) (Nat.le_refl _) 2001 N (by omega) (Nat.le_refl _) fun u h hu => absurd hu (no_earlier u h)
  obtain ⟨g, hg, H⟩ := R heap58 0 ⟨_, rfl, rfl, rfl⟩
  refine ⟨⟨N, N⟩, 2001, N, g, hg, fun queue sched P hr => ?_⟩
  obtain ⟨h1, h2, h3, _⟩ := H work77 work77_allowed queue sched P hr
  have image : ∀ {P : NHeap} {x : Except Err Nat}, RightAnswer wfile70.env [(['a'], .image props70)] P "a".toList x → ∃ j, x = .ok j := by
    intro P x h
    obtain ⟨j, _, h, _⟩ := h [['a']] (some (['a'], .image)) (pieces_iff.2 (by decide)) (.inr (.inl ⟨.here _, rfl⟩))
    exact ⟨j, h⟩
  refine ⟨h1, h2, fun th xs ht ha => ?_, fun th xs ht ha => ?_⟩
  · obtain ⟨ra, _⟩ := h3 0 th _ xs ht rfl ha
    cases ra with
    | cons _ _ x _ r1 ra => cases ra with
      | cons _ _ y _ r2 ra =>
        cases ra
        obtain ⟨j, c, q1, q2, q3, q4⟩ := r1 [['a'], ['d'], ['u'], ['l']] (some (['n'], .prop (.int 5))) (pieces_iff.2 (by decide))
          (.inr (.inr ⟨_, _, _, seen70, rfl, rfl⟩))
        obtain ⟨k, rfl⟩ := image r2
        subst q1
        exact ⟨j, k, c, rfl, q2, q3, q4⟩
  · obtain ⟨ra, _⟩ := h3 1 th _ xs ht rfl ha
    cases ra with
    | cons _ _ x _ r1 ra => cases ra with
      | cons _ _ y _ r2 ra => cases ra with
        | cons _ _ z _ r3 ra =>
          cases ra
          obtain ⟨j, rfl⟩ := image r1
          refine ⟨j, y, ?_⟩
          have := r3 [['a'], ['l'], ['n']] none (pieces_iff.2 (by decide))
            (.inl ⟨.link [] ['l'] [['n']] ['n'] [['n']] [['n']] _ (by decide) (pieces_iff.2 (by decide)) way_n70 (.missing _ _ _ (by decide)), rfl⟩)
          dsimp only at this
          rw [this]

end Wz.Props
