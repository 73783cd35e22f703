import Verif.Thread.MsOpLemmas
import Verif.Thread.Examples

/-!
# C78: threads that share an MS archive all get what stands in the file
-/

set_option autoImplicit false

namespace Wz.Props

open Wz Wz.Spec Wz.Spec.Snow Wz.Spec.Ms

/-- Parsing the root succeeds.  Then, whatever threads look up, read and forget in the archive, and in whatever order they
get their turns: they never wait for each other in a circle, they all get done, each answer is what is seen there,
links taken for what they lead to, and what is looked up afterwards is so as well. -/
def SharedMsReads (content : Content) (reader : List Char → Env) (arch : List (List Char × ATree)) : Prop :=
  ∀ h i, NewMs h i → ∃ g, h.parse content i = (.ok (), g) ∧
    ∀ (work : List (List MsThreadOp)), (∀ ops ∈ work, ∀ op ∈ ops, AllowedMsThread arch op) →
    ∀ (queue : Bool) (sched : List Nat) (P : Pool (List (Except Err Nat))),
      (Pool.start g (work.map (msOpsProg content i))).run queue sched = some P →
      ¬ Deadlock queue P ∧ (∃ more P', P.run queue more = some P' ∧ AllDone P') ∧
      (∀ (t : Nat) (th : Thread (List (Except Err Nat))) (ops : List MsThreadOp) (answers : List (Except Err Nat)),
        P.threads[t]? = some th → work[t]? = some ops → Answer th answers →
        RightMsAnswers reader arch P.heap ops answers ∧ th.held = []) ∧
      FindsMsLinks content reader P.heap i arch ∧ ChildrenMsLinks content reader P.heap i arch

theorem sharedMs_of {A : Prop} {content : Content} {reader : List Char → Env} {arch : List (List Char × ATree)} {g : NHeap} {i : Nat}
    (hd : FlatMs arch) (F : MsStands False A content reader g i arch)
    (work : List (List MsThreadOp)) (hw : ∀ ops ∈ work, ∀ op ∈ ops, AllowedMsThread arch op)
    (queue : Bool) (sched : List Nat) (P : Pool (List (Except Err Nat)))
    (hr : (Pool.start g (work.map (msOpsProg content i))).run queue sched = some P) :
    ¬ Deadlock queue P ∧ (∃ more P', P.run queue more = some P' ∧ AllDone P') ∧
      (∀ (t : Nat) (th : Thread (List (Except Err Nat))) (ops : List MsThreadOp) (answers : List (Except Err Nat)),
        P.threads[t]? = some th → work[t]? = some ops → Answer th answers →
        RightMsAnswers reader arch P.heap ops answers ∧ th.held = []) ∧
      FindsMsLinks content reader P.heap i arch ∧ ChildrenMsLinks content reader P.heap i arch := by
  have hR := keeps77_rely content
  have S : PoolSafe (Keeps77 content) (rank77 g i) (fun t g xs => ∀ ops, work[t]? = some ops → RightMsAnswers reader arch g ops xs)
      (Pool.start g (work.map (msOpsProg content i))) := by
    intro t th ht
    simp only [Pool.start, List.getElem?_map] at ht
    cases hwt : work[t]? with
    | none => rw [hwt] at ht; cases ht
    | some ops =>
      rw [hwt] at ht
      cases ht
      refine (safe_ops77 hd ops g (.start F) (hw ops (List.mem_of_getElem? hwt))).weaken fun g xs hq ops' ho => ?_
      rw [hwt] at ho
      cases ho
      exact hq
  obtain ⟨h1, h2⟩ := poolSafe_run hR sched _ P S hr
  refine ⟨poolSafe_moves h1, finishes_of fun more P' hm => poolSafe_moves (poolSafe_run hR more _ P' h1 hm).1, fun t th ops xs ht ho ha => ?_,
    stands_finds70 hd (h2.stands F), stands_children70 hd (h2.stands F)⟩
  obtain ⟨h3, h4⟩ := poolSafe_answer hR h1 ht ha
  exact ⟨h3 ops ho, h4⟩

/-- C78 for any MS archive whose images can be decrypted. -/
theorem C78_archive (m : Mode) (C : ChaCha) (ks2 : Nat → Byte) (f : MsFile) (ims : List MsImage) (files : List (List Char × MsItem))
    (hp : f.parse m C = .ok ims)
    (hd : All2 (fun im (x : List Char × MsItem) => f.toWzImage m C im = .ok ⟨x.1, x.2.data, x.2.data.length⟩) ims files)
    (hs : ∀ x ∈ files, MsStored m ks2 x) :
    ∃ N, ∀ fuel, N ≤ fuel → SharedMsReads (msContent m C ks2 fuel f) (msReader m ks2 files) (msTree files) := by
  obtain ⟨N, hN⟩ := msRead_all hp hd hs
  refine ⟨N, fun fuel hf h i ⟨c, hc, hk, hks⟩ => ?_⟩
  have R := hN fuel hf [] rfl
  obtain ⟨g, hg, F⟩ := ms_fresh R hc hk hks (by show (f.parse m C).map (msForest 1) = _; rw [hp]; rfl)
  exact ⟨g, hg, sharedMs_of (msTree_flat hs) F.weaken⟩

/-- C78 for MS archives of version 1. -/
theorem C78_v1 : ∃ M : Maps, M.Ok ∧ ∀ (C : ChaCha) (ks2 : Nat → Byte) (h : Head1) (name : List Char) (H : MsHeader) (es : List MsEntry)
    (gap pad rest : Bytes) (files : List (List Char × MsItem)),
    h.Ok name → name ≠ [] → h.result name = .ok H → i32At h.plain 5 = es.length → gap.length = 30 + 3 * nameSum name % 212 →
    (∀ e ∈ es, EntryOk e ∧ 0 ≤ e.startPos ∧ 0 ≤ e.sizeAligned ∧ e.unk3 = 0 ∧ e.unk4 = 0) →
    ((es.flatMap fields1).flatten ++ pad).length = roundUp 4 (es.flatMap fields1).flatten.length →
    ∀ buf, buf = h.bytes M name ++ gap ++ encrypt (keyWord M (signedKey (key2 (utf8EncStr (lower name ++ byteText h.chars)) 16))) 0 ((es.flatMap fields1).flatten ++ pad) ++ rest →
    buf.length < 2 ^ 63 →
    All2 (Writes1 M (byteText h.chars) buf ((h.bytes M name ++ gap).length + roundUp 4 (es.flatMap fields1).flatten.length)) es files →
    (∀ x ∈ files, MsStored .wrap ks2 x) →
    ∃ f, msOpen .wrap C buf name = .ok f ∧ ∃ N, ∀ fuel, N ≤ fuel →
      SharedMsReads (msContent .wrap C ks2 fuel f) (msReader .wrap ks2 files) (msTree files) := by
  refine ⟨Snow.maps, Snow.maps_ok, fun C ks2 h name H es gap pad rest files hok hn hH hc hg hes hpad buf hbuf hlen hw hs => ?_⟩
  obtain ⟨f, ims, h1, h2, h3⟩ := ms1_images C h name H es gap pad rest files hok hn hH hc hg hes hpad buf hbuf hlen hw
  exact ⟨f, h1, C78_archive .wrap C ks2 f ims files h2 h3 hs⟩

/-- C78 for MS archives of version 2, for files that are opened as such (see `C41_open_v2_partial`).
`_partial`: for the names that have a key (see `C42_key_v2_panic`). -/
theorem C78_v2_partial (C : ChaCha) (hC : Blocks64 C) (ks2 : Nat → Byte) (h : Head2) (name : List Char) (es : List MsEntry) (pre rest : Bytes)
    (files : List (List Char × MsItem)) (hn : name ≠ []) (ho : msOpen .wrap C h.bytes name = .ok ⟨h.bytes, h.result C name⟩)
    (hc : (h.result C name).entryCount = es.length) (hpre : pre.length = randCount name + 5 + 2 * h.salt.length + 72 + 3 * nameSum name % 212)
    (hes : ∀ e ∈ es, EntryOk e ∧ 0 ≤ e.startPos ∧ 0 ≤ e.sizeAligned ∧ ((∀ c ∈ e.name, c.toNat < 128) ∨ 32 ≤ e.name.length)) (hrest : 63 ≤ rest.length)
    (hbuf : h.bytes = pre ++ restartEncrypt (C (xorBase (key2 (utf8EncStr (lower name ++ byteText h.chars)) 32)) (List.replicate 12 0#8)) 0 0 (es.flatMap fields2) ++ rest)
    (hlen : h.bytes.length < 2 ^ 63)
    (hw : All2 (Writes2 C (byteText h.chars) h.bytes (pre.length + roundUp 64 (es.flatMap fields2).flatten.length)) es files)
    (hs : ∀ x ∈ files, MsStored .wrap ks2 x) :
    ∃ f, msOpen .wrap C h.bytes name = .ok f ∧ ∃ N, ∀ fuel, N ≤ fuel →
      SharedMsReads (msContent .wrap C ks2 fuel f) (msReader .wrap ks2 files) (msTree files) := by
  obtain ⟨ims, h2, h3⟩ := ms2_images C hC h name es pre rest files hn hc hpre hes hrest hbuf hlen hw
  exact ⟨_, ho, C78_archive .wrap C ks2 _ ims files h2 h3 hs⟩

/-- two threads: one opens an image and looks up a path over a link in another, the second looks below that one and forgets both -/
def workMs77 : List (List MsThreadOp) :=
  [[.open "a/b".toList, .path (.find "q.img/l".toList)], [.below "q.img".toList ['l'], .shut "q.img".toList, .shut "a/b".toList]]

theorem workMs77_allowed : ∀ ops ∈ workMs77, ∀ op ∈ ops, AllowedMsThread (msTree mlFiles) op := by
  have hab : lastNamed (msTree mlFiles) "a/b".toList = some (.image props70) := rfl
  have hq : lastNamed (msTree mlFiles) "q.img".toList = some (.image props70b) := rfl
  intro ops h op ho
  simp only [workMs77, List.mem_cons, List.not_mem_nil, or_false] at h
  rcases h with rfl | rfl
  · simp only [List.mem_cons, List.not_mem_nil, or_false] at ho
    rcases ho with rfl | rfl
    · intro t ht; rw [hab] at ht; cases ht; exact linksWork70
    · exact ⟨["q.img".toList, ['l']], pieces_iff.2 (by decide), .inr (linksOn70b _ rfl)⟩
  · simp only [List.mem_cons, List.not_mem_nil, or_false] at ho
    rcases ho with rfl | rfl | rfl
    · intro t ht
      rw [hq] at ht
      cases ht
      refine ⟨linksOn70b, fun ps h => ?_⟩
      cases h
      intro d n s us hl hp W
      obtain ⟨rfl, rfl⟩ := links70b hl hp
      have := linkWay_unique W way_n70b
      cases this
    · trivial
    · trivial

/-- All hypotheses of `C78_v1` are met.  Whatever the schedule, both threads get done; the first finds the number under the path over the link; so
does the second, unless it finds nothing. -/
example : ∃ M : Maps, ∀ (C : ChaCha) (ks2 : Nat → Byte), ∃ f fuel g, msOpen .wrap C (mlBytes M) ['h', 'h', 'h'] = .ok f ∧
    heapMs.parse (msContent .wrap C ks2 fuel f) 0 = (.ok (), g) ∧
    ∀ queue sched P, (Pool.start g (workMs77.map (msOpsProg (msContent .wrap C ks2 fuel f) 0))).run queue sched = some P →
      ¬ Deadlock queue P ∧ (∃ more P', P.run queue more = some P' ∧ AllDone P') ∧
      (∀ th xs, P.threads[0]? = some th → Answer th xs → ∃ k j c, xs = [.ok k, .ok j] ∧ P.heap.cell j = some c ∧ c.name = ['n'] ∧
        MsLinkShows (plainReader .wrap ks2 img70b) c.kind (.prop (.int 5))) ∧
      (∀ th xs, P.threads[1]? = some th → Answer th xs → ∃ x k l, xs = [x, .ok k, .ok l] ∧ (x = .error (.lib "NodeNotFound") ∨
        ∃ j c, x = .ok j ∧ P.heap.cell j = some c ∧ c.name = ['n'] ∧ MsLinkShows (plainReader .wrap ks2 img70b) c.kind (.prop (.int 5)))) := by
  obtain ⟨M, _, hM⟩ := C78_v1
  refine ⟨M, fun C ks2 => ?_⟩
  obtain ⟨f, h1, N, hN⟩ := hM C ks2 msHead ['h', 'h', 'h'] _ mlEntries msGap [] (mlRest M) mlFiles msHead_ok (by decide) msHead_result (by decide)
    (by decide +kernel) mlEntries_ok (by rw [List.append_nil, mlTable_length]; decide) (mlBytes M) rfl (mlBytes_length M) (mlFiles_written M)
    (mlFiles_stored _ _)
  obtain ⟨g, hg, H⟩ := hN N (Nat.le_refl _) heapMs 0 heapMs_new
  refine ⟨f, N, g, h1, hg, fun queue sched P hr => ?_⟩
  obtain ⟨h1, h2, h3, _⟩ := H workMs77 workMs77_allowed queue sched P hr
  have hab : lastNamed (msTree mlFiles) "a/b".toList = some (.image props70) := rfl
  have hq : lastNamed (msTree mlFiles) "q.img".toList = some (.image props70b) := rfl
  have child : ∀ {h : NHeap} {n : List Char} {t : ATree} {x : Except Err Nat}, lastNamed (msTree mlFiles) n = some t →
      RightMsChild (msReader .wrap ks2 mlFiles) (msTree mlFiles) h n x → ∃ k, x = .ok k := by
    intro h n t x hl hx
    unfold RightMsChild at hx
    rw [hl] at hx
    obtain ⟨k, _, hx, _⟩ := hx
    exact ⟨k, hx⟩
  have seen : SeenAt (linkPlaces props70b) [] [['l']] (some [['n']]) :=
    .link [] ['l'] [] ['n'] [['n']] [['n']] _ (by decide) (pieces_iff.2 (by decide)) way_n70b (.here _)
  refine ⟨h1, h2, fun th xs ht ha => ?_, fun th xs ht ha => ?_⟩
  · obtain ⟨ra, _⟩ := h3 0 th _ xs ht rfl ha
    cases ra with
    | cons _ _ x _ r1 ra => cases ra with
      | cons _ _ y _ r2 ra =>
        cases ra
        obtain ⟨k, rfl⟩ := child hab r1
        obtain ⟨j, c, q1, q2, q3, q4⟩ := r2 "q.img".toList [['l']] (some (['n'], .prop (.int 5))) (pieces_iff.2 (by decide))
          (.inr (.inr ⟨[], ['n'], .int 5, seen, rfl, rfl⟩))
        subst q1
        exact ⟨k, j, c, rfl, q2, q3, q4⟩
  · obtain ⟨ra, _⟩ := h3 1 th _ xs ht rfl ha
    cases ra with
    | cons _ _ x _ r1 ra => cases ra with
      | cons _ _ y _ r2 ra => cases ra with
        | cons _ _ z _ r3 ra =>
          cases ra
          obtain ⟨k, rfl⟩ := child hq r2
          obtain ⟨l, rfl⟩ := child hab r3
          refine ⟨x, k, l, rfl, ?_⟩
          rcases r1 with r1 | r1
          · refine .inr ?_
            unfold RightMsBelow at r1
            rw [hq] at r1
            exact r1 [['l']] (some (['n'], .prop (.int 5))) (pieces_iff.2 (by decide)) (.inr (.inr ⟨[], ['n'], .int 5, seen, rfl, rfl⟩))
          · exact .inl r1

/-- all hypotheses of `C78_v2_partial` are met -/
example (ks2 : Nat → Byte) : ∃ f fuel, msOpen .wrap noCipher msHead2.bytes ['h', 'h', 'h'] = .ok f ∧
    SharedMsReads (msContent .wrap noCipher ks2 fuel f) (msReader .wrap ks2 msFiles2) (msTree msFiles2) := by
  obtain ⟨f, h1, N, hN⟩ := C78_v2_partial noCipher noCipher_blocks ks2 msHead2 ['h', 'h', 'h'] [msEntry2] (msHead2.bytes.take 199) (msHead2.bytes.drop 265)
    msFiles2 (by decide) msHead2_opens (by decide +kernel) (by decide +kernel)
    (by intro e he; rw [List.mem_singleton.mp he]; exact ⟨⟨by decide, by decide, by decide⟩, by decide, by decide, .inl (by decide)⟩)
    (by decide +kernel) (by decide +kernel) (by decide +kernel)
    (.cons ⟨rfl, by decide, by decide, msHead2.bytes.take 1024, [], [], by decide +kernel, by decide +kernel, by decide⟩ .nil)
    (msFiles2_stored .wrap ks2)
  exact ⟨f, N, h1, hN N (Nat.le_refl _)⟩

/-! ### where the property ends -/

/-- an archive with one image, not read yet -/
def treeMs77 : NHeap :=
  [ some ⟨['r'], .msFile true 0, none, [(['i'], 1)]⟩,
    some ⟨['i'], .msImage 2, some 0, []⟩ ]

/-- **Opening an image and looking something up below it are two calls.**  The property `p` stands in the image, and a thread alone finds it.
With a second thread that forgets the image between the two calls nothing is found. -/
theorem C78_forgotten_counterexample (queue : Bool) :
    (∃ sched P, (Pool.start treeMs77 [msOpProg content76 0 (.below ['i'] ['p'])]).run queue sched = some P ∧ answer76 P 0 = some (.ok 2)) ∧
    ∃ sched P, (Pool.start treeMs77 [msOpProg content76 0 (.below ['i'] ['p']), msOpProg content76 0 (.shut ['i'])]).run queue sched = some P ∧
      answer76 P 0 = some (.error (.lib "NodeNotFound")) := by
  have run : ∀ {ps : List (Prog (Except Err Nat))} {sched : List Nat} {x : Except Err Nat},
      (((Pool.start treeMs77 ps).run queue sched).bind fun P => answer76 P 0) = some x →
      ∃ P, (Pool.start treeMs77 ps).run queue sched = some P ∧ answer76 P 0 = some x := by
    intro ps sched x h
    cases hr : (Pool.start treeMs77 ps).run queue sched with
    | none => rw [hr] at h; cases h
    | some P => rw [hr] at h; exact ⟨P, rfl, h⟩
  exact ⟨⟨List.replicate 9 0, run (by cases queue <;> decide +kernel)⟩,
    ⟨List.replicate 6 0 ++ List.replicate 6 1 ++ List.replicate 3 0, run (by cases queue <;> decide +kernel)⟩⟩

end Wz.Props
