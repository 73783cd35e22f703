import Verif.Whole.MsProps
import Verif.Whole.LinkMsLemmas
import Verif.Whole.LinkProps
import Verif.Whole.LinkExamples

/-!
# C70 for MS archives: links in their images lead where they say
-/

set_option autoImplicit false

namespace Wz.Props

open Wz Wz.Spec Wz.Spec.Snow Wz.Spec.Ms

/-- Parsing the root succeeds, and afterwards, whatever was looked up, read and forgotten before, every path and every child shows what is
seen there, links taken for what they lead to. -/
def MsReadsThroughLinks (content : Content) (reader : List Char → Env) (arch : List (List Char × ATree)) : Prop :=
  ∀ h i, NewMs h i → ∃ g, h.parse content i = (.ok (), g) ∧ ∀ ops : List MsOp, (∀ op ∈ ops, AllowedMsLinks arch op) →
    FindsMsLinks content reader (runMs content i g ops) i arch ∧ ChildrenMsLinks content reader (runMs content i g ops) i arch

theorem stands_children70 {A : Prop} {content : Content} {reader : List Char → Env} {g : NHeap} {i : Nat} {arch : List (List Char × ATree)}
    (hd : FlatMs arch) (F : MsStands False A content reader g i arch) : ChildrenMsLinks content reader g i arch := by
  intro name
  cases hl : lastNamed arch name with
  | none => exact F.missing name hl
  | some t =>
    obtain ⟨k, h1, h2⟩ := F.there name t hl
    have hnd : ∀ ks, t ≠ .dir ks := fun ks e => hd name ks (by rw [hl, e])
    refine ⟨k, h1, fun hu => ?_⟩
    obtain ⟨g', f, c', src, p1, _, p3, p4, p5, p6, p7, p8⟩ := parse_ms70 h2 hnd (linksWork_in hu)
    obtain ⟨node, L⟩ := p3.nodes p5
    have R : ReadAlone (reader name) g' k name t f node := ⟨p4, hnd, L, c', src, p6, p7, p8⟩
    exact ⟨g', p1, fun path ns r hp V => ⟨alone_at R hp V, fun hw => alone_at_parsed R hw hp V⟩⟩

/-- C70 for any MS archive whose images can be decrypted. -/
theorem C70_ms_archive (m : Mode) (C : ChaCha) (ks2 : Nat → Byte) (f : MsFile) (ims : List MsImage) (files : List (List Char × MsItem))
    (hp : f.parse m C = .ok ims)
    (hd : All2 (fun im (x : List Char × MsItem) => f.toWzImage m C im = .ok ⟨x.1, x.2.data, x.2.data.length⟩) ims files)
    (hs : ∀ x ∈ files, MsStored m ks2 x) :
    ∃ N, ∀ fuel, N ≤ fuel → MsReadsThroughLinks (msContent m C ks2 fuel f) (msReader m ks2 files) (msTree files) := by
  obtain ⟨N, hN⟩ := msRead_all hp hd hs
  refine ⟨N, fun fuel hf h i ⟨c, hc, hk, hks⟩ => ?_⟩
  have R := hN fuel hf [] rfl
  obtain ⟨g, hg, F⟩ := ms_fresh R hc hk hks (by show (f.parse m C).map (msForest 1) = _; rw [hp]; rfl)
  refine ⟨g, hg, fun ops ha => ?_⟩
  have F' := runMs_stands70 (msTree_flat hs) ops g F.weaken ha
  exact ⟨stands_finds70 (msTree_flat hs) F', stands_children70 (msTree_flat hs) F'⟩

/-- C70 for MS archives of version 1. -/
theorem C70_ms_v1 : ∃ M : Maps, M.Ok ∧ ∀ (C : ChaCha) (ks2 : Nat → Byte) (h : Head1) (name : List Char) (H : MsHeader) (es : List MsEntry)
    (gap pad rest : Bytes) (files : List (List Char × MsItem)),
    h.Ok name → name ≠ [] → h.result name = .ok H → i32At h.plain 5 = es.length → gap.length = 30 + 3 * nameSum name % 212 →
    (∀ e ∈ es, EntryOk e ∧ 0 ≤ e.startPos ∧ 0 ≤ e.sizeAligned ∧ e.unk3 = 0 ∧ e.unk4 = 0) →
    ((es.flatMap fields1).flatten ++ pad).length = roundUp 4 (es.flatMap fields1).flatten.length →
    ∀ buf, buf = h.bytes M name ++ gap ++ encrypt (keyWord M (signedKey (key2 (utf8EncStr (lower name ++ byteText h.chars)) 16))) 0 ((es.flatMap fields1).flatten ++ pad) ++ rest →
    buf.length < 2 ^ 63 →
    All2 (Writes1 M (byteText h.chars) buf ((h.bytes M name ++ gap).length + roundUp 4 (es.flatMap fields1).flatten.length)) es files →
    (∀ x ∈ files, MsStored .wrap ks2 x) →
    ∃ f, msOpen .wrap C buf name = .ok f ∧ ∃ N, ∀ fuel, N ≤ fuel →
      MsReadsThroughLinks (msContent .wrap C ks2 fuel f) (msReader .wrap ks2 files) (msTree files) := by
  refine ⟨Snow.maps, Snow.maps_ok, fun C ks2 h name H es gap pad rest files hok hn hH hc hg hes hpad buf hbuf hlen hw hs => ?_⟩
  obtain ⟨f, ims, h1, h2, h3⟩ := ms1_images C h name H es gap pad rest files hok hn hH hc hg hes hpad buf hbuf hlen hw
  exact ⟨f, h1, C70_ms_archive .wrap C ks2 f ims files h2 h3 hs⟩

/-- C70 for MS archives of version 2, for files that are opened as such (see `C41_open_v2_partial`).
`_partial`: for the names that have a key (see `C42_key_v2_panic`). -/
theorem C70_ms_v2_partial (C : ChaCha) (hC : Blocks64 C) (ks2 : Nat → Byte) (h : Head2) (name : List Char) (es : List MsEntry) (pre rest : Bytes)
    (files : List (List Char × MsItem)) (hn : name ≠ []) (ho : msOpen .wrap C h.bytes name = .ok ⟨h.bytes, h.result C name⟩)
    (hc : (h.result C name).entryCount = es.length) (hpre : pre.length = randCount name + 5 + 2 * h.salt.length + 72 + 3 * nameSum name % 212)
    (hes : ∀ e ∈ es, EntryOk e ∧ 0 ≤ e.startPos ∧ 0 ≤ e.sizeAligned ∧ ((∀ c ∈ e.name, c.toNat < 128) ∨ 32 ≤ e.name.length)) (hrest : 63 ≤ rest.length)
    (hbuf : h.bytes = pre ++ restartEncrypt (C (xorBase (key2 (utf8EncStr (lower name ++ byteText h.chars)) 32)) (List.replicate 12 0#8)) 0 0 (es.flatMap fields2) ++ rest)
    (hlen : h.bytes.length < 2 ^ 63)
    (hw : All2 (Writes2 C (byteText h.chars) h.bytes (pre.length + roundUp 64 (es.flatMap fields2).flatten.length)) es files)
    (hs : ∀ x ∈ files, MsStored .wrap ks2 x) :
    ∃ f, msOpen .wrap C h.bytes name = .ok f ∧ ∃ N, ∀ fuel, N ≤ fuel →
      MsReadsThroughLinks (msContent .wrap C ks2 fuel f) (msReader .wrap ks2 files) (msTree files) := by
  obtain ⟨ims, h2, h3⟩ := ms2_images C hC h name es pre rest files hn hc hpre hes hrest hbuf hlen hw
  exact ⟨_, ho, C70_ms_archive .wrap C ks2 _ ims files h2 h3 hs⟩

/-! ## an archive of version 1 with links -/

/-- the entries: an image at once, another 1024 bytes further -/
def mlEntries : List MsEntry :=
  [⟨['a', '/', 'b'], 0, 0, 0, 111, 1024, 0, 0, List.replicate 16 1#8, 0, 0⟩, ⟨"q.img".toList, 0, 0, 1, 35, 1024, 0, 0, List.replicate 16 1#8, 0, 0⟩]

/-- what is in them -/
def mlFiles : List (List Char × MsItem) := [(['a', '/', 'b'], ⟨img70, .image props70⟩), ("q.img".toList, ⟨img70b, .image props70b⟩)]

def mlRest (M : Maps) : Bytes := List.replicate 744 0#8 ++ msBlock M ['a', '/', 'b'] img70 ++ msBlock M "q.img".toList img70b

def mlBytes (M : Maps) : Bytes :=
  msHead.bytes M ['h', 'h', 'h'] ++ msGap ++
    encrypt (keyWord M (signedKey (key2 (utf8EncStr (lower ['h', 'h', 'h'] ++ byteText msHead.chars)) 16))) 0 ((mlEntries.flatMap fields1).flatten ++ []) ++ mlRest M

theorem mlTable_length : (mlEntries.flatMap fields1).flatten.length = 112 := by decide +kernel

theorem mlBlock_a (M : Maps) : (msBlock M ['a', '/', 'b'] img70).length = 1024 := msBlock_length M _ _ (by decide +kernel)

theorem mlBlock_q (M : Maps) : (msBlock M "q.img".toList img70b).length = 1024 := msBlock_length M _ _ (by decide +kernel)

theorem mlBytes_length (M : Maps) : (mlBytes M).length < 2 ^ 63 := by
  unfold mlBytes mlRest msGap
  simp only [List.length_append, encrypt_length, mlTable_length, msHead_length, mlBlock_a, mlBlock_q, List.length_replicate, List.length_nil]
  decide

theorem stored70b_at {e : Env} {name : List Char} (hb : e.buf = img70b) (hks : e.ks = fun _ => 0#8) (hn : ¬ NameEnds name ".txt".toList) :
    StoredImage e name 0 35 (.image props70b) := by
  have H : ∀ k bs, Holds img70b k bs → Holds e.buf k bs := fun k bs h => by rw [hb]; exact h
  have blk : ∀ k t, (∀ c ∈ t, c.toNat < 128) ∧ 1 ≤ t.length ∧ t.length ≤ 127 → Holds img70b k (sblk t) →
      StrBlock e 0 k t (k + (t.length + 2)) := fun k t h1 h2 => sblk_at _ _ _ t hks h1 (H _ _ h2)
  refine .props _ 35 hn ⟨(sblk "Property".toList).tail, sblk_string e _ hks (by decide), by decide, H _ _ (holds_slice 0 (by decide +kernel)), ?_⟩
  refine ⟨[2#8], .short (by decide) (by decide), H _ _ (holds_slice 12 (by decide +kernel)), ?_⟩
  refine .plain 13 16 35 _ 3#8 (.int 5) [5#8] _ (blk 13 _ (by decide) (holds_slice 13 (by decide +kernel)))
      (.int _ _ _ (.inl rfl) (.short (by decide) (by decide))) (H _ _ (holds_slice 16 (by decide +kernel))) ?_
  refine .block 18 21 35 35 9 _ _ _ (blk 18 _ (by decide) (holds_slice 18 (by decide +kernel))) (by decide)
    (H _ _ (holds_slice 21 (by decide +kernel))) ?_ (.nil _)
  exact .uol 26 31 35 _ _ (blk 26 _ (by decide) (holds_slice 26 (by decide +kernel))) (blk 32 _ (by decide) (holds_slice 32 (by decide +kernel)))

theorem mlFiles_stored (m : Mode) (ks2 : Nat → Byte) : ∀ x ∈ mlFiles, MsStored m ks2 x := by
  intro x hx
  rcases List.mem_cons.mp hx with rfl | hx
  · exact ⟨by decide +kernel, img70_stored rfl (fun h => absurd (endsWith_iff.mpr h) (by decide)) ⟨[], [], by simp [plainReader], rfl⟩⟩
  · rw [List.mem_singleton.mp hx]
    refine ⟨by decide +kernel, ?_⟩
    have hl : img70b.length = 35 := by decide +kernel
    dsimp only
    rw [hl]
    exact stored70b_at rfl rfl (fun h => absurd (endsWith_iff.mpr h) (by decide))

theorem mlFiles_written (M : Maps) : All2 (Writes1 M (byteText msHead.chars) (mlBytes M)
    ((msHead.bytes M ['h', 'h', 'h'] ++ msGap).length + roundUp 4 (mlEntries.flatMap fields1).flatten.length)) mlEntries mlFiles := by
  have hE : (msHead.bytes M ['h', 'h', 'h'] ++ msGap).length + roundUp 4 (mlEntries.flatMap fields1).flatten.length = 280 := by
    rw [List.length_append, msHead_length, mlTable_length]
    decide
  have hsalt : byteText msHead.chars = ['k', 'T'] := by decide
  have h1 := mlBlock_a M
  rw [hE, hsalt]
  refine .cons ⟨rfl, by decide, by decide +kernel, msHead.bytes M ['h', 'h', 'h'] ++ msGap ++
      encrypt (keyWord M (signedKey (key2 (utf8EncStr (lower ['h', 'h', 'h'] ++ byteText msHead.chars)) 16))) 0 ((mlEntries.flatMap fields1).flatten ++ []) ++
      List.replicate 744 0#8, List.replicate (1024 - img70.length) 0#8, msBlock M "q.img".toList img70b, ?_, ?_, by decide +kernel⟩
    (.cons ⟨rfl, by decide, by decide +kernel, msHead.bytes M ['h', 'h', 'h'] ++ msGap ++
      encrypt (keyWord M (signedKey (key2 (utf8EncStr (lower ['h', 'h', 'h'] ++ byteText msHead.chars)) 16))) 0 ((mlEntries.flatMap fields1).flatten ++ []) ++
      (List.replicate 744 0#8 ++ msBlock M ['a', '/', 'b'] img70), List.replicate (1024 - img70b.length) 0#8, [], ?_, ?_, by decide +kernel⟩ .nil)
  · unfold mlBytes mlRest
    show _ = _ ++ msBlock M ['a', '/', 'b'] img70 ++ _
    simp only [List.append_assoc]
  · simp only [List.length_append, encrypt_length, mlTable_length, msHead_length, msGap, List.length_replicate, List.length_nil]
    decide
  · unfold mlBytes mlRest
    show _ = _ ++ msBlock M "q.img".toList img70b ++ []
    simp only [List.append_assoc, List.append_nil]
  · simp only [List.length_append, encrypt_length, mlTable_length, msHead_length, msGap, List.length_replicate, List.length_nil, h1]
    decide

theorem mlEntries_ok : ∀ e ∈ mlEntries, EntryOk e ∧ 0 ≤ e.startPos ∧ 0 ≤ e.sizeAligned ∧ e.unk3 = 0 ∧ e.unk4 = 0 := by
  intro e he
  rcases List.mem_cons.mp he with rfl | he
  · exact ⟨⟨by decide, by decide, by decide⟩, by decide, by decide, rfl, rfl⟩
  · rw [List.mem_singleton.mp he]
    exact ⟨⟨by decide, by decide, by decide⟩, by decide, by decide, rfl, rfl⟩

theorem linksWork70 : LinksWork (.image props70) := fun _ h => by cases h; exact .inr ⟨distinct70, direct70⟩

theorem linksOn70b : LinksWork (.image props70b) := fun _ h => by
  cases h
  refine .inr ⟨.cons _ _ _ _ (by simp) .nil (.cons _ _ _ _ (by simp) .nil .nil), fun d n s us hl hp => ?_⟩
  obtain ⟨rfl, rfl⟩ := links70b hl hp
  exact ⟨_, way_n70b⟩

/-- All hypotheses of `C70_ms_v1` are met.  The image `a/b` is opened, something is looked up below it, it is forgotten, `q.img/l` is looked up.  Then
that path shows the number, and so does `d/u/l` below the child `a/b`. -/
example : ∃ M : Maps, ∀ (C : ChaCha) (ks2 : Nat → Byte), ∃ f fuel g k, msOpen .wrap C (mlBytes M) ['h', 'h', 'h'] = .ok f ∧
    heapMs.parse (msContent .wrap C ks2 fuel f) 0 = (.ok (), g) ∧
    k = runMs (msContent .wrap C ks2 fuel f) 0 g [.open "a/b".toList, .below "a/b".toList "d/u".toList, .shut "a/b".toList, .path (.find "q.img/l".toList)] ∧
    (∃ j g' c, k.atPathParsed (msContent .wrap C ks2 fuel f) 0 "q.img/l".toList = (.ok j, g') ∧ g'.cell j = some c ∧ c.name = ['n'] ∧
      MsLinkShows (plainReader .wrap ks2 img70b) c.kind (.prop (.int 5))) ∧
    ∃ x k' j c, k.at 0 "a/b".toList = some x ∧ k.parse (msContent .wrap C ks2 fuel f) x = (.ok (), k') ∧ k'.atPath x "d/u/l".toList = some j ∧
      k'.cell j = some c ∧ c.name = ['n'] ∧ LinkShows (plainReader .wrap ks2 img70) c.kind (.prop (.int 5)) := by
  obtain ⟨M, _, hM⟩ := C70_ms_v1
  refine ⟨M, fun C ks2 => ?_⟩
  obtain ⟨f, h1, N, hN⟩ := hM C ks2 msHead ['h', 'h', 'h'] _ mlEntries msGap [] (mlRest M) mlFiles msHead_ok (by decide) msHead_result (by decide)
    (by decide +kernel) mlEntries_ok (by rw [List.append_nil, mlTable_length]; decide) (mlBytes M) rfl (mlBytes_length M) (mlFiles_written M)
    (mlFiles_stored _ _)
  obtain ⟨g, hg, H⟩ := hN N (Nat.le_refl _) heapMs 0 heapMs_new
  have hab : lastNamed (msTree mlFiles) "a/b".toList = some (.image props70) := rfl
  have hq : lastNamed (msTree mlFiles) "q.img".toList = some (.image props70b) := rfl
  have hon : LinksOn (msTree mlFiles) ["q.img".toList, ['l']] := .inr (linksOn70b _ rfl)
  obtain ⟨F, K⟩ := H [.open "a/b".toList, .below "a/b".toList "d/u".toList, .shut "a/b".toList, .path (.find "q.img/l".toList)] (by
    intro op ho
    simp only [List.mem_cons, List.not_mem_nil, or_false] at ho
    rcases ho with rfl | rfl | rfl | rfl
    · intro t ht; rw [hab] at ht; cases ht; exact linksWork70
    · intro t ht; rw [hab] at ht; cases ht; exact linksWork70
    · trivial
    · exact ⟨["q.img".toList, ['l']], pieces_iff.2 (by decide), hon⟩)
  refine ⟨f, N, g, _, h1, hg, rfl, ?_, ?_⟩
  · exact F "q.img/l".toList "q.img".toList [['l']] (some (['n'], .prop (.int 5))) (pieces_iff.2 (by decide)) hon
      (.inr (.inr ⟨[], ['n'], .int 5, .link [] ['l'] [] ['n'] [['n']] [['n']] _ (by decide) (pieces_iff.2 (by decide)) way_n70b (.here _), rfl, rfl⟩))
  · have := K "a/b".toList
    rw [hab] at this
    obtain ⟨x, h2, h3⟩ := this
    obtain ⟨k', h4, h5⟩ := h3 linksWork70
    obtain ⟨j, c, h6⟩ := (h5 "d/u/l".toList [['d'], ['u'], ['l']] (some (['n'], .prop (.int 5))) (pieces_iff.2 (by decide))
      (.inr (.inr ⟨_, _, _, seen70, rfl, rfl⟩))).1
    exact ⟨x, k', j, c, h2, h4, h6⟩

/-- all hypotheses of `C70_ms_v2_partial` are met -/
example (ks2 : Nat → Byte) : ∃ f fuel, msOpen .wrap noCipher msHead2.bytes ['h', 'h', 'h'] = .ok f ∧
    MsReadsThroughLinks (msContent .wrap noCipher ks2 fuel f) (msReader .wrap ks2 msFiles2) (msTree msFiles2) := by
  obtain ⟨f, h1, N, hN⟩ := C70_ms_v2_partial noCipher noCipher_blocks ks2 msHead2 ['h', 'h', 'h'] [msEntry2] (msHead2.bytes.take 199) (msHead2.bytes.drop 265)
    msFiles2 (by decide) msHead2_opens (by decide +kernel) (by decide +kernel)
    (by intro e he; rw [List.mem_singleton.mp he]; exact ⟨⟨by decide, by decide, by decide⟩, by decide, by decide, .inl (by decide)⟩)
    (by decide +kernel) (by decide +kernel) (by decide +kernel)
    (.cons ⟨rfl, by decide, by decide, msHead2.bytes.take 1024, [], [], by decide +kernel, by decide +kernel, by decide⟩ .nil)
    (msFiles2_stored .wrap ks2)
  exact ⟨f, N, h1, hN N (Nat.le_refl _)⟩

end Wz.Props
