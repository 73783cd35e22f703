import Verif.Whole.MediaMsSpec
import Verif.Whole.MediaLemmas
import Verif.Whole.MsProps

/-!
# C69 for MS archives
-/

set_option autoImplicit false

namespace Wz.Props

open Wz Wz.Spec Wz.Spec.Snow Wz.Spec.Ms

/-- an image that has not been read has no payload -/
theorem givesPayload_ms {aes : Aes} {e : Env} {g : NHeap} {j : Nat} {c : NCell} {v : AVal} (hb : e.buf.length < 2 ^ 63)
    (hc : g.cell j = some c) (hk : MsShows e c.kind v) : GivesPayload aes e g j v := by
  generalize hkk : c.kind = kk at hk
  cases hk with
  | kind _ _ h => exact givesPayload_of hb hc (by rw [hkk]; exact h)
  | unread src =>
    have hleaf : g.leaf j = none := by
      unfold NHeap.leaf
      rw [hc]
      exact congrArg NKind.leaf hkk
    have htext : g.nodeText e j = .error (.lib "NotStringProperty") := by
      unfold NHeap.nodeText
      rw [hc]
      exact congrArg (NKind.text e) hkk
    refine ⟨⟨(fun _ h => nomatch h), fun _ => htext⟩, ⟨(fun _ _ _ h => nomatch h), fun _ => ?_⟩, ⟨(fun _ h => nomatch h), fun _ => ?_⟩,
      ⟨(fun _ h => nomatch h), fun _ => ?_⟩, ⟨(fun _ _ _ _ _ _ h => nomatch h), fun _ keys => ?_⟩⟩
    · unfold NHeap.soundFile; rw [hleaf]
    · unfold NHeap.rawData; rw [hleaf]
    · unfold NHeap.videoData; rw [hleaf]
    · unfold NHeap.scriptText; rw [hleaf]

theorem ms_look {arch : List (List Char × ATree)} (hd : FlatMs arch) {n : List Char} {t : ATree} (hl : lastNamed arch n = some t)
    {ks : List (List Char)} (hks : ks ≠ []) : arcAt arch (n :: ks) = belowImage t ks := by
  rw [arcAt_from, hl]
  show valFrom t ks = _
  cases t with
  | dir x => exact (hd n x hl).elim
  | image ps => exact if_neg hks
  | text d => exact if_neg hks
  | script d => exact if_neg hks

/-- an image of an MS archive that is read -/
theorem ms_open {content : Content} {reader : List Char → Env} {g : NHeap} {i : Nat} {arch : List (List Char × ATree)} {A : Prop} (hd : FlatMs arch)
    (F : MsStands True A content reader g i arch) {n : List Char} {t : ATree} (hl : lastNamed arch n = some t) (hu : NoUolIn t) {k : Nat}
    (hk : g.at i n = some k) {c : NCell} {src : Nat} {f : Forest} (hc : g.cell k = some c) (hkk : c.kind = .image true src)
    (T : TreeAt g k f) (G : GoodImage (reader n) t f) :
    OpenImage (reader n) g k (fun ks => arcAt arch (n :: ks)) ∧
      (A → ∀ ks y, foldPath g.at k ks = some y → ∃ l, Chain g y l ∧ ∀ z ∈ l.tail, ¬ BaseFile g z) := by
  have O : OpenImage (reader n) g k (fun ks => arcAt arch (n :: ks)) := by
    refine ⟨F.knows trivial, ⟨c, _, _, hc, hkk⟩, fun ks hks => ?_⟩
    rw [ms_look hd hl hks]
    exact goodImage_shows T G hu ks hks
  refine ⟨O, fun hA ks y hy => ?_⟩
  obtain ⟨ci, hci, hpi, hni⟩ := F.lone hA
  have hroot : Chain g i [i] := .root i fun p ⟨c', _, hc', hp', _⟩ => by
    rw [hci] at hc'
    cases hc'
    rw [hpi] at hp'
    cases hp'
  obtain ⟨l', c1, c2⟩ := chain_down (F.knows trivial) hroot (n :: ks) y (by simp only [foldPath, hk]; exact hy)
  refine ⟨l', c1, fun z hz hB => ?_⟩
  obtain ⟨cb, _, _, b1, b2, b3⟩ := hB
  rcases c2 z (List.mem_of_mem_tail hz) with h5 | ⟨a, b, h5, h6, h7⟩
  · rcases List.mem_singleton.1 h5 with rfl
    rw [hci] at b1
    cases b1
    exact hni b3
  · cases a with
    | nil => exact h6 rfl
    | cons m a =>
      simp only [List.cons_append, List.cons.injEq] at h5
      obtain ⟨rfl, h5⟩ := h5
      simp only [foldPath, hk] at h7
      by_cases ha : a = []
      · subst ha
        cases h7
        rw [hc] at b1
        cases b1
        rw [hkk] at b2
        cases b2
      · obtain ⟨v', c'', n', _, d2, d3, _⟩ := O.back ha h7
        rw [d2] at b1
        cases b1
        rw [d3] at b2
        cases b2

/-- an image that was parsed is an image -/
theorem parsed_ms {content : Content} {e : Env} {h g : NHeap} {k : Nat} {nm : List Char} {t : ATree} (H : MsNode content e h k nm t) (hu : NoUolIn t)
    (hp : h.parse content k = (.ok (), g)) : ∃ c src, g.cell k = some c ∧ c.kind = .image true src := by
  obtain ⟨c, src, f, hc, hn, hs, hg, hk⟩ := H
  have key : ReadsFrom c.kind src → parsedKind c.kind = .image true src → ∃ c src, g.cell k = some c ∧ c.kind = .image true src := by
    intro hrd hpk
    have := congrArg Prod.snd hp
    rw [parse_eq hc, parsedKind_plan hrd hs] at this
    dsimp only at this
    rw [uols_linkFree f _ (hg.free hu)] at this
    dsimp only [NHeap.resolveUols] at this
    rw [← this, fresh_old (cell_lt hc) (cell_lt hc), if_pos rfl, hpk]
    exact ⟨_, _, rfl, rfl⟩
  rcases hk with ⟨hk, hks⟩ | ⟨hk, hks⟩ | ⟨hk, T⟩
  · exact key (by rw [hk]; exact .msImage _) (by rw [hk]; rfl)
  · exact key (by rw [hk]; exact .image _) (by rw [hk]; rfl)
  · rw [parse_eq hc, hk] at hp
    cases hp
    exact ⟨c, src, hc, hk⟩

theorem msStands_payloads {content : Content} {reader : List Char → Env} {g : NHeap} {i : Nat} {arch : List (List Char × ATree)} {A : Prop}
    {inflate : Inflate} {bc7 : Bc7} {aes : Aes} (hd : FlatMs arch) (hb : ∀ n, (reader n).buf.length < 2 ^ 63)
    (F : MsStands True A content reader g i arch) : FindsPayloadsMs content inflate bc7 aes reader A g i arch := by
  refine ⟨fun path n ns v hp hu hv => ?_, fun name t hl hu => ?_⟩
  · obtain ⟨Kp, Fd⟩ := find_ms hd F hp hu
    rw [hv] at Fd
    obtain ⟨j, c, h1, h2, _, h4⟩ := Fd
    generalize hq : g.atPathParsed content i path = r at Kp h1 h2
    obtain ⟨r, g'⟩ := r
    cases h1
    dsimp only at Kp h2
    refine ⟨j, g', rfl, givesPayload_ms (hb n) h2 h4, fun hns => ?_⟩
    obtain ⟨ci, pi, si, hci, hki⟩ := F.root
    have hgi := Kp.2.1 i ci pi si hci hki
    have hj := atPathParsed_fold hp (hgi.trans hci.symm) hq
    have F' := Kp.stands F
    cases hl : lastNamed arch n with
    | none =>
      rw [arcAt_from, hl] at hv
      cases hv
    | some t =>
      obtain ⟨k, h5, ck, src, f, hck, hn, hs, G, hk⟩ := F'.there n t hl
      simp only [foldPath, h5] at hj
      have hno : ck.kids ≠ [] := by
        intro hks
        cases ns with
        | nil => exact hns rfl
        | cons m ms =>
          have : g'.at k m = none := by
            unfold NHeap.at
            rw [hck]
            dsimp only
            rw [hks]
            rfl
          simp only [foldPath, this] at hj
          cases hj
      have hut : NoUolIn t := by
        rw [noUolOn_from, hl] at hu
        cases t with
        | dir ks => exact (hd n ks hl).elim
        | image ps => exact hu.resolve_left hns
        | _ => trivial
      rcases hk with ⟨_, hk⟩ | ⟨_, hk⟩ | ⟨hk, T⟩
      · exact (hno hk).elim
      · exact (hno hk).elim
      · obtain ⟨O, hA⟩ := ms_open hd F' hl hut h5 hck hk (T.1 (G.free hut)) G
        exact givesPicture_of O (hb n) hns hj hA
  · obtain ⟨k, h1, h2⟩ := F.there name t hl
    obtain ⟨g', f, p1, p2, p3, p4⟩ := parse_ms h2 (noUolIn_of hu)
    have F' := p2.stands F
    have hat : g'.at i name = g.at i name := by
      obtain ⟨ci, pi, si, hci, hki⟩ := F.root
      unfold NHeap.at
      rw [p2.2.1 i ci pi si hci hki, hci]
    obtain ⟨c, src, hck, hk'⟩ := parsed_ms h2 (noUolIn_of hu) p1
    obtain ⟨O, hA⟩ := ms_open hd F' hl (noUolIn_of hu) (hat.trans h1) hck hk' p3 p4
    refine ⟨k, g', h1, p1, fun path ns v hp hv => ?_⟩
    obtain ⟨x, cx, n, h3, h4, h5, h6⟩ := O.found hp.some hv
    exact ⟨x, O.finds _ hp h3, givesPayload_of (hb name) h4 (by rw [h5]; exact h6), givesPicture_of O (hb name) hp.some h3 hA⟩

/-- Parsing the root succeeds, and afterwards, whatever was looked up, read and forgotten before, every path leads to the
payload that was stored. -/
def MsPayloadsBack (content : Content) (inflate : Inflate) (bc7 : Bc7) (aes : Aes) (reader : List Char → Env) (arch : List (List Char × ATree)) : Prop :=
  ∀ h i, NewMs h i → Consistent h → ∃ g, h.parse content i = (.ok (), g) ∧ ∀ ops : List MsOp, (∀ op ∈ ops, AllowedMs arch op) →
    FindsPayloadsMs content inflate bc7 aes reader (OnItsOwn h i) (runMs content i g ops) i arch

/-- C69 for any MS archive whose images can be decrypted. -/
theorem C69_ms (inflate : Inflate) (bc7 : Bc7) (aes : Aes) (m : Mode) (C : ChaCha) (ks2 : Nat → Byte) (f : MsFile) (ims : List MsImage)
    (files : List (List Char × MsItem)) (hp : f.parse m C = .ok ims)
    (hd : All2 (fun im (x : List Char × MsItem) => f.toWzImage m C im = .ok ⟨x.1, x.2.data, x.2.data.length⟩) ims files)
    (hs : ∀ x ∈ files, MsStored m ks2 x) :
    ∃ N, ∀ fuel, N ≤ fuel → MsPayloadsBack (msContent m C ks2 fuel f) inflate bc7 aes (msReader m ks2 files) (msTree files) := by
  obtain ⟨N, hN⟩ := msRead_all hp hd hs
  refine ⟨N, fun fuel hf h i ⟨c, hc, hk, hks⟩ K => ?_⟩
  have R := hN fuel hf [] rfl
  obtain ⟨g, hg, F⟩ := ms_fresh R hc hk hks (by show (f.parse m C).map (msForest 1) = _; rw [hp]; rfl)
  refine ⟨g, hg, fun ops ha => ?_⟩
  have F0 : MsStands True (OnItsOwn h i) (msContent m C ks2 fuel f) (msReader m ks2 files) g i (msTree files) := by
    refine ⟨F.root, F.missing, F.there, fun _ => F.knows K, ?_⟩
    rintro ⟨c', h1, h2⟩
    rw [hc] at h1
    cases h1
    exact F.lone h2
  refine msStands_payloads (msTree_flat hs) (fun n => ?_) (runMs_stands (msTree_flat hs) ops g F0 ha)
  unfold msReader
  cases hl : lastNamed files n with
  | none => show (0 : Nat) < 2 ^ 63; decide
  | some x => exact (hs _ (lastNamed_mem hl)).1

/-- C69 for MS archives of version 1, from the first byte, under the conditions of `C65_v1`. -/
theorem C69_ms_v1 : ∃ M : Maps, M.Ok ∧ ∀ (inflate : Inflate) (bc7 : Bc7) (aes : Aes) (C : ChaCha) (ks2 : Nat → Byte) (h : Head1) (name : List Char)
    (H : MsHeader) (es : List MsEntry) (gap pad rest : Bytes) (files : List (List Char × MsItem)),
    h.Ok name → name ≠ [] → h.result name = .ok H → i32At h.plain 5 = es.length → gap.length = 30 + 3 * nameSum name % 212 →
    (∀ e ∈ es, EntryOk e ∧ 0 ≤ e.startPos ∧ 0 ≤ e.sizeAligned ∧ e.unk3 = 0 ∧ e.unk4 = 0) →
    ((es.flatMap fields1).flatten ++ pad).length = roundUp 4 (es.flatMap fields1).flatten.length →
    ∀ buf, buf = h.bytes M name ++ gap ++ encrypt (keyWord M (signedKey (key2 (utf8EncStr (lower name ++ byteText h.chars)) 16))) 0 ((es.flatMap fields1).flatten ++ pad) ++ rest →
    buf.length < 2 ^ 63 →
    All2 (Writes1 M (byteText h.chars) buf ((h.bytes M name ++ gap).length + roundUp 4 (es.flatMap fields1).flatten.length)) es files →
    (∀ x ∈ files, MsStored .wrap ks2 x) →
    ∃ f, msOpen .wrap C buf name = .ok f ∧ ∃ N, ∀ fuel, N ≤ fuel →
      MsPayloadsBack (msContent .wrap C ks2 fuel f) inflate bc7 aes (msReader .wrap ks2 files) (msTree files) := by
  refine ⟨Snow.maps, Snow.maps_ok, fun inflate bc7 aes C ks2 h name H es gap pad rest files hok hn hH hc hg hes hpad buf hbuf hlen hw hs => ?_⟩
  obtain ⟨f, ims, h1, h2, h3⟩ := ms1_images C h name H es gap pad rest files hok hn hH hc hg hes hpad buf hbuf hlen hw
  exact ⟨f, h1, C69_ms inflate bc7 aes .wrap C ks2 f ims files h2 h3 hs⟩

/-- C69 for MS archives of version 2 that are opened as such, under the conditions of `C65_v2_partial`. -/
theorem C69_ms_v2_partial (inflate : Inflate) (bc7 : Bc7) (aes : Aes) (C : ChaCha) (hC : Blocks64 C) (ks2 : Nat → Byte) (h : Head2) (name : List Char)
    (es : List MsEntry) (pre rest : Bytes)
    (files : List (List Char × MsItem)) (hn : name ≠ []) (ho : msOpen .wrap C h.bytes name = .ok ⟨h.bytes, h.result C name⟩)
    (hc : (h.result C name).entryCount = es.length) (hpre : pre.length = randCount name + 5 + 2 * h.salt.length + 72 + 3 * nameSum name % 212)
    (hes : ∀ e ∈ es, EntryOk e ∧ 0 ≤ e.startPos ∧ 0 ≤ e.sizeAligned ∧ ((∀ c ∈ e.name, c.toNat < 128) ∨ 32 ≤ e.name.length)) (hrest : 63 ≤ rest.length)
    (hbuf : h.bytes = pre ++ restartEncrypt (C (xorBase (key2 (utf8EncStr (lower name ++ byteText h.chars)) 32)) (List.replicate 12 0#8)) 0 0 (es.flatMap fields2) ++ rest)
    (hlen : h.bytes.length < 2 ^ 63)
    (hw : All2 (Writes2 C (byteText h.chars) h.bytes (pre.length + roundUp 64 (es.flatMap fields2).flatten.length)) es files)
    (hs : ∀ x ∈ files, MsStored .wrap ks2 x) :
    ∃ f, msOpen .wrap C h.bytes name = .ok f ∧ ∃ N, ∀ fuel, N ≤ fuel →
      MsPayloadsBack (msContent .wrap C ks2 fuel f) inflate bc7 aes (msReader .wrap ks2 files) (msTree files) := by
  obtain ⟨ims, h2, h3⟩ := ms2_images C hC h name es pre rest files hn hc hpre hes hrest hbuf hlen hw
  exact ⟨_, ho, C69_ms inflate bc7 aes .wrap C ks2 _ ims files h2 h3 hs⟩

/-- All hypotheses of `C69_ms_v1` are met: the bytes of the text file are found by path and as a child of the root, after the image was opened
and shut. -/
example (inflate : Inflate) (bc7 : Bc7) (aes : Aes) : ∃ M : Maps, ∀ (C : ChaCha) (ks2 : Nat → Byte), ∃ f fuel g,
    msOpen .wrap C (msBytes M) ['h', 'h', 'h'] = .ok f ∧ heapMs.parse (msContent .wrap C ks2 fuel f) 0 = (.ok (), g) ∧
    ∃ j g', (runMs (msContent .wrap C ks2 fuel f) 0 g [.open "a/b".toList, .shut "a/b".toList]).atPathParsed (msContent .wrap C ks2 fuel f) 0
        "t.txt/text.txt".toList = (.ok j, g') ∧
      g'.rawData (plainReader .wrap ks2 [0x73#8, 0x61#8, 0x79#8]) j = some (.ok [0x73#8, 0x61#8, 0x79#8]) := by
  obtain ⟨M, _, hM⟩ := C69_ms_v1
  refine ⟨M, fun C ks2 => ?_⟩
  obtain ⟨f, h1, N, hN⟩ := hM inflate bc7 aes C ks2 msHead ['h', 'h', 'h'] _ msEntries msGap [] (msRest M) msFiles msHead_ok (by decide) msHead_result
    (by decide) (by decide +kernel) msEntries_ok (by rw [List.append_nil, msTable_length]; decide) (msBytes M) rfl (msBytes_length M) (msFiles_written M)
    (msFiles_stored _ _)
  have K : Consistent heapMs := by
    refine ⟨fun i c hc => ?_, fun i n j ⟨c, hc, hm⟩ => ?_⟩
    all_goals
      match i, hc with
      | 0, hc => cases hc; simp [heapMs] at *
      | i + 1, hc => simp [NHeap.cell, heapMs] at hc
  obtain ⟨g, hg, H⟩ := hN N (Nat.le_refl _) heapMs 0 heapMs_new K
  refine ⟨f, N, g, h1, hg, ?_⟩
  have hu : NoUol [(['n'], .node (.int 5) [])] := .cons _ _ _ _ (by simp) .nil .nil
  have := (H [.open "a/b".toList, .shut "a/b".toList] (by
    intro op ho
    simp only [List.mem_cons, List.not_mem_nil, or_false] at ho
    rcases ho with rfl | rfl
    · intro ps hps; cases hps; exact hu
    · trivial)).path "t.txt/text.txt".toList "t.txt".toList ["text.txt".toList] _ (pieces_iff.2 (by decide)) trivial rfl
  obtain ⟨j, g', a, b, _⟩ := this
  exact ⟨j, g', a, b.raw.1 _ rfl⟩

end Wz.Props
