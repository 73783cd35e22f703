import Verif.Whole.MediaLinkProps
import Verif.Whole.MediaMsProps
import Verif.Whole.LinkMsProps

/-!
# C69 behind links in MS archives
-/

set_option autoImplicit false

namespace Wz.Spec

open Wz

/-- Every path leads to the payload of what is seen there, links taken for what they lead to; so does every path below an image that is taken as a
child of the root and parsed, whatever characters its name has.  Each image has its own reader. -/
structure FindsSeenMs (content : Content) (inflate : Inflate) (bc7 : Bc7) (aes : Aes) (reader : List Char → Env) (g : NHeap) (i : Nat)
    (arch : List (List Char × ATree)) : Prop where
  path : ∀ path n ns name v, Pieces path (n :: ns) → LinksOn arch (n :: ns) → ArcSees arch (n :: ns) (some (name, v)) →
    ∃ j g', g.atPathParsed content i path = (.ok j, g') ∧ GivesSeen content inflate bc7 aes (reader n) g' j arch (n :: ns) v
  child : ∀ name t, lastNamed arch name = some t → LinksWork t → ∃ k g', g.at i name = some k ∧ g.parse content k = (.ok (), g') ∧
    ∀ path ns nm v, Pieces path ns → ArcSees [(name, t)] (name :: ns) (some (nm, v)) →
      ∃ j, g'.atPath k path = some j ∧ GivesSeen content inflate bc7 aes (reader name) g' j [(name, t)] (name :: ns) v

end Wz.Spec

namespace Wz

open Wz.Spec

theorem fold_msKids70 {content : Content} {e : Env} {held : Nat} (ns : List (List Char)) (h : NHeap) (k : Nat) (nm : List Char) (t : ATree)
    (m : List Char) (v : AVal) (hv : Inner v) (hh : ∃ c p s, h.cell held = some c ∧ c.kind = .msFile p s) (H : MsNode content e h k nm t)
    (hd : ∀ ks, t ≠ .dir ks) (hu : LinksFrom t ns) (V : SeesFrom t nm ns (some (m, v))) :
    ∀ j, (NHeap.foldParsed content held h k ns).1 = .ok j → ∀ x r, SeesFrom t nm (ns ++ [x]) r →
      KidShows e (NHeap.foldParsed content held h k ns).2 j x r := by
  have hV : ∀ ns r, SeesFrom t nm ns r → ∃ w, SeenAt (treePlaces t) [] ns w ∧ SeesIn t nm w r := by
    intro ns r V
    cases t with
    | dir ks => exact absurd rfl (hd ks)
    | _ => exact V
  obtain ⟨w, V1, V2⟩ := hV _ _ V
  cases ns with
  | nil =>
    exfalso
    cases V1
    rcases V2 with ⟨h, _⟩ | ⟨_, h⟩ | ⟨d, m, v, h, _⟩
    · cases h
    · cases h; exact hv
    · simp at h
  | cons n ns =>
    obtain ⟨ch, ph, sh, hch, hkh⟩ := hh
    have hu' : LinksIn t := by
      cases t with
      | dir ks => exact absurd rfl (hd ks)
      | image ps => exact hu.resolve_left (by simp)
      | _ => trivial
    have hne : k ≠ held := by
      rintro rfl
      obtain ⟨c, src, f, hc, _, _, _, hk⟩ := H
      rw [hc] at hch
      cases hch
      rw [hkh] at hk
      rcases hk with ⟨hk, _⟩ | ⟨hk, _⟩ | ⟨hk, _⟩ <;> cases hk
    obtain ⟨g, f, c', src, h1, h2, h3, hg, hfol, h4, h5, h6⟩ := parse_ms70 H hd hu'
    obtain ⟨node, L⟩ := h3.nodes hfol
    have hheld := h2.2 held ch ph sh hch hkh
    have hsame : NHeap.foldParsed content held h k (n :: ns) = NHeap.foldParsed content held g k (n :: ns) := by
      rw [foldParsed_cons, foldParsed_cons, if_neg hne, if_neg hne, h1]
      have : g.parse content k = (.ok (), g) := by
        rw [parse_eq h4, h6]
        rfl
      rw [this]
    rw [← goodImage_treePlaces hg hd] at V1
    have hfold := fold_nodes (content := content) ⟨ch, hheld, by
      rw [hkh]; rintro (⟨_, h⟩ | ⟨_, h⟩) <;> cases h⟩ (fun e => hne e.symm) h4 h6 hg.values L V1 (.inl rfl)
    rw [L.top] at hfold
    rw [hsame, hfold]
    intro j hj x r W
    obtain ⟨w', W1, W2⟩ := hV _ _ W
    rw [← goodImage_treePlaces hg hd] at W1
    cases w with
    | none => cases hj
    | some d =>
      cases hj
      exact nodes_kid h4 h6 hg L V1 W1 (by rw [h5]; exact W2)

theorem find_msKids70 {A : Prop} {content : Content} {reader : List Char → Env} {h g : NHeap} {i j : Nat} {arch : List (List Char × ATree)}
    (hd : FlatMs arch) (F : MsStands False A content reader h i arch) {path : List Char} {n : List Char} {ns : List (List Char)} {m : List Char}
    {v : AVal} (hv : Inner v) (hp : Pieces path (n :: ns)) (hu : LinksOn arch (n :: ns)) (V : ArcSees arch (n :: ns) (some (m, v)))
    (hf : h.atPathParsed content i path = (.ok j, g)) {x : List Char} {r : Option (List Char × AVal)} (W : ArcSees arch (n :: ns ++ [x]) r) :
    KidShows (reader n) g j x r := by
  have hs := pieces_iff.1 hp
  unfold NHeap.atPathParsed at hf
  rw [hs] at hf
  dsimp only at hf
  rw [linksOn_from] at hu
  rw [arcSees_from] at V
  rw [List.cons_append, arcSees_from] at W
  cases hl : lastNamed arch n with
  | none => rw [hl] at V; cases V
  | some t =>
    rw [hl] at hu V W
    obtain ⟨k, h1, h2⟩ := F.there n t hl
    rw [h1] at hf
    dsimp only at hf
    have := fold_msKids70 ns h k n t m v hv F.root h2 (fun ks e => hd n ks (by rw [hl, e])) hu V j (by rw [hf]) x r W
    rw [hf] at this
    exact this

theorem givesSeen_unread {e : Env} {content : Content} {g : NHeap} {j src : Nat} {c : NCell} {arch : List (List Char × ATree)}
    {ns : List (List Char)} {inflate : Inflate} {bc7 : Bc7} {aes : Aes} (hb : e.buf.length < 2 ^ 63) (hc : g.cell j = some c)
    (hk : c.kind = .msImage src) : GivesSeen content inflate bc7 aes e g j arch ns .image := by
  refine ⟨fun _ => Props.givesPayload_ms hb hc (by rw [hk]; exact .unread _), (fun _ h => nomatch h), (fun _ _ _ _ _ _ _ _ _ _ h => nomatch h),
    fun _ keys fuel => ?_⟩
  have hpic : g.isPicture leafPng j = false := by
    unfold NHeap.isPicture
    rw [hc]
    dsimp only
    rw [hk]
  unfold NHeap.picture
  rw [NHeap.getImage, hpic]
  rfl

theorem msStands_seen {A : Prop} {content : Content} {reader : List Char → Env} {g : NHeap} {i : Nat} {arch : List (List Char × ATree)}
    {inflate : Inflate} {bc7 : Bc7} {aes : Aes} (hd : FlatMs arch) (hb : ∀ n, (reader n).buf.length < 2 ^ 63)
    (F : MsStands False A content reader g i arch) : FindsSeenMs content inflate bc7 aes reader g i arch := by
  refine ⟨fun path n ns name v hp hu V => ?_, fun name t hl hu => ?_⟩
  · obtain ⟨_, j, c, h1, h2, _, h4⟩ := find_ms70 hd F hp hu V
    generalize hq : g.atPathParsed content i path = r at h1 h2
    obtain ⟨r, g'⟩ := r
    cases h1
    dsimp only at h2
    refine ⟨j, g', rfl, ?_⟩
    generalize hk : c.kind = kd at h4
    cases h4 with
    | unread src => exact givesSeen_unread (hb n) h2 hk
    | kind _ _ h4 =>
      exact givesSeen_of (hb n) h2 (by rw [hk]; exact h4) fun hi => kids_noText hi hu V fun x r W => find_msKids70 hd F hi hp hu V hq W
  · obtain ⟨k, h1, h2⟩ := F.there name t hl
    have hnd : ∀ ks, t ≠ .dir ks := fun ks e => hd name ks (by rw [hl, e])
    obtain ⟨g', f, c', src, p1, _, p3, p4, p5, p6, p7, p8⟩ := parse_ms70 h2 hnd (linksWork_in hu)
    obtain ⟨node, L⟩ := p3.nodes p5
    have R : Props.ReadAlone (reader name) g' k name t f node := ⟨p4, hnd, L, c', src, p6, p7, p8⟩
    exact ⟨k, g', h1, p1, fun path ns nm v hp V => Props.alone_seen (hb name) R hu hp V⟩

end Wz

namespace Wz.Props

open Wz Wz.Spec Wz.Spec.Snow Wz.Spec.Ms

/-- Parsing the root succeeds, and afterwards, whatever was looked up, read and forgotten before, every path and every path below a child leads to the
payload of what is seen there. -/
def MsSeenBack (content : Content) (inflate : Inflate) (bc7 : Bc7) (aes : Aes) (reader : List Char → Env) (arch : List (List Char × ATree)) : Prop :=
  ∀ h i, NewMs h i → ∃ g, h.parse content i = (.ok (), g) ∧ ∀ ops : List MsOp, (∀ op ∈ ops, AllowedMsLinks arch op) →
    FindsSeenMs content inflate bc7 aes reader (runMs content i g ops) i arch

/-- C69 behind links for any MS archive whose images can be decrypted. -/
theorem C69_links_ms (inflate : Inflate) (bc7 : Bc7) (aes : Aes) (m : Mode) (C : ChaCha) (ks2 : Nat → Byte) (f : MsFile) (ims : List MsImage)
    (files : List (List Char × MsItem)) (hp : f.parse m C = .ok ims)
    (hd : All2 (fun im (x : List Char × MsItem) => f.toWzImage m C im = .ok ⟨x.1, x.2.data, x.2.data.length⟩) ims files)
    (hs : ∀ x ∈ files, MsStored m ks2 x) :
    ∃ N, ∀ fuel, N ≤ fuel → MsSeenBack (msContent m C ks2 fuel f) inflate bc7 aes (msReader m ks2 files) (msTree files) := by
  obtain ⟨N, hN⟩ := msRead_all hp hd hs
  refine ⟨N, fun fuel hf h i ⟨c, hc, hk, hks⟩ => ?_⟩
  have R := hN fuel hf [] rfl
  obtain ⟨g, hg, F⟩ := ms_fresh R hc hk hks (by show (f.parse m C).map (msForest 1) = _; rw [hp]; rfl)
  refine ⟨g, hg, fun ops ha => ?_⟩
  refine msStands_seen (msTree_flat hs) (fun n => ?_) (runMs_stands70 (msTree_flat hs) ops g F.weaken ha)
  unfold msReader
  cases hl : lastNamed files n with
  | none => show (0 : Nat) < 2 ^ 63; decide
  | some x => exact (hs _ (lastNamed_mem hl)).1

/-- C69 behind links for MS archives of version 1. -/
theorem C69_links_ms_v1 : ∃ M : Maps, M.Ok ∧ ∀ (inflate : Inflate) (bc7 : Bc7) (aes : Aes) (C : ChaCha) (ks2 : Nat → Byte) (h : Head1) (name : List Char) (H : MsHeader) (es : List MsEntry)
    (gap pad rest : Bytes) (files : List (List Char × MsItem)),
    h.Ok name → name ≠ [] → h.result name = .ok H → i32At h.plain 5 = es.length → gap.length = 30 + 3 * nameSum name % 212 →
    (∀ e ∈ es, EntryOk e ∧ 0 ≤ e.startPos ∧ 0 ≤ e.sizeAligned ∧ e.unk3 = 0 ∧ e.unk4 = 0) →
    ((es.flatMap fields1).flatten ++ pad).length = roundUp 4 (es.flatMap fields1).flatten.length →
    ∀ buf, buf = h.bytes M name ++ gap ++ encrypt (keyWord M (signedKey (key2 (utf8EncStr (lower name ++ byteText h.chars)) 16))) 0 ((es.flatMap fields1).flatten ++ pad) ++ rest →
    buf.length < 2 ^ 63 →
    All2 (Writes1 M (byteText h.chars) buf ((h.bytes M name ++ gap).length + roundUp 4 (es.flatMap fields1).flatten.length)) es files →
    (∀ x ∈ files, MsStored .wrap ks2 x) →
    ∃ f, msOpen .wrap C buf name = .ok f ∧ ∃ N, ∀ fuel, N ≤ fuel →
      MsSeenBack (msContent .wrap C ks2 fuel f) inflate bc7 aes (msReader .wrap ks2 files) (msTree files) := by
  refine ⟨Snow.maps, Snow.maps_ok, fun inflate bc7 aes C ks2 h name H es gap pad rest files hok hn hH hc hg hes hpad buf hbuf hlen hw hs => ?_⟩
  obtain ⟨f, ims, h1, h2, h3⟩ := ms1_images C h name H es gap pad rest files hok hn hH hc hg hes hpad buf hbuf hlen hw
  exact ⟨f, h1, C69_links_ms inflate bc7 aes .wrap C ks2 f ims files h2 h3 hs⟩

/-- C69 behind links for MS archives of version 2, for files that are opened as such (see `C41_open_v2_partial`).
`_partial`: for the names that have a key (see `C42_key_v2_panic`). -/
theorem C69_links_ms_v2_partial (inflate : Inflate) (bc7 : Bc7) (aes : Aes) (C : ChaCha) (hC : Blocks64 C) (ks2 : Nat → Byte) (h : Head2) (name : List Char) (es : List MsEntry) (pre rest : Bytes)
    (files : List (List Char × MsItem)) (hn : name ≠ []) (ho : msOpen .wrap C h.bytes name = .ok ⟨h.bytes, h.result C name⟩)
    (hc : (h.result C name).entryCount = es.length) (hpre : pre.length = randCount name + 5 + 2 * h.salt.length + 72 + 3 * nameSum name % 212)
    (hes : ∀ e ∈ es, EntryOk e ∧ 0 ≤ e.startPos ∧ 0 ≤ e.sizeAligned ∧ ((∀ c ∈ e.name, c.toNat < 128) ∨ 32 ≤ e.name.length)) (hrest : 63 ≤ rest.length)
    (hbuf : h.bytes = pre ++ restartEncrypt (C (xorBase (key2 (utf8EncStr (lower name ++ byteText h.chars)) 32)) (List.replicate 12 0#8)) 0 0 (es.flatMap fields2) ++ rest)
    (hlen : h.bytes.length < 2 ^ 63)
    (hw : All2 (Writes2 C (byteText h.chars) h.bytes (pre.length + roundUp 64 (es.flatMap fields2).flatten.length)) es files)
    (hs : ∀ x ∈ files, MsStored .wrap ks2 x) :
    ∃ f, msOpen .wrap C h.bytes name = .ok f ∧ ∃ N, ∀ fuel, N ≤ fuel →
      MsSeenBack (msContent .wrap C ks2 fuel f) inflate bc7 aes (msReader .wrap ks2 files) (msTree files) := by
  obtain ⟨ims, h2, h3⟩ := ms2_images C hC h name es pre rest files hn hc hpre hes hrest hbuf hlen hw
  exact ⟨_, ho, C69_links_ms inflate bc7 aes .wrap C ks2 _ ims files h2 h3 hs⟩

/-- All hypotheses of `C69_links_ms_v1` are met.  The image `a/b` is opened and forgotten; then the text of the link `d/x`, which leads nowhere, is
given out below the child `a/b`, and the number behind the link `q.img/l` is no text and no picture. -/
example (inflate : Inflate) (bc7 : Bc7) (aes : Aes) : ∃ M : Maps, ∀ (C : ChaCha) (ks2 : Nat → Byte) (keys : Ecb), ∃ f fuel g k,
    msOpen .wrap C (mlBytes M) ['h', 'h', 'h'] = .ok f ∧
    heapMs.parse (msContent .wrap C ks2 fuel f) 0 = (.ok (), g) ∧
    k = runMs (msContent .wrap C ks2 fuel f) 0 g [.open "a/b".toList, .shut "a/b".toList] ∧
    (∃ j g', k.atPathParsed (msContent .wrap C ks2 fuel f) 0 "q.img/l".toList = (.ok j, g') ∧
      g'.nodeText (plainReader .wrap ks2 img70b) j = .error (.lib "NotStringProperty") ∧
      g'.picture (msContent .wrap C ks2 fuel f) inflate bc7 aes (plainReader .wrap ks2 img70b) keys 1 j = (.error (.lib "NotPngProperty"), g')) ∧
    ∃ x k' j, k.at 0 "a/b".toList = some x ∧ k.parse (msContent .wrap C ks2 fuel f) x = (.ok (), k') ∧ k'.atPath x "d/x".toList = some j ∧
      k'.nodeText (plainReader .wrap ks2 img70) j = .ok ['y'] := by
  obtain ⟨M, _, hM⟩ := C69_links_ms_v1
  refine ⟨M, fun C ks2 keys => ?_⟩
  obtain ⟨f, h1, N, hN⟩ := hM inflate bc7 aes C ks2 msHead ['h', 'h', 'h'] _ mlEntries msGap [] (mlRest M) mlFiles msHead_ok (by decide) msHead_result (by decide)
    (by decide +kernel) mlEntries_ok (by rw [List.append_nil, mlTable_length]; decide) (mlBytes M) rfl (mlBytes_length M) (mlFiles_written M)
    (mlFiles_stored _ _)
  obtain ⟨g, hg, H⟩ := hN N (Nat.le_refl _) heapMs 0 heapMs_new
  have hab : lastNamed (msTree mlFiles) "a/b".toList = some (.image props70) := rfl
  have hon : LinksOn (msTree mlFiles) ["q.img".toList, ['l']] := .inr (linksOn70b _ rfl)
  have F := H [.open "a/b".toList, .shut "a/b".toList] (by
    intro op ho
    simp only [List.mem_cons, List.not_mem_nil, or_false] at ho
    rcases ho with rfl | rfl
    · intro t ht; rw [hab] at ht; cases ht; exact linksWork70
    · trivial)
  refine ⟨f, N, g, _, h1, hg, rfl, ?_, ?_⟩
  · obtain ⟨j, g', h2, P⟩ := F.path "q.img/l".toList "q.img".toList [['l']] ['n'] (.prop (.int 5)) (pieces_iff.2 (by decide)) hon
      (.inr (.inr ⟨[], ['n'], .int 5, .link [] ['l'] [] ['n'] [['n']] [['n']] _ (by decide) (pieces_iff.2 (by decide)) way_n70b (.here _), rfl, rfl⟩))
    exact ⟨j, g', h2, (P.payload (fun s h => by cases h)).text.2 (fun s h => by cases h), P.other (fun _ _ _ _ _ _ h => by cases h) _ 0⟩
  · obtain ⟨x, k', h2, h3, h4⟩ := F.child "a/b".toList _ hab linksWork70
    obtain ⟨j, h5, P⟩ := h4 "d/x".toList [['d'], ['x']] ['x'] (.prop (.uol ['y'])) (pieces_iff.2 (by decide)) (.inr (.inr ⟨_, _, _, dead70, rfl, rfl⟩))
    exact ⟨x, k', j, h2, h3, h5, P.dead _ rfl⟩

end Wz.Props
