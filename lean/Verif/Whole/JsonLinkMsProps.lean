import Verif.Whole.JsonLinkProps
import Verif.Whole.JsonMsProps
import Verif.Whole.LinkMsProps

/-!
# C83 for MS archives: the JSON of images with links
-/

set_option autoImplicit false

namespace Wz.Props

open Wz Wz.Spec Wz.Spec.Snow Wz.Spec.Ms

/-- C83 for MS archives: whatever was looked up, read and forgotten before, every image with links, none of which leads over or to another
link, is a child of the root with its name and can be read.  If no way through the links goes round and all numbers are finite, its JSON
shows under all names what is seen there.  If a way does go round, no export ends. -/
def MsExportsThrough (content : Content) (reader : List Char → Env) (arch : List (List Char × ATree)) : Prop :=
  ∀ h i, MapsOk h → NewMs h i → ∃ g, h.parse content i = (.ok (), g) ∧ ∀ ops : List MsOp, (∀ op ∈ ops, AllowedMsLinks arch op) →
    ∀ name props, imageAt arch [name] = some props → DistinctProps props → DirectLinks (linkPlaces props) →
      ∃ k g', (runMs content i g ops).at i name = some k ∧ (runMs content i g ops).parse content k = (.ok (), g') ∧
        (¬ GoesRound props → FiniteNumbers props →
          ∃ j N, (∀ fuel, N ≤ fuel → g'.exportJson (reader name) fuel k = some (.ok j)) ∧ ShowsPlace props [] j) ∧
        (GoesRound props → ∀ fuel j, g'.exportJson (reader name) fuel k ≠ some (.ok j))

/-- C83 with links for any MS archive whose images can be decrypted.  `_partial`: see `C83_links_archive_partial`. -/
theorem C83_links_ms_archive_partial (m : Mode) (C : ChaCha) (ks2 : Nat → Byte) (f : MsFile) (ims : List MsImage)
    (files : List (List Char × MsItem)) (hp : f.parse m C = .ok ims)
    (hd : All2 (fun im (x : List Char × MsItem) => f.toWzImage m C im = .ok ⟨x.1, x.2.data, x.2.data.length⟩) ims files)
    (hs : ∀ x ∈ files, MsStored m ks2 x) :
    ∃ N, ∀ fuel, N ≤ fuel → MsExportsThrough (msContent m C ks2 fuel f) (msReader m ks2 files) (msTree files) := by
  obtain ⟨N, hN⟩ := msRead_all hp hd hs
  refine ⟨N, fun fuel hf h i hm ⟨c, hc, hk, hks⟩ => ?_⟩
  have R := hN fuel hf [] rfl
  obtain ⟨g, hg, F⟩ := ms_fresh R hc hk hks (by show (f.parse m C).map (msForest 1) = _; rw [hp]; rfl)
  refine ⟨g, hg, fun ops ha name props hi hdi hl => ?_⟩
  have F' := runMs_stands70 (msTree_flat hs) ops g F.weaken ha
  have hmg : MapsOk g := by
    have := mapsOk_parse (content := msContent m C ks2 fuel f) (i := i) hm
    rwa [hg] at this
  have hmr := mapsOk_runMs (content := msContent m C ks2 fuel f) (i := i) ops g hmg
  rw [imageAt_cons] at hi
  cases hn : lastNamed (msTree files) name with
  | none => rw [hn] at hi; cases hi
  | some t =>
    rw [hn] at hi
    have hnd : ∀ ks, t ≠ .dir ks := by rintro ks rfl; exact msTree_flat hs name ks hn
    have hpo := (imageFrom_image (t := t) hnd hi).2
    have hlt : LinksIn t := by
      cases t with
      | image ps => cases hpo; exact .inr ⟨hdi, hl⟩
      | _ => trivial
    obtain ⟨k, h1, h2⟩ := F'.there name t hn
    obtain ⟨g', fo, c', src, p1, _, p3, p4, p5, p6, _, p8⟩ := parse_ms70 h2 hnd hlt
    obtain ⟨node, L⟩ := p3.nodes p5
    have hmg' : MapsOk g' := by
      have := mapsOk_parse (content := msContent m C ks2 fuel f) (i := k) hmr
      rwa [p1] at this
    have hpl : fo.places = linkPlaces props := (goodImage_treePlaces p4 hnd).trans (tree_link_places hpo)
    refine ⟨k, g', h1, p1, fun hr hf => ?_, fun hr fuel r => export_round hmg' L hpl hr fuel r⟩
    have := export_places hmg' p6 p8 p4 L hpo hpl hl hf hr ((forestPlaces fo).length + 2) [] [] [] (by simp) .nil
      (fun x hx => by cases hx) (.here [])
    rwa [L.top] at this

/-- C83 with links for MS archives of version 1, from the first byte of the file.  `_partial`: see `C83_links_archive_partial`. -/
theorem C83_links_ms_v1_partial : ∃ M : Maps, M.Ok ∧ ∀ (C : ChaCha) (ks2 : Nat → Byte) (h : Head1) (name : List Char) (H : MsHeader) (es : List MsEntry)
    (gap pad rest : Bytes) (files : List (List Char × MsItem)),
    h.Ok name → name ≠ [] → h.result name = .ok H → i32At h.plain 5 = es.length → gap.length = 30 + 3 * nameSum name % 212 →
    (∀ e ∈ es, EntryOk e ∧ 0 ≤ e.startPos ∧ 0 ≤ e.sizeAligned ∧ e.unk3 = 0 ∧ e.unk4 = 0) →
    ((es.flatMap fields1).flatten ++ pad).length = roundUp 4 (es.flatMap fields1).flatten.length →
    ∀ buf, buf = h.bytes M name ++ gap ++ encrypt (keyWord M (signedKey (key2 (utf8EncStr (lower name ++ byteText h.chars)) 16))) 0 ((es.flatMap fields1).flatten ++ pad) ++ rest →
    buf.length < 2 ^ 63 →
    All2 (Writes1 M (byteText h.chars) buf ((h.bytes M name ++ gap).length + roundUp 4 (es.flatMap fields1).flatten.length)) es files →
    (∀ x ∈ files, MsStored .wrap ks2 x) →
    ∃ f, msOpen .wrap C buf name = .ok f ∧ ∃ N, ∀ fuel, N ≤ fuel →
      MsExportsThrough (msContent .wrap C ks2 fuel f) (msReader .wrap ks2 files) (msTree files) := by
  refine ⟨Snow.maps, Snow.maps_ok, fun C ks2 h name H es gap pad rest files hok hn hH hc hg hes hpad buf hbuf hlen hw hs => ?_⟩
  obtain ⟨f, ims, h1, h2, h3⟩ := ms1_images C h name H es gap pad rest files hok hn hH hc hg hes hpad buf hbuf hlen hw
  exact ⟨f, h1, C83_links_ms_archive_partial .wrap C ks2 f ims files h2 h3 hs⟩

/-- C83 with links for MS archives of version 2, for files that are opened as such (see `C41_open_v2_partial`).  `_partial`: for the names that have a key
(see `C42_key_v2_panic`); see also `C83_links_archive_partial`. -/
theorem C83_links_ms_v2_partial (C : ChaCha) (hC : Blocks64 C) (ks2 : Nat → Byte) (h : Head2) (name : List Char) (es : List MsEntry) (pre rest : Bytes)
    (files : List (List Char × MsItem)) (hn : name ≠ []) (ho : msOpen .wrap C h.bytes name = .ok ⟨h.bytes, h.result C name⟩)
    (hc : (h.result C name).entryCount = es.length) (hpre : pre.length = randCount name + 5 + 2 * h.salt.length + 72 + 3 * nameSum name % 212)
    (hes : ∀ e ∈ es, EntryOk e ∧ 0 ≤ e.startPos ∧ 0 ≤ e.sizeAligned ∧ ((∀ c ∈ e.name, c.toNat < 128) ∨ 32 ≤ e.name.length)) (hrest : 63 ≤ rest.length)
    (hbuf : h.bytes = pre ++ restartEncrypt (C (xorBase (key2 (utf8EncStr (lower name ++ byteText h.chars)) 32)) (List.replicate 12 0#8)) 0 0 (es.flatMap fields2) ++ rest)
    (hlen : h.bytes.length < 2 ^ 63)
    (hw : All2 (Writes2 C (byteText h.chars) h.bytes (pre.length + roundUp 64 (es.flatMap fields2).flatten.length)) es files)
    (hs : ∀ x ∈ files, MsStored .wrap ks2 x) :
    ∃ f, msOpen .wrap C h.bytes name = .ok f ∧ ∃ N, ∀ fuel, N ≤ fuel →
      MsExportsThrough (msContent .wrap C ks2 fuel f) (msReader .wrap ks2 files) (msTree files) := by
  obtain ⟨ims, h2, h3⟩ := ms2_images C hC h name es pre rest files hn hc hpre hes hrest hbuf hlen hw
  exact ⟨_, ho, C83_links_ms_archive_partial .wrap C ks2 _ ims files h2 h3 hs⟩

/-- All hypotheses of `C83_links_ms_v1_partial` are met.  The image `a/b` is opened and forgotten.  Then `q.img` is exported with 5 under
its link `l`, and no export of `a/b` ends. -/
example : ∃ M : Maps, ∀ (C : ChaCha) (ks2 : Nat → Byte), ∃ f fuel g k, msOpen .wrap C (mlBytes M) ['h', 'h', 'h'] = .ok f ∧
    heapMs.parse (msContent .wrap C ks2 fuel f) 0 = (.ok (), g) ∧
    k = runMs (msContent .wrap C ks2 fuel f) 0 g [.open "a/b".toList, .shut "a/b".toList] ∧
    (∃ x k' j N, k.at 0 "q.img".toList = some x ∧ k.parse (msContent .wrap C ks2 fuel f) x = (.ok (), k') ∧
      (∀ fu, N ≤ fu → k'.exportJson (plainReader .wrap ks2 img70b) fu x = some (.ok j)) ∧ jsonAt j [['l']] = some (.int 5)) ∧
    ∃ x k', k.at 0 "a/b".toList = some x ∧ k.parse (msContent .wrap C ks2 fuel f) x = (.ok (), k') ∧
      ∀ fu j, k'.exportJson (plainReader .wrap ks2 img70) fu x ≠ some (.ok j) := by
  obtain ⟨M, _, hM⟩ := C83_links_ms_v1_partial
  refine ⟨M, fun C ks2 => ?_⟩
  obtain ⟨f, h1, N, hN⟩ := hM C ks2 msHead ['h', 'h', 'h'] _ mlEntries msGap [] (mlRest M) mlFiles msHead_ok (by decide) msHead_result (by decide)
    (by decide +kernel) mlEntries_ok (by rw [List.append_nil, mlTable_length]; decide) (mlBytes M) rfl (mlBytes_length M) (mlFiles_written M)
    (mlFiles_stored _ _)
  obtain ⟨g, hg, H⟩ := hN N (Nat.le_refl _) heapMs 0 (mapsOk_all (by rw [heapMs]; rfl)) heapMs_new
  have hab : lastNamed (msTree mlFiles) "a/b".toList = some (.image props70) := rfl
  have K := H [.open "a/b".toList, .shut "a/b".toList] (by
    intro op ho
    simp only [List.mem_cons, List.not_mem_nil, or_false] at ho
    rcases ho with rfl | rfl
    · intro t ht; rw [hab] at ht; cases ht; exact linksWork70
    · trivial)
  refine ⟨f, N, g, _, h1, hg, rfl, ?_, ?_⟩
  · obtain ⟨x, k', a1, a2, a3, _⟩ := K "q.img".toList props70b rfl distinct70b direct70b
    obtain ⟨j, B, b1, b2⟩ := a3 straight70b finite70b
    obtain ⟨j2, c1, c2⟩ := C83_links_at [['l']] b2
      (.link [] ['l'] [] ['n'] [['n']] [['n']] _ (by decide) (pieces_iff.2 (by decide)) way_n70b (.here [['n']])) direct70b
    rw [five70b c2] at c1
    exact ⟨x, k', j, B, a1, a2, b1, c1⟩
  · obtain ⟨x, k', a1, a2, _, a3⟩ := K "a/b".toList props70 rfl distinct70 direct70
    exact ⟨x, k', a1, a2, a3 round70⟩

/-- all hypotheses of `C83_links_ms_v2_partial` are met -/
example (ks2 : Nat → Byte) : ∃ f fuel, msOpen .wrap noCipher msHead2.bytes ['h', 'h', 'h'] = .ok f ∧
    MsExportsThrough (msContent .wrap noCipher ks2 fuel f) (msReader .wrap ks2 msFiles2) (msTree msFiles2) := by
  obtain ⟨f, h1, N, hN⟩ := C83_links_ms_v2_partial noCipher noCipher_blocks ks2 msHead2 ['h', 'h', 'h'] [msEntry2] (msHead2.bytes.take 199) (msHead2.bytes.drop 265)
    msFiles2 (by decide) msHead2_opens (by decide +kernel) (by decide +kernel)
    (by intro e he; rw [List.mem_singleton.mp he]; exact ⟨⟨by decide, by decide, by decide⟩, by decide, by decide, .inl (by decide)⟩)
    (by decide +kernel) (by decide +kernel) (by decide +kernel)
    (.cons ⟨rfl, by decide, by decide, msHead2.bytes.take 1024, [], [], by decide +kernel, by decide +kernel, by decide⟩ .nil)
    (msFiles2_stored .wrap ks2)
  exact ⟨f, N, h1, hN N (Nat.le_refl _)⟩

end Wz.Props
