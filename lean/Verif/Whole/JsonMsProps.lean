import Verif.Whole.JsonProps
import Verif.Whole.MsProps

/-!
# C83 for MS archives
-/

set_option autoImplicit false

namespace Wz.Props

open Wz Wz.Spec Wz.Spec.Snow Wz.Spec.Ms

/-- C83 for MS archives: whatever was looked up, read and forgotten before, every image without links and with finite numbers only is a child of
the root with its name, can be read and exported, and its JSON shows its properties. -/
def MsExportsBack (content : Content) (reader : List Char → Env) (arch : List (List Char × ATree)) : Prop :=
  ∀ h i, MapsOk h → NewMs h i → ∃ g, h.parse content i = (.ok (), g) ∧ ∀ ops : List MsOp, (∀ op ∈ ops, AllowedMs arch op) →
    ∀ name props, imageAt arch [name] = some props → NoUol props → FiniteNumbers props →
      ∃ k g', (runMs content i g ops).at i name = some k ∧ (runMs content i g ops).parse content k = (.ok (), g') ∧
        ExportsAs (reader name) g' k props

theorem mapsOk_runMs {content : Content} {i : Nat} : ∀ (ops : List MsOp) (h : NHeap), MapsOk h → MapsOk (runMs content i h ops)
  | [], _, hm => hm
  | op :: ops, h, hm => by
    refine mapsOk_runMs ops _ ?_
    cases op with
    | path op => exact mapsOk_run [op] h hm
    | «open» name =>
      unfold stepMs
      dsimp only
      cases h.at i name with
      | none => exact hm
      | some k => exact mapsOk_parse hm
    | below name p =>
      unfold stepMs
      dsimp only
      cases h.at i name with
      | none => exact hm
      | some k => exact mapsOk_atPathParsed hm
    | shut name =>
      unfold stepMs
      dsimp only
      cases h.at i name with
      | none => exact hm
      | some k => exact mapsOk_unparse hm k

/-- C83 for any MS archive whose images can be decrypted.  `_partial`: see `C83_archive_partial`. -/
theorem C83_ms_archive_partial (m : Mode) (C : ChaCha) (ks2 : Nat → Byte) (f : MsFile) (ims : List MsImage) (files : List (List Char × MsItem))
    (hp : f.parse m C = .ok ims)
    (hd : All2 (fun im (x : List Char × MsItem) => f.toWzImage m C im = .ok ⟨x.1, x.2.data, x.2.data.length⟩) ims files)
    (hs : ∀ x ∈ files, MsStored m ks2 x) :
    ∃ N, ∀ fuel, N ≤ fuel → MsExportsBack (msContent m C ks2 fuel f) (msReader m ks2 files) (msTree files) := by
  obtain ⟨N, hN⟩ := msRead_all hp hd hs
  refine ⟨N, fun fuel hf h i hm ⟨c, hc, hk, hks⟩ => ?_⟩
  have R := hN fuel hf [] rfl
  obtain ⟨g, hg, F⟩ := ms_fresh R hc hk hks (by show (f.parse m C).map (msForest 1) = _; rw [hp]; rfl)
  refine ⟨g, hg, fun ops ha name props hi hu hfin => ?_⟩
  have F' := runMs_stands (msTree_flat hs) ops g F ha
  have hmg : MapsOk g := by
    have := mapsOk_parse (content := msContent m C ks2 fuel f) (i := i) hm
    rwa [hg] at this
  have hmr := mapsOk_runMs (content := msContent m C ks2 fuel f) (i := i) ops g hmg
  rw [imageAt_cons] at hi
  cases hl : lastNamed (msTree files) name with
  | none => rw [hl] at hi; cases hi
  | some t =>
    rw [hl] at hi
    have hpo := (imageFrom_image (t := t) (by rintro ks rfl; exact msTree_flat hs name ks hl) hi).2
    have hut : NoUolIn t := by
      cases t with
      | image ps => cases hpo; exact hu
      | _ => trivial
    obtain ⟨k, h1, h2⟩ := F'.there name t hl
    obtain ⟨g', fo, p1, p2, p3, p4⟩ := parse_ms h2 hut
    refine ⟨k, g', h1, p1, ?_⟩
    have hmg' : MapsOk g' := by
      have := mapsOk_parse (content := msContent m C ks2 fuel f) (i := k) hmr
      rwa [p1] at this
    obtain ⟨c', src, f', hc', _, _, _, hk'⟩ := p2.1 _ _ _ _ h2
    have hb := props_below p3 p4 hut hpo
    refine export_props hmg' _ props (Nat.lt_succ_self _) k .sub hfin hb ?_ ⟨fun b hb => (by cases hb), fun b hb => (by cases hb)⟩
    unfold objOf
    rw [hc']
    dsimp only
    rcases hk' with ⟨hk', _⟩ | ⟨hk', _⟩ | ⟨hk', _⟩ <;> rw [hk'] <;> exact ⟨fun _ => ⟨_, rfl, .sub⟩, fun n => rfl⟩

/-- C83 for MS archives of version 1, from the first byte of the file.  `_partial`: see `C83_archive_partial`. -/
theorem C83_ms_v1_partial : ∃ M : Maps, M.Ok ∧ ∀ (C : ChaCha) (ks2 : Nat → Byte) (h : Head1) (name : List Char) (H : MsHeader) (es : List MsEntry)
    (gap pad rest : Bytes) (files : List (List Char × MsItem)),
    h.Ok name → name ≠ [] → h.result name = .ok H → i32At h.plain 5 = es.length → gap.length = 30 + 3 * nameSum name % 212 →
    (∀ e ∈ es, EntryOk e ∧ 0 ≤ e.startPos ∧ 0 ≤ e.sizeAligned ∧ e.unk3 = 0 ∧ e.unk4 = 0) →
    ((es.flatMap fields1).flatten ++ pad).length = roundUp 4 (es.flatMap fields1).flatten.length →
    ∀ buf, buf = h.bytes M name ++ gap ++ encrypt (keyWord M (signedKey (key2 (utf8EncStr (lower name ++ byteText h.chars)) 16))) 0 ((es.flatMap fields1).flatten ++ pad) ++ rest →
    buf.length < 2 ^ 63 →
    All2 (Writes1 M (byteText h.chars) buf ((h.bytes M name ++ gap).length + roundUp 4 (es.flatMap fields1).flatten.length)) es files →
    (∀ x ∈ files, MsStored .wrap ks2 x) →
    ∃ f, msOpen .wrap C buf name = .ok f ∧ ∃ N, ∀ fuel, N ≤ fuel →
      MsExportsBack (msContent .wrap C ks2 fuel f) (msReader .wrap ks2 files) (msTree files) := by
  refine ⟨Snow.maps, Snow.maps_ok, fun C ks2 h name H es gap pad rest files hok hn hH hc hg hes hpad buf hbuf hlen hw hs => ?_⟩
  obtain ⟨f, ims, h1, h2, h3⟩ := ms1_images C h name H es gap pad rest files hok hn hH hc hg hes hpad buf hbuf hlen hw
  exact ⟨f, h1, C83_ms_archive_partial .wrap C ks2 f ims files h2 h3 hs⟩

/-- all hypotheses of `C83_ms_v1_partial` are met -/
theorem msBytes_exports : ∃ M : Maps, ∀ (C : ChaCha) (ks2 : Nat → Byte), ∃ f, msOpen .wrap C (msBytes M) ['h', 'h', 'h'] = .ok f ∧
    ∃ fuel, MsExportsBack (msContent .wrap C ks2 fuel f) (msReader .wrap ks2 msFiles) (msTree msFiles) := by
  obtain ⟨M, _, hM⟩ := C83_ms_v1_partial
  refine ⟨M, fun C ks2 => ?_⟩
  obtain ⟨f, h1, N, hN⟩ := hM C ks2 msHead ['h', 'h', 'h'] _ msEntries msGap [] (msRest M) msFiles msHead_ok (by decide) msHead_result (by decide)
    (by decide +kernel) msEntries_ok (by rw [List.append_nil, msTable_length]; decide) (msBytes M) rfl (msBytes_length M) (msFiles_written M)
    (msFiles_stored _ _)
  exact ⟨f, h1, N, hN N (Nat.le_refl _)⟩

/-- C83 for MS archives of version 2, for files that are opened as such (see `C41_open_v2_partial`).  `_partial`: for the names that have a key
(see `C42_key_v2_panic`); see also `C83_archive_partial`. -/
theorem C83_ms_v2_partial (C : ChaCha) (hC : Blocks64 C) (ks2 : Nat → Byte) (h : Head2) (name : List Char) (es : List MsEntry) (pre rest : Bytes)
    (files : List (List Char × MsItem)) (hn : name ≠ []) (ho : msOpen .wrap C h.bytes name = .ok ⟨h.bytes, h.result C name⟩)
    (hc : (h.result C name).entryCount = es.length) (hpre : pre.length = randCount name + 5 + 2 * h.salt.length + 72 + 3 * nameSum name % 212)
    (hes : ∀ e ∈ es, EntryOk e ∧ 0 ≤ e.startPos ∧ 0 ≤ e.sizeAligned ∧ ((∀ c ∈ e.name, c.toNat < 128) ∨ 32 ≤ e.name.length)) (hrest : 63 ≤ rest.length)
    (hbuf : h.bytes = pre ++ restartEncrypt (C (xorBase (key2 (utf8EncStr (lower name ++ byteText h.chars)) 32)) (List.replicate 12 0#8)) 0 0 (es.flatMap fields2) ++ rest)
    (hlen : h.bytes.length < 2 ^ 63)
    (hw : All2 (Writes2 C (byteText h.chars) h.bytes (pre.length + roundUp 64 (es.flatMap fields2).flatten.length)) es files)
    (hs : ∀ x ∈ files, MsStored .wrap ks2 x) :
    ∃ f, msOpen .wrap C h.bytes name = .ok f ∧ ∃ N, ∀ fuel, N ≤ fuel →
      MsExportsBack (msContent .wrap C ks2 fuel f) (msReader .wrap ks2 files) (msTree files) := by
  obtain ⟨ims, h2, h3⟩ := ms2_images C hC h name es pre rest files hn hc hpre hes hrest hbuf hlen hw
  exact ⟨_, ho, C83_ms_archive_partial .wrap C ks2 _ ims files h2 h3 hs⟩

/-- all hypotheses of `C83_ms_v2_partial` are met -/
example (ks2 : Nat → Byte) : ∃ f fuel, msOpen .wrap noCipher msHead2.bytes ['h', 'h', 'h'] = .ok f ∧
    MsExportsBack (msContent .wrap noCipher ks2 fuel f) (msReader .wrap ks2 msFiles2) (msTree msFiles2) := by
  obtain ⟨f, h1, N, hN⟩ := C83_ms_v2_partial noCipher noCipher_blocks ks2 msHead2 ['h', 'h', 'h'] [msEntry2] (msHead2.bytes.take 199) (msHead2.bytes.drop 265)
    msFiles2 (by decide) msHead2_opens (by decide +kernel) (by decide +kernel)
    (by intro e he; rw [List.mem_singleton.mp he]; exact ⟨⟨by decide, by decide, by decide⟩, by decide, by decide, .inl (by decide)⟩)
    (by decide +kernel) (by decide +kernel) (by decide +kernel)
    (.cons ⟨rfl, by decide, by decide, msHead2.bytes.take 1024, [], [], by decide +kernel, by decide +kernel, by decide⟩ .nil)
    (msFiles2_stored .wrap ks2)
  exact ⟨f, N, h1, hN N (Nat.le_refl _)⟩

end Wz.Props
