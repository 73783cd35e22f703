import Verif.Whole.JsonLinkArcLemmas
import Verif.Whole.JsonProps
import Verif.Whole.LinkExamples

/-!
# C83: the JSON of an image with links
-/

set_option autoImplicit false

namespace Wz.Props

open Wz Wz.Spec

/-- An archive is opened and used in any way that is allowed (see C70).  Then
* an image with links, none of which leads over or to another link, can be looked up and read.  If no way through the links goes round and
  all numbers are finite, it can be exported, and its JSON shows under all names what is seen there.  If a way does go round, no export ends;
* if all images are like that and no way goes round in any of them, the archive can be exported: the images that have been read at that time are
  shown, the others are null.  If each of them was read and none was forgotten, all of the archive is shown;
* if a way goes round in an image that has been read, no export of the archive ends. -/
def ExportsThrough (content : Content) (e : Env) (arch : List (List Char × ATree)) : Prop :=
  ∀ h i, MapsOk h → NewFile h i → ∃ g, h.parse content i = (.ok (), g) ∧ ∀ ops, (∀ op ∈ ops, AllowedLinks arch op) →
    (∀ path ns props, Pieces path ns → imageAt arch ns = some props → DistinctProps props → DirectLinks (linkPlaces props) →
      ∃ k g1 g2, (runArc content i g ops).atPathParsed content i path = (.ok k, g1) ∧ g1.parse content k = (.ok (), g2) ∧
        (¬ GoesRound props → FiniteNumbers props →
          ∃ j N, (∀ fuel, N ≤ fuel → g2.exportJson e fuel k = some (.ok j)) ∧ ShowsPlace props [] j) ∧
        (GoesRound props → ∀ fuel j, g2.exportJson e fuel k ≠ some (.ok j))) ∧
    (ExportableLinks arch → ∃ j N, (∀ fuel, N ≤ fuel → (runArc content i g ops).exportJson e fuel i = some (.ok j)) ∧
      ShowsLinked (IsRead (runArc content i g ops) i) [] (.dir arch) j ∧
      ((∀ p, ArcOp.close p ∉ ops) → (∀ ns props, imageAt arch ns = some props → ∃ p, ArcOp.load p ∈ ops ∧ Pieces p ns) →
        ShowsLinked (fun _ => True) [] (.dir arch) j)) ∧
    ∀ ns props, imageAt arch ns = some props → IsRead (runArc content i g ops) i ns → DistinctProps props → DirectLinks (linkPlaces props) →
      GoesRound props → ∀ fuel j, (runArc content i g ops).exportJson e fuel i ≠ some (.ok j)

theorem exportsThrough_of {F : Fuel} {n fuel : Nat} {cache : List Cached} {f : WFile} {items : List (List Char × DNode)}
    {arch : List (List Char × ATree)} (ho : (f.parse F n cache).1 = .ok items)
    (R : ReadArchive (f.parse F n cache).2.env fuel items arch) :
    ExportsThrough (arcContent F n fuel cache f) (f.parse F n cache).2.env arch := by
  intro h i hm hnew
  obtain ⟨g, hg, S⟩ := opens_stands ho R hnew
  have hmg : MapsOk g := by
    have := mapsOk_parse (content := arcContent F n fuel cache f) (i := i) hm
    rwa [hg] at this
  refine ⟨g, hg, fun ops hops => ?_⟩
  have hmr := mapsOk_run (content := arcContent F n fuel cache f) (i := i) ops g hmg
  have F0 := S [] (by simp)
  have F1 := (run_keeps70 arcContent_image ops g F0 hops).file F0
  refine ⟨fun path ns props hp hi hd hl => ?_, fun hall => ?_, fun ns props hi hr hd hl hg fu x => export_root_round hmr F1 hi hr hd hl hg fu x⟩
  · obtain ⟨j, nm, t, g1, h1, _, h3, h4⟩ := find_image83 (content := arcContent F n fuel cache f) F1 hp hi
    have hm1 : MapsOk g1 := by
      have := mapsOk_atPathParsed (content := arcContent F n fuel cache f) (i := i) (path := path) hmr
      rwa [h1] at this
    obtain ⟨g2, h5, h6⟩ := export_image_links arcContent_image hm1 h3 h4 hd hl
    exact ⟨j, g1, g2, h1, h5, h6⟩
  · obtain ⟨j, N, h1, h2⟩ := export_root_links hmr F1 hall
    refine ⟨j, N, h1, h2, fun hc hl => showsLinked_all h2 fun ns props hi => ?_⟩
    exact isRead_run_links arcContent_image hi (hall ns props hi).1 (hall ns props hi).2.1 ops g F0 hops hc (.inr (hl ns props hi))


/-- C83 with links for any archive whose directory can be read.  `_partial`: images in which a way goes round cannot be exported
(`C83_round_counterexample`), those with numbers that are not finite panic (`C83_nan_counterexample`), and nothing is said of links that lead
over or to other links. -/
theorem C83_links_archive_partial (F : Fuel) (n : Nat) (cache : List Cached) (f : WFile) (items : List (List Char × DNode))
    (arch : List (List Char × ATree)) (ho : (f.parse F n cache).1 = .ok items) (hb : (f.parse F n cache).2.env.buf.length < 2 ^ 63)
    (ha : HoldsArchive (f.parse F n cache).2.env items arch) :
    ∃ N, ∀ fuel, N ≤ fuel → ExportsThrough (arcContent F n fuel cache f) (f.parse F n cache).2.env arch := by
  obtain ⟨N, hN⟩ := holdsArchive_reads hb ha
  exact ⟨N, fun fuel hf => exportsThrough_of ho (hN fuel hf)⟩

/-- C83 with links for PKG1.  `_partial`: see `C83_links_archive_partial`. -/
theorem C83_links_pkg1_partial (f : WFile) (v : Nat) (items : List (List Char × DNode)) (arch : List (List Char × ATree)) (cache : List Cached)
    (hi : f.hdr.ident = .v1) (hf : f.hdr.fstart < 2 ^ 32) (hb : f.env.buf.length < 2 ^ 63) (hbuf : f.env.buf ≠ [])
    (he : ∀ ev, f.hdr.encVer = some ev → ev < 2 ^ 16) (hp : f.patch = -1) (hv : TriedVersion f.hdr.encVer v)
    (hd : HoldsDir (Block1 ⟨f.env, f.hdr, f.keys2⟩ (BitVec.ofNat 64 (verHash v))) f.hdr.dataStart items)
    (ha : HoldsArchive f.env items arch) :
    ∃ N, ∀ F : Fuel, N ≤ F.loop → N ≤ F.nest → ∀ n fuel, 2000 < n → N ≤ fuel →
      (∀ u, TriedVersion f.hdr.encVer u → u < v → Refused1 F f u) → ExportsThrough (arcContent F n fuel cache f) f.env arch := by
  obtain ⟨N, hN⟩ := C54_opens f v items hi hf hb hbuf he hp hv hd
  obtain ⟨M, hM⟩ := holdsArchive_reads hb ha
  refine ⟨N + M, fun F h1 h2 n fuel hn hfu hu => ?_⟩
  obtain ⟨p1, p2⟩ := hN F (by omega) (by omega) n hn hu
  have hpar : f.parse F n cache = f.parsePkg1 F n none := by unfold WFile.parse; rw [hi]
  have henv : (f.parse F n cache).2.env = f.env := by rw [hpar]; exact p2.2.2.2.1
  rw [← henv]
  exact exportsThrough_of (by rw [hpar]; exact p1) (by rw [henv]; exact hM fuel (by omega))

theorem pkg2_exports_links {F : Fuel} {n fuel : Nat} {cache : List Cached} {f : WFile} {c : Cached} {items : List (List Char × DNode)}
    {arch : List (List Char × ATree)} (hn : F.nest ≠ 0) (hi : f.hdr.ident = .v2) (hbuf : f.env.buf ≠ [])
    (hg : ∀ c ∈ cache, c.profile.gen ≠ .unknown) (h : (f.parsePkg2 F cache).1 = .ok (c, items))
    (R : ReadArchive (reading f c).env fuel items arch) : ExportsThrough (arcContent F n fuel cache f) (reading f c).env arch := by
  have hx := (C44_file_after F f cache hn hbuf hg c items h).2.2.1
  have hpar : f.parse F n cache = (.ok items, (f.parsePkg2 F cache).2.1) := by
    unfold WFile.parse
    rw [hi]
    dsimp only
    generalize f.parsePkg2 F cache = z at h
    obtain ⟨r, f', l⟩ := z
    dsimp only at h
    subst h
    rfl
  have henv : (f.parse F n cache).2.env = (reading f c).env := by rw [hpar, ← hx]; rfl
  rw [← henv]
  exact exportsThrough_of (by rw [hpar]) (by rw [henv]; exact R)

/-- C83 with links for PKG2.  `_partial`: see `C83_links_archive_partial`. -/
theorem C83_links_pkg2_partial (f : WFile) (c : Cached) (items : List (List Char × DNode)) (arch : List (List Char × ATree))
    (hi : f.hdr.ident = .v2) (h64 : f.hdr.isPkg2_64 = false) (hf : f.hdr.fstart < 2 ^ 32) (hb : f.env.buf.length < 2 ^ 63)
    (hbuf : f.env.buf ≠ []) (hc : c.hash ≠ 0)
    (hd : HoldsDir (Block2 (reading f c) c.profile.ver c.hash) f.hdr.dataStart items)
    (ha : HoldsArchive (reading f c).env items arch) :
    ∃ N, ∀ F : Fuel, N ≤ F.loop → N ≤ F.nest → ∀ n fuel, N ≤ fuel → ∀ cache : List Cached,
      (∀ c ∈ cache, c.profile ∈ rows true ∨ c.profile ∈ rows false) →
      ∃ cands, Candidates f.hdr cache cands ∧ ∀ before after, cands = before ++ c :: after → (∀ b ∈ before, Refused F f b) →
        ExportsThrough (arcContent F n fuel cache f) (reading f c).env arch := by
  obtain ⟨k, hk⟩ := reading_key f c
  obtain ⟨N, hN⟩ := C44_narrow_opens f c items hi h64 hf hb hbuf hc hd
  obtain ⟨M, hM⟩ := holdsArchive_reads (by rw [hk]; exact hb) ha
  refine ⟨N + M + 1, fun F h1 h2 n fuel hfu cache hg => ?_⟩
  obtain ⟨cands, hca, h⟩ := hN F (by omega) (by omega) cache hg
  exact ⟨cands, hca, fun before after hs hr => pkg2_exports_links (by omega) hi hbuf (fun c hc => (hg c hc).elim rows_gen rows_gen)
    (h before after hs hr) (hM fuel (by omega))⟩

/-- C83 with links for the 64-bit PKG2 format, as far as `C44_wide_opens` opens it.  `_partial`: see also `C83_links_archive_partial`. -/
theorem C83_links_pkg2_64_partial (f : WFile) (t : BitVec 64) (items : List (List Char × DNode)) (arch : List (List Char × ATree))
    (hi : f.hdr.ident = .v2) (h64 : f.hdr.isPkg2_64 = true) (hf : f.hdr.fstart < 2 ^ 32) (hb : f.env.buf.length < 2 ^ 63)
    (hbuf : f.env.buf ≠ []) (ht : Solves6 f.hdr.hash1 f.hdr.hash2 t) (h0 : t ≠ 0)
    (hd : HoldsDir (Block64 (reading f ⟨row1202, t⟩) t) f.hdr.dataStart items)
    (ha : HoldsArchive (reading f ⟨row1202, t⟩).env items arch) :
    ∃ N, ∀ F : Fuel, N ≤ F.loop → N ≤ F.nest → ∀ n fuel, N ≤ fuel → ∀ cache : List Cached,
      (∀ c ∈ cache, c.profile ∈ rows true ∨ c.profile ∈ rows false) →
      ExportsThrough (arcContent F n fuel cache f) (reading f ⟨row1202, t⟩).env arch := by
  obtain ⟨k, hk⟩ := reading_key f ⟨row1202, t⟩
  obtain ⟨N, hN⟩ := C44_wide_opens f t items hi h64 hf hb hbuf ht h0 hd
  obtain ⟨M, hM⟩ := holdsArchive_reads (by rw [hk]; exact hb) ha
  refine ⟨N + M + 1, fun F h1 h2 n fuel hfu cache hg => ?_⟩
  exact pkg2_exports_links (by omega) hi hbuf (fun c hc => (hg c hc).elim rows_gen rows_gen)
    (hN F (by omega) (by omega) cache hg) (hM fuel (by omega))

/-- C83 with links for an image on its own (an `.img` file).  `_partial`: see `C83_links_archive_partial`. -/
theorem C83_links_image_partial (e : Env) (name : List Char) (o s : Nat) (t : ATree) (props : List (List Char × PTree))
    (hb : e.buf.length < 2 ^ 63) (ho : o < 2 ^ 32) (hs : StoredImage e name o s t) (hp : propsOf t = some props) (hd : DistinctProps props)
    (hl : DirectLinks (linkPlaces props)) :
    ∃ N, ∀ fuel, N ≤ fuel → ∀ (h : NHeap) (i : Nat) (c : NCell), MapsOk h → h.cell i = some c → c.name = name →
      c.kind = .image false (Encodable.encode (Src58.image name o s)) → c.kids = [] →
      ∃ g, h.parse (imgContent e fuel) i = (.ok (), g) ∧
        (¬ GoesRound props → FiniteNumbers props →
          ∃ j N, (∀ fuel, N ≤ fuel → g.exportJson e fuel i = some (.ok j)) ∧ ShowsPlace props [] j) ∧
        (GoesRound props → ∀ fuel j, g.exportJson e fuel i ≠ some (.ok j)) := by
  obtain ⟨N, hN⟩ := image_alone hb ho hs (fun ps h => by subst h; cases hp; exact .inr ⟨hd, hl⟩)
  refine ⟨N, fun fuel hf h i c hm hc hn hk hks => ?_⟩
  obtain ⟨g, f, node, hg, A⟩ := hN fuel hf h i c hc hn hk hks
  have hmg : MapsOk g := by
    have := mapsOk_parse (content := imgContent e fuel) (i := i) hm
    rwa [hg] at this
  obtain ⟨ci, src, hci, _, hki⟩ := A.cell
  have hpl : f.places = linkPlaces props := (goodImage_treePlaces A.good A.notDir).trans (tree_link_places hp)
  refine ⟨g, hg, fun hr hf => ?_, fun hr fuel r => export_round hmg A.nodes hpl hr fuel r⟩
  have := export_places hmg hci hki A.good A.nodes hp hpl hl hf hr ((forestPlaces f).length + 2) [] [] [] (by simp) .nil
    (fun x hx => by cases hx) (.here [])
  rwa [A.nodes.top] at this

/-- **Everything is where it is seen.**  Names that lead to a place, links taken for what they lead to, lead to the JSON of that place in
the JSON of the image. -/
theorem C83_links_at {ps : List (List Char × PTree)} : ∀ (ns : List (List Char)) {d t : List (List Char)} {j : Json}, ShowsPlace ps d j →
    SeenAt (linkPlaces ps) d ns (some t) → DirectLinks (linkPlaces ps) → ∃ j', jsonAt j ns = some j' ∧ ShowsPlace ps t j'
  | [], d, t, j, H, V, _ => by
    generalize hns : ([] : List (List Char)) = ns at V
    generalize hr : some t = r at V
    cases V with
    | here => cases hr; exact ⟨j, by unfold jsonAt; rfl, H⟩
    | _ => cases hns
  | n :: ns, d, t, j, H, V, D => by
    obtain ⟨r, V1⟩ := seen_total D [n] d
    cases r with
    | none =>
      have := seen_unique V (.missing d n ns ((seen_none D).1 V1))
      cases this
    | some u =>
      obtain ⟨r2, V2⟩ := seen_total D ns u
      obtain rfl : r2 = some t := seen_unique (seen_append V1 rfl V2) V
      have hsome : propAt ps (d ++ [n]) ≠ none := fun h => by
        have := seen_unique V1 (.missing d n [] (linkPlaces_none.2 h))
        cases this
      cases H with
      | leaf _ v _ hv hno => exact absurd (hno n) hsome
      | dead _ s hv hno => exact absurd (hno n) hsome
      | node _ v m f hv hex hnd he hk ho =>
        obtain ⟨j', h1, h2⟩ := C83_links_at ns (hk n u V1) V2 D
        exact ⟨j', by unfold jsonAt; rw [he n u V1]; exact h1, h2⟩

/-- Without links no way goes round. -/
theorem C83_no_links {ps : List (List Char × PTree)} (h : NoUol ps) : DirectLinks (linkPlaces ps) ∧ ¬ GoesRound ps := by
  have key : ∀ {d ns : List (List Char)} {r : Option (List (List Char))}, SeenAt (linkPlaces ps) d ns r → ∀ t, r = some t → t = d ++ ns := by
    intro d ns r V
    induction V with
    | here d => intro t ht; cases ht; simp
    | missing => intro t ht; cases ht
    | plain d n ns r hl _ ih => intro t ht; rw [ih t ht]; simp
    | link d n ns s us t r hl => exact absurd (linkPlaces_uol hl) (noUol_propAt _ h s)
    | dead d n ns s us r hl => exact absurd (linkPlaces_uol hl) (noUol_propAt _ h s)
  refine ⟨noUol_direct h, ?_⟩
  rintro ⟨ms, ns, d, hne, _, h2⟩
  have := congrArg List.length (key h2 d rfl)
  rw [List.length_append] at this
  exact hne (List.length_eq_zero_iff.1 (by omega))

/-! ### examples -/

theorem round70 : GoesRound props70 :=
  ⟨[], [['d'], ['u']], [], by simp, .here [], .plain [] ['d'] _ _ (by decide)
    (.link [['d']] ['u'] [] "..".toList ["..".toList] [] _ (by decide) (pieces_iff.2 (by decide)) way_up70 (.here []))⟩

/-- C83, violated: a stored image with a link back to the image is read without complaint, and no export of it ends. -/
theorem C83_round_counterexample : ∃ fuel g, alone70.parse (imgContent wfile70.env fuel) 0 = (.ok (), g) ∧
    ∀ fu j, g.exportJson wfile70.env fu 0 ≠ some (.ok j) := by
  obtain ⟨N, hN⟩ := C83_links_image_partial wfile70.env ['a'] 72 18 _ _ (by decide +kernel) (by decide) stored70 rfl distinct70 direct70
  obtain ⟨g, hg, _, H⟩ := hN N (Nat.le_refl _) alone70 0 _ (by
    intro i c hc
    match i with
    | 0 => cases hc; exact .nil
    | i + 1 => cases hc) rfl rfl rfl rfl
  exact ⟨N, g, hg, H round70⟩

/-- below the number there is nothing -/
theorem stops70b {ns : List (List Char)} {t : List (List Char)} (V : SeenAt (linkPlaces props70b) [['n']] ns (some t)) : ns = [] ∧ t = [['n']] := by
  have hno : ∀ x, linkPlaces props70b ([['n']] ++ [x]) = none := fun x => by
    unfold linkPlaces
    rw [show propAt props70b ([['n']] ++ [x]) = none from rfl]
    rfl
  generalize hd : [['n']] = d at V
  generalize hr : some t = r at V
  cases V with
  | here => cases hr; exact ⟨rfl, hd ▸ rfl⟩
  | missing => cases hr
  | plain _ x _ _ hl => rw [← hd, hno] at hl; cases hl
  | link _ x _ _ _ _ _ hl => rw [← hd, hno] at hl; cases hl
  | dead _ x _ _ _ _ hl => rw [← hd, hno] at hl; cases hl

/-- the places of `props70b` -/
theorem there70b {x : List Char} {v : Option (List Char)} (h : linkPlaces props70b ([] ++ [x]) = some v) : x = ['n'] ∨ x = ['l'] := by
  by_cases h1 : x = ['n']
  · exact .inl h1
  · by_cases h2 : x = ['l']
    · exact .inr h2
    · unfold linkPlaces props70b at h
      rw [List.nil_append, Spec.propAt_one, lastNamed_cons, lastNamed_cons, show lastNamed ([] : List (List Char × PTree)) x = none from rfl] at h
      dsimp only at h
      rw [if_neg (fun e => h2 e.symm)] at h
      dsimp only at h
      rw [if_neg (fun e => h1 e.symm)] at h
      cases h

theorem top70b {ns : List (List Char)} {t : List (List Char)} (V : SeenAt (linkPlaces props70b) [] ns (some t)) : (ns = [] ∧ t = []) ∨ t = [['n']] := by
  generalize hd : ([] : List (List Char)) = d at V
  generalize hr : some t = r at V
  cases V with
  | here => subst hd; cases hr; exact .inl ⟨rfl, rfl⟩
  | missing => cases hr
  | plain _ x _ _ hl V =>
    subst hd
    rcases there70b hl with rfl | rfl
    · exact .inr (stops70b (hr ▸ V)).2
    · cases hl
  | link _ x _ s us u _ hl hs W V =>
    subst hd
    obtain ⟨_, rfl⟩ := links70b hl hs
    obtain rfl : u = [['n']] := Option.some.inj (linkWay_unique W way_n70b)
    exact .inr (stops70b (hr ▸ V)).2
  | dead _ x _ s us _ hl hs W V =>
    subst hd
    obtain ⟨_, rfl⟩ := links70b hl hs
    cases linkWay_unique W way_n70b

theorem straight70b : ¬ GoesRound props70b := by
  rintro ⟨ms, ns, d, hne, h1, h2⟩
  rcases top70b h1 with ⟨_, rfl⟩ | rfl
  · rcases top70b h2 with ⟨h, _⟩ | h
    · exact hne h
    · cases h
  · exact hne (stops70b h2).1

theorem finite70b : FiniteNumbers props70b := by
  intro d v hv
  have key : v = .int 5 ∨ v = .uol ['n'] := by
    cases d with
    | nil => cases hv
    | cons x d =>
      have hx : lastNamed props70b x = some (.node (.int 5) []) ∨ lastNamed props70b x = some (.node (.uol ['n']) []) ∨ lastNamed props70b x = none := by
        unfold props70b
        rw [lastNamed_cons, lastNamed_cons, show lastNamed ([] : List (List Char × PTree)) x = none from rfl]
        dsimp only
        by_cases h2 : ['l'] = x
        · rw [if_pos h2]; exact .inr (.inl rfl)
        · rw [if_neg h2]
          dsimp only
          by_cases h1 : ['n'] = x
          · rw [if_pos h1]; exact .inl rfl
          · rw [if_neg h1]; exact .inr (.inr rfl)
      rw [Spec.propAt_one] at hv
      rcases hx with hx | hx | hx
      · rw [hx] at hv
        cases d with
        | nil => exact .inl (Option.some.inj hv).symm
        | cons y d => cases hv
      · rw [hx] at hv
        cases d with
        | nil => exact .inr (Option.some.inj hv).symm
        | cons y d => cases hv
      · rw [hx] at hv; cases hv
  rcases key with rfl | rfl <;> exact ⟨fun b h => (by cases h), fun b h => (by cases h)⟩

theorem direct70b : DirectLinks (linkPlaces props70b) := fun d n s us hl hp => by
  obtain ⟨rfl, rfl⟩ := links70b hl hp
  exact ⟨_, way_n70b⟩

theorem distinct70b : DistinctProps props70b := .cons _ _ _ _ (by simp) .nil (.cons _ _ _ _ (by simp) .nil .nil)

theorem five70b {j : Json} (h : ShowsPlace props70b [['n']] j) : j = .int 5 := by
  generalize hd : [['n']] = d at h
  cases h with
  | leaf _ v _ hv _ hj =>
    subst hd
    obtain rfl : PVal.int 5 = v := Option.some.inj hv
    cases hj
    rfl
  | dead _ s hv => subst hd; cases hv
  | node _ v m f hv hex =>
    subst hd
    obtain ⟨n, w, h⟩ := hex
    cases h

/-- All hypotheses of `C83_links_image_partial` and `C83_links_at` are met: the number 5 under `n` and the link `l` to it are exported as
`{"n": 5, "l": 5}`. -/
example : ∃ fuel g j N, NHeap.parse [some ⟨['a'], .image false (Encodable.encode (Src58.image ['a'] 0 35)), none, []⟩] (imgContent env70b fuel) 0 = (.ok (), g) ∧
    (∀ fu, N ≤ fu → g.exportJson env70b fu 0 = some (.ok j)) ∧ jsonAt j [['n']] = some (.int 5) ∧ jsonAt j [['l']] = some (.int 5) := by
  obtain ⟨N, hN⟩ := C83_links_image_partial env70b ['a'] 0 35 _ _ (by decide +kernel) (by decide) stored70b rfl distinct70b direct70b
  obtain ⟨g, hg, H, _⟩ := hN N (Nat.le_refl _) [some ⟨['a'], .image false (Encodable.encode (Src58.image ['a'] 0 35)), none, []⟩] 0 _ (by
    intro i c hc
    match i with
    | 0 => cases hc; exact .nil
    | i + 1 => cases hc) rfl rfl rfl rfl
  obtain ⟨j, M, h1, h2⟩ := H straight70b finite70b
  obtain ⟨j1, a1, a2⟩ := C83_links_at [['n']] h2 (.plain [] ['n'] [] _ (by decide) (.here [['n']])) direct70b
  obtain ⟨j2, b1, b2⟩ := C83_links_at [['l']] h2
    (.link [] ['l'] [] ['n'] [['n']] [['n']] _ (by decide) (pieces_iff.2 (by decide)) way_n70b (.here [['n']])) direct70b
  rw [five70b a2] at a1
  rw [five70b b2] at b1
  exact ⟨N, g, j, M, hg, h1, a1, b1⟩

/-- `C83_links_pkg1_partial`: the archive whose image goes round, after a look-up through its links. -/
example : ∃ (F : Fuel) (n fuel : Nat) (g g1 g2 : NHeap) (k : Nat), heap58.parse (arcContent F n fuel [] wfile70) 0 = (.ok (), g) ∧
    (runArc (arcContent F n fuel [] wfile70) 0 g [.find "a/d/u/l".toList]).atPathParsed (arcContent F n fuel [] wfile70) 0 ['a'] = (.ok k, g1) ∧
    g1.parse (arcContent F n fuel [] wfile70) k = (.ok (), g2) ∧ ∀ fu j, g2.exportJson wfile70.env fu k ≠ some (.ok j) := by
  have h83 : verHash 83 = 1876 := by simp [verHash]
  obtain ⟨N, hN⟩ := C83_links_pkg1_partial wfile70 83 _ [(['a'], .image props70)] [] rfl (by decide) (by decide +kernel) (by decide +kernel)
    (by intro ev h; cases h; decide) rfl ⟨by omega, by omega, .inr (by rw [h83]; decide)⟩ (by rw [h83]; exact file70_holds)
    (.image _ _ _ _ _ _ (by decide) stored70 .nil)
  have R := hN ⟨N, N⟩ (Nat.le_refl _) (Nat.le_refl _) 2001 N (by omega) (Nat.le_refl _) fun u h hu => absurd hu (no_earlier u h)
  obtain ⟨g, hg, H⟩ := R heap58 0 heap58_maps ⟨_, rfl, rfl, rfl⟩
  obtain ⟨k, g1, g2, h1, h2, _, h3⟩ := (H [.find "a/d/u/l".toList] (by
      intro op ho
      rw [List.mem_singleton] at ho
      subst ho
      exact ⟨[['a'], ['d'], ['u'], ['l']], pieces_iff.2 (by decide), .inr (.inr ⟨distinct70, direct70⟩)⟩)).1
    ['a'] [['a']] props70 (pieces_iff.2 (by decide)) rfl distinct70 direct70
  exact ⟨⟨N, N⟩, 2001, N, g, g1, g2, k, hg, h1, h2, h3 round70⟩

/-- `C83_links_archive_partial` -/
example : ∃ (F : Fuel) (n fuel : Nat) (e : Env), ExportsThrough (arcContent F n fuel [] wfile58) e arch58 := by
  obtain ⟨F, n, h1, h2, h3⟩ := wfile58_opened
  obtain ⟨N, hN⟩ := C83_links_archive_partial F n [] wfile58 items58 arch58 h1 h2 h3
  exact ⟨F, n, N, _, hN N (Nat.le_refl _)⟩

/-- `C83_links_pkg2_partial` -/
example : ∃ (F : Fuel) (n fuel : Nat), ExportsThrough (arcContent F n fuel [⟨row1201, 77#64⟩] wfile58b) wfile58b.env arch58b :=
  take58b (C83_links_pkg2_partial wfile58b ⟨row1201, 77#64⟩ items58b arch58b rfl
    (by decide) (by decide) (by decide +kernel) (by decide +kernel) (by decide) file58b_holds arch58b_stored)

/-- `C83_links_pkg2_64_partial`, and the export of the whole archive, of which the image `a` was read: it is exported as `{"a": {"n": 5}}`. -/
example : ∃ (F : Fuel) (n fuel : Nat) (g : NHeap) (j x : Json) (m : List (List Char × Json)) (N : Nat),
    (∀ fu, N ≤ fu → (runArc (arcContent F n fuel [] wfile58w) 0 g [.load ['a']]).exportJson wfile58w.env fu 0 = some (.ok j)) ∧
    j = .obj m ∧ entry m ['a'] = some x ∧ jsonAt x [['n']] = some (.int 5) := by
  obtain ⟨N, hN⟩ := C83_links_pkg2_64_partial wfile58w 77#64 _ _ rfl (by decide) (by decide) (by decide +kernel)
    (by decide +kernel) (by unfold Solves6; decide +kernel) (by decide) wfile58w_holds arch58w_stored
  have R := hN ⟨N, N⟩ (Nat.le_refl _) (Nat.le_refl _) 0 N (Nat.le_refl _) [] (by simp)
  obtain ⟨g, hg, H⟩ := R heap58 0 heap58_maps ⟨_, rfl, rfl, rfl⟩
  have one : ∀ ns props, imageAt [(['a'], .image [(['n'], .node (.int 5) [])])] ns = some props →
      ns = [['a']] ∧ props = [(['n'], .node (.int 5) [])] := by
    intro ns props hi
    cases ns with
    | nil => cases hi
    | cons x ns =>
      rw [imageAt_cons, lastNamed_cons, show lastNamed ([] : List (List Char × ATree)) x = none from rfl] at hi
      dsimp only at hi
      by_cases hx : ['a'] = x
      · rw [if_pos hx] at hi
        obtain ⟨rfl, hp⟩ := imageFrom_image (by simp) hi
        exact ⟨by rw [hx], (Option.some.inj hp).symm⟩
      · rw [if_neg hx] at hi
        cases hi
  obtain ⟨j, M, h1, _, h3⟩ := (H [.load ['a']] (by
      intro op ho
      rw [List.mem_singleton] at ho
      subst ho
      exact ⟨[['a']], pieces_iff.2 (by decide), .inr (.inl five_links)⟩)).2.1 (by
    intro ns props hi
    obtain ⟨rfl, rfl⟩ := one ns props hi
    exact ⟨.cons _ _ _ _ (by simp) .nil .nil, (C83_no_links five_links).1, (C83_no_links five_links).2, five_finite⟩)
  have h3 := h3 (by simp) (by
    intro ns props hi
    obtain ⟨rfl, rfl⟩ := one ns props hi
    exact ⟨['a'], by simp, pieces_iff.2 (by decide)⟩)
  cases h3 with
  | unread _ _ _ hp => cases hp
  | image _ _ _ _ hp => cases hp
  | dir _ _ m f _ _ he hk =>
    have ha : lastNamed [(['a'], ATree.image [(['n'], .node (.int 5) [])])] ['a'] = some (.image [(['n'], .node (.int 5) [])]) := rfl
    have hs := hk ['a'] _ ha
    generalize hx : f ['a'] = x at hs
    cases hs with
    | unread _ _ _ _ hr => exact absurd trivial hr
    | image _ _ props _ hp _ hs =>
      cases hp
      obtain ⟨j', a1, a2⟩ := C83_links_at [['n']] hs (t := [['n']]) (.plain [] ['n'] [] _ (by decide) (.here [['n']])) (C83_no_links five_links).1
      refine ⟨⟨N, N⟩, 0, N, g, _, x, m, M, h1, rfl, hx ▸ he ['a'] _ ha, ?_⟩
      rw [a1]
      generalize hd : [['n']] = d at a2
      cases a2 with
      | leaf _ v _ hv _ hj =>
        subst hd
        obtain rfl : PVal.int 5 = v := Option.some.inj hv
        cases hj
        rfl
      | dead _ s hv => subst hd; cases hv
      | node _ v m f hv hex =>
        subst hd
        obtain ⟨n, w, h⟩ := hex
        cases h

end Wz.Props
