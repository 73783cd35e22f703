import Verif.Whole.JsonArchiveLemmas
import Verif.Whole.DirectProps
import Verif.Whole.ArchiveExamples

/-!
# C83: the JSON of an image of an archive shows what its author put into it
-/

set_option autoImplicit false

namespace Wz.Props

open Wz Wz.Spec

/-- An archive is opened and used in any way that is allowed (see C58).  Then
* every image without links and with finite numbers only can be looked up, read and exported, and its JSON shows its properties;
* if all images are like that, the archive can be exported: the images that have been read at that time are shown, the others are null;
* if each of them was read and none was forgotten, all of the archive is shown. -/
def ExportsBack (content : Content) (e : Env) (arch : List (List Char × ATree)) : Prop :=
  ∀ h i, MapsOk h → NewFile h i → ∃ g, h.parse content i = (.ok (), g) ∧ ∀ ops, (∀ op ∈ ops, AllowedArc arch op) →
    (∀ path ns props, Pieces path ns → imageAt arch ns = some props → NoUol props → FiniteNumbers props →
      ∃ k g1 g2, (runArc content i g ops).atPathParsed content i path = (.ok k, g1) ∧ g1.parse content k = (.ok (), g2) ∧
        ExportsAs e g2 k props) ∧
    (Exportable arch → ∃ j N, (∀ fuel, N ≤ fuel → (runArc content i g ops).exportJson e fuel i = some (.ok j)) ∧
      ShowsArc (IsRead (runArc content i g ops) i) [] (.dir arch) j ∧
      ((∀ p, ArcOp.close p ∉ ops) → (∀ ns props, imageAt arch ns = some props → ∃ p, ArcOp.load p ∈ ops ∧ Pieces p ns) →
        ShowsArc (fun _ => True) [] (.dir arch) j))

theorem exportsBack_of {F : Fuel} {n fuel : Nat} {cache : List Cached} {f : WFile} {items : List (List Char × DNode)}
    {arch : List (List Char × ATree)} (ho : (f.parse F n cache).1 = .ok items)
    (R : ReadArchive (f.parse F n cache).2.env fuel items arch) :
    ExportsBack (arcContent F n fuel cache f) (f.parse F n cache).2.env arch := by
  intro h i hm hnew
  obtain ⟨g, hg, S⟩ := opens_stands ho R hnew
  have hmg : MapsOk g := by
    have := mapsOk_parse (content := arcContent F n fuel cache f) (i := i) hm
    rwa [hg] at this
  refine ⟨g, hg, fun ops hops => ?_⟩
  have hmr := mapsOk_run (content := arcContent F n fuel cache f) (i := i) ops g hmg
  refine ⟨fun path ns props hp hi hu hf => ?_, fun hall => ?_⟩
  · obtain ⟨j, nm, t, g1, h1, _, h3, h4⟩ := find_image83 (content := arcContent F n fuel cache f) (S ops hops) hp hi
    have hm1 : MapsOk g1 := by
      have := mapsOk_atPathParsed (content := arcContent F n fuel cache f) (i := i) (path := path) hmr
      rwa [h1] at this
    obtain ⟨g2, h5, _, h6⟩ := export_image arcContent_image hm1 h3 h4 hu hf
    exact ⟨j, g1, g2, h1, h5, h6⟩
  · obtain ⟨j, N, h1, h2⟩ := export_root hmr (S ops hops) hall
    refine ⟨j, N, h1, h2, fun hc hl => showsArc_all h2 fun ns props hi => ?_⟩
    exact isRead_run arcContent_image hi (hall ns props hi).1 ops g (S [] (by simp)) hops hc (.inr (hl ns props hi))

/-- C83 for any archive whose directory can be read.  `_partial`: without links, whose targets are exported once more or without end
(`C46_circle_counterexample`), and with finite numbers only, as others panic (`C83_nan_counterexample`). -/
theorem C83_archive_partial (F : Fuel) (n : Nat) (cache : List Cached) (f : WFile) (items : List (List Char × DNode))
    (arch : List (List Char × ATree)) (ho : (f.parse F n cache).1 = .ok items) (hb : (f.parse F n cache).2.env.buf.length < 2 ^ 63)
    (ha : HoldsArchive (f.parse F n cache).2.env items arch) :
    ∃ N, ∀ fuel, N ≤ fuel → ExportsBack (arcContent F n fuel cache f) (f.parse F n cache).2.env arch := by
  obtain ⟨N, hN⟩ := holdsArchive_reads hb ha
  exact ⟨N, fun fuel hf => exportsBack_of ho (hN fuel hf)⟩

/-- C83 for PKG1.  `_partial`: see `C83_archive_partial`. -/
theorem C83_pkg1_partial (f : WFile) (v : Nat) (items : List (List Char × DNode)) (arch : List (List Char × ATree)) (cache : List Cached)
    (hi : f.hdr.ident = .v1) (hf : f.hdr.fstart < 2 ^ 32) (hb : f.env.buf.length < 2 ^ 63) (hbuf : f.env.buf ≠ [])
    (he : ∀ ev, f.hdr.encVer = some ev → ev < 2 ^ 16) (hp : f.patch = -1) (hv : TriedVersion f.hdr.encVer v)
    (hd : HoldsDir (Block1 ⟨f.env, f.hdr, f.keys2⟩ (BitVec.ofNat 64 (verHash v))) f.hdr.dataStart items)
    (ha : HoldsArchive f.env items arch) :
    ∃ N, ∀ F : Fuel, N ≤ F.loop → N ≤ F.nest → ∀ n fuel, 2000 < n → N ≤ fuel →
      (∀ u, TriedVersion f.hdr.encVer u → u < v → Refused1 F f u) → ExportsBack (arcContent F n fuel cache f) f.env arch := by
  obtain ⟨N, hN⟩ := C54_opens f v items hi hf hb hbuf he hp hv hd
  obtain ⟨M, hM⟩ := holdsArchive_reads hb ha
  refine ⟨N + M, fun F h1 h2 n fuel hn hfu hu => ?_⟩
  obtain ⟨p1, p2⟩ := hN F (by omega) (by omega) n hn hu
  have hpar : f.parse F n cache = f.parsePkg1 F n none := by unfold WFile.parse; rw [hi]
  have henv : (f.parse F n cache).2.env = f.env := by rw [hpar]; exact p2.2.2.2.1
  rw [← henv]
  exact exportsBack_of (by rw [hpar]; exact p1) (by rw [henv]; exact hM fuel (by omega))

theorem pkg2_exports {F : Fuel} {n fuel : Nat} {cache : List Cached} {f : WFile} {c : Cached} {items : List (List Char × DNode)}
    {arch : List (List Char × ATree)} (hn : F.nest ≠ 0) (hi : f.hdr.ident = .v2) (hbuf : f.env.buf ≠ [])
    (hg : ∀ c ∈ cache, c.profile.gen ≠ .unknown) (h : (f.parsePkg2 F cache).1 = .ok (c, items))
    (R : ReadArchive (reading f c).env fuel items arch) : ExportsBack (arcContent F n fuel cache f) (reading f c).env arch := by
  have hx := (C44_file_after F f cache hn hbuf hg c items h).2.2.1
  have hpar : f.parse F n cache = (.ok items, (f.parsePkg2 F cache).2.1) := by
    unfold WFile.parse
    rw [hi]
    dsimp only
    generalize f.parsePkg2 F cache = z at h
    obtain ⟨r, f', l⟩ := z
    dsimp only at h
    subst h
    rfl
  have henv : (f.parse F n cache).2.env = (reading f c).env := by rw [hpar, ← hx]; rfl
  rw [← henv]
  exact exportsBack_of (by rw [hpar]) (by rw [henv]; exact R)

/-- C83 for PKG2.  `_partial`: see `C83_archive_partial`. -/
theorem C83_pkg2_partial (f : WFile) (c : Cached) (items : List (List Char × DNode)) (arch : List (List Char × ATree))
    (hi : f.hdr.ident = .v2) (h64 : f.hdr.isPkg2_64 = false) (hf : f.hdr.fstart < 2 ^ 32) (hb : f.env.buf.length < 2 ^ 63)
    (hbuf : f.env.buf ≠ []) (hc : c.hash ≠ 0)
    (hd : HoldsDir (Block2 (reading f c) c.profile.ver c.hash) f.hdr.dataStart items)
    (ha : HoldsArchive (reading f c).env items arch) :
    ∃ N, ∀ F : Fuel, N ≤ F.loop → N ≤ F.nest → ∀ n fuel, N ≤ fuel → ∀ cache : List Cached,
      (∀ c ∈ cache, c.profile ∈ rows true ∨ c.profile ∈ rows false) →
      ∃ cands, Candidates f.hdr cache cands ∧ ∀ before after, cands = before ++ c :: after → (∀ b ∈ before, Refused F f b) →
        ExportsBack (arcContent F n fuel cache f) (reading f c).env arch := by
  obtain ⟨k, hk⟩ := reading_key f c
  obtain ⟨N, hN⟩ := C44_narrow_opens f c items hi h64 hf hb hbuf hc hd
  obtain ⟨M, hM⟩ := holdsArchive_reads (by rw [hk]; exact hb) ha
  refine ⟨N + M + 1, fun F h1 h2 n fuel hfu cache hg => ?_⟩
  obtain ⟨cands, hca, h⟩ := hN F (by omega) (by omega) cache hg
  exact ⟨cands, hca, fun before after hs hr => pkg2_exports (by omega) hi hbuf (fun c hc => (hg c hc).elim rows_gen rows_gen)
    (h before after hs hr) (hM fuel (by omega))⟩

/-- C83 for the 64-bit PKG2 format, as far as `C44_wide_opens` opens it.  `_partial`: see also `C83_archive_partial`. -/
theorem C83_pkg2_64_partial (f : WFile) (t : BitVec 64) (items : List (List Char × DNode)) (arch : List (List Char × ATree))
    (hi : f.hdr.ident = .v2) (h64 : f.hdr.isPkg2_64 = true) (hf : f.hdr.fstart < 2 ^ 32) (hb : f.env.buf.length < 2 ^ 63)
    (hbuf : f.env.buf ≠ []) (ht : Solves6 f.hdr.hash1 f.hdr.hash2 t) (h0 : t ≠ 0)
    (hd : HoldsDir (Block64 (reading f ⟨row1202, t⟩) t) f.hdr.dataStart items)
    (ha : HoldsArchive (reading f ⟨row1202, t⟩).env items arch) :
    ∃ N, ∀ F : Fuel, N ≤ F.loop → N ≤ F.nest → ∀ n fuel, N ≤ fuel → ∀ cache : List Cached,
      (∀ c ∈ cache, c.profile ∈ rows true ∨ c.profile ∈ rows false) →
      ExportsBack (arcContent F n fuel cache f) (reading f ⟨row1202, t⟩).env arch := by
  obtain ⟨k, hk⟩ := reading_key f ⟨row1202, t⟩
  obtain ⟨N, hN⟩ := C44_wide_opens f t items hi h64 hf hb hbuf ht h0 hd
  obtain ⟨M, hM⟩ := holdsArchive_reads (by rw [hk]; exact hb) ha
  refine ⟨N + M + 1, fun F h1 h2 n fuel hfu cache hg => ?_⟩
  exact pkg2_exports (by omega) hi hbuf (fun c hc => (hg c hc).elim rows_gen rows_gen)
    (hN F (by omega) (by omega) cache hg) (hM fuel (by omega))

/-- **Every property is where it was put.**  Names that lead to a property of the image lead to its JSON in the JSON of the image. -/
theorem C83_at : ∀ (d : List (List Char)) {t t' : PTree} {j : Json}, ShowsJson t j → partAt t d = some t' →
    ∃ j', jsonAt j d = some j' ∧ ShowsJson t' j'
  | [], t, t', j, h, ht => by
    cases t
    cases ht
    exact ⟨j, by cases j <;> rfl, h⟩
  | n :: ns, .node v kids, t', j, h, ht => by
    rw [partAt] at ht
    cases hl : lastNamed kids n with
    | none => rw [hl] at ht; cases ht
    | some u =>
      rw [hl] at ht
      cases h with
      | leaf _ _ _ => cases hl
      | node _ _ m f _ _ h1 h2 _ =>
        obtain ⟨j', h3, h4⟩ := C83_at ns (h2 n u hl) ht
        refine ⟨j', ?_, h4⟩
        rw [jsonAt, h1 n u hl]
        exact h3

/-- **Every image is where it was put.**  Names that lead to an image of the archive that had been read lead to its JSON in the JSON of the
archive. -/
theorem C83_at_image {read : List (List Char) → Prop} : ∀ (ns d : List (List Char)) {kids : List (List Char × ATree)} {j : Json}
    {props : List (List Char × PTree)}, ShowsArc read d (.dir kids) j → imageAt kids ns = some props → read (d ++ ns) →
    ∃ j', jsonAt j ns = some j' ∧ ShowsJson (.node .sub props) j'
  | [], _, _, _, _, _, hi, _ => by cases hi
  | n :: ns, d, kids, j, props, h, hi, hr => by
    cases h with
    | unread _ _ _ h => cases h
    | image _ _ _ _ h => cases h
    | empty _ => cases hi
    | dir _ _ m f _ _ h1 h2 _ =>
      rw [imageAt_cons] at hi
      cases hl : lastNamed kids n with
      | none => rw [hl] at hi; cases hi
      | some t =>
        rw [hl] at hi
        have hs := h2 n t hl
        rw [jsonAt, h1 n t hl]
        rw [show d ++ n :: ns = (d ++ [n]) ++ ns by simp] at hr
        cases t with
        | dir ks => exact C83_at_image ns (d ++ [n]) hs hi hr
        | image ps =>
          obtain ⟨rfl, hp⟩ := imageFrom_image (by simp) hi
          rw [List.append_nil] at hr
          refine ⟨f n, by cases f n <;> rfl, ?_⟩
          generalize f n = y at hs
          cases hs with
          | unread _ _ _ _ h => exact absurd hr h
          | image _ _ ps' _ h _ h' => rw [h] at hp; cases hp; exact h'
        | text ps =>
          obtain ⟨rfl, hp⟩ := imageFrom_image (by simp) hi
          rw [List.append_nil] at hr
          refine ⟨f n, by cases f n <;> rfl, ?_⟩
          generalize f n = y at hs
          cases hs with
          | unread _ _ _ _ h => exact absurd hr h
          | image _ _ ps' _ h _ h' => rw [h] at hp; cases hp; exact h'
        | script ps =>
          obtain ⟨rfl, hp⟩ := imageFrom_image (by simp) hi
          rw [List.append_nil] at hr
          refine ⟨f n, by cases f n <;> rfl, ?_⟩
          generalize f n = y at hs
          cases hs with
          | unread _ _ _ _ h => exact absurd hr h
          | image _ _ ps' _ h _ h' => rw [h] at hp; cases hp; exact h'

/-- the number 5 under `n` of the picture `p` of an image -/
example {j : Json} (h : ShowsJson (.node .sub [(['p'], .node (.canvas 1 2 0 0 1 []) [(['n'], .node (.int 5) [])])]) j) :
    jsonAt j [['p'], ['n']] = some (.int 5) := by
  obtain ⟨j', h1, h2⟩ := C83_at [['p'], ['n']] h (t' := .node (.int 5) []) rfl
  cases h2 with
  | leaf _ _ h2 => cases h2; exact h1
  | node _ _ _ _ h => exact absurd rfl h

/-- An image that was not read is exported as null, whatever is in it: the export reads nothing. -/
theorem C83_unread (e : Env) (h : NHeap) (k : Nat) (c : NCell) (s fuel : Nat) (hc : h.cell k = some c) (hk : c.kind = .image false s)
    (hn : c.kids = []) : h.exportJson e (fuel + 1) k = some (.ok .null) := by
  rw [exportJson_eq, json_eq]
  have hch : childrenOf h k = [] := by unfold childrenOf; rw [hc]; exact hn
  have ho : objOf e h k = .image s := by unfold objOf; rw [hc]; dsimp only; rw [hk]; rfl
  rw [hch, ho]
  rfl

/-- C83, violated: an image with a NaN in it; every export of it panics. -/
theorem C83_nan_counterexample (e : Env) : ∃ h : NHeap, (∀ c, h.cell 1 = some c → KindShows e c.kind (.prop (.float 0x7fc00000))) ∧
    h.at 0 ['n'] = some 1 ∧ ∀ fuel, ∃ er, h.exportJson e (fuel + 2) 0 = some (.error er) ∧ er.isPanic = true := by
  have hk : kindObject e (.other (Encodable.encode (Leaf58.prop (.float 0x7fc00000)))) = .value (.float 0x7fc00000) := by
    unfold kindObject
    dsimp only
    rw [Encodable.encodek]
    rfl
  have hs : KindShows e (.other (Encodable.encode (Leaf58.prop (.float 0x7fc00000)))) (.prop (.float 0x7fc00000)) :=
    .prop _ _ _ (Encodable.encodek _) (.float _)
  generalize Encodable.encode (Leaf58.prop (.float 0x7fc00000)) = w at hk hs
  refine ⟨[some ⟨['a'], .image true 0, none, [(['n'], 1)]⟩, some ⟨['n'], .other w, some 0, []⟩], ?_, rfl, fun fuel => ?_⟩
  · intro c hc
    cases hc
    exact hs
  · have h1 : NHeap.json (objOf e [some ⟨['a'], .image true 0, none, [(['n'], 1)]⟩, some ⟨['n'], .other w, some 0, []⟩])
        [some ⟨['a'], .image true 0, none, [(['n'], 1)]⟩, some ⟨['n'], .other w, some 0, []⟩] (fuel + 1) 1 = some (.error .panicUnwrap) := by
      rw [json_eq]
      show some (kindObject e (.other w)).leafJson = _
      rw [hk]
      rfl
    refine ⟨.panicUnwrap, ?_, rfl⟩
    rw [exportJson_eq, json_eq]
    show Option.map (fun r => Except.map Json.obj r) (NHeap.jsonLoop _ [(['n'], 1)] _) = _
    rw [NHeap.jsonLoop, h1]
    rfl

/-! ### examples -/

theorem five_links : NoUol [(['n'], .node (.int 5) [])] := .cons _ _ _ _ (by simp) .nil .nil

theorem five_finite : FiniteNumbers [(['n'], .node (.int 5) [])] := by
  intro d v hv
  have : v = .int 5 := by
    cases d with
    | nil => cases hv
    | cons x d =>
      rw [Spec.propAt_one, lastNamed_cons] at hv
      by_cases hx : ['n'] = x
      · rw [show lastNamed ([] : List (List Char × PTree)) x = none from rfl] at hv
        dsimp only at hv
        rw [if_pos hx] at hv
        dsimp only at hv
        cases d with
        | nil => exact (Option.some.inj hv).symm
        | cons y d => cases hv
      · rw [show lastNamed ([] : List (List Char × PTree)) x = none from rfl] at hv
        dsimp only at hv
        rw [if_neg hx] at hv
        cases hv
  subst this
  exact ⟨fun b h => (by cases h), fun b h => (by cases h)⟩

/-- `C83_pkg1_partial`: the image `a` of `wfile58`, after a look-up, is exported as `{"n": 5}`. -/
example : ∃ (F : Fuel) (n fuel : Nat) (g g1 g2 : NHeap) (k : Nat) (j : Json) (N : Nat),
    heap58.parse (arcContent F n fuel [] wfile58) 0 = (.ok (), g) ∧
    (runArc (arcContent F n fuel [] wfile58) 0 g [.find "b/q".toList]).atPathParsed (arcContent F n fuel [] wfile58) 0 ['a'] = (.ok k, g1) ∧
    g1.parse (arcContent F n fuel [] wfile58) k = (.ok (), g2) ∧ (∀ fu, N ≤ fu → g2.exportJson wfile58.env fu k = some (.ok j)) ∧
    jsonAt j [['n']] = some (.int 5) := by
  have h83 : verHash 83 = 1876 := by simp [verHash]
  obtain ⟨N, hN⟩ := C83_pkg1_partial wfile58 83 items58 arch58 [] rfl (by decide) (by decide +kernel) (by decide +kernel)
    (by intro ev h; cases h; decide) rfl ⟨by omega, by omega, .inr (by rw [h83]; decide)⟩ (by rw [h83]; exact file58_holds) arch58_stored
  have R := hN ⟨N, N⟩ (Nat.le_refl _) (Nat.le_refl _) 2001 N (by omega) (Nat.le_refl _) fun u h hu => absurd hu (no_earlier u h)
  obtain ⟨g, hg, H⟩ := R heap58 0 heap58_maps ⟨_, rfl, rfl, rfl⟩
  obtain ⟨k, g1, g2, h1, h2, j, M, h3, h4⟩ := (H [.find "b/q".toList] (by
      intro op ho
      rw [List.mem_singleton] at ho
      subst ho
      exact ⟨[['b'], ['q']], pieces_iff.2 (by decide), trivial⟩)).1
    ['a'] [['a']] _ (pieces_iff.2 (by decide)) (show imageAt arch58 [['a']] = some [(['n'], .node (.int 5) [])] from rfl) five_links five_finite
  refine ⟨⟨N, N⟩, 2001, N, g, g1, g2, k, j, M, hg, h1, h2, h3, ?_⟩
  obtain ⟨j', a1, a2⟩ := C83_at [['n']] h4 (t' := .node (.int 5) []) rfl
  cases a2 with
  | leaf _ _ a2 => cases a2; exact a1
  | node _ _ _ _ h => exact absurd rfl h

/-- `C83_archive_partial` -/
example : ∃ (F : Fuel) (n fuel : Nat) (e : Env), ExportsBack (arcContent F n fuel [] wfile58) e arch58 := by
  obtain ⟨F, n, h1, h2, h3⟩ := wfile58_opened
  obtain ⟨N, hN⟩ := C83_archive_partial F n [] wfile58 items58 arch58 h1 h2 h3
  exact ⟨F, n, N, _, hN N (Nat.le_refl _)⟩

/-- `C83_pkg2_partial` -/
example : ∃ (F : Fuel) (n fuel : Nat), ExportsBack (arcContent F n fuel [⟨row1201, 77#64⟩] wfile58b) wfile58b.env arch58b :=
  take58b (C83_pkg2_partial wfile58b ⟨row1201, 77#64⟩ items58b arch58b rfl
    (by decide) (by decide) (by decide +kernel) (by decide +kernel) (by decide) file58b_holds arch58b_stored)

/-- `C83_pkg2_64_partial` -/
example : ∃ (F : Fuel) (n fuel : Nat), ExportsBack (arcContent F n fuel [] wfile58w) wfile58w.env
    [(['a'], .image [(['n'], .node (.int 5) [])])] := by
  obtain ⟨N, hN⟩ := C83_pkg2_64_partial wfile58w 77#64 _ _ rfl (by decide) (by decide) (by decide +kernel)
    (by decide +kernel) (by unfold Solves6; decide +kernel) (by decide) wfile58w_holds arch58w_stored
  exact ⟨⟨N, N⟩, 0, N, hN ⟨N, N⟩ (Nat.le_refl _) (Nat.le_refl _) 0 N (Nat.le_refl _) [] (by simp)⟩

/-- The archive of the example before, of which the image `a` was read: it is exported as `{"a": {"n": 5}}`. -/
example : ∃ (F : Fuel) (n fuel : Nat) (g : NHeap) (j : Json) (N : Nat),
    (∀ fu, N ≤ fu → (runArc (arcContent F n fuel [] wfile58w) 0 g [.load ['a']]).exportJson wfile58w.env fu 0 = some (.ok j)) ∧
    jsonAt j [['a'], ['n']] = some (.int 5) := by
  obtain ⟨N, hN⟩ := C83_pkg2_64_partial wfile58w 77#64 _ _ rfl (by decide) (by decide) (by decide +kernel)
    (by decide +kernel) (by unfold Solves6; decide +kernel) (by decide) wfile58w_holds arch58w_stored
  have R := hN ⟨N, N⟩ (Nat.le_refl _) (Nat.le_refl _) 0 N (Nat.le_refl _) [] (by simp)
  obtain ⟨g, hg, H⟩ := R heap58 0 heap58_maps ⟨_, rfl, rfl, rfl⟩
  have one : ∀ ns props, imageAt [(['a'], .image [(['n'], .node (.int 5) [])])] ns = some props →
      ns = [['a']] ∧ props = [(['n'], .node (.int 5) [])] := by
    intro ns props hi
    cases ns with
    | nil => cases hi
    | cons x ns =>
      rw [imageAt_cons, lastNamed_cons, show lastNamed ([] : List (List Char × ATree)) x = none from rfl] at hi
      dsimp only at hi
      by_cases hx : ['a'] = x
      · rw [if_pos hx] at hi
        obtain ⟨rfl, hp⟩ := imageFrom_image (by simp) hi
        exact ⟨by rw [hx], (Option.some.inj hp).symm⟩
      · rw [if_neg hx] at hi
        cases hi
  obtain ⟨j, M, h1, _, h3⟩ := (H [.load ['a']] (by
      intro op ho
      rw [List.mem_singleton] at ho
      subst ho
      exact ⟨[['a']], pieces_iff.2 (by decide), .inr five_links⟩)).2
    (fun ns props hi => by obtain ⟨_, rfl⟩ := one ns props hi; exact ⟨five_links, five_finite⟩)
  refine ⟨⟨N, N⟩, 0, N, g, j, M, h1, ?_⟩
  have hs := h3 (by simp) fun ns props hi => ⟨['a'], by simp, by obtain ⟨rfl, _⟩ := one ns props hi; exact pieces_iff.2 (by decide)⟩
  obtain ⟨j1, b1, b2⟩ := C83_at_image [['a']] [] hs (props := [(['n'], .node (.int 5) [])]) rfl trivial
  obtain ⟨j', a1, a2⟩ := C83_at [['n']] b2 (t' := .node (.int 5) []) rfl
  have e5 : j' = .int 5 := by
    cases a2 with
    | leaf _ _ a2 => cases a2; rfl
    | node _ _ _ _ h => exact absurd rfl h
  subst e5
  cases j with
  | obj m =>
    rw [jsonAt] at b1 ⊢
    cases hm : entry m ['a'] with
    | none => rw [hm] at b1; cases b1
    | some x =>
      rw [hm] at b1
      have : x = j1 := by cases x <;> exact Option.some.inj b1
      subst this
      exact a1
  | _ => cases b1

/-- `C83_unread` -/
example (e : Env) : NHeap.exportJson e heap58i 1 0 = some (.ok .null) :=
  C83_unread e heap58i 0 _ _ 0 rfl rfl rfl

end Wz.Props
