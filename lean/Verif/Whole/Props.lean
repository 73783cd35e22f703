import Verif.Whole.StateLemmas
import Verif.File.Pkg1Props
import Verif.File.CacheProps

/-!
# C58: an archive is read back as it was written
-/

set_option autoImplicit false

namespace Wz.Props

open Wz Wz.Spec

/-- the root node of a file that has just been opened (node.rs `from_wz_file`) -/
def NewFile (h : NHeap) (i : Nat) : Prop :=
  ∃ c, h.cell i = some c ∧ c.kind = .file false (Encodable.encode Src58.file) ∧ c.kids = []

/-- Parsing the root succeeds, and afterwards, whatever was looked up, read and forgotten before, every path shows what
is in the archive. -/
def ReadsBack (content : Content) (e : Env) (arch : List (List Char × ATree)) : Prop :=
  ∀ h i, NewFile h i → ∃ g, h.parse content i = (.ok (), g) ∧
    ∀ ops, (∀ op ∈ ops, AllowedArc arch op) → FindsArchive content e (runArc content i g ops) i arch

theorem arcContent_image {F : Fuel} {n fuel : Nat} {cache : List Cached} {f : WFile} (nm : List Char) (o s : Nat) :
    arcContent F n fuel cache f (Encodable.encode (Src58.image nm o s)) =
      readImage (f.parse F n cache).2.env fuel ⟨nm, o, s⟩ := by
  unfold arcContent
  rw [Encodable.encodek]

/-- parsing the root succeeds, and from then on the nodes stand for what is in the archive -/
theorem opens_stands {F : Fuel} {n fuel : Nat} {cache : List Cached} {f : WFile} {items : List (List Char × DNode)}
    {arch : List (List Char × ATree)} (ho : (f.parse F n cache).1 = .ok items)
    (R : ReadArchive (f.parse F n cache).2.env fuel items arch) {h : NHeap} {i : Nat} (hnew : NewFile h i) :
    ∃ g, h.parse (arcContent F n fuel cache f) i = (.ok (), g) ∧ ∀ ops, (∀ op ∈ ops, AllowedArc arch op) →
      FileStands (f.parse F n cache).2.env fuel (runArc (arcContent F n fuel cache f) i g ops) i arch := by
  obtain ⟨c, hc, hk, hks⟩ := hnew
  have hfile : arcContent F n fuel cache f (Encodable.encode Src58.file) = .ok (dirForest items) := by
    unfold arcContent
    rw [Encodable.encodek]
    dsimp only
    rw [ho]
    rfl
  have hrd : ReadsFrom c.kind (Encodable.encode Src58.file) := by rw [hk]; exact .file _
  obtain ⟨g, hg, T⟩ := parse_reads_tree hc hrd hfile hks (dirForest_noLink R)
  have hgc : ∃ c', g.cell i = some c' ∧ c'.kind = .file true (Encodable.encode Src58.file) := by
    have := congrArg Prod.snd hg
    rw [parse_eq hc, parsedKind_plan hrd hfile] at this
    dsimp only at this
    rw [uols_linkFree _ _ (dirForest_noLink R)] at this
    dsimp only [NHeap.resolveUols] at this
    rw [← this, fresh_old (cell_lt hc) (cell_lt hc), if_pos rfl, hk]
    exact ⟨_, rfl, rfl⟩
  obtain ⟨c', hc', hk'⟩ := hgc
  exact ⟨g, hg, fun ops ha => run_stands arcContent_image ops g (fileStands_fresh hc' hk' R T) ha⟩

theorem readsBack_of {F : Fuel} {n fuel : Nat} {cache : List Cached} {f : WFile} {items : List (List Char × DNode)}
    {arch : List (List Char × ATree)} (ho : (f.parse F n cache).1 = .ok items)
    (R : ReadArchive (f.parse F n cache).2.env fuel items arch) :
    ReadsBack (arcContent F n fuel cache f) (f.parse F n cache).2.env arch := by
  intro h i hnew
  obtain ⟨g, hg, S⟩ := opens_stands ho R hnew
  refine ⟨g, hg, fun ops ha path ns hp hu => ?_⟩
  have := (find_stands arcContent_image (S ops ha) hp hu).2
  cases hv : arcAt arch ns with
  | none => rw [hv] at this; exact this
  | some v =>
    rw [hv] at this
    obtain ⟨j, c2, h1, h2, h3, h4⟩ := this
    exact ⟨j, _, c2, Prod.ext h1 rfl, h2, h3, h4⟩

/-- C58 for any archive whose directory can be read: nodes and values are those of the images the directory points at. -/
theorem C58_archive (F : Fuel) (n : Nat) (cache : List Cached) (f : WFile) (items : List (List Char × DNode))
    (arch : List (List Char × ATree)) (ho : (f.parse F n cache).1 = .ok items) (hb : (f.parse F n cache).2.env.buf.length < 2 ^ 63)
    (ha : HoldsArchive (f.parse F n cache).2.env items arch) :
    ∃ N, ∀ fuel, N ≤ fuel → ReadsBack (arcContent F n fuel cache f) (f.parse F n cache).2.env arch := by
  obtain ⟨N, hN⟩ := holdsArchive_reads hb ha
  exact ⟨N, fun fuel hf => readsBack_of ho (hN fuel hf)⟩

/-- C58 for PKG1: the bytes hold a directory written for a version that fits the header and no earlier version opens
the file.  What the author put into the archive is what the user finds, in the node tree, by path. -/
theorem C58_pkg1 (f : WFile) (v : Nat) (items : List (List Char × DNode)) (arch : List (List Char × ATree)) (cache : List Cached)
    (hi : f.hdr.ident = .v1) (hf : f.hdr.fstart < 2 ^ 32) (hb : f.env.buf.length < 2 ^ 63) (hbuf : f.env.buf ≠ [])
    (he : ∀ ev, f.hdr.encVer = some ev → ev < 2 ^ 16) (hp : f.patch = -1) (hv : TriedVersion f.hdr.encVer v)
    (hd : HoldsDir (Block1 ⟨f.env, f.hdr, f.keys2⟩ (BitVec.ofNat 64 (verHash v))) f.hdr.dataStart items)
    (ha : HoldsArchive f.env items arch) :
    ∃ N, ∀ F : Fuel, N ≤ F.loop → N ≤ F.nest → ∀ n fuel, 2000 < n → N ≤ fuel →
      (∀ u, TriedVersion f.hdr.encVer u → u < v → Refused1 F f u) → ReadsBack (arcContent F n fuel cache f) f.env arch := by
  obtain ⟨N, hN⟩ := C54_opens f v items hi hf hb hbuf he hp hv hd
  obtain ⟨M, hM⟩ := holdsArchive_reads hb ha
  refine ⟨N + M, fun F h1 h2 n fuel hn hfu hu => ?_⟩
  obtain ⟨p1, p2⟩ := hN F (by omega) (by omega) n hn hu
  have hpar : f.parse F n cache = f.parsePkg1 F n none := by unfold WFile.parse; rw [hi]
  have henv : (f.parse F n cache).2.env = f.env := by rw [hpar]; exact p2.2.2.2.1
  rw [← henv]
  exact readsBack_of (by rw [hpar]; exact p1) (by rw [henv]; exact hM fuel (by omega))

theorem pkg2_reads {F : Fuel} {n fuel : Nat} {cache : List Cached} {f : WFile} {c : Cached} {items : List (List Char × DNode)}
    {arch : List (List Char × ATree)} (hn : F.nest ≠ 0) (hi : f.hdr.ident = .v2) (hbuf : f.env.buf ≠ [])
    (hg : ∀ c ∈ cache, c.profile.gen ≠ .unknown) (h : (f.parsePkg2 F cache).1 = .ok (c, items))
    (R : ReadArchive (reading f c).env fuel items arch) : ReadsBack (arcContent F n fuel cache f) (reading f c).env arch := by
  have hx := (C44_file_after F f cache hn hbuf hg c items h).2.2.1
  have hpar : f.parse F n cache = (.ok items, (f.parsePkg2 F cache).2.1) := by
    unfold WFile.parse
    rw [hi]
    dsimp only
    generalize f.parsePkg2 F cache = z at h
    obtain ⟨r, f', l⟩ := z
    dsimp only at h
    subst h
    rfl
  have henv : (f.parse F n cache).2.env = (reading f c).env := by rw [hpar, ← hx]; rfl
  rw [← henv]
  exact readsBack_of (by rw [hpar]) (by rw [henv]; exact R)

/-- C58 for the 32-bit PKG2 formats: the file holds a directory written for a profile and a version hash, and the
candidates tried before them are refused. -/
theorem C58_pkg2 (f : WFile) (c : Cached) (items : List (List Char × DNode)) (arch : List (List Char × ATree))
    (hi : f.hdr.ident = .v2) (h64 : f.hdr.isPkg2_64 = false) (hf : f.hdr.fstart < 2 ^ 32) (hb : f.env.buf.length < 2 ^ 63)
    (hbuf : f.env.buf ≠ []) (hc : c.hash ≠ 0)
    (hd : HoldsDir (Block2 (reading f c) c.profile.ver c.hash) f.hdr.dataStart items)
    (ha : HoldsArchive (reading f c).env items arch) :
    ∃ N, ∀ F : Fuel, N ≤ F.loop → N ≤ F.nest → ∀ n fuel, N ≤ fuel → ∀ cache : List Cached,
      (∀ c ∈ cache, c.profile ∈ rows true ∨ c.profile ∈ rows false) →
      ∃ cands, Candidates f.hdr cache cands ∧ ∀ before after, cands = before ++ c :: after → (∀ b ∈ before, Refused F f b) →
        ReadsBack (arcContent F n fuel cache f) (reading f c).env arch := by
  obtain ⟨k, hk⟩ := reading_key f c
  obtain ⟨N, hN⟩ := C44_narrow_opens f c items hi h64 hf hb hbuf hc hd
  obtain ⟨M, hM⟩ := holdsArchive_reads (by rw [hk]; exact hb) ha
  refine ⟨N + M + 1, fun F h1 h2 n fuel hfu cache hg => ?_⟩
  obtain ⟨cands, hca, h⟩ := hN F (by omega) (by omega) cache hg
  exact ⟨cands, hca, fun before after hs hr => pkg2_reads (by omega) hi hbuf (fun c hc => (hg c hc).elim rows_gen rows_gen)
    (h before after hs hr) (hM fuel (by omega))⟩

/-- C58 for the 64-bit PKG2 format, whatever is in the cache.  The encrypted entry counts of subdirectories must not be
negative, see `C19_pkg2_64_negative_count`. -/
theorem C58_pkg2_64_partial (f : WFile) (t : BitVec 64) (items : List (List Char × DNode)) (arch : List (List Char × ATree))
    (hi : f.hdr.ident = .v2) (h64 : f.hdr.isPkg2_64 = true) (hf : f.hdr.fstart < 2 ^ 32) (hb : f.env.buf.length < 2 ^ 63)
    (hbuf : f.env.buf ≠ []) (ht : Solves6 f.hdr.hash1 f.hdr.hash2 t) (h0 : t ≠ 0)
    (hd : HoldsDir (Block64 (reading f ⟨row1202, t⟩) t) f.hdr.dataStart items)
    (ha : HoldsArchive (reading f ⟨row1202, t⟩).env items arch) :
    ∃ N, ∀ F : Fuel, N ≤ F.loop → N ≤ F.nest → ∀ n fuel, N ≤ fuel → ∀ cache : List Cached,
      (∀ c ∈ cache, c.profile ∈ rows true ∨ c.profile ∈ rows false) →
      ReadsBack (arcContent F n fuel cache f) (reading f ⟨row1202, t⟩).env arch := by
  obtain ⟨k, hk⟩ := reading_key f ⟨row1202, t⟩
  obtain ⟨N, hN⟩ := C44_wide_opens f t items hi h64 hf hb hbuf ht h0 hd
  obtain ⟨M, hM⟩ := holdsArchive_reads (by rw [hk]; exact hb) ha
  refine ⟨N + M + 1, fun F h1 h2 n fuel hfu cache hg => ?_⟩
  exact pkg2_reads (by omega) hi hbuf (fun c hc => (hg c hc).elim rows_gen rows_gen)
    (hN F (by omega) (by omega) cache hg) (hM fuel (by omega))

/-- C58 for an image on its own (an `.img` file): once it is parsed every path below it shows what was stored. -/
theorem C58_image (e : Env) (name : List Char) (o s : Nat) (t : ATree) (hb : e.buf.length < 2 ^ 63) (ho : o < 2 ^ 32)
    (hs : StoredImage e name o s t) (hl : ∀ ps, t = .image ps → NoUol ps) :
    ∃ N, ∀ fuel, N ≤ fuel → ∀ (h : NHeap) (i : Nat) (c : NCell), h.cell i = some c →
      c.kind = .image false (Encodable.encode (Src58.image name o s)) → c.kids = [] →
      ∃ g, h.parse (imgContent e fuel) i = (.ok (), g) ∧ ∀ path ns, Pieces path ns →
        match arcAt [(name, t)] (name :: ns) with
        | some v => ∃ j g' c, g.atPathParsed (imgContent e fuel) i path = (.ok j, g') ∧ g'.cell j = some c ∧
            ns.getLast? = some c.name ∧ KindShows e c.kind v
        | none => (g.atPathParsed (imgContent e fuel) i path).1 = .error (.lib "NodeNotFound") := by
  obtain ⟨N, hN⟩ := storedImage_reads hb ho hs
  refine ⟨N, fun fuel hf h i c hc hk hks => ?_⟩
  obtain ⟨f, hr, G⟩ := hN fuel hf
  have hu : NoUolIn t := by
    cases t with
    | image ps => exact hl ps rfl
    | _ => trivial
  have hcon : imgContent e fuel (Encodable.encode (Src58.image name o s)) = .ok f := by
    unfold imgContent
    rw [Encodable.encodek]
    exact hr
  obtain ⟨g, hg, T⟩ := parse_reads_tree hc (by rw [hk]; exact .image _) hcon hks (G.free hu)
  refine ⟨g, hg, fun path ns hp => ?_⟩
  have hi : i < g.length := by
    have := congrArg (fun z => z.2.length) hg
    dsimp only at this
    rw [← this]
    exact Nat.lt_of_lt_of_le (cell_lt hc) parse_length
  obtain ⟨r, hL, hO⟩ := G.leads (imgContent e fuel) ns hp.some hu
  have := C53_leads (fun s f' hr _ => absurd G.values (readOnWay_image hr)) hi (treeAt_iff.2 T) hp hL
  have hat : arcAt [(name, t)] (name :: ns) = belowImage t ns := by
    have hns := hp.some
    simp only [arcAt, lastNamed, if_pos]
    cases t with
    | dir ks => cases hs
    | image ps => simp only [hns, if_false]; rfl
    | text d => simp only [hns, if_false]; rfl
    | script d => simp only [hns, if_false]; rfl
  rw [hat]
  cases hv : belowImage t ns with
  | none =>
    rw [hv] at hO
    cases hO
    exact this
  | some v =>
    rw [hv] at hO
    obtain ⟨nm, k, h1, h2, h3⟩ := hO
    subst h1
    obtain ⟨j, g', c', h4, h5, h6⟩ := this
    cases h6
    exact ⟨j, g', c', h4, h5, h2, h3⟩

end Wz.Props
