import Verif.Whole.Props
import Verif.Whole.LinkLemmas

/-!
# C70: links in the images of an archive lead where they say
-/

set_option autoImplicit false

namespace Wz.Props

open Wz Wz.Spec

/-- Parsing the root succeeds, and afterwards, whatever was looked up, read and forgotten before, every path shows what
is seen there, links taken for what they lead to. -/
def ReadsThroughLinks (content : Content) (e : Env) (arch : List (List Char × ATree)) : Prop :=
  ∀ h i, NewFile h i → ∃ g, h.parse content i = (.ok (), g) ∧
    ∀ ops, (∀ op ∈ ops, AllowedLinks arch op) → FindsThroughLinks content e (runArc content i g ops) i arch

theorem finds_through {e : Env} {fuel : Nat} {content : Content} {h : NHeap} {i : Nat} {arch : List (List Char × ATree)}
    (hcon : ∀ n o s, content (Encodable.encode (Src58.image n o s)) = readImage e fuel ⟨n, o, s⟩) (S : FileStands e fuel h i arch) :
    FindsThroughLinks content e h i arch := by
  intro path ns r hp hu V
  have := (find_stands70 hcon S hp hu V).2
  cases r with
  | none => exact this
  | some v =>
    obtain ⟨j, c2, h1, h2, h3, h4⟩ := this
    exact ⟨j, _, c2, Prod.ext h1 rfl, h2, h3, h4⟩

theorem readsThrough_of {F : Fuel} {n fuel : Nat} {cache : List Cached} {f : WFile} {items : List (List Char × DNode)}
    {arch : List (List Char × ATree)} (ho : (f.parse F n cache).1 = .ok items)
    (R : ReadArchive (f.parse F n cache).2.env fuel items arch) :
    ReadsThroughLinks (arcContent F n fuel cache f) (f.parse F n cache).2.env arch := by
  intro h i hnew
  obtain ⟨g, hg, S⟩ := opens_stands ho R hnew
  refine ⟨g, hg, fun ops ha => finds_through arcContent_image ?_⟩
  have F0 := S [] (by simp)
  exact (run_keeps70 arcContent_image ops g F0 ha).file F0

/-- On every path that `LinksOn` allows one thing is seen. -/
theorem C70_one_thing {arch : List (List Char × ATree)} {ns : List (List Char)} (hn : ns ≠ []) (hl : LinksOn arch ns) :
    ∃ r, ArcSees arch ns r ∧ ∀ r', ArcSees arch ns r' → r' = r := by
  obtain ⟨r, V⟩ := arcSees_total ns arch hn hl
  exact ⟨r, V, fun r' V' => arcSees_unique ns arch r' r V' V⟩

/-- C70 for any archive whose directory can be read. -/
theorem C70_archive (F : Fuel) (n : Nat) (cache : List Cached) (f : WFile) (items : List (List Char × DNode))
    (arch : List (List Char × ATree)) (ho : (f.parse F n cache).1 = .ok items) (hb : (f.parse F n cache).2.env.buf.length < 2 ^ 63)
    (ha : HoldsArchive (f.parse F n cache).2.env items arch) :
    ∃ N, ∀ fuel, N ≤ fuel → ReadsThroughLinks (arcContent F n fuel cache f) (f.parse F n cache).2.env arch := by
  obtain ⟨N, hN⟩ := holdsArchive_reads hb ha
  exact ⟨N, fun fuel hf => readsThrough_of ho (hN fuel hf)⟩

/-- C70 for PKG1. -/
theorem C70_pkg1 (f : WFile) (v : Nat) (items : List (List Char × DNode)) (arch : List (List Char × ATree)) (cache : List Cached)
    (hi : f.hdr.ident = .v1) (hf : f.hdr.fstart < 2 ^ 32) (hb : f.env.buf.length < 2 ^ 63) (hbuf : f.env.buf ≠ [])
    (he : ∀ ev, f.hdr.encVer = some ev → ev < 2 ^ 16) (hp : f.patch = -1) (hv : TriedVersion f.hdr.encVer v)
    (hd : HoldsDir (Block1 ⟨f.env, f.hdr, f.keys2⟩ (BitVec.ofNat 64 (verHash v))) f.hdr.dataStart items)
    (ha : HoldsArchive f.env items arch) :
    ∃ N, ∀ F : Fuel, N ≤ F.loop → N ≤ F.nest → ∀ n fuel, 2000 < n → N ≤ fuel →
      (∀ u, TriedVersion f.hdr.encVer u → u < v → Refused1 F f u) → ReadsThroughLinks (arcContent F n fuel cache f) f.env arch := by
  obtain ⟨N, hN⟩ := C54_opens f v items hi hf hb hbuf he hp hv hd
  obtain ⟨M, hM⟩ := holdsArchive_reads hb ha
  refine ⟨N + M, fun F h1 h2 n fuel hn hfu hu => ?_⟩
  obtain ⟨p1, p2⟩ := hN F (by omega) (by omega) n hn hu
  have hpar : f.parse F n cache = f.parsePkg1 F n none := by unfold WFile.parse; rw [hi]
  have henv : (f.parse F n cache).2.env = f.env := by rw [hpar]; exact p2.2.2.2.1
  rw [← henv]
  exact readsThrough_of (by rw [hpar]; exact p1) (by rw [henv]; exact hM fuel (by omega))

theorem pkg2_through {F : Fuel} {n fuel : Nat} {cache : List Cached} {f : WFile} {c : Cached} {items : List (List Char × DNode)}
    {arch : List (List Char × ATree)} (hn : F.nest ≠ 0) (hi : f.hdr.ident = .v2) (hbuf : f.env.buf ≠ [])
    (hg : ∀ c ∈ cache, c.profile.gen ≠ .unknown) (h : (f.parsePkg2 F cache).1 = .ok (c, items))
    (R : ReadArchive (reading f c).env fuel items arch) : ReadsThroughLinks (arcContent F n fuel cache f) (reading f c).env arch := by
  have hx := (C44_file_after F f cache hn hbuf hg c items h).2.2.1
  have hpar : f.parse F n cache = (.ok items, (f.parsePkg2 F cache).2.1) := by
    unfold WFile.parse
    rw [hi]
    dsimp only
    generalize f.parsePkg2 F cache = z at h
    obtain ⟨r, f', l⟩ := z
    dsimp only at h
    subst h
    rfl
  have henv : (f.parse F n cache).2.env = (reading f c).env := by rw [hpar, ← hx]; rfl
  rw [← henv]
  exact readsThrough_of (by rw [hpar]) (by rw [henv]; exact R)

/-- C70 for the 32-bit PKG2 formats. -/
theorem C70_pkg2 (f : WFile) (c : Cached) (items : List (List Char × DNode)) (arch : List (List Char × ATree))
    (hi : f.hdr.ident = .v2) (h64 : f.hdr.isPkg2_64 = false) (hf : f.hdr.fstart < 2 ^ 32) (hb : f.env.buf.length < 2 ^ 63)
    (hbuf : f.env.buf ≠ []) (hc : c.hash ≠ 0)
    (hd : HoldsDir (Block2 (reading f c) c.profile.ver c.hash) f.hdr.dataStart items)
    (ha : HoldsArchive (reading f c).env items arch) :
    ∃ N, ∀ F : Fuel, N ≤ F.loop → N ≤ F.nest → ∀ n fuel, N ≤ fuel → ∀ cache : List Cached,
      (∀ c ∈ cache, c.profile ∈ rows true ∨ c.profile ∈ rows false) →
      ∃ cands, Candidates f.hdr cache cands ∧ ∀ before after, cands = before ++ c :: after → (∀ b ∈ before, Refused F f b) →
        ReadsThroughLinks (arcContent F n fuel cache f) (reading f c).env arch := by
  obtain ⟨k, hk⟩ := reading_key f c
  obtain ⟨N, hN⟩ := C44_narrow_opens f c items hi h64 hf hb hbuf hc hd
  obtain ⟨M, hM⟩ := holdsArchive_reads (by rw [hk]; exact hb) ha
  refine ⟨N + M + 1, fun F h1 h2 n fuel hfu cache hg => ?_⟩
  obtain ⟨cands, hca, h⟩ := hN F (by omega) (by omega) cache hg
  exact ⟨cands, hca, fun before after hs hr => pkg2_through (by omega) hi hbuf (fun c hc => (hg c hc).elim rows_gen rows_gen)
    (h before after hs hr) (hM fuel (by omega))⟩

/-- C70 for the 64-bit PKG2 format.  The encrypted entry counts of subdirectories must not be negative, see
`C19_pkg2_64_negative_count`. -/
theorem C70_pkg2_64_partial (f : WFile) (t : BitVec 64) (items : List (List Char × DNode)) (arch : List (List Char × ATree))
    (hi : f.hdr.ident = .v2) (h64 : f.hdr.isPkg2_64 = true) (hf : f.hdr.fstart < 2 ^ 32) (hb : f.env.buf.length < 2 ^ 63)
    (hbuf : f.env.buf ≠ []) (ht : Solves6 f.hdr.hash1 f.hdr.hash2 t) (h0 : t ≠ 0)
    (hd : HoldsDir (Block64 (reading f ⟨row1202, t⟩) t) f.hdr.dataStart items)
    (ha : HoldsArchive (reading f ⟨row1202, t⟩).env items arch) :
    ∃ N, ∀ F : Fuel, N ≤ F.loop → N ≤ F.nest → ∀ n fuel, N ≤ fuel → ∀ cache : List Cached,
      (∀ c ∈ cache, c.profile ∈ rows true ∨ c.profile ∈ rows false) →
      ReadsThroughLinks (arcContent F n fuel cache f) (reading f ⟨row1202, t⟩).env arch := by
  obtain ⟨k, hk⟩ := reading_key f ⟨row1202, t⟩
  obtain ⟨N, hN⟩ := C44_wide_opens f t items hi h64 hf hb hbuf ht h0 hd
  obtain ⟨M, hM⟩ := holdsArchive_reads (by rw [hk]; exact hb) ha
  refine ⟨N + M + 1, fun F h1 h2 n fuel hfu cache hg => ?_⟩
  exact pkg2_through (by omega) hi hbuf (fun c hc => (hg c hc).elim rows_gen rows_gen)
    (hN F (by omega) (by omega) cache hg) (hM fuel (by omega))

/-! ### an image on its own -/

/-- what is the case once an image on its own is read -/
structure ReadAlone (e : Env) (g : NHeap) (i : Nat) (name : List Char) (t : ATree) (f : Forest) (node : List (List Char) → Nat) : Prop where
  good : GoodImage e t f
  notDir : ∀ ks, t ≠ .dir ks
  nodes : LinkNodes g i f node
  cell : ∃ c src, g.cell i = some c ∧ c.name = name ∧ c.kind = .image true src

theorem image_alone {e : Env} {name : List Char} {o s : Nat} {t : ATree} (hb : e.buf.length < 2 ^ 63) (ho : o < 2 ^ 32)
    (hs : StoredImage e name o s t) (hl : ∀ ps, t = .image ps → NoUol ps ∨ (DistinctProps ps ∧ DirectLinks (linkPlaces ps))) :
    ∃ N, ∀ fuel, N ≤ fuel → ∀ (h : NHeap) (i : Nat) (c : NCell), h.cell i = some c → c.name = name →
      c.kind = .image false (Encodable.encode (Src58.image name o s)) → c.kids = [] →
      ∃ g f node, h.parse (imgContent e fuel) i = (.ok (), g) ∧ ReadAlone e g i name t f node := by
  obtain ⟨N, hN⟩ := storedImage_reads hb ho hs
  refine ⟨N, fun fuel hf h i c hc hn hk hks => ?_⟩
  obtain ⟨f, hr, G⟩ := hN fuel hf
  have hcon : imgContent e fuel (Encodable.encode (Src58.image name o s)) = .ok f := by
    unfold imgContent
    rw [Encodable.encodek]
    exact hr
  have hnd : ∀ ks, t ≠ .dir ks := by
    rintro ks rfl
    cases hs
  have hin : LinksIn t := by
    cases t with
    | image ps => exact hl ps rfl
    | _ => trivial
  have hfol := goodImage_follow G hnd hin
  obtain ⟨g, hg, I, c', hc', hn', hk'⟩ := parse_reads_img hc (by rw [hk]; exact .image _) hcon hks hfol
  obtain ⟨node, L⟩ := I.nodes hfol
  exact ⟨g, f, node, hg, G, hnd, L, c', _, hc', hn'.trans hn, by rw [hk', hk]; rfl⟩

theorem alone_sees {name : List Char} {t : ATree} {ns : List (List Char)} {r : Option (List Char × AVal)} (hnd : ∀ ks, t ≠ .dir ks)
    (V : ArcSees [(name, t)] (name :: ns) r) : ∃ w, SeenAt (treePlaces t) [] ns w ∧ SeesIn t name w r := by
  rw [arcSees_from] at V
  simp only [lastNamed, if_pos] at V
  cases t with
  | dir ks => exact absurd rfl (hnd ks)
  | _ => exact V

/-- `at_path` once an image is read -/
theorem alone_at {e : Env} {g : NHeap} {i : Nat} {name : List Char} {t : ATree} {f : Forest} {node : List (List Char) → Nat}
    (A : ReadAlone e g i name t f node) {path : List Char} {ns : List (List Char)} {r : Option (List Char × AVal)} (hp : Pieces path ns)
    (V : ArcSees [(name, t)] (name :: ns) r) : AtShows e g i path r := by
  obtain ⟨w, V1, V2⟩ := alone_sees A.notDir V
  obtain ⟨ci, src, hci, hni, hki⟩ := A.cell
  have hfound := nodes_found hci hki A.good A.nodes (w := w) (r := r) (by rw [hni]; exact V2)
  rw [← goodImage_treePlaces A.good A.notDir] at V1
  have hfold := (nodes_fold A.nodes V1 (.inl rfl)).1
  rw [A.nodes.top, ← atPath_eq70 hp] at hfold
  unfold AtShows
  rw [hfold]
  cases w with
  | none =>
    cases r with
    | none => rfl
    | some v => obtain ⟨j, c, h1, _⟩ := hfound; cases h1
  | some d =>
    cases r with
    | none => cases hfound
    | some v =>
      obtain ⟨j, c, h1, h2⟩ := hfound
      cases h1
      exact ⟨_, c, rfl, h2⟩

/-- `at_path_parsed` once an image is read -/
theorem alone_at_parsed {content : Content} {e : Env} {g : NHeap} {i : Nat} {name : List Char} {t : ATree} {f : Forest}
    {node : List (List Char) → Nat} (A : ReadAlone e g i name t f node) (hw : ∀ ps, t = .image ps → NoWayBack ps) {path : List Char}
    {ns : List (List Char)} {r : Option (List Char × AVal)} (hp : Pieces path ns) (V : ArcSees [(name, t)] (name :: ns) r) :
    AtParsedShows content e g i path r := by
  obtain ⟨w, V1, V2⟩ := alone_sees A.notDir V
  obtain ⟨ci, src, hci, hni, hki⟩ := A.cell
  have hfound := nodes_found hci hki A.good A.nodes (w := w) (r := r) (by rw [hni]; exact V2)
  have hback : ∀ d n s us, f.places (d ++ [n]) = some (some s) → Pieces s us → ¬ LinkWay f.places d us (some []) := by
    rw [goodImage_treePlaces A.good A.notDir]
    cases t with
    | dir ks => exact absurd rfl (A.notDir ks)
    | image ps => exact hw ps rfl
    | text data => exact fun d n s us h => absurd h (text_places _ (.inl ⟨data, rfl⟩) d n s)
    | script data => exact fun d n s us h => absurd h (text_places _ (.inr ⟨data, rfl⟩) d n s)
  rw [← goodImage_treePlaces A.good A.notDir] at V1
  have hfold : g.atPathParsed content i path = (seenNode node w, g) := by
    unfold NHeap.atPathParsed
    rw [pieces_iff.1 hp]
    cases V1 with
    | here => exact absurd rfl hp.some
    | missing _ n ns hl =>
      dsimp only
      rw [← A.nodes.top, A.nodes.nothing [] n (.inl rfl) hl]
      rfl
    | plain _ n ns _ hl V3 =>
      dsimp only
      have := A.nodes.value [] n (.inl rfl) hl
      rw [A.nodes.top] at this
      rw [this]
      exact alone_fold hci hki A.good.values A.nodes hback V3 ⟨by simp, _, hl⟩
    | link _ n ns s us d _ hl hs W V3 =>
      dsimp only
      have := A.nodes.link [] n s us d (.inl rfl) hl hs W
      rw [A.nodes.top] at this
      rw [this]
      have hd : d ≠ [] := by
        rintro rfl
        exact hback [] n s us hl hs W
      exact alone_fold hci hki A.good.values A.nodes hback V3 ⟨hd, (way_there W places_prefix d rfl (.inl rfl)).resolve_left hd⟩
    | dead _ n ns s us _ hl hs W V3 =>
      dsimp only
      have := A.nodes.dead [] n s us (.inl rfl) hl hs W
      rw [A.nodes.top] at this
      rw [this]
      exact alone_fold hci hki A.good.values A.nodes hback V3 ⟨by simp, _, hl⟩
  unfold AtParsedShows
  rw [hfold]
  cases w with
  | none =>
    cases r with
    | none => rfl
    | some v => obtain ⟨j, c, h1, _⟩ := hfound; cases h1
  | some d =>
    cases r with
    | none => cases hfound
    | some v =>
      obtain ⟨j, c, h1, h2⟩ := hfound
      cases h1
      exact ⟨_, c, rfl, h2⟩

/-- C70 for an image on its own (an `.img` file), by `at_path`: once it is parsed every path below it shows what is seen there. -/
theorem C70_image (e : Env) (name : List Char) (o s : Nat) (t : ATree) (hb : e.buf.length < 2 ^ 63) (ho : o < 2 ^ 32)
    (hs : StoredImage e name o s t) (hl : ∀ ps, t = .image ps → NoUol ps ∨ (DistinctProps ps ∧ DirectLinks (linkPlaces ps))) :
    ∃ N, ∀ fuel, N ≤ fuel → ∀ (h : NHeap) (i : Nat) (c : NCell), h.cell i = some c → c.name = name →
      c.kind = .image false (Encodable.encode (Src58.image name o s)) → c.kids = [] →
      ∃ g, h.parse (imgContent e fuel) i = (.ok (), g) ∧ ∀ path ns r, Pieces path ns → ArcSees [(name, t)] (name :: ns) r →
        match r with
        | some (nm, v) => ∃ j c, g.atPath i path = some j ∧ g.cell j = some c ∧ c.name = nm ∧ LinkShows e c.kind v
        | none => g.atPath i path = none := by
  obtain ⟨N, hN⟩ := image_alone hb ho hs hl
  refine ⟨N, fun fuel hf h i c hc hn hk hks => ?_⟩
  obtain ⟨g, f, node, hg, A⟩ := hN fuel hf h i c hc hn hk hks
  refine ⟨g, hg, fun path ns r hp V => ?_⟩
  have := alone_at A hp V
  cases r with
  | none => exact this
  | some x => exact this

/-- C70 for an image on its own, by `at_path_parsed`: the same if no link leads back to the image, see
`C70_way_back_counterexample`. -/
theorem C70_image_parsed_partial (e : Env) (name : List Char) (o s : Nat) (t : ATree) (hb : e.buf.length < 2 ^ 63) (ho : o < 2 ^ 32)
    (hs : StoredImage e name o s t) (hl : ∀ ps, t = .image ps → NoUol ps ∨ (DistinctProps ps ∧ DirectLinks (linkPlaces ps)))
    (hw : ∀ ps, t = .image ps → NoWayBack ps) :
    ∃ N, ∀ fuel, N ≤ fuel → ∀ (h : NHeap) (i : Nat) (c : NCell), h.cell i = some c → c.name = name →
      c.kind = .image false (Encodable.encode (Src58.image name o s)) → c.kids = [] →
      ∃ g, h.parse (imgContent e fuel) i = (.ok (), g) ∧ ∀ path ns r, Pieces path ns → ArcSees [(name, t)] (name :: ns) r →
        match r with
        | some (nm, v) => ∃ j c, g.atPathParsed (imgContent e fuel) i path = (.ok j, g) ∧ g.cell j = some c ∧ c.name = nm ∧
            LinkShows e c.kind v
        | none => g.atPathParsed (imgContent e fuel) i path = (.error (.lib "NodeNotFound"), g) := by
  obtain ⟨N, hN⟩ := image_alone hb ho hs hl
  refine ⟨N, fun fuel hf h i c hc hn hk hks => ?_⟩
  obtain ⟨g, f, node, hg, A⟩ := hN fuel hf h i c hc hn hk hks
  refine ⟨g, hg, fun path ns r hp V => ?_⟩
  have := alone_at_parsed (content := imgContent e fuel) A hw hp V
  cases r with
  | none => exact this
  | some x => exact this

/-- **Links back to the image.**  If a path leads back to an image that is parsed, `at_path_parsed` called on that image hangs as
soon as anything is looked up from there. -/
theorem C70_hangs (e : Env) (name : List Char) (o s : Nat) (ps : List (List Char × PTree)) (hb : e.buf.length < 2 ^ 63) (ho : o < 2 ^ 32)
    (hs : StoredImage e name o s (.image ps)) (hl : DistinctProps ps ∧ DirectLinks (linkPlaces ps)) :
    ∃ N, ∀ fuel, N ≤ fuel → ∀ (h : NHeap) (i : Nat) (c : NCell), h.cell i = some c → c.name = name →
      c.kind = .image false (Encodable.encode (Src58.image name o s)) → c.kids = [] →
      ∃ g, h.parse (imgContent e fuel) i = (.ok (), g) ∧ ∀ path ns x, Pieces path (ns ++ [x]) → ns ≠ [] →
        SeenAt (linkPlaces ps) [] ns (some []) → (g.atPathParsed (imgContent e fuel) i path).1 = .error (.lib "deadlock") := by
  obtain ⟨N, hN⟩ := image_alone hb ho hs (fun _ h => by cases h; exact .inr hl)
  refine ⟨N, fun fuel hf h i c hc hn hk hks => ?_⟩
  obtain ⟨g, f, node, hg, A⟩ := hN fuel hf h i c hc hn hk hks
  refine ⟨g, hg, fun path ns x hp hne V1 => ?_⟩
  obtain ⟨ci, src, hci, hni, hki⟩ := A.cell
  replace V1 : SeenAt (treePlaces (.image ps)) [] ns (some []) := V1
  rw [← goodImage_treePlaces A.good A.notDir] at V1
  unfold NHeap.atPathParsed
  rw [pieces_iff.1 hp]
  generalize hw : (some [] : Option (List (List Char))) = w at V1
  cases V1 with
  | here => exact absurd rfl hne
  | missing _ n ns hl => cases hw
  | plain _ n ns _ hl V3 =>
    have := A.nodes.value [] n (.inl rfl) hl
    rw [A.nodes.top] at this
    simp only [List.cons_append]
    rw [this]
    exact congrArg Prod.fst (alone_hangs hci hki A.good.values A.nodes x V3 (.inr ⟨_, hl⟩) hw.symm)
  | link _ n ns s us d _ hl hs W V3 =>
    have := A.nodes.link [] n s us d (.inl rfl) hl hs W
    rw [A.nodes.top] at this
    simp only [List.cons_append]
    rw [this]
    exact congrArg Prod.fst (alone_hangs hci hki A.good.values A.nodes x V3 (way_there W places_prefix d rfl (.inl rfl)) hw.symm)
  | dead _ n ns s us _ hl hs W V3 =>
    have := A.nodes.dead [] n s us (.inl rfl) hl hs W
    rw [A.nodes.top] at this
    simp only [List.cons_append]
    rw [this]
    exact congrArg Prod.fst (alone_hangs hci hki A.good.values A.nodes x V3 (.inr ⟨_, hl⟩) hw.symm)

end Wz.Props
