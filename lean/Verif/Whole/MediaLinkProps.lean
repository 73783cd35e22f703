import Verif.Whole.MediaLinkLemmas
import Verif.Whole.LinkProps

/-!
# C69 behind links: a path that leads over links gives out the payload of what is seen at its end
-/

set_option autoImplicit false

namespace Wz.Props

open Wz Wz.Spec

/-- Parsing the root succeeds, and afterwards, whatever was looked up, read and forgotten before, every path leads to the
payload of what is seen there. -/
def SeenBack (content : Content) (inflate : Inflate) (bc7 : Bc7) (aes : Aes) (e : Env) (arch : List (List Char × ATree)) : Prop :=
  ∀ h i, NewFile h i → ∃ g, h.parse content i = (.ok (), g) ∧
    ∀ ops, (∀ op ∈ ops, AllowedLinks arch op) → FindsSeen content inflate bc7 aes e (runArc content i g ops) i arch

theorem seenBack_of {F : Fuel} {n fuel : Nat} {cache : List Cached} {f : WFile} {items : List (List Char × DNode)}
    {arch : List (List Char × ATree)} {inflate : Inflate} {bc7 : Bc7} {aes : Aes} (ho : (f.parse F n cache).1 = .ok items)
    (hb : (f.parse F n cache).2.env.buf.length < 2 ^ 63) (R : ReadArchive (f.parse F n cache).2.env fuel items arch) :
    SeenBack (arcContent F n fuel cache f) inflate bc7 aes (f.parse F n cache).2.env arch := by
  intro h i hnew
  obtain ⟨g, hg, S⟩ := opens_stands ho R hnew
  refine ⟨g, hg, fun ops ha => fileStands_seen arcContent_image hb ?_⟩
  have F0 := S [] (by simp)
  exact (run_keeps70 arcContent_image ops g F0 ha).file F0

/-- C69 behind links, for any archive whose directory can be read. -/
theorem C69_links_archive (inflate : Inflate) (bc7 : Bc7) (aes : Aes) (F : Fuel) (n : Nat) (cache : List Cached) (f : WFile)
    (items : List (List Char × DNode)) (arch : List (List Char × ATree)) (ho : (f.parse F n cache).1 = .ok items)
    (hb : (f.parse F n cache).2.env.buf.length < 2 ^ 63) (ha : HoldsArchive (f.parse F n cache).2.env items arch) :
    ∃ N, ∀ fuel, N ≤ fuel → SeenBack (arcContent F n fuel cache f) inflate bc7 aes (f.parse F n cache).2.env arch := by
  obtain ⟨N, hN⟩ := holdsArchive_reads hb ha
  exact ⟨N, fun fuel hf => seenBack_of ho hb (hN fuel hf)⟩

/-- C69 behind links for PKG1. -/
theorem C69_links_pkg1 (inflate : Inflate) (bc7 : Bc7) (aes : Aes) (f : WFile) (v : Nat) (items : List (List Char × DNode))
    (arch : List (List Char × ATree)) (cache : List Cached)
    (hi : f.hdr.ident = .v1) (hf : f.hdr.fstart < 2 ^ 32) (hb : f.env.buf.length < 2 ^ 63) (hbuf : f.env.buf ≠ [])
    (he : ∀ ev, f.hdr.encVer = some ev → ev < 2 ^ 16) (hp : f.patch = -1) (hv : TriedVersion f.hdr.encVer v)
    (hd : HoldsDir (Block1 ⟨f.env, f.hdr, f.keys2⟩ (BitVec.ofNat 64 (verHash v))) f.hdr.dataStart items)
    (ha : HoldsArchive f.env items arch) :
    ∃ N, ∀ F : Fuel, N ≤ F.loop → N ≤ F.nest → ∀ n fuel, 2000 < n → N ≤ fuel →
      (∀ u, TriedVersion f.hdr.encVer u → u < v → Refused1 F f u) →
      SeenBack (arcContent F n fuel cache f) inflate bc7 aes f.env arch := by
  obtain ⟨N, hN⟩ := C54_opens f v items hi hf hb hbuf he hp hv hd
  obtain ⟨M, hM⟩ := holdsArchive_reads hb ha
  refine ⟨N + M, fun F h1 h2 n fuel hn hfu hu => ?_⟩
  obtain ⟨p1, p2⟩ := hN F (by omega) (by omega) n hn hu
  have hpar : f.parse F n cache = f.parsePkg1 F n none := by unfold WFile.parse; rw [hi]
  have henv : (f.parse F n cache).2.env = f.env := by rw [hpar]; exact p2.2.2.2.1
  rw [← henv]
  exact seenBack_of (by rw [hpar]; exact p1) (by rw [henv]; exact hb) (by rw [henv]; exact hM fuel (by omega))

theorem pkg2_seenBack {inflate : Inflate} {bc7 : Bc7} {aes : Aes} {F : Fuel} {n fuel : Nat} {cache : List Cached} {f : WFile} {c : Cached}
    {items : List (List Char × DNode)} {arch : List (List Char × ATree)} (hn : F.nest ≠ 0) (hi : f.hdr.ident = .v2)
    (hb : f.env.buf.length < 2 ^ 63) (hbuf : f.env.buf ≠ []) (hg : ∀ c ∈ cache, c.profile.gen ≠ .unknown)
    (h : (f.parsePkg2 F cache).1 = .ok (c, items)) (R : ReadArchive (reading f c).env fuel items arch) :
    SeenBack (arcContent F n fuel cache f) inflate bc7 aes (reading f c).env arch := by
  obtain ⟨k, hk⟩ := reading_key f c
  have hx := (C44_file_after F f cache hn hbuf hg c items h).2.2.1
  have hpar : f.parse F n cache = (.ok items, (f.parsePkg2 F cache).2.1) := by
    unfold WFile.parse
    rw [hi]
    dsimp only
    generalize f.parsePkg2 F cache = z at h
    obtain ⟨r, f', l⟩ := z
    dsimp only at h
    subst h
    rfl
  have henv : (f.parse F n cache).2.env = (reading f c).env := by rw [hpar, ← hx]; rfl
  rw [← henv]
  exact seenBack_of (by rw [hpar]) (by rw [henv, hk]; exact hb) (by rw [henv]; exact R)

/-- C69 behind links for the 32-bit PKG2 formats. -/
theorem C69_links_pkg2 (inflate : Inflate) (bc7 : Bc7) (aes : Aes) (f : WFile) (c : Cached) (items : List (List Char × DNode))
    (arch : List (List Char × ATree))
    (hi : f.hdr.ident = .v2) (h64 : f.hdr.isPkg2_64 = false) (hf : f.hdr.fstart < 2 ^ 32) (hb : f.env.buf.length < 2 ^ 63)
    (hbuf : f.env.buf ≠ []) (hc : c.hash ≠ 0)
    (hd : HoldsDir (Block2 (reading f c) c.profile.ver c.hash) f.hdr.dataStart items)
    (ha : HoldsArchive (reading f c).env items arch) :
    ∃ N, ∀ F : Fuel, N ≤ F.loop → N ≤ F.nest → ∀ n fuel, N ≤ fuel → ∀ cache : List Cached,
      (∀ c ∈ cache, c.profile ∈ rows true ∨ c.profile ∈ rows false) →
      ∃ cands, Candidates f.hdr cache cands ∧ ∀ before after, cands = before ++ c :: after → (∀ b ∈ before, Refused F f b) →
        SeenBack (arcContent F n fuel cache f) inflate bc7 aes (reading f c).env arch := by
  obtain ⟨k, hk⟩ := reading_key f c
  obtain ⟨N, hN⟩ := C44_narrow_opens f c items hi h64 hf hb hbuf hc hd
  obtain ⟨M, hM⟩ := holdsArchive_reads (by rw [hk]; exact hb) ha
  refine ⟨N + M + 1, fun F h1 h2 n fuel hfu cache hg => ?_⟩
  obtain ⟨cands, hca, h⟩ := hN F (by omega) (by omega) cache hg
  exact ⟨cands, hca, fun before after hs hr => pkg2_seenBack (by omega) hi hb hbuf (fun c hc => (hg c hc).elim rows_gen rows_gen)
    (h before after hs hr) (hM fuel (by omega))⟩

/-- C69 behind links for the 64-bit PKG2 format.  The encrypted entry counts of subdirectories must not be negative, see
`C19_pkg2_64_negative_count`. -/
theorem C69_links_pkg2_64_partial (inflate : Inflate) (bc7 : Bc7) (aes : Aes) (f : WFile) (t : BitVec 64) (items : List (List Char × DNode))
    (arch : List (List Char × ATree))
    (hi : f.hdr.ident = .v2) (h64 : f.hdr.isPkg2_64 = true) (hf : f.hdr.fstart < 2 ^ 32) (hb : f.env.buf.length < 2 ^ 63)
    (hbuf : f.env.buf ≠ []) (ht : Solves6 f.hdr.hash1 f.hdr.hash2 t) (h0 : t ≠ 0)
    (hd : HoldsDir (Block64 (reading f ⟨row1202, t⟩) t) f.hdr.dataStart items)
    (ha : HoldsArchive (reading f ⟨row1202, t⟩).env items arch) :
    ∃ N, ∀ F : Fuel, N ≤ F.loop → N ≤ F.nest → ∀ n fuel, N ≤ fuel → ∀ cache : List Cached,
      (∀ c ∈ cache, c.profile ∈ rows true ∨ c.profile ∈ rows false) →
      SeenBack (arcContent F n fuel cache f) inflate bc7 aes (reading f ⟨row1202, t⟩).env arch := by
  obtain ⟨k, hk⟩ := reading_key f ⟨row1202, t⟩
  obtain ⟨N, hN⟩ := C44_wide_opens f t items hi h64 hf hb hbuf ht h0 hd
  obtain ⟨M, hM⟩ := holdsArchive_reads (by rw [hk]; exact hb) ha
  refine ⟨N + M + 1, fun F h1 h2 n fuel hfu cache hg => ?_⟩
  exact pkg2_seenBack (by omega) hi hb hbuf (fun c hc => (hg c hc).elim rows_gen rows_gen)
    (hN F (by omega) (by omega) cache hg) (hM fuel (by omega))

/-! ### one image -/

theorem alone_seen {content : Content} {inflate : Inflate} {bc7 : Bc7} {aes : Aes} {e : Env} {g : NHeap} {i : Nat} {name : List Char} {t : ATree}
    {f : Forest} {node : List (List Char) → Nat} (hb : e.buf.length < 2 ^ 63) (A : ReadAlone e g i name t f node)
    (hl : ∀ ps, t = .image ps → NoUol ps ∨ (DistinctProps ps ∧ DirectLinks (linkPlaces ps)))
    {path : List Char} {ns : List (List Char)} {nm : List Char} {v : AVal} (hp : Pieces path ns)
    (V : ArcSees [(name, t)] (name :: ns) (some (nm, v))) :
    ∃ j, g.atPath i path = some j ∧ GivesSeen content inflate bc7 aes e g j [(name, t)] (name :: ns) v := by
  obtain ⟨w, V1, V2⟩ := alone_sees A.notDir V
  obtain ⟨ci, src, hci, hni, hki⟩ := A.cell
  have hfound := nodes_found hci hki A.good A.nodes (w := w) (r := some (nm, v)) (by rw [hni]; exact V2)
  rw [← goodImage_treePlaces A.good A.notDir] at V1
  have hfold := (nodes_fold A.nodes V1 (.inl rfl)).1
  rw [A.nodes.top, ← atPath_eq70 hp] at hfold
  obtain ⟨j, c, h1, h2, _, h4⟩ := hfound
  cases w with
  | none => cases h1
  | some d =>
    cases h1
    have hu : LinksOn [(name, t)] (name :: ns) := by
      rw [linksOn_from]
      simp only [lastNamed, if_pos]
      cases t with
      | dir ks => exact absurd rfl (A.notDir ks)
      | image ps => exact .inr (hl ps rfl)
      | _ => trivial
    refine ⟨_, hfold, givesSeen_of hb h2 h4 fun hi => kids_noText hi hu V fun x r W => ?_⟩
    obtain ⟨w', W1, W2⟩ := alone_sees (ns := ns ++ [x]) A.notDir W
    rw [← goodImage_treePlaces A.good A.notDir] at W1
    exact nodes_kid hci hki A.good A.nodes V1 W1 (by rw [hni]; exact W2)

/-- C69 behind links for one image: once it is read, every path below it gives out the payload of what is seen there. -/
theorem C69_links_image (inflate : Inflate) (bc7 : Bc7) (aes : Aes) (e : Env) (name : List Char) (o s : Nat) (t : ATree)
    (hb : e.buf.length < 2 ^ 63) (ho : o < 2 ^ 32) (hs : StoredImage e name o s t)
    (hl : ∀ ps, t = .image ps → NoUol ps ∨ (DistinctProps ps ∧ DirectLinks (linkPlaces ps))) :
    ∃ N, ∀ fuel, N ≤ fuel → ∀ (h : NHeap) (i : Nat) (c : NCell), h.cell i = some c → c.name = name →
      c.kind = .image false (Encodable.encode (Src58.image name o s)) → c.kids = [] →
      ∃ g, h.parse (imgContent e fuel) i = (.ok (), g) ∧ ∀ path ns nm v, Pieces path ns → ArcSees [(name, t)] (name :: ns) (some (nm, v)) →
        ∃ j, g.atPath i path = some j ∧ GivesSeen (imgContent e fuel) inflate bc7 aes e g j [(name, t)] (name :: ns) v := by
  obtain ⟨N, hN⟩ := image_alone hb ho hs hl
  refine ⟨N, fun fuel hf h i c hc hn hk hks => ?_⟩
  obtain ⟨g, f, node, hg, A⟩ := hN fuel hf h i c hc hn hk hks
  exact ⟨g, hg, fun path ns nm v hp V => alone_seen hb A hl hp V⟩

/-- A node gives out a text exactly if it is a string or a link, and then the text is the one its bytes stand for: of a link whose bytes do not
stand for a text there is none, not an empty one. -/
theorem C69_text_only (e : Env) (o : PObj) (s : List Char) :
    (propKind e o).text e = .ok s ↔ ∃ m, (o = .str m ∨ o = .uol m) ∧ resolveMeta e m.ty m.offset m.length = .ok s := by
  have leaf : ∀ o' : PObj, NKind.leaf (.other (Encodable.encode (Leaf58.prop o'))) = some (.prop o') := fun o' => Encodable.encodek _
  have other : ∀ o' : PObj, (∀ m, o' ≠ .str m) → NKind.text e (.other (Encodable.encode (Leaf58.prop o'))) = .error (.lib "NotStringProperty") := by
    intro o' h
    unfold NKind.text
    simp only [leaf]
    try split
    · rename_i a; cases a; exact absurd rfl (h _)
    · rfl
  by_cases hu : ∃ m, o = .uol m
  · obtain ⟨m, rfl⟩ := hu
    simp only [propKind]
    cases hr : resolveMeta e m.ty m.offset m.length with
    | ok t =>
      constructor
      · intro h
        cases h
        exact ⟨m, .inr rfl, hr⟩
      · rintro ⟨m', h | h, h'⟩
        · cases h
        · cases h
          rw [hr] at h'
          cases h'
          rfl
    | error x =>
      constructor
      · intro h
        cases h
      · rintro ⟨m', h | h, h'⟩
        · cases h
        · cases h
          rw [hr] at h'
          cases h'
  · have hk : propKind e o = .other (Encodable.encode (Leaf58.prop o)) := by
      cases o with
      | uol m => exact absurd ⟨m, rfl⟩ hu
      | _ => rfl
    rw [hk]
    by_cases hs : ∃ m, o = .str m
    · obtain ⟨m, rfl⟩ := hs
      have : NKind.text e (.other (Encodable.encode (Leaf58.prop (.str m)))) = resolveMeta e m.ty m.offset m.length := by
        unfold NKind.text
        simp only [leaf]
      rw [this]
      constructor
      · exact fun h => ⟨m, .inl rfl, h⟩
      · rintro ⟨m', h | h, h'⟩
        · cases h; exact h'
        · cases h
    · rw [other o fun m h => hs ⟨m, h⟩]
      constructor
      · intro h; cases h
      · rintro ⟨m', h | h, _⟩
        · exact absurd ⟨m', h⟩ hs
        · exact absurd ⟨m', h⟩ hu

/-- a link whose text would lie behind the end of the file, and one that can be read -/
example : (¬ ∃ s, (propKind ⟨.checked, [0#8], fun _ => 0#8, fun _ => 0#8⟩ (.uol ⟨0, 5, .ascii⟩)).text ⟨.checked, [0#8], fun _ => 0#8, fun _ => 0#8⟩ = .ok s) ∧
    (propKind ⟨.checked, [0xCB#8], fun _ => 0#8, fun _ => 0#8⟩ (.uol ⟨0, 1, .ascii⟩)).text ⟨.checked, [0xCB#8], fun _ => 0#8, fun _ => 0#8⟩ = .ok ['a'] := by
  constructor
  · rintro ⟨s, h⟩
    obtain ⟨m, h | h, h'⟩ := (C69_text_only _ _ _).1 h
    · cases h
    · cases h
      revert h'
      have : (resolveMeta ⟨.checked, [0#8], fun _ => 0#8, fun _ => 0#8⟩ .ascii 0 5).isOk = false := by decide +kernel
      intro h'
      rw [h'] at this
      cases this
  · exact (C69_text_only _ _ _).2 ⟨_, .inr rfl, by decide +kernel⟩

end Wz.Props
