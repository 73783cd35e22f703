import Verif.Whole.MediaLemmas
import Verif.Whole.Props

/-!
# C69: texts, pictures, sounds, data and scripts of an archive are given out as they were stored
-/

set_option autoImplicit false

namespace Wz.Props

open Wz Wz.Spec

/-- Parsing the root succeeds, and afterwards, whatever was looked up, read and forgotten before, every path leads to the
payload that was stored. -/
def PayloadsBack (content : Content) (inflate : Inflate) (bc7 : Bc7) (aes : Aes) (e : Env) (arch : List (List Char × ATree)) : Prop :=
  ∀ h i, NewFile h i → Consistent h → ∃ g, h.parse content i = (.ok (), g) ∧
    ∀ ops, (∀ op ∈ ops, AllowedArc arch op) →
      FindsPayloads content inflate bc7 aes e (OnItsOwn h i) (runArc content i g ops) i arch

theorem payloads_of {F : Fuel} {n fuel : Nat} {cache : List Cached} {f : WFile} {items : List (List Char × DNode)}
    {arch : List (List Char × ATree)} {inflate : Inflate} {bc7 : Bc7} {aes : Aes} (ho : (f.parse F n cache).1 = .ok items)
    (hb : (f.parse F n cache).2.env.buf.length < 2 ^ 63) (R : ReadArchive (f.parse F n cache).2.env fuel items arch) :
    PayloadsBack (arcContent F n fuel cache f) inflate bc7 aes (f.parse F n cache).2.env arch := by
  rintro h i ⟨c, hc, hk, hks⟩ K
  have hfile : arcContent F n fuel cache f (Encodable.encode Src58.file) = .ok (dirForest items) := by
    unfold arcContent
    rw [Encodable.encodek]
    dsimp only
    rw [ho]
    rfl
  have hrd : ReadsFrom c.kind (Encodable.encode Src58.file) := by rw [hk]; exact .file _
  obtain ⟨g, hg, T⟩ := parse_reads_tree hc hrd hfile hks (dirForest_noLink R)
  have hgc : Consistent g ∧ ∃ c', g.cell i = some c' ∧ c'.kind = .file true (Encodable.encode Src58.file) ∧ c'.name = c.name ∧
      c'.parent = c.parent := by
    have := congrArg Prod.snd hg
    rw [parse_eq hc, parsedKind_plan hrd hfile] at this
    dsimp only at this
    rw [uols_linkFree _ _ (dirForest_noLink R)] at this
    dsimp only [NHeap.resolveUols] at this
    refine ⟨?_, ?_⟩
    · rw [← this]
      exact consistent_fresh K hc (dirForest_noLink R)
    · rw [← this, fresh_old (cell_lt hc) (cell_lt hc), if_pos rfl, hk]
      exact ⟨_, rfl, rfl, rfl, rfl⟩
  obtain ⟨K', c', hc', hk', hn', hp'⟩ := hgc
  have FS := fileStands_fresh hc' hk' R T
  refine ⟨g, hg, fun ops ha => ?_⟩
  have Kp := run_keeps arcContent_image ops g FS ha
  refine fileStands_payloads arcContent_image hb (Kp.file FS) (Kp.2.2 K') ?_
  rintro ⟨c0, h0, h1, h2⟩
  rw [hc] at h0
  cases h0
  exact ⟨c', Kp.2.1 i c' _ _ hc' hk', hp'.trans h1, by rw [hn']; exact h2⟩

/-- C69 for any archive whose directory can be read. -/
theorem C69_archive (inflate : Inflate) (bc7 : Bc7) (aes : Aes) (F : Fuel) (n : Nat) (cache : List Cached) (f : WFile)
    (items : List (List Char × DNode)) (arch : List (List Char × ATree)) (ho : (f.parse F n cache).1 = .ok items)
    (hb : (f.parse F n cache).2.env.buf.length < 2 ^ 63) (ha : HoldsArchive (f.parse F n cache).2.env items arch) :
    ∃ N, ∀ fuel, N ≤ fuel → PayloadsBack (arcContent F n fuel cache f) inflate bc7 aes (f.parse F n cache).2.env arch := by
  obtain ⟨N, hN⟩ := holdsArchive_reads hb ha
  exact ⟨N, fun fuel hf => payloads_of ho hb (hN fuel hf)⟩

/-- C69 for PKG1, with the hypotheses of `C58_pkg1`. -/
theorem C69_pkg1 (inflate : Inflate) (bc7 : Bc7) (aes : Aes) (f : WFile) (v : Nat) (items : List (List Char × DNode))
    (arch : List (List Char × ATree)) (cache : List Cached)
    (hi : f.hdr.ident = .v1) (hf : f.hdr.fstart < 2 ^ 32) (hb : f.env.buf.length < 2 ^ 63) (hbuf : f.env.buf ≠ [])
    (he : ∀ ev, f.hdr.encVer = some ev → ev < 2 ^ 16) (hp : f.patch = -1) (hv : TriedVersion f.hdr.encVer v)
    (hd : HoldsDir (Block1 ⟨f.env, f.hdr, f.keys2⟩ (BitVec.ofNat 64 (verHash v))) f.hdr.dataStart items)
    (ha : HoldsArchive f.env items arch) :
    ∃ N, ∀ F : Fuel, N ≤ F.loop → N ≤ F.nest → ∀ n fuel, 2000 < n → N ≤ fuel →
      (∀ u, TriedVersion f.hdr.encVer u → u < v → Refused1 F f u) →
      PayloadsBack (arcContent F n fuel cache f) inflate bc7 aes f.env arch := by
  obtain ⟨N, hN⟩ := C54_opens f v items hi hf hb hbuf he hp hv hd
  obtain ⟨M, hM⟩ := holdsArchive_reads hb ha
  refine ⟨N + M, fun F h1 h2 n fuel hn hfu hu => ?_⟩
  obtain ⟨p1, p2⟩ := hN F (by omega) (by omega) n hn hu
  have hpar : f.parse F n cache = f.parsePkg1 F n none := by unfold WFile.parse; rw [hi]
  have henv : (f.parse F n cache).2.env = f.env := by rw [hpar]; exact p2.2.2.2.1
  rw [← henv]
  exact payloads_of (by rw [hpar]; exact p1) (by rw [henv]; exact hb) (by rw [henv]; exact hM fuel (by omega))

theorem pkg2_payloads {inflate : Inflate} {bc7 : Bc7} {aes : Aes} {F : Fuel} {n fuel : Nat} {cache : List Cached} {f : WFile} {c : Cached}
    {items : List (List Char × DNode)} {arch : List (List Char × ATree)} (hn : F.nest ≠ 0) (hi : f.hdr.ident = .v2) (hbuf : f.env.buf ≠ [])
    (hg : ∀ c ∈ cache, c.profile.gen ≠ .unknown) (h : (f.parsePkg2 F cache).1 = .ok (c, items)) (hb : (reading f c).env.buf.length < 2 ^ 63)
    (R : ReadArchive (reading f c).env fuel items arch) :
    PayloadsBack (arcContent F n fuel cache f) inflate bc7 aes (reading f c).env arch := by
  have hx := (C44_file_after F f cache hn hbuf hg c items h).2.2.1
  have hpar : f.parse F n cache = (.ok items, (f.parsePkg2 F cache).2.1) := by
    unfold WFile.parse
    rw [hi]
    dsimp only
    generalize f.parsePkg2 F cache = z at h
    obtain ⟨r, f', l⟩ := z
    dsimp only at h
    subst h
    rfl
  have henv : (f.parse F n cache).2.env = (reading f c).env := by rw [hpar, ← hx]; rfl
  rw [← henv]
  exact payloads_of (by rw [hpar]) (by rw [henv]; exact hb) (by rw [henv]; exact R)

/-- C69 for the 32-bit PKG2 formats, with the hypotheses of `C58_pkg2`. -/
theorem C69_pkg2 (inflate : Inflate) (bc7 : Bc7) (aes : Aes) (f : WFile) (c : Cached) (items : List (List Char × DNode))
    (arch : List (List Char × ATree))
    (hi : f.hdr.ident = .v2) (h64 : f.hdr.isPkg2_64 = false) (hf : f.hdr.fstart < 2 ^ 32) (hb : f.env.buf.length < 2 ^ 63)
    (hbuf : f.env.buf ≠ []) (hc : c.hash ≠ 0)
    (hd : HoldsDir (Block2 (reading f c) c.profile.ver c.hash) f.hdr.dataStart items)
    (ha : HoldsArchive (reading f c).env items arch) :
    ∃ N, ∀ F : Fuel, N ≤ F.loop → N ≤ F.nest → ∀ n fuel, N ≤ fuel → ∀ cache : List Cached,
      (∀ c ∈ cache, c.profile ∈ rows true ∨ c.profile ∈ rows false) →
      ∃ cands, Candidates f.hdr cache cands ∧ ∀ before after, cands = before ++ c :: after → (∀ b ∈ before, Refused F f b) →
        PayloadsBack (arcContent F n fuel cache f) inflate bc7 aes (reading f c).env arch := by
  obtain ⟨k, hk⟩ := reading_key f c
  have hb' : (reading f c).env.buf.length < 2 ^ 63 := by rw [hk]; exact hb
  obtain ⟨N, hN⟩ := C44_narrow_opens f c items hi h64 hf hb hbuf hc hd
  obtain ⟨M, hM⟩ := holdsArchive_reads hb' ha
  refine ⟨N + M + 1, fun F h1 h2 n fuel hfu cache hg => ?_⟩
  obtain ⟨cands, hca, h⟩ := hN F (by omega) (by omega) cache hg
  exact ⟨cands, hca, fun before after hs hr => pkg2_payloads (by omega) hi hbuf (fun c hc => (hg c hc).elim rows_gen rows_gen)
    (h before after hs hr) hb' (hM fuel (by omega))⟩

/-- C69 for the 64-bit PKG2 format, with the hypotheses of `C58_pkg2_64_partial`. -/
theorem C69_pkg2_64_partial (inflate : Inflate) (bc7 : Bc7) (aes : Aes) (f : WFile) (t : BitVec 64) (items : List (List Char × DNode))
    (arch : List (List Char × ATree))
    (hi : f.hdr.ident = .v2) (h64 : f.hdr.isPkg2_64 = true) (hf : f.hdr.fstart < 2 ^ 32) (hb : f.env.buf.length < 2 ^ 63)
    (hbuf : f.env.buf ≠ []) (ht : Solves6 f.hdr.hash1 f.hdr.hash2 t) (h0 : t ≠ 0)
    (hd : HoldsDir (Block64 (reading f ⟨row1202, t⟩) t) f.hdr.dataStart items)
    (ha : HoldsArchive (reading f ⟨row1202, t⟩).env items arch) :
    ∃ N, ∀ F : Fuel, N ≤ F.loop → N ≤ F.nest → ∀ n fuel, N ≤ fuel → ∀ cache : List Cached,
      (∀ c ∈ cache, c.profile ∈ rows true ∨ c.profile ∈ rows false) →
      PayloadsBack (arcContent F n fuel cache f) inflate bc7 aes (reading f ⟨row1202, t⟩).env arch := by
  obtain ⟨k, hk⟩ := reading_key f ⟨row1202, t⟩
  have hb' : (reading f ⟨row1202, t⟩).env.buf.length < 2 ^ 63 := by rw [hk]; exact hb
  obtain ⟨N, hN⟩ := C44_wide_opens f t items hi h64 hf hb hbuf ht h0 hd
  obtain ⟨M, hM⟩ := holdsArchive_reads hb' ha
  refine ⟨N + M + 1, fun F h1 h2 n fuel hfu cache hg => ?_⟩
  exact pkg2_payloads (by omega) hi hbuf (fun c hc => (hg c hc).elim rows_gen rows_gen)
    (hN F (by omega) (by omega) cache hg) hb' (hM fuel (by omega))

/-- C69 for an image on its own (an `.img` file). -/
theorem C69_image (inflate : Inflate) (bc7 : Bc7) (aes : Aes) (e : Env) (name : List Char) (o s : Nat) (t : ATree)
    (hb : e.buf.length < 2 ^ 63) (ho : o < 2 ^ 32) (hs : StoredImage e name o s t) (hl : ∀ ps, t = .image ps → NoUol ps) :
    ∃ N, ∀ fuel, N ≤ fuel → ∀ (h : NHeap) (i : Nat) (c : NCell), Consistent h → h.cell i = some c →
      c.kind = .image false (Encodable.encode (Src58.image name o s)) → c.kids = [] →
      ∃ g, h.parse (imgContent e fuel) i = (.ok (), g) ∧ ∀ path ns v, Pieces path ns → arcAt [(name, t)] (name :: ns) = some v →
        ∃ j, g.atPathParsed (imgContent e fuel) i path = (.ok j, g) ∧ GivesPayload aes e g j v ∧
          GivesPicture (imgContent e fuel) inflate bc7 aes e (c.parent = none) g j (fun ks => arcAt [(name, t)] (name :: ks)) ns := by
  obtain ⟨N, hN⟩ := storedImage_reads hb ho hs
  refine ⟨N, fun fuel hf h i c K hc hk hks => ?_⟩
  obtain ⟨f, hr, G⟩ := hN fuel hf
  have hu : NoUolIn t := by
    cases t with
    | image ps => exact hl ps rfl
    | _ => trivial
  have hcon : imgContent e fuel (Encodable.encode (Src58.image name o s)) = .ok f := by
    unfold imgContent
    rw [Encodable.encodek]
    exact hr
  have hrd : ReadsFrom c.kind (Encodable.encode (Src58.image name o s)) := by rw [hk]; exact .image _
  obtain ⟨g, hg, T⟩ := parse_reads_tree hc hrd hcon hks (G.free hu)
  have hgc : Consistent g ∧ ∃ c', g.cell i = some c' ∧ c'.kind = .image true (Encodable.encode (Src58.image name o s)) ∧
      c'.parent = c.parent := by
    have := congrArg Prod.snd hg
    rw [parse_eq hc, parsedKind_plan hrd hcon] at this
    dsimp only at this
    rw [uols_linkFree _ _ (G.free hu)] at this
    dsimp only [NHeap.resolveUols] at this
    refine ⟨?_, ?_⟩
    · rw [← this]
      exact consistent_fresh K hc (G.free hu)
    · rw [← this, fresh_old (cell_lt hc) (cell_lt hc), if_pos rfl, hk]
      exact ⟨_, rfl, rfl, rfl⟩
  obtain ⟨K', c', hc', hk', hp'⟩ := hgc
  have hat : ∀ ns, ns ≠ [] → arcAt [(name, t)] (name :: ns) = belowImage t ns := by
    intro ns hns
    simp only [arcAt, lastNamed, if_pos]
    cases t with
    | dir ks => cases hs
    | image ps => simp only [hns, if_false]; rfl
    | text d => simp only [hns, if_false]; rfl
    | script d => simp only [hns, if_false]; rfl
  have O : OpenImage e g i (fun ks => arcAt [(name, t)] (name :: ks)) := by
    refine ⟨K', ⟨c', _, _, hc', hk'⟩, fun ks hks => ?_⟩
    rw [hat ks hks]
    exact goodImage_shows T G hu ks hks
  refine ⟨g, hg, fun path ns v hp hv => ?_⟩
  obtain ⟨x, cx, n, h1, h2, h3, h4⟩ := O.found hp.some hv
  refine ⟨x, O.finds _ hp h1, givesPayload_of hb h2 (by rw [h3]; exact h4), givesPicture_of O hb hp.some h1 ?_⟩
  · intro hA ks y hy
    have hroot : Chain g i [i] := .root i fun p ⟨c2, _, hc2, hp2, _⟩ => by
      rw [hc'] at hc2
      cases hc2
      rw [hp', hA] at hp2
      cases hp2
    obtain ⟨l', c1, c2⟩ := chain_down K' hroot ks y hy
    refine ⟨l', c1, fun z hz hB => ?_⟩
    obtain ⟨cb, _, _, b1, b2, _⟩ := hB
    rcases c2 z (List.mem_of_mem_tail hz) with h5 | ⟨a, b, _, h6, h7⟩
    · rcases List.mem_singleton.1 h5 with rfl
      rw [hc'] at b1
      cases b1
      rw [hk'] at b2
      cases b2
    · obtain ⟨v', c'', n', _, d2, d3, _⟩ := O.back h6 h7
      rw [d2] at b1
      cases b1
      rw [d3] at b2
      cases b2

end Wz.Props
