import Verif.Whole.WalkLemmas
import Verif.Whole.MsProps

/-!
# C68: a walk over a whole archive
-/

set_option autoImplicit false

namespace Wz.Props

open Wz Wz.Spec Wz.Spec.Snow Wz.Spec.Ms

/-- the root of a file that was just opened -/
def unreadFile : NKind := .file false (Encodable.encode Src58.file)

theorem walks_of {F : Fuel} {n fuel : Nat} {cache : List Cached} {f : WFile} {items : List (List Char × DNode)}
    {arch : List (List Char × ATree)} {e : Env} (ho : (f.parse F n cache).1 = .ok items) (he : (f.parse F n cache).2.env = e)
    (hg : ∀ content : Content, (∀ n o s, content (Encodable.encode (Src58.image n o s)) = readImage e fuel ⟨n, o, s⟩) →
      Gives e content (dirForest items) (arcList arch)) :
    WalksThrough (arcContent F n fuel cache f) unreadFile fun vs => Visits e vs (arcList arch) := by
  refine gives_walk (arcContent_shut F n fuel cache f) (.file _) ?_ (hg _ fun nm o s => by rw [arcContent_image, he])
  unfold arcContent
  rw [Encodable.encodek]
  dsimp only
  rw [ho]
  rfl

/-- C68 for any archive whose directory can be read. -/
theorem C68_archive (F : Fuel) (n : Nat) (cache : List Cached) (f : WFile) (items : List (List Char × DNode))
    (arch : List (List Char × ATree)) (ho : (f.parse F n cache).1 = .ok items) (hb : (f.parse F n cache).2.env.buf.length < 2 ^ 63)
    (ha : HoldsArchive (f.parse F n cache).2.env items arch) (ht : Tidy arch) :
    ∃ N, ∀ fuel, N ≤ fuel → WalksThrough (arcContent F n fuel cache f) unreadFile
      fun vs => Visits (f.parse F n cache).2.env vs (arcList arch) := by
  obtain ⟨N, hN⟩ := holdsArchive_gives hb ha ht
  exact ⟨N, fun fuel hf => walks_of ho rfl (hN fuel hf)⟩

/-- C68 for PKG1, from the bytes, under the conditions of `C58_pkg1`. -/
theorem C68_pkg1 (f : WFile) (v : Nat) (items : List (List Char × DNode)) (arch : List (List Char × ATree)) (cache : List Cached)
    (hi : f.hdr.ident = .v1) (hf : f.hdr.fstart < 2 ^ 32) (hb : f.env.buf.length < 2 ^ 63) (hbuf : f.env.buf ≠ [])
    (he : ∀ ev, f.hdr.encVer = some ev → ev < 2 ^ 16) (hp : f.patch = -1) (hv : TriedVersion f.hdr.encVer v)
    (hd : HoldsDir (Block1 ⟨f.env, f.hdr, f.keys2⟩ (BitVec.ofNat 64 (verHash v))) f.hdr.dataStart items)
    (ha : HoldsArchive f.env items arch) (ht : Tidy arch) :
    ∃ N, ∀ F : Fuel, N ≤ F.loop → N ≤ F.nest → ∀ n fuel, 2000 < n → N ≤ fuel →
      (∀ u, TriedVersion f.hdr.encVer u → u < v → Refused1 F f u) →
      WalksThrough (arcContent F n fuel cache f) unreadFile fun vs => Visits f.env vs (arcList arch) := by
  obtain ⟨N, hN⟩ := C54_opens f v items hi hf hb hbuf he hp hv hd
  obtain ⟨M, hM⟩ := holdsArchive_gives hb ha ht
  refine ⟨N + M, fun F h1 h2 n fuel hn hfu hu => ?_⟩
  obtain ⟨p1, p2⟩ := hN F (by omega) (by omega) n hn hu
  have hpar : f.parse F n cache = f.parsePkg1 F n none := by unfold WFile.parse; rw [hi]
  exact walks_of (by rw [hpar]; exact p1) (by rw [hpar]; exact p2.2.2.2.1) (hM fuel (by omega))

theorem pkg2_walks {F : Fuel} {n fuel : Nat} {cache : List Cached} {f : WFile} {c : Cached} {items : List (List Char × DNode)}
    {arch : List (List Char × ATree)} (hn : F.nest ≠ 0) (hi : f.hdr.ident = .v2) (hbuf : f.env.buf ≠ [])
    (hg : ∀ c ∈ cache, c.profile.gen ≠ .unknown) (h : (f.parsePkg2 F cache).1 = .ok (c, items))
    (R : ∀ content : Content, (∀ n o s, content (Encodable.encode (Src58.image n o s)) = readImage (reading f c).env fuel ⟨n, o, s⟩) →
      Gives (reading f c).env content (dirForest items) (arcList arch)) :
    WalksThrough (arcContent F n fuel cache f) unreadFile fun vs => Visits (reading f c).env vs (arcList arch) := by
  have hx := (C44_file_after F f cache hn hbuf hg c items h).2.2.1
  have hpar : f.parse F n cache = (.ok items, (f.parsePkg2 F cache).2.1) := by
    unfold WFile.parse
    rw [hi]
    dsimp only
    generalize f.parsePkg2 F cache = z at h
    obtain ⟨r, f', l⟩ := z
    dsimp only at h
    subst h
    rfl
  exact walks_of (by rw [hpar]) (by rw [hpar, ← hx]; rfl) R

/-- C68 for the 32-bit PKG2 formats, under the conditions of `C58_pkg2`. -/
theorem C68_pkg2 (f : WFile) (c : Cached) (items : List (List Char × DNode)) (arch : List (List Char × ATree))
    (hi : f.hdr.ident = .v2) (h64 : f.hdr.isPkg2_64 = false) (hf : f.hdr.fstart < 2 ^ 32) (hb : f.env.buf.length < 2 ^ 63)
    (hbuf : f.env.buf ≠ []) (hc : c.hash ≠ 0)
    (hd : HoldsDir (Block2 (reading f c) c.profile.ver c.hash) f.hdr.dataStart items)
    (ha : HoldsArchive (reading f c).env items arch) (ht : Tidy arch) :
    ∃ N, ∀ F : Fuel, N ≤ F.loop → N ≤ F.nest → ∀ n fuel, N ≤ fuel → ∀ cache : List Cached,
      (∀ c ∈ cache, c.profile ∈ rows true ∨ c.profile ∈ rows false) →
      ∃ cands, Candidates f.hdr cache cands ∧ ∀ before after, cands = before ++ c :: after → (∀ b ∈ before, Refused F f b) →
        WalksThrough (arcContent F n fuel cache f) unreadFile fun vs => Visits (reading f c).env vs (arcList arch) := by
  obtain ⟨k, hk⟩ := reading_key f c
  obtain ⟨N, hN⟩ := C44_narrow_opens f c items hi h64 hf hb hbuf hc hd
  obtain ⟨M, hM⟩ := holdsArchive_gives (by rw [hk]; exact hb) ha ht
  refine ⟨N + M + 1, fun F h1 h2 n fuel hfu cache hg => ?_⟩
  obtain ⟨cands, hca, h⟩ := hN F (by omega) (by omega) cache hg
  exact ⟨cands, hca, fun before after hs hr => pkg2_walks (by omega) hi hbuf (fun c hc => (hg c hc).elim rows_gen rows_gen)
    (h before after hs hr) (hM fuel (by omega))⟩

/-- C68 for the 64-bit PKG2 format, under the conditions of `C58_pkg2_64_partial`: the encrypted entry counts of
subdirectories must not be negative, see `C19_pkg2_64_negative_count`. -/
theorem C68_pkg2_64_partial (f : WFile) (t : BitVec 64) (items : List (List Char × DNode)) (arch : List (List Char × ATree))
    (hi : f.hdr.ident = .v2) (h64 : f.hdr.isPkg2_64 = true) (hf : f.hdr.fstart < 2 ^ 32) (hb : f.env.buf.length < 2 ^ 63)
    (hbuf : f.env.buf ≠ []) (ht : Solves6 f.hdr.hash1 f.hdr.hash2 t) (h0 : t ≠ 0)
    (hd : HoldsDir (Block64 (reading f ⟨row1202, t⟩) t) f.hdr.dataStart items)
    (ha : HoldsArchive (reading f ⟨row1202, t⟩).env items arch) (hy : Tidy arch) :
    ∃ N, ∀ F : Fuel, N ≤ F.loop → N ≤ F.nest → ∀ n fuel, N ≤ fuel → ∀ cache : List Cached,
      (∀ c ∈ cache, c.profile ∈ rows true ∨ c.profile ∈ rows false) →
      WalksThrough (arcContent F n fuel cache f) unreadFile fun vs => Visits (reading f ⟨row1202, t⟩).env vs (arcList arch) := by
  obtain ⟨k, hk⟩ := reading_key f ⟨row1202, t⟩
  obtain ⟨N, hN⟩ := C44_wide_opens f t items hi h64 hf hb hbuf ht h0 hd
  obtain ⟨M, hM⟩ := holdsArchive_gives (by rw [hk]; exact hb) ha hy
  refine ⟨N + M + 1, fun F h1 h2 n fuel hfu cache hg => ?_⟩
  exact pkg2_walks (by omega) hi hbuf (fun c hc => (hg c hc).elim rows_gen rows_gen)
    (hN F (by omega) (by omega) cache hg) (hM fuel (by omega))

/-- C68 for an image on its own (an `.img` file). -/
theorem C68_image (e : Env) (name : List Char) (o s : Nat) (t : ATree) (hb : e.buf.length < 2 ^ 63) (ho : o < 2 ^ 32)
    (hs : StoredImage e name o s t) (ht : ∀ ps, t = .image ps → TidyProps ps) :
    ∃ N, ∀ fuel, N ≤ fuel → WalksThrough (imgContent e fuel) (.image false (Encodable.encode (Src58.image name o s)))
      fun vs => Visits e vs (arcListTree name t).tail := by
  obtain ⟨N, hN⟩ := storedImage_gives hb ho hs ht
  refine ⟨N, fun fuel hf => ?_⟩
  obtain ⟨f, h1, h2⟩ := hN fuel hf
  have hl : (arcListTree name t).tail = inImage68 t := by
    cases hs <;> simp only [arcListTree, inImage68, List.tail_cons]
  rw [hl]
  refine gives_walk (imgContent_shut e fuel) (.image _) ?_ (h2 _)
  unfold imgContent
  rw [Encodable.encodek]
  exact h1

/-- C68 for an MS archive whose images can be decrypted, as they can under the conditions of `C65_v1` and
`C65_v2_partial`. -/
theorem C68_ms (m : Mode) (C : ChaCha) (ks2 : Nat → Byte) (f : MsFile) (ims : List MsImage) (files : List (List Char × MsItem))
    (hp : f.parse m C = .ok ims)
    (hd : All2 (fun im (x : List Char × MsItem) => f.toWzImage m C im = .ok ⟨x.1, x.2.data, x.2.data.length⟩) ims files)
    (hs : ∀ x ∈ files, MsStored m ks2 x) (ht : Tidy (msTree files)) :
    ∃ N, ∀ fuel, N ≤ fuel → WalksThrough (msContent m C ks2 fuel f) (.msFile false 0) fun vs => MsVisits m ks2 vs files := by
  obtain ⟨N, hN⟩ := msGives_all hp hd hs ht
  refine ⟨N, fun fuel hf => ?_⟩
  obtain ⟨obs, h1, h2, h3, h4, _⟩ := hN fuel hf [] rfl
  refine seen_walk (msContent_shut m C ks2 fuel f) (.msFile 0) ?_ h1 h2 h3 h4
  show (f.parse m C).map (msForest 1) = _
  rw [hp]
  rfl

/-- C68 for MS archives of version 1, from the first byte, under the conditions of `C65_v1`. -/
theorem C68_ms_v1 : ∃ M : Maps, M.Ok ∧ ∀ (C : ChaCha) (ks2 : Nat → Byte) (h : Head1) (name : List Char) (H : MsHeader) (es : List MsEntry)
    (gap pad rest : Bytes) (files : List (List Char × MsItem)),
    h.Ok name → name ≠ [] → h.result name = .ok H → i32At h.plain 5 = es.length → gap.length = 30 + 3 * nameSum name % 212 →
    (∀ e ∈ es, EntryOk e ∧ 0 ≤ e.startPos ∧ 0 ≤ e.sizeAligned ∧ e.unk3 = 0 ∧ e.unk4 = 0) →
    ((es.flatMap fields1).flatten ++ pad).length = roundUp 4 (es.flatMap fields1).flatten.length →
    ∀ buf, buf = h.bytes M name ++ gap ++ encrypt (keyWord M (signedKey (key2 (utf8EncStr (lower name ++ byteText h.chars)) 16))) 0 ((es.flatMap fields1).flatten ++ pad) ++ rest →
    buf.length < 2 ^ 63 →
    All2 (Writes1 M (byteText h.chars) buf ((h.bytes M name ++ gap).length + roundUp 4 (es.flatMap fields1).flatten.length)) es files →
    (∀ x ∈ files, MsStored .wrap ks2 x) → Tidy (msTree files) →
    ∃ f, msOpen .wrap C buf name = .ok f ∧ ∃ N, ∀ fuel, N ≤ fuel →
      WalksThrough (msContent .wrap C ks2 fuel f) (.msFile false 0) fun vs => MsVisits .wrap ks2 vs files := by
  refine ⟨Snow.maps, Snow.maps_ok, fun C ks2 h name H es gap pad rest files hok hn hH hc hg hes hpad buf hbuf hlen hw hs ht => ?_⟩
  obtain ⟨f, ims, h1, h2, h3⟩ := ms1_images C h name H es gap pad rest files hok hn hH hc hg hes hpad buf hbuf hlen hw
  exact ⟨f, h1, C68_ms .wrap C ks2 f ims files h2 h3 hs ht⟩

/-- C68 for MS archives of version 2 that are opened as such, under the conditions of `C65_v2_partial`. -/
theorem C68_ms_v2_partial (C : ChaCha) (hC : Blocks64 C) (ks2 : Nat → Byte) (h : Head2) (name : List Char) (es : List MsEntry) (pre rest : Bytes)
    (files : List (List Char × MsItem)) (hn : name ≠ []) (ho : msOpen .wrap C h.bytes name = .ok ⟨h.bytes, h.result C name⟩)
    (hc : (h.result C name).entryCount = es.length) (hpre : pre.length = randCount name + 5 + 2 * h.salt.length + 72 + 3 * nameSum name % 212)
    (hes : ∀ e ∈ es, EntryOk e ∧ 0 ≤ e.startPos ∧ 0 ≤ e.sizeAligned ∧ ((∀ c ∈ e.name, c.toNat < 128) ∨ 32 ≤ e.name.length)) (hrest : 63 ≤ rest.length)
    (hbuf : h.bytes = pre ++ restartEncrypt (C (xorBase (key2 (utf8EncStr (lower name ++ byteText h.chars)) 32)) (List.replicate 12 0#8)) 0 0 (es.flatMap fields2) ++ rest)
    (hlen : h.bytes.length < 2 ^ 63)
    (hw : All2 (Writes2 C (byteText h.chars) h.bytes (pre.length + roundUp 64 (es.flatMap fields2).flatten.length)) es files)
    (hs : ∀ x ∈ files, MsStored .wrap ks2 x) (ht : Tidy (msTree files)) :
    ∃ f, msOpen .wrap C h.bytes name = .ok f ∧ ∃ N, ∀ fuel, N ≤ fuel →
      WalksThrough (msContent .wrap C ks2 fuel f) (.msFile false 0) fun vs => MsVisits .wrap ks2 vs files := by
  obtain ⟨ims, h2, h3⟩ := ms2_images C hC h name es pre rest files hn hc hpre hes hrest hbuf hlen hw
  exact ⟨_, ho, C68_ms .wrap C ks2 _ ims files h2 h3 hs ht⟩

end Wz.Props
