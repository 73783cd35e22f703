import Verif.Whole.PlaceLemmas
import Verif.Whole.LinkExamples
import Verif.Whole.MsProps
import Verif.Whole.DirectProps
import Verif.File.FoundProps
import Verif.Ms.ImageProps

/-!
# C75: every node of an archive shows what stands in the file at its place

For any bytes and after any calls that only read.
-/

set_option autoImplicit false

namespace Wz.Props

open Wz Wz.Spec Wz.Spec.Ms

theorem became_file {b : Bool} : Became (.file false (Encodable.encode Src58.file)) (.file b (Encodable.encode Src58.file)) := .file _ _ _

/-- what the nodes of a PKG1 file can come from -/
theorem pkg1_place (F : Fuel) (n fuel : Nat) (cache : List Cached) (f : WFile) (hn : F.nest ≠ 0)
    (hbuf : f.env.buf ≠ []) (hi : f.hdr.ident = .v1) (he : ∀ ev, f.hdr.encVer = some ev → ev < 2 ^ 16) (hp : f.patch = -1)
    (hfuel : 2000 < n) (hm : f.env.mode = .checked) (hf : f.hdr.fstart < 2 ^ 32) (hb : f.env.buf.length < 2 ^ 63) :
    (∀ items, (f.parse F n cache).1 = .ok items → (f.parse F n cache).2.env = f.env) ∧
    ((∀ ns k, ComesFrom (arcContent F n fuel cache f) (.file false (Encodable.encode Src58.file)) ns k →
        (ns = [] ∧ Became (.file false (Encodable.encode Src58.file)) k) ∨ False) ∨
      ∃ v items, TriedVersion f.hdr.encVer v ∧
        FoundDir (FoundBlock1 ⟨f.env, f.hdr, f.keys2⟩ (BitVec.ofNat 64 (verHash v))) f.hdr.dataStart items ∧
        ∀ ns k, ComesFrom (arcContent F n fuel cache f) (.file false (Encodable.encode Src58.file)) ns k →
          (ns = [] ∧ Became (.file false (Encodable.encode Src58.file)) k) ∨ StandsAt f.env items ns k) := by
  have hpar : f.parse F n cache = f.parsePkg1 F n none := by unfold WFile.parse; rw [hi]
  have henv : ∀ items, (f.parse F n cache).1 = .ok items → (f.parse F n cache).2.env = f.env := by
    intro items h
    rw [hpar] at h ⊢
    obtain ⟨v, hv, -⟩ := C54_only F f n hn hbuf hi he hp hfuel items h
    exact hv.2.2.2.1
  refine ⟨henv, ?_⟩
  have key := fun ns k => arc_comes (F := F) (n := n) (fuel := fuel) (cache := cache) (f := f) (k := k) (ns := ns)
    (fun items h => by rw [henv items h]; exact ⟨hb, hm⟩) rfl
  cases hr : (f.parse F n cache).1 with
  | error e =>
    refine .inl fun ns k hk => ?_
    rcases key ns k hk with ⟨h1, b, rfl⟩ | ⟨items, h1, -⟩
    · exact .inl ⟨h1, became_file⟩
    · rw [hr] at h1; cases h1
  | ok items =>
    obtain ⟨v, hv, hd⟩ := C71_pkg1_file F f n hn hbuf hi he hp hfuel hm hf hb items (by rw [← hpar]; exact hr)
    refine .inr ⟨v, items, hv, hd, fun ns k hk => ?_⟩
    rcases key ns k hk with ⟨h1, b, rfl⟩ | ⟨items', h1, h2⟩
    · exact .inl ⟨h1, became_file⟩
    · rw [hr] at h1
      cases h1
      rw [henv items hr] at h2
      exact .inr h2

/-- C75: the nodes of a PKG1 file.  If it does not open there is only its own node.  Otherwise a directory is stored in
the file, for a version that fits the header, and every node below shows what it, or an image in it, says of its place. -/
theorem C75_pkg1 (F : Fuel) (n fuel : Nat) (cache : List Cached) (f : WFile) (name : List Char) (g : NHeap) (hn : F.nest ≠ 0)
    (hbuf : f.env.buf ≠ []) (hi : f.hdr.ident = .v1) (he : ∀ ev, f.hdr.encVer = some ev → ev < 2 ^ 16) (hp : f.patch = -1)
    (hfuel : 2000 < n) (hm : f.env.mode = .checked) (hf : f.hdr.fstart < 2 ^ 32) (hb : f.env.buf.length < 2 ^ 63)
    (hh : ReadHistory (arcContent F n fuel cache f) [some ⟨name, .file false (Encodable.encode Src58.file), none, []⟩] g) :
    EveryNodeStands name (fun _ _ => False) g ∨
    ∃ v items, TriedVersion f.hdr.encVer v ∧
      FoundDir (FoundBlock1 ⟨f.env, f.hdr, f.keys2⟩ (BitVec.ofNat 64 (verHash v))) f.hdr.dataStart items ∧
      EveryNodeStands name (StandsAt f.env items) g := by
  rcases (pkg1_place F n fuel cache f hn hbuf hi he hp hfuel hm hf hb).2 with h | ⟨v, items, hv, hd, h⟩
  · exact .inl (everyNode hh h)
  · exact .inr ⟨v, items, hv, hd, everyNode hh h⟩

/-- C75 in a build without overflow checks: the same, if no overflow stops the other build where it opens the file or
reads one of its images.  Missing: what is shown of a file where one does (`C71_unchecked_counterexample`). -/
theorem C75_pkg1_unchecked_partial (F : Fuel) (n fuel : Nat) (cache : List Cached) (f : WFile) (name : List Char) (g : NHeap) (hn : F.nest ≠ 0)
    (hbuf : f.env.buf ≠ []) (hi : f.hdr.ident = .v1) (he : ∀ ev, f.hdr.encVer = some ev → ev < 2 ^ 16) (hp : f.patch = -1)
    (hfuel : 2000 < n) (hf : f.hdr.fstart < 2 ^ 32) (hb : f.env.buf.length < 2 ^ 63) (hno : NoOverflows F n fuel cache f)
    (hh : ReadHistory (arcContent F n fuel cache (fileIn .wrap f)) [some ⟨name, .file false (Encodable.encode Src58.file), none, []⟩] g) :
    EveryNodeStands name (fun _ _ => False) g ∨
    ∃ v items, TriedVersion f.hdr.encVer v ∧
      FoundDir (FoundBlock1 ⟨(fileIn .checked f).env, f.hdr, f.keys2⟩ (BitVec.ofNat 64 (verHash v))) f.hdr.dataStart items ∧
      EveryNodeStands name (StandsAt (fileIn .checked f).env items) g := by
  obtain ⟨henv, hc⟩ := pkg1_place F n fuel cache (fileIn .checked f) hn hbuf hi he hp hfuel rfl hf hb
  have key := fun ns k => comes_checked (k := k) (ns := ns) hb hno
    (fun items h => by rw [henv items h]; exact ⟨hb, rfl⟩) rfl
  rcases hc with h | ⟨v, items, hv, hd, h⟩
  · exact .inl (everyNode hh fun ns k hk => h ns k (key ns k hk))
  · exact .inr ⟨v, items, hv, hd, everyNode hh fun ns k hk => h ns k (key ns k hk)⟩

/-- what the nodes of a PKG2 file can come from -/
theorem pkg2_place (F : Fuel) (n fuel : Nat) (cache : List Cached) (f : WFile) (hn : F.nest ≠ 0)
    (hbuf : f.env.buf ≠ []) (hg : ∀ c ∈ cache, c.profile.gen ≠ .unknown) (hi : f.hdr.ident = .v2)
    (hm : f.env.mode = .checked) (hf : f.hdr.fstart < 2 ^ 32) (hb : f.env.buf.length < 2 ^ 63) :
    (∀ items, (f.parse F n cache).1 = .ok items → (f.parse F n cache).2.env.buf = f.env.buf ∧ (f.parse F n cache).2.env.mode = f.env.mode) ∧
    ((∀ ns k, ComesFrom (arcContent F n fuel cache f) (.file false (Encodable.encode Src58.file)) ns k →
        (ns = [] ∧ Became (.file false (Encodable.encode Src58.file)) k) ∨ False) ∨
      ∃ c items, (if f.hdr.isPkg2_64 then FoundDir (FoundBlock64 (reading f c) c.hash) f.hdr.dataStart items
          else FoundDir (FoundBlock2 (reading f c) c.profile.ver c.hash) f.hdr.dataStart items) ∧
        ∀ ns k, ComesFrom (arcContent F n fuel cache f) (.file false (Encodable.encode Src58.file)) ns k →
          (ns = [] ∧ Became (.file false (Encodable.encode Src58.file)) k) ∨ StandsAt (reading f c).env items ns k) := by
  have hpar : f.parse F n cache = match f.parsePkg2 F cache with
      | (.ok (_, ns), f', _) => (.ok ns, f')
      | (.error e, f', _) => (.error e, f') := by unfold WFile.parse; rw [hi]; rfl
  cases hr : (f.parsePkg2 F cache).1 with
  | error e =>
    have h1 : (f.parse F n cache).1 = .error e := by
      rw [hpar]
      rcases hx : f.parsePkg2 F cache with ⟨r, f', d'⟩
      rw [hx] at hr
      cases hr
      rfl
    refine ⟨fun items h => by (rw [h1] at h; cases h), .inl fun ns k hk => ?_⟩
    rcases arc_comes (fun items h => by rw [h1] at h; cases h) rfl hk with ⟨h2, b, rfl⟩ | ⟨items, h2, -⟩
    · exact .inl ⟨h2, became_file⟩
    · rw [h1] at h2; cases h2
  | ok r =>
    obtain ⟨c, items⟩ := r
    have h1 : (f.parse F n cache).1 = .ok items ∧ (f.parse F n cache).2.env = (reading f c).env := by
      have := (C44_file_after F f cache hn hbuf hg c items hr).2.2.1
      rw [hpar]
      rcases hx : f.parsePkg2 F cache with ⟨r, f', d'⟩
      rw [hx] at hr this
      cases hr
      exact ⟨rfl, congrArg (·.env) this⟩
    obtain ⟨k, hk⟩ := reading_key f c
    refine ⟨fun items' h => by (rw [h1.2, hk]; exact ⟨rfl, rfl⟩), .inr ⟨c, items, C71_pkg2_file F f cache hn hbuf hg hi hm hf hb c items hr,
      fun ns k' hk' => ?_⟩⟩
    rcases arc_comes (fun items' h => by rw [h1.2, hk]; exact ⟨hb, hm⟩) rfl hk' with ⟨h2, b, rfl⟩ | ⟨items', h2, h3⟩
    · exact .inl ⟨h2, became_file⟩
    · rw [h1.1] at h2
      cases h2
      rw [h1.2] at h3
      exact .inr h3

/-- C75: the same for a PKG2 file, for a version hash and a profile and with the keys that belong to it. -/
theorem C75_pkg2 (F : Fuel) (n fuel : Nat) (cache : List Cached) (f : WFile) (name : List Char) (g : NHeap) (hn : F.nest ≠ 0)
    (hbuf : f.env.buf ≠ []) (hg : ∀ c ∈ cache, c.profile.gen ≠ .unknown) (hi : f.hdr.ident = .v2)
    (hm : f.env.mode = .checked) (hf : f.hdr.fstart < 2 ^ 32) (hb : f.env.buf.length < 2 ^ 63)
    (hh : ReadHistory (arcContent F n fuel cache f) [some ⟨name, .file false (Encodable.encode Src58.file), none, []⟩] g) :
    EveryNodeStands name (fun _ _ => False) g ∨
    ∃ c items, (if f.hdr.isPkg2_64 then FoundDir (FoundBlock64 (reading f c) c.hash) f.hdr.dataStart items
        else FoundDir (FoundBlock2 (reading f c) c.profile.ver c.hash) f.hdr.dataStart items) ∧
      EveryNodeStands name (StandsAt (reading f c).env items) g := by
  rcases (pkg2_place F n fuel cache f hn hbuf hg hi hm hf hb).2 with h | ⟨c, items, hd, h⟩
  · exact .inl (everyNode hh h)
  · exact .inr ⟨c, items, hd, everyNode hh h⟩

/-- C75: and for a PKG2 file in a build without overflow checks. -/
theorem C75_pkg2_unchecked_partial (F : Fuel) (n fuel : Nat) (cache : List Cached) (f : WFile) (name : List Char) (g : NHeap) (hn : F.nest ≠ 0)
    (hbuf : f.env.buf ≠ []) (hg : ∀ c ∈ cache, c.profile.gen ≠ .unknown) (hi : f.hdr.ident = .v2)
    (hf : f.hdr.fstart < 2 ^ 32) (hb : f.env.buf.length < 2 ^ 63) (hno : NoOverflows F n fuel cache f)
    (hh : ReadHistory (arcContent F n fuel cache (fileIn .wrap f)) [some ⟨name, .file false (Encodable.encode Src58.file), none, []⟩] g) :
    EveryNodeStands name (fun _ _ => False) g ∨
    ∃ c items, (if f.hdr.isPkg2_64 then FoundDir (FoundBlock64 (reading (fileIn .checked f) c) c.hash) f.hdr.dataStart items
        else FoundDir (FoundBlock2 (reading (fileIn .checked f) c) c.profile.ver c.hash) f.hdr.dataStart items) ∧
      EveryNodeStands name (StandsAt (reading (fileIn .checked f) c).env items) g := by
  obtain ⟨henv, hc⟩ := pkg2_place F n fuel cache (fileIn .checked f) hn hbuf hg hi rfl hf hb
  have key := fun ns k => comes_checked (k := k) (ns := ns) hb hno
    (fun items h => by rw [(henv items h).1, (henv items h).2]; exact ⟨hb, rfl⟩) rfl
  rcases hc with h | ⟨c, items, hd, h⟩
  · exact .inl (everyNode hh fun ns k hk => h ns k (key ns k hk))
  · exact .inr ⟨c, items, hd, everyNode hh fun ns k hk => h ns k (key ns k hk)⟩

/-- C75: the nodes of an image opened on its own. -/
theorem C75_image (e : Env) (fuel o s : Nat) (name imgName : List Char) (g : NHeap) (hm : e.mode = .checked) (hb : e.buf.length < 2 ^ 63)
    (hh : ReadHistory (imgContent e fuel) [some ⟨name, .image false (Encodable.encode (Src58.image imgName o s)), none, []⟩] g) :
    EveryNodeStands name (InsideImage e ⟨imgName, o, s⟩) g := by
  refine everyNode hh fun ns k hk => ?_
  rcases img_comes hb hm rfl hk with ⟨h1, b, rfl⟩ | h
  · exact .inl ⟨h1, .image _ _ _⟩
  · exact .inr h

/-- C75: and in a build without overflow checks. -/
theorem C75_image_unchecked_partial (e : Env) (fuel o s : Nat) (name imgName : List Char) (g : NHeap) (hb : e.buf.length < 2 ^ 63)
    (hno : readImage (readerIn .checked e.buf e.ks e.ks2) fuel ⟨imgName, o, s⟩ ≠ .error .panicOverflow)
    (hh : ReadHistory (imgContent (readerIn .wrap e.buf e.ks e.ks2) fuel)
      [some ⟨name, .image false (Encodable.encode (Src58.image imgName o s)), none, []⟩] g) :
    EveryNodeStands name (InsideImage (readerIn .checked e.buf e.ks e.ks2) ⟨imgName, o, s⟩) g := by
  refine everyNode hh fun ns k hk => ?_
  rcases img_comes (e := readerIn .checked e.buf e.ks e.ks2) hb rfl rfl (img_comes_checked hb hno rfl hk) with ⟨h1, b, rfl⟩ | h
  · exact .inl ⟨h1, .image _ _ _⟩
  · exact .inr h

/-- C75: the nodes of an MS archive: below its own there are only the images of its table (C73 says what the table is),
and in these what is stored in the bytes they decrypt to (C42 says what these are).  Without overflow checks, which is how
most of these archives are opened at all, this is so if no overflow would stop the reading of an image.  Missing: what is
shown of images where one does. -/
theorem C75_ms_partial (m : Mode) (C : ChaCha) (ks2 : Nat → Byte) (fuel : Nat) (f : MsFile) (name : List Char) (g : NHeap) (hb : f.buf.length < 2 ^ 63)
    (hno : m = .wrap → ∀ ims im w, f.parse m C = .ok ims → im ∈ ims → f.toWzImage m C im = .ok w →
      readImage (msEnv .checked ks2 w.data) fuel ⟨w.name, 0, w.blockSize⟩ ≠ .error .panicOverflow)
    (hh : ReadHistory (msContent m C ks2 fuel f) [some ⟨name, .msFile false 0, none, []⟩] g) :
    EveryNodeStands name (fun _ _ => False) g ∨
    ∃ ims, f.parse m C = .ok ims ∧
      EveryNodeStands name (MsStandsAt (msEnv .checked ks2) (fun im w => f.toWzImage m C im = .ok w) ims) g := by
  have hd : ∀ im w, f.toWzImage m C im = .ok w → w.data.length < 2 ^ 63 := by
    intro im w hw
    rcases image_total m C f im with ⟨d, stop, h1, h2, -, h4, h5, h6⟩ | ⟨e, h1, -⟩
    · rw [hw] at h1
      cases h1
      dsimp only
      omega
    · rw [hw] at h1; cases h1
  cases hr : f.parse m C with
  | error e =>
    refine .inl (everyNode hh fun ns k hk => ?_)
    rcases ms_comes hd hno rfl hk with ⟨h1, b, rfl⟩ | ⟨ims, h1, -⟩
    · exact .inl ⟨h1, .msFile _ _ _ (fun h => by cases h)⟩
    · rw [hr] at h1; cases h1
  | ok ims =>
    refine .inr ⟨ims, rfl, everyNode hh fun ns k hk => ?_⟩
    rcases ms_comes hd hno rfl hk with ⟨h1, b, rfl⟩ | ⟨ims', h1, h2⟩
    · exact .inl ⟨h1, .msFile _ _ _ (fun h => by cases h)⟩
    · rw [hr] at h1
      cases h1
      exact .inr h2

/-! ## examples -/

/-- all hypotheses of `C75_pkg1` are met after the file was opened and `a/n` looked up, and the number is there -/
example : ∃ F n fuel g, F.nest ≠ 0 ∧ wfile58.env.buf ≠ [] ∧ wfile58.hdr.ident = .v1 ∧ (∀ ev, wfile58.hdr.encVer = some ev → ev < 2 ^ 16) ∧
    wfile58.patch = -1 ∧ 2000 < n ∧ wfile58.env.mode = .checked ∧ wfile58.hdr.fstart < 2 ^ 32 ∧ wfile58.env.buf.length < 2 ^ 63 ∧
    ReadHistory (arcContent F n fuel [] wfile58) [some ⟨['r'], .file false (Encodable.encode Src58.file), none, []⟩] g ∧
    ∃ j c o, g.cell j = some c ∧ c.name = ['n'] ∧ c.kind = .other o ∧ Encodable.decode o = some (Leaf58.prop (.int 5)) := by
  obtain ⟨N, hN⟩ := wfile58_reads
  have R := hN ⟨N + 1, N + 1⟩ (by simp) (by simp) 2001 N (by omega) (Nat.le_refl _)
  obtain ⟨g, hg, H⟩ := R heap58 0 ⟨_, rfl, rfl, rfl⟩
  have hu : NoUol [(['n'], .node (.int 5) [])] := .cons _ _ _ _ (by simp) .nil .nil
  obtain ⟨j, g', c, h1, h2, h3, h4⟩ := H [] (by simp) "a/n".toList [['a'], ['n']] (pieces_iff.2 (by decide)) (.inr hu)
  have hp := ReadCall.parse (content := arcContent ⟨N + 1, N + 1⟩ 2001 N [] wfile58) heap58 0
  have hf := ReadCall.find (content := arcContent ⟨N + 1, N + 1⟩ 2001 N [] wfile58) g 0 "a/n".toList
  rw [hg] at hp
  have h1' : g.atPathParsed (arcContent ⟨N + 1, N + 1⟩ 2001 N [] wfile58) 0 "a/n".toList = (.ok j, g') := h1
  rw [h1'] at hf
  refine ⟨⟨N + 1, N + 1⟩, 2001, N, g', by simp, by decide +kernel, rfl, (by intro ev h; cases h; decide), rfl, by omega, rfl, by decide,
    by decide +kernel, .call _ _ (.call _ _ .start hp) hf, j, c, ?_⟩
  cases hk : c.kind with
  | other o =>
    rw [hk] at h4
    cases h4 with
    | prop _ p _ h5 h6 => cases h6; exact ⟨o, h2, by simpa using h3.symm, rfl, h5⟩
  | _ => rw [hk] at h4; cases h4

/-- the hypotheses of `C75_pkg2` are met after a PKG2 file was opened with a profile from the cache and `a/n` looked up -/
example : ∃ F n fuel g, F.nest ≠ 0 ∧ wfile58b.env.buf ≠ [] ∧ (∀ c ∈ [(⟨row1201, 77#64⟩ : Cached)], c.profile.gen ≠ .unknown) ∧
    wfile58b.hdr.ident = .v2 ∧ wfile58b.env.mode = .checked ∧ wfile58b.hdr.fstart < 2 ^ 32 ∧ wfile58b.env.buf.length < 2 ^ 63 ∧
    ReadHistory (arcContent F n fuel [⟨row1201, 77#64⟩] wfile58b) [some ⟨['r'], .file false (Encodable.encode Src58.file), none, []⟩] g ∧
    ∃ j c o, g.cell j = some c ∧ c.name = ['n'] ∧ c.kind = .other o ∧ Encodable.decode o = some (Leaf58.prop (.int 5)) := by
  obtain ⟨F, n, fuel, hF, R⟩ := wfile58b_reads
  obtain ⟨g, hg, H⟩ := R heap58 0 ⟨_, rfl, rfl, rfl⟩
  have hu : NoUol [(['n'], .node (.int 5) [])] := .cons _ _ _ _ (by simp) .nil .nil
  obtain ⟨j, g', c, h1, h2, h3, h4⟩ := H [] (by simp) "a/n".toList [['a'], ['n']] (pieces_iff.2 (by decide)) (.inr hu)
  have hp := ReadCall.parse (content := arcContent F n fuel [⟨row1201, 77#64⟩] wfile58b) heap58 0
  have hf := ReadCall.find (content := arcContent F n fuel [⟨row1201, 77#64⟩] wfile58b) g 0 "a/n".toList
  rw [hg] at hp
  have h1' : g.atPathParsed (arcContent F n fuel [⟨row1201, 77#64⟩] wfile58b) 0 "a/n".toList = (.ok j, g') := h1
  rw [h1'] at hf
  refine ⟨F, n, fuel, g', hF, by decide +kernel, (by intro c hc; rw [List.mem_singleton.mp hc]; decide), rfl, rfl, by decide,
    by decide +kernel, .call _ _ (.call _ _ .start hp) hf, j, c, ?_⟩
  cases hk : c.kind with
  | other o =>
    rw [hk] at h4
    cases h4 with
    | prop _ p _ h5 h6 => cases h6; exact ⟨o, h2, by simpa using h3.symm, rfl, h5⟩
  | _ => rw [hk] at h4; cases h4

theorem entryNamed_mem {ν : Type} {items : List (List Char × ν)} {n : List Char} {v : ν} {p : Prop} (h : EntryNamed items n v p) : (n, v) ∈ items := by
  obtain ⟨b, a, rfl, -⟩ := h
  simp

/-- reading the images of `wfile58` meets no overflow -/
theorem wfile58_noOverflows : ∃ N, NoOverflows ⟨N + 1, N + 1⟩ 2001 5 [] wfile58 := by
  obtain ⟨N, hN⟩ := wfile58_opens
  obtain ⟨h1, h2⟩ := hN ⟨N + 1, N + 1⟩ (by simp) (by simp) 2001 (by omega)
  have e : fileIn .checked wfile58 = wfile58 := rfl
  have ok1 : readImage wfile58.env 5 ⟨['a'], 95, 18⟩ ≠ .error .panicOverflow := by
    have : ((Rd.imgChildren ⟨['a'], 95, 18⟩ 5).run wfile58.env ⟨0, 0⟩).1.map (fun _ => 0) = .ok 0 := by decide +kernel
    unfold readImage
    intro h
    cases hx : ((Rd.imgChildren ⟨['a'], 95, 18⟩ 5).run wfile58.env ⟨0, 0⟩).1 with
    | ok _ => rw [hx] at h; cases h
    | error _ => rw [hx] at this; cases this
  have ok2 : readImage wfile58.env 5 ⟨"c.txt".toList, 113, 3⟩ ≠ .error .panicOverflow := by
    have : ((Rd.imgChildren ⟨"c.txt".toList, 113, 3⟩ 5).run wfile58.env ⟨0, 0⟩).1.map (fun _ => 0) = .ok 0 := by decide +kernel
    unfold readImage
    intro h
    cases hx : ((Rd.imgChildren ⟨"c.txt".toList, 113, 3⟩ 5).run wfile58.env ⟨0, 0⟩).1 with
    | ok _ => rw [hx] at h; cases h
    | error _ => rw [hx] at this; cases this
  refine ⟨N, ?_, ?_⟩
  · rw [e, h1]; intro h; cases h
  · intro items ns name o s hi hd hl
    rw [e, h1] at hi
    cases hi
    rw [e, h2]
    generalize hx : DNode.image o s = d at hd
    cases hd with
    | here =>
      have := entryNamed_mem ‹EntryNamed _ _ _ _›
      simp only [items58, List.mem_cons, Prod.mk.injEq, List.not_mem_nil, or_false] at this
      rcases this with ⟨rfl, rfl⟩ | ⟨rfl, rfl⟩
      · cases hx; cases hl; exact ok1
      · cases hx
    | deeper =>
      rename_i hd
      have := entryNamed_mem ‹EntryNamed _ _ _ _›
      simp only [items58, List.mem_cons, Prod.mk.injEq, List.not_mem_nil, or_false] at this
      rcases this with ⟨rfl, h'⟩ | ⟨rfl, h'⟩
      · cases h'
      · cases h'
        cases hd with
        | here =>
          have := entryNamed_mem ‹EntryNamed _ _ _ _›
          simp only [List.mem_singleton, Prod.mk.injEq] at this
          obtain ⟨rfl, rfl⟩ := this
          cases hx
          cases hl
          exact ok2
        | deeper =>
          have := entryNamed_mem ‹EntryNamed _ _ _ _›
          simp only [List.mem_singleton, Prod.mk.injEq] at this
          cases this.2

/-- all hypotheses of `C75_pkg1_unchecked_partial` are met, also right after the file was opened -/
example : ∃ F n fuel, F.nest ≠ 0 ∧ 2000 < n ∧ NoOverflows F n fuel [] wfile58 ∧
    ReadHistory (arcContent F n fuel [] (fileIn .wrap wfile58)) heap58 (heap58.parse (arcContent F n fuel [] (fileIn .wrap wfile58)) 0).2 := by
  obtain ⟨N, hN⟩ := wfile58_noOverflows
  exact ⟨⟨N + 1, N + 1⟩, 2001, 5, by simp, by omega, hN, .call _ _ .start (.parse _ _)⟩

/-- the image with links: `d/u/l` leads over two links to a node; it has a place, where the number 5 stands, and this is its full path -/
example : ∃ fuel g j c ms, ReadHistory (imgContent wfile70.env fuel) alone70 g ∧ g.atPath 0 "d/u/l".toList = some j ∧ g.cell j = some c ∧
    LinkShows wfile70.env c.kind (.prop (.int 5)) ∧ PlacedAt g 0 j ms ∧ InsideImage wfile70.env ⟨['a'], 72, 18⟩ ms c.kind ∧
    ∀ F, ms.length ≤ F → g.fullPath F j = some (slashed (['a'] :: ms)) := by
  obtain ⟨N, hN⟩ := C70_image wfile70.env ['a'] 72 18 _ (by decide +kernel) (by decide) stored70
    (fun _ h => by cases h; exact .inr ⟨distinct70, direct70⟩)
  obtain ⟨g, hg, H⟩ := hN N (Nat.le_refl _) alone70 0 _ rfl rfl rfl rfl
  obtain ⟨j, c, h1, h2, h3, h4⟩ := H "d/u/l".toList [['d'], ['u'], ['l']] (some (['n'], .prop (.int 5))) (pieces_iff.2 (by decide))
    (.inr (.inr ⟨_, _, _, seen70, rfl, rfl⟩))
  have hp := ReadCall.parse (content := imgContent wfile70.env N) alone70 0
  rw [hg] at hp
  have hh : ReadHistory (imgContent wfile70.env N) alone70 g := .call _ _ .start hp
  have E := C75_image wfile70.env N 72 18 ['a'] ['a'] g rfl (by decide +kernel) hh
  obtain ⟨ms, hms⟩ := E.reached _ j c h1 h2
  refine ⟨N, g, j, c, ms, hh, h1, h2, h4, hms, E.shows j ms c hms ?_ h2, fun F hF => E.fullPath j ms F hms hF⟩
  rintro rfl
  have : c.name = ['a'] := by
    obtain ⟨d, k1, k2, -⟩ := kept_readHistory hh 0 _ rfl
    have : j = 0 := by
      generalize hx : ([] : List (List Char)) = x at hms
      cases hms with
      | top => rfl
      | under => simp at hx
    rw [this, k1] at h2
    cases h2
    exact k2
  rw [this] at h3
  cases h3

/-- its one image is a text of three bytes -/
theorem msHead2_data : ((⟨msHead2.bytes, msHead2.result noCipher ['h', 'h', 'h']⟩ : MsFile).parse .wrap noCipher).map
    (fun ims => ims.map fun im => (⟨msHead2.bytes, msHead2.result noCipher ['h', 'h', 'h']⟩ : MsFile).toWzImage .wrap noCipher im) =
    .ok [.ok ⟨"/.txt".toList, [0x73#8, 0x61#8, 0x79#8], 3⟩] := by decide +kernel

/-- the archive of version 2 meets the hypotheses of `C75_ms_partial` after it was opened, and there is the image -/
example (ks2 : Nat → Byte) : ∃ f fuel g, msOpen .wrap noCipher msHead2.bytes ['h', 'h', 'h'] = .ok f ∧ f.buf.length < 2 ^ 63 ∧
    (∀ ims im w, f.parse .wrap noCipher = .ok ims → im ∈ ims → f.toWzImage .wrap noCipher im = .ok w →
      readImage (msEnv .checked ks2 w.data) fuel ⟨w.name, 0, w.blockSize⟩ ≠ .error .panicOverflow) ∧
    ReadHistory (msContent .wrap noCipher ks2 fuel f) heapMs g ∧ (g.at 0 "/.txt".toList).isSome = true := by
  obtain ⟨f, fuel, hop, hR⟩ := msHead2_reads ks2
  obtain ⟨g, h2, hg⟩ := hR heapMs 0 heapMs_new
  obtain ⟨-, K⟩ := hg [] (fun _ h => by cases h)
  have hd := msHead2_data
  have hf : f = ⟨msHead2.bytes, msHead2.result noCipher ['h', 'h', 'h']⟩ := Except.ok.inj (hop.symm.trans msHead2_opens)
  rw [← hf] at hd
  have hpr := ReadCall.parse (content := msContent .wrap noCipher ks2 fuel f) heapMs 0
  rw [h2] at hpr
  refine ⟨f, fuel, g, hop, by (rw [hf]; decide +kernel), ?_, .call _ _ .start hpr, ?_⟩
  · intro ims im w h1 hm h3
    rw [h1] at hd
    have hd' : ims.map (fun im => f.toWzImage .wrap noCipher im) = [.ok ⟨"/.txt".toList, [0x73#8, 0x61#8, 0x79#8], 3⟩] := by
      simpa [Except.map] using hd
    have : f.toWzImage .wrap noCipher im ∈ ims.map (fun im => f.toWzImage .wrap noCipher im) := List.mem_map.mpr ⟨im, hm, rfl⟩
    rw [hd', h3, List.mem_singleton] at this
    cases this
    intro h
    cases h
  · obtain ⟨k, k1, _⟩ := K "/.txt".toList
    have : g.at 0 "/.txt".toList = some k := k1
    rw [this]; rfl

end Wz.Props
