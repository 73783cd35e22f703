import Verif.Whole.OpenSpec
import Verif.Whole.Props
import Verif.Whole.MsProps
import Verif.File.GuessKeyProps
import Verif.File.Pkg1Props
import Verif.Header.Props
import Verif.Image.IvProps
import Verif.Mode.Image

/-!
# C66: a file opened by its path shows what is in it
-/

set_option autoImplicit false

namespace Wz.Props

open Spec

/-! ### names -/

theorem splitDot_none {s : List Char} : splitDot s = none ↔ '.' ∉ s := by
  induction s with
  | nil => exact ⟨fun _ h => (by cases h), fun _ => rfl⟩
  | cons c s ih =>
    unfold splitDot
    cases hs : splitDot s with
    | some p =>
      refine ⟨fun h => (nomatch h), fun h => ?_⟩
      rw [ih.2 (fun h' => h (List.mem_cons_of_mem _ h'))] at hs
      cases hs
    | none =>
      dsimp only
      by_cases hc : c = '.'
      · rw [if_pos hc]
        exact ⟨fun h => (nomatch h), fun h => absurd (hc ▸ List.mem_cons_self) h⟩
      · rw [if_neg hc]
        refine ⟨fun _ h => ?_, fun _ => rfl⟩
        cases h with
        | head => exact hc rfl
        | tail _ h => exact ih.1 hs h

theorem splitDot_last (a ext : List Char) (h : '.' ∉ ext) : splitDot (a ++ '.' :: ext) = some (a, ext) := by
  induction a with
  | nil =>
    show splitDot ('.' :: ext) = _
    unfold splitDot
    rw [splitDot_none.2 h]
    rfl
  | cons c a ih =>
    show splitDot (c :: (a ++ '.' :: ext)) = _
    unfold splitDot
    rw [ih]

theorem stem_eq {file stem : List Char} (h : StemOf file stem) (hd : file ≠ ['.', '.']) : nameStem file = stem := by
  unfold nameStem
  rw [if_neg hd]
  cases h with
  | plain _ h1 => rw [splitDot_none.2 h1]
  | hidden ext h1 =>
    rw [show ('.' :: ext) = [] ++ '.' :: ext from rfl, splitDot_last _ _ h1]
    rfl
  | dotted _ ext h1 h2 =>
    rw [splitDot_last _ _ h2]
    dsimp only
    rw [if_neg h1]

/-! ### the first of several -/

theorem firstIn_mem {α : Type} {P : α → Prop} {l : List α} {a : α} (h : FirstIn P l (some a)) : a ∈ l := by
  generalize ho : some a = o at h
  induction h with
  | none => cases ho
  | hit b as hb => cases ho; exact List.mem_cons_self
  | miss b as r hb _ ih => exact List.mem_cons_of_mem _ (ih ho)

/-! ### PKG1 -/

theorem pkg1_head {buf : Bytes} {fsize fstart : Nat} {enc : Option Nat} (h : Pkg1Head buf fsize fstart enc) :
    Header.readFromBuf buf = .ok (pkg1Fields fsize fstart enc, fstart) := by
  cases enc with
  | some v => exact C16_pkg1_version buf fsize fstart v h.1 h.2
  | none => exact C16_pkg1_no_version buf fsize fstart h.1 h.2

theorem pkg1_enc {buf : Bytes} {fsize fstart : Nat} {enc : Option Nat} (h : Pkg1Head buf fsize fstart enc) :
    ∀ ev, enc = some ev → ev < 2 ^ 16 := by
  rintro ev rfl
  have := h.2.2.2.1
  omega

theorem head_nonempty {buf : Bytes} {name : String} {fsize fstart : Nat} (h : PlainHeader buf name fsize fstart) : buf ≠ [] := by
  have := h.1.le
  simp only [List.length_append, length_toLE] at this
  intro hb
  rw [hb] at this
  simp at this

/-- a node made of the file shows what the contents of the file show -/
theorem opens_of {m : Mode} {st : Bytes → Nat → Byte} {file stem : List Char} {buf : Bytes} {version : Option MapleVersion}
    {patch : Option Int} {parent : Option Nat} {existing : Option SKey} {f : WFile} {content : WFile → Content} {e : Env}
    {arch : List (List Char × ATree)} (hs : StemOf file stem) (hd : file ≠ ['.', '.'])
    (hf : WFile.fromBuf m st buf existing (version.map ivOfVersion) patch = .ok f) (hr : ReadsBack (content f) e arch) :
    OpensAs (openWz m st (some file) buf version patch parent existing) stem parent content e arch := by
  refine ⟨newCell stem (.file false (Encodable.encode Src58.file)) parent, f, ?_, rfl, rfl, fun h i hc => ?_⟩
  · unfold openWz
    dsimp only
    rw [hf, stem_eq hs hd]
  · exact hr h i ⟨_, hc, rfl, rfl⟩

theorem fromBuf_found {m : Mode} {st : Bytes → Nat → Byte} {buf : Bytes} {h : Header} {k : Nat} {patch : Option Int} {r : MapleVersion}
    (hh : Header.readFromBuf buf = .ok (h, k)) (hr : guessKey m st buf = .ok (some r)) (hv : r = .bms ∨ r = .gms ∨ r = .ems) :
    WFile.fromBuf m st buf none none patch = .ok (unparsed m buf h (plainKey st r) (plainKey st r) false true (patch.getD (-1))) := by
  unfold WFile.fromBuf openKey givenKey
  dsimp only
  rw [hr]
  show Except.ok (WFile.made m buf patch (some (versionKey st r))) = _
  unfold WFile.made
  rw [headerOf_ok hh]
  rcases hv with rfl | rfl | rfl <;> rfl

theorem ivKey_version (st : Bytes → Nat → Byte) (v : MapleVersion) : ivKey st (ivOfVersion v) = ⟨false, plainKey st v⟩ := by
  cases v <;> rfl

theorem fromBuf_given {m : Mode} {st : Bytes → Nat → Byte} {buf : Bytes} {h : Header} {hk : Nat} {p n : Nat} {form : NameForm}
    {v : MapleVersion} {patch : Option Int} (hb : buf.length < 2 ^ 63) (hh : Header.readFromBuf buf = .ok (h, hk)) (hi : h.ident = .v1)
    (hf : FirstEntry buf h.dataStart p n form) (ha : NameAt buf p n form (plainKey st v)) :
    WFile.fromBuf m st buf none ((some v).map ivOfVersion) patch =
      .ok (unparsed m buf h (plainKey st v) (plainKey st v) false true (patch.getD (-1))) := by
  obtain ⟨count, t, hf, ht, hc⟩ := hf
  obtain ⟨h3, hp, hn⟩ := firstName_meta (m := m) hb hf ht (by rw [hi]; exact hc)
  have hd : form ≠ .dir := by obtain ⟨_, _, _, h, _⟩ := hf; exact h.not_dir
  have hu : (⟨false, plainKey st v⟩ : SKey).used form = plainKey st v := by cases form <;> first | rfl | exact absurd rfl hd
  have hv : verifyKey m buf ⟨false, plainKey st v⟩ = verifyMeta m buf ⟨false, plainKey st v⟩ ⟨p, NameForm.size n form, NameForm.ty form⟩ := by
    unfold verifyKey
    rw [headerOf_ok hh, h3]
  rw [verifyMeta_eq _ hb hp (by omega : n < 2 ^ 32), hu] at hv
  simp only [ha, decide_true] at hv
  show WFile.fromBuf m st buf none (some (ivOfVersion v)) patch = _
  rw [C55_given_iv, ivKey_version]
  unfold WFile.fromBuf openKey givenKey
  dsimp only
  rw [hv]
  show Except.ok (WFile.made m buf patch (some ⟨false, plainKey st v⟩)) = _
  unfold WFile.made
  rw [headerOf_ok hh]
  rfl

/-- what a file of which the version is known shows -/
theorem pkg1_patched (f : WFile) (v : Nat) (items : List (List Char × DNode)) (arch : List (List Char × ATree)) (cache : List Cached)
    (hi : f.hdr.ident = .v1) (hf : f.hdr.fstart < 2 ^ 32) (hb : f.env.buf.length < 2 ^ 63) (hbuf : f.env.buf ≠ [])
    (he : ∀ ev, f.hdr.encVer = some ev → ev < 2 ^ 16) (hp : f.patch = v) (hv : v < 10 ^ 6) (hg : GivenVersion f.hdr.encVer v)
    (hd : HoldsDir (Block1 ⟨f.env, f.hdr, f.keys2⟩ (BitVec.ofNat 64 (verHash v))) f.hdr.dataStart items)
    (ha : HoldsArchive f.env items arch) :
    ∃ N, ∀ F : Fuel, N ≤ F.loop → N ≤ F.nest → ∀ n fuel, N ≤ fuel → ReadsBack (arcContent F n fuel cache f) f.env arch := by
  obtain ⟨N, hN⟩ := C19_pkg1 f.ctx (BitVec.ofNat 64 (verHash v)) f.hdr.dataStart f.env.buf.length items hi hf hb (by simpa using hbuf) hd
  obtain ⟨M, hM⟩ := holdsArchive_reads hb ha
  refine ⟨N + M + 1, fun F h1 h2 n fuel hfu => ?_⟩
  obtain ⟨-, w2, w3⟩ := with_version (F := F) (n := n) (patch := none) (by omega) hbuf hi he hv (by exact hp)
  have p1 := (w2 hg items).2 (hN F.loop F.nest (by omega) (by omega))
  have p2 := w3 items p1
  have hpar : f.parse F n cache = f.parsePkg1 F n none := by unfold WFile.parse; rw [hi]
  have henv : (f.parse F n cache).2.env = f.env := by rw [hpar]; exact p2.2.2.2.1
  rw [← henv]
  exact readsBack_of (by rw [hpar]; exact p1) (by rw [henv]; exact hM fuel (by omega))

/-- C66, PKG1, version and patch version given: if the given version is right for the name of the first entry and the patch version
for the directory, then the node has the name of the file without its ending and shows everything that is in the archive. -/
theorem C66_wz_told (m : Mode) (st : Bytes → Nat → Byte) (file stem : List Char) (buf : Bytes) (fsize fstart : Nat) (enc : Option Nat)
    (version : MapleVersion) (v p n : Nat) (form : NameForm) (items : List (List Char × DNode)) (arch : List (List Char × ATree))
    (parent : Option Nat) (cache : List Cached) (hs : StemOf file stem) (hd : file ≠ ['.', '.']) (hb : buf.length < 2 ^ 63)
    (hh : Pkg1Head buf fsize fstart enc) (hf : FirstEntry buf (pkg1Start fstart enc) p n form)
    (hk : NameAt buf p n form (plainKey st version)) (hv : v < 10 ^ 6) (hg : GivenVersion enc v)
    (hdir : HoldsDir (Block1 ⟨⟨m, buf, plainKey st version, plainKey st version⟩, pkg1Fields fsize fstart enc, false⟩
      (BitVec.ofNat 64 (verHash v))) (pkg1Start fstart enc) items)
    (ha : HoldsArchive ⟨m, buf, plainKey st version, plainKey st version⟩ items arch) :
    ∃ N, ∀ F : Fuel, N ≤ F.loop → N ≤ F.nest → ∀ k fuel, N ≤ fuel →
      OpensAs (openWz m st (some file) buf (some version) (some (v : Int)) parent none) stem parent (arcContent F k fuel cache)
        ⟨m, buf, plainKey st version, plainKey st version⟩ arch := by
  obtain ⟨N, hN⟩ := pkg1_patched (unparsed m buf (pkg1Fields fsize fstart enc) (plainKey st version) (plainKey st version) false true v)
    v items arch cache rfl hh.1.2.2 hb (head_nonempty hh.1) (pkg1_enc hh) rfl hv hg hdir ha
  exact ⟨N, fun F h1 h2 k fuel hfu => opens_of hs hd (fromBuf_given hb (pkg1_head hh) rfl hf hk) (hN F h1 h2 k fuel hfu)⟩

/-- C66, PKG1, only the path given (`from_wz_file`): `version` is the first of those tried with which the name of the first entry is a
text; the patch version is the first that fits the header and is not refused. -/
theorem C66_wz_found (m : Mode) (st : Bytes → Nat → Byte) (file stem : List Char) (buf : Bytes) (fsize fstart : Nat) (enc : Option Nat)
    (version : MapleVersion) (v p n : Nat) (form : NameForm) (items : List (List Char × DNode)) (arch : List (List Char × ATree))
    (parent : Option Nat) (cache : List Cached) (hs : StemOf file stem) (hd : file ≠ ['.', '.']) (hb : buf.length < 2 ^ 63)
    (hh : Pkg1Head buf fsize fstart enc) (hf : FirstEntry buf (pkg1Start fstart enc) p n form)
    (hk : FirstIn (fun u => NameAt buf p n form (plainKey st u)) [.bms, .gms, .ems] (some version)) (hv : TriedVersion enc v)
    (hdir : HoldsDir (Block1 ⟨⟨m, buf, plainKey st version, plainKey st version⟩, pkg1Fields fsize fstart enc, false⟩
      (BitVec.ofNat 64 (verHash v))) (pkg1Start fstart enc) items)
    (ha : HoldsArchive ⟨m, buf, plainKey st version, plainKey st version⟩ items arch) :
    ∃ N, ∀ F : Fuel, N ≤ F.loop → N ≤ F.nest → ∀ k fuel, 2000 < k → N ≤ fuel →
      (∀ u, TriedVersion enc u → u < v → Refused1 F
        (unparsed m buf (pkg1Fields fsize fstart enc) (plainKey st version) (plainKey st version) false true (-1)) u) →
      OpensAs (openWzPlain m st (some file) buf parent) stem parent (arcContent F k fuel cache)
        ⟨m, buf, plainKey st version, plainKey st version⟩ arch := by
  have hver := firstIn_mem hk
  obtain ⟨count, t, hf1, hf2, hf3⟩ := hf
  obtain ⟨r, hr, hr'⟩ := C55_guess_pkg1 m st buf _ _ count t n p form hb (pkg1_head hh) rfl hf1 hf2 hf3
  have : r = some version := FirstIn.det (FirstIn.congr (fun u hu => readsAs_plain hu) hr') hk
  subst this
  simp only [List.mem_cons, List.not_mem_nil, or_false] at hver
  obtain ⟨N, hN⟩ := C58_pkg1 (unparsed m buf (pkg1Fields fsize fstart enc) (plainKey st version) (plainKey st version) false true (-1))
    v items arch cache rfl hh.1.2.2 hb (head_nonempty hh.1) (pkg1_enc hh) rfl hv hdir ha
  exact ⟨N, fun F h1 h2 k fuel h3 hfu hu => opens_of hs hd (fromBuf_found (pkg1_head hh) hr hver) (hN F h1 h2 k fuel h3 hfu hu)⟩

/-- C66: the first entry of a PKG1 directory, if it stands in its place and has an ASCII name, is one by which keys are recognised; the
chunks of type 1 and 2 are the exceptions (`C55_no_name`, `C55_name_elsewhere`). -/
theorem C66_first_entry (x : DirCtx) (hash : BitVec 64) (start : Nat) (name : List Char) (node : DNode) (items : List (List Char × DNode))
    (h : Block1 x hash start ((name, node) :: items)) (hne : name ≠ []) (ha : ∀ c ∈ name, c.toNat < 128) :
    (∃ p form, FirstEntry x.env.buf start p name.length form ∧ NameAt x.env.buf p name.length form x.env.ks) ∨
      ∃ (n : Nat) (cb : Bytes) (t : Byte), IsWzInt 4 n cb ∧ Holds x.env.buf start (cb ++ [t]) ∧ (t = 1#8 ∨ t = 2#8) := by
  obtain ⟨n, cb, q, h1, h2, h3, h4⟩ := h
  have join : ∀ {bs : Bytes}, Holds x.env.buf (start + cb.length) bs → Holds x.env.buf start (cb ++ bs) := fun h => h3.append h
  cases h4 with
  | skip n p q items junk j1 j2 j3 =>
    refine .inr ⟨_, cb, 1#8, h2, join j2.left, .inl rfl⟩
  | cons n p q r it items e1 e2 =>
    cases e1 with
    | byRef t name node o s so sum nm sz sm a1 a2 a3 a4 a5 a6 a7 a8 a9 =>
      refine .inr ⟨_, cb, 2#8, h2, join ?_, .inr rfl⟩
      exact Holds.left (a := [2#8]) (by simpa only [List.append_assoc] using a9)
    | direct t name node o s sum nm sz sm a1 a2 a3 a4 a5 a6 a7 =>
      have ht : PlainType t := by cases a1 <;> simp [PlainType]
      have a8 : Holds x.env.buf (start + cb.length) ([t] ++ nm) := by
        rw [List.append_assoc, List.append_assoc] at a7
        exact a7.left
      have key : ∀ (form : NameForm) (len : Bytes), NameLen name.length form len → nm = len ++ nameBytes x.env.ks name form →
          ∃ p form, FirstEntry x.env.buf start p name.length form ∧ NameAt x.env.buf p name.length form x.env.ks := by
        rintro form len hl rfl
        have a9 := join a8
        rw [← List.append_assoc, ← List.append_assoc] at a9
        refine ⟨_, form, ⟨(n + 1 : Nat), t, ⟨cb, len, h2, hl, a9.left, rfl⟩, ht, by omega, by omega⟩, name, ha, rfl, a9.right⟩
      left
      cases a4 with
      | empty hn => exact absurd hn hne
      | ascii len b1 b2 => exact key .narrow len (.narrow b2) rfl
      | unicode len b1 =>
        rw [utf16EncStr_len_ascii ha] at b1
        exact key .wide len (.wide b1) rfl

/-- C66: a version that is not right for the first name does not count: the call is the one without it. -/
theorem C66_wz_wrong (m : Mode) (st : Bytes → Nat → Byte) (file : Option (List Char)) (buf : Bytes) (fsize fstart : Nat) (enc : Option Nat)
    (version : MapleVersion) (patch : Option Int) (parent : Option Nat) (p n : Nat) (form : NameForm) (hb : buf.length < 2 ^ 63)
    (hh : Pkg1Head buf fsize fstart enc) (hf : FirstEntry buf (pkg1Start fstart enc) p n form)
    (hk : ¬NameAt buf p n form (plainKey st version)) :
    openWz m st file buf (some version) patch parent none = openWz m st file buf none patch parent none := by
  obtain ⟨count, t, hf, ht, hc⟩ := hf
  have := (C55_given_used m st buf _ _ count t n p form (ivKey st (ivOfVersion version)) none patch hb (pkg1_head hh) hf ht hc).2 (by
    rw [ivKey_version]; exact hk)
  unfold openWz
  cases file with
  | none => rfl
  | some file =>
    show (match WFile.fromBuf m st buf none (some (ivOfVersion version)) patch with | .error x => _ | .ok f => _) = _
    rw [C55_given_iv, this]
    rfl

/-! ### PKG2 -/

theorem pkg2_head {buf : Bytes} {h : Header} (hh : Pkg2Head buf h) :
    (∃ k, Header.readFromBuf buf = .ok (h, k)) ∧ h.ident = .v2 ∧ h.fstart < 2 ^ 32 ∧ buf ≠ [] := by
  cases hh with
  | plain fsize fstart h1 h2 a b c d => exact ⟨⟨_, C16_pkg2 buf fsize fstart h1 h2 a b c d⟩, rfl, a.2.2, head_nonempty a⟩
  | random32 h1 h2 a b c d e f g i =>
    exact ⟨⟨_, C17_random32 buf h1 h2 a b ⟨c, d⟩ e f g i⟩, rfl, by show 68 < _; decide, by rintro rfl; cases a⟩
  | random64 h1 h2 a b c d f g i =>
    exact ⟨⟨_, C17_random64 buf h1 h2 a b ⟨c, d⟩ f g i⟩, rfl, by show 150 < _; decide, by rintro rfl; cases a⟩

theorem fromBuf_any {m : Mode} {st : Bytes → Nat → Byte} {buf : Bytes} {h : Header} {k : Nat} {r : Option MapleVersion}
    (hh : Header.readFromBuf buf = .ok (h, k)) (hr : guessKey m st buf = .ok r) :
    WFile.fromBuf m st buf none none none = .ok (foundFile m st buf h r) := by
  have hk : ∀ v, r = some v → v ∈ [MapleVersion.bms, .gms, .ems, .kmst1198] := by
    rintro v rfl; exact C55_found_known m st buf v hr
  unfold WFile.fromBuf openKey givenKey
  dsimp only
  rw [hr]
  show Except.ok (WFile.made m buf none (r.map (versionKey st))) = _
  unfold WFile.made
  rw [headerOf_ok hh]
  cases r with
  | none => rfl
  | some v =>
    have := hk v rfl
    simp only [List.mem_cons, List.not_mem_nil, or_false] at this
    rcases this with rfl | rfl | rfl | rfl
    · rfl
    · rfl
    · rfl
    · show Except.ok (WFile.mk ⟨m, buf, _, kmst1198Stream⟩ _ _ _ _ _ _ _ _) = _
      rw [key1198_stream]
      rfl

/-- C66, PKG2 with 32-bit hashes, only the path given: with the version `r` found for the name of the first entry, or none, in which case the
key is computed from the hashes, the archive is shown, if no candidate for its profile tried earlier is taken for it. -/
theorem C66_pkg2_found (m : Mode) (st : Bytes → Nat → Byte) (file stem : List Char) (buf : Bytes) (h : Header) (r : Option MapleVersion)
    (count : Int) (t : Byte) (n p : Nat) (c : Cached) (items : List (List Char × DNode)) (arch : List (List Char × ATree))
    (parent : Option Nat) (hs : StemOf file stem) (hd : file ≠ ['.', '.']) (hb : buf.length < 2 ^ 63) (hh : Pkg2Head buf h)
    (h64 : h.flags.bits ≠ 4#8) (hf : FirstShort buf h.dataStart count t n p) (ht : PlainType t)
    (hk : FirstIn (ReadsAs st buf p n .narrow) [.bms, .gms, .ems, .kmst1198] r) (hc : c.hash ≠ 0)
    (hdir : HoldsDir (Block2 (reading (foundFile m st buf h r) c) c.profile.ver c.hash) h.dataStart items)
    (ha : HoldsArchive (reading (foundFile m st buf h r) c).env items arch) :
    ∃ N, ∀ F : Fuel, N ≤ F.loop → N ≤ F.nest → ∀ k fuel, N ≤ fuel → ∀ cache : List Cached,
      (∀ c ∈ cache, c.profile ∈ rows true ∨ c.profile ∈ rows false) →
      ∃ cands, Candidates h cache cands ∧ ∀ before after, cands = before ++ c :: after →
        (∀ b ∈ before, Refused F (foundFile m st buf h r) b) →
        OpensAs (openWzPlain m st (some file) buf parent) stem parent (arcContent F k fuel cache)
          (reading (foundFile m st buf h r) c).env arch := by
  obtain ⟨⟨k, hk1⟩, hi, hfs, hne⟩ := pkg2_head hh
  obtain ⟨r', hr, hr'⟩ := C55_guess_pkg2 m st buf h k count t n p hb hk1 hi hf ht
  cases FirstIn.det hr' hk
  have hh1 : (foundFile m st buf h r).hdr = h := by cases r with
    | none => rfl
    | some v => cases v <;> rfl
  have hh2 : (foundFile m st buf h r).env.buf = buf := by cases r with
    | none => rfl
    | some v => cases v <;> rfl
  have h64' : h.isPkg2_64 = false := by
    cases hh with
    | plain => show HeaderFlag.contains ⟨0#8⟩ .random64 = false; decide
    | random32 => show HeaderFlag.contains ⟨2#8⟩ .random64 = false; decide
    | random64 => exact absurd rfl h64
  obtain ⟨N, hN⟩ := C58_pkg2 (foundFile m st buf h r) c items arch (by rw [hh1]; exact hi) (by rw [hh1]; exact h64') (by rw [hh1]; exact hfs)
    (by rw [hh2]; exact hb) (by rw [hh2]; exact hne) hc (by rw [hh1]; exact hdir) ha
  refine ⟨N, fun F h1 h2 k fuel hfu cache hg => ?_⟩
  obtain ⟨cands, hca, H⟩ := hN F h1 h2 k fuel hfu cache hg
  rw [hh1] at hca
  exact ⟨cands, hca, fun before after hb hr' => opens_of hs hd (fromBuf_any hk1 hr) (H before after hb hr')⟩

/-- C66, PKG2 with 64-bit hashes, only the path given, in part: the version found is a hypothesis here, since the first name of such a file is
looked for in the wrong place (its entry count has eight bytes); with none found the key is computed.  As in C58 the encrypted entry counts of
subdirectories must not be negative. -/
theorem C66_pkg2_64_partial (m : Mode) (st : Bytes → Nat → Byte) (file stem : List Char) (buf : Bytes) (h : Header) (r : Option MapleVersion)
    (t : BitVec 64) (items : List (List Char × DNode)) (arch : List (List Char × ATree))
    (parent : Option Nat) (hs : StemOf file stem) (hd : file ≠ ['.', '.']) (hb : buf.length < 2 ^ 63) (hh : Pkg2Head buf h)
    (h64 : h.flags.bits = 4#8) (hr : guessKey m st buf = .ok r) (ht : Solves6 h.hash1 h.hash2 t) (h0 : t ≠ 0)
    (hdir : HoldsDir (Block64 (reading (foundFile m st buf h r) ⟨row1202, t⟩) t) h.dataStart items)
    (ha : HoldsArchive (reading (foundFile m st buf h r) ⟨row1202, t⟩).env items arch) :
    ∃ N, ∀ F : Fuel, N ≤ F.loop → N ≤ F.nest → ∀ k fuel, N ≤ fuel → ∀ cache : List Cached,
      (∀ c ∈ cache, c.profile ∈ rows true ∨ c.profile ∈ rows false) →
      OpensAs (openWzPlain m st (some file) buf parent) stem parent (arcContent F k fuel cache)
        (reading (foundFile m st buf h r) ⟨row1202, t⟩).env arch := by
  obtain ⟨⟨k, hk1⟩, hi, hfs, hne⟩ := pkg2_head hh
  have hh1 : (foundFile m st buf h r).hdr = h := by cases r with
    | none => rfl
    | some v => cases v <;> rfl
  have hh2 : (foundFile m st buf h r).env.buf = buf := by cases r with
    | none => rfl
    | some v => cases v <;> rfl
  have h64' : h.isPkg2_64 = true := by
    unfold Header.isPkg2_64 HeaderFlag.contains
    rw [h64]
    rfl
  obtain ⟨N, hN⟩ := C58_pkg2_64_partial (foundFile m st buf h r) t items arch (by rw [hh1]; exact hi) (by rw [hh1]; exact h64')
    (by rw [hh1]; exact hfs) (by rw [hh2]; exact hb) (by rw [hh2]; exact hne) (by rw [hh1]; exact ht) h0 (by rw [hh1]; exact hdir) ha
  exact ⟨N, fun F h1 h2 k fuel hfu cache hg => opens_of hs hd (fromBuf_any hk1 hr) (hN F h1 h2 k fuel hfu cache hg)⟩

/-! ### what is refused -/

/-- C66: a path without a last component is a panic, for every kind of file. -/
theorem C66_no_name (m : Mode) (st : Bytes → Nat → Byte) (C : ChaCha) (buf : Bytes) (version : Option MapleVersion) (patch : Option Int)
    (iv : Option Bytes) (parent : Option Nat) (existing : Option SKey) :
    openWz m st none buf version patch parent existing = .error .panicUnwrap ∧ openMs m C none buf parent = .error .panicUnwrap ∧
      openImg m st none buf iv parent = .error .panicUnwrap := ⟨rfl, rfl, rfl⟩

theorem guessLoop_panics {m : Mode} {st : Bytes → Nat → Byte} {buf : Bytes} {sm : StrMeta} {vs : List MapleVersion} {x : Err}
    (h : guessLoop m st buf sm vs = .error x) : x.isPanic = true := by
  induction vs with
  | nil => cases h
  | cons v vs ih =>
    unfold guessLoop at h
    cases hv : verifyMeta m buf (versionKey st v) sm with
    | error y =>
      rw [hv] at h
      cases h
      unfold verifyMeta at hv
      split at hv
      · cases hv
      · split at hv
        · rename_i hp; cases hv; exact hp
        · cases hv
    | ok b =>
      rw [hv] at h
      cases b
      · exact ih h
      · cases h

theorem guessKey_panics {m : Mode} {st : Bytes → Nat → Byte} {buf : Bytes} {x : Err} (h : guessKey m st buf = .error x) : x.isPanic = true := by
  have hn : ∀ r y, orNone r = .error y → y.isPanic = true := by
    intro r y h
    unfold orNone at h
    split at h
    · cases h
    · split at h
      · rename_i hp; cases h; exact hp
      · cases h
  have ha : ∀ sm vs y, guessAmong m st buf sm vs = .error y → y.isPanic = true := by
    intro sm vs y h
    unfold guessAmong at h
    split at h
    · cases h
    · exact guessLoop_panics h
  unfold guessKey at h
  split at h
  · rename_i hr; cases h; exact hn _ _ hr
  · split at h
    · rename_i hr; cases h; exact ha _ _ _ hr
    · cases h
    · split at h
      · rename_i hr; cases h; exact hn _ _ hr
      · exact ha _ _ _ h

/-- C66: a `.wz` file is never refused when it is opened, whatever bytes it has; the only failure is a panic. -/
theorem C66_wz_never_refused (m : Mode) (st : Bytes → Nat → Byte) (file : Option (List Char)) (buf : Bytes) (version : Option MapleVersion)
    (patch : Option Int) (parent : Option Nat) (existing : Option SKey) (x : Err)
    (h : openWz m st file buf version patch parent existing = .error x) : x.isPanic = true := by
  unfold openWz at h
  cases file with
  | none => cases h; rfl
  | some file =>
    dsimp only at h
    split at h
    · rename_i y hf
      cases h
      unfold WFile.fromBuf at hf
      split at hf
      · rename_i y ho
        cases hf
        have hg : ∀ z, (match guessKey m st buf with
            | .error x => (.error x : Except Err (Option SKey))
            | .ok r => .ok (r.map (versionKey st))) = .error z → z.isPanic = true := by
          intro z hz
          split at hz
          · rename_i hr; cases hz; exact guessKey_panics hr
          · cases hz
        unfold openKey at ho
        dsimp only at ho
        split at ho
        · exact hg _ ho
        · split at ho
          · rename_i hv
            cases ho
            unfold verifyKey at hv
            split at hv
            · split at hv
              · rename_i hp; cases hv; exact hp
              · cases hv
            · unfold verifyMeta at hv
              split at hv
              · cases hv
              · split at hv
                · rename_i hp; cases hv; exact hp
                · cases hv
          · cases ho
          · exact hg _ ho
      · cases hf
    · cases h

/-- C66 is violated: opening a file that is no archive gives a node, where the documentation promises an error.  The error comes when the node
is parsed. -/
theorem C66_wz_not_archive_counterexample (st : Bytes → Nat → Byte) : ∃ buf c f, openWzPlain .wrap st (some "Base.wz".toList) buf none = .ok (c, f) ∧
    (∃ e, Header.readFromBuf buf = .error e) ∧ ∀ F n fuel cache,
      (NHeap.parse [some c] (arcContent F n fuel cache f) 0).1 = .error (.lib "UnknownPkgVersion") := by
  have h1 : ((Rd.firstName (headerOf [0x58#8])).run (plainEnv .wrap [0x58#8]) ⟨0, 0⟩).1 = .error .read := by decide +kernel
  have h2 : ((Rd.firstName2 (headerOf [0x58#8])).run (plainEnv .wrap [0x58#8]) ⟨0, 0⟩).1 = .error (.lib "DecryptError") := by decide +kernel
  have hg : guessKey .wrap st [0x58#8] = .ok none := by
    unfold guessKey
    rw [h1]
    dsimp only [orNone, Err.isPanic, guessAmong, StrMeta.none]
    rw [h2]
    rfl
  refine ⟨[0x58#8], newCell "Base".toList (.file false (Encodable.encode Src58.file)) none, WFile.made .wrap [0x58#8] none none, ?_, ⟨.read, by decide +kernel⟩, ?_⟩
  · unfold openWzPlain openWz WFile.fromBuf openKey givenKey
    dsimp only [Option.map_none]
    rw [hg]
    rfl
  · intro F n fuel cache
    have hp : (WFile.made .wrap [0x58#8] none none).parse F n cache = (.error (.lib "UnknownPkgVersion"), WFile.made .wrap [0x58#8] none none) := rfl
    have : arcContent F n fuel cache (WFile.made .wrap [0x58#8] none none) (Encodable.encode Src58.file) = .error (.lib "UnknownPkgVersion") := by
      unfold arcContent
      rw [Encodable.encodek]
      dsimp only
      rw [hp]
      rfl
    have hpl : NKind.plan (arcContent F n fuel cache (WFile.made .wrap [0x58#8] none none)) (.file false (Encodable.encode Src58.file)) =
        some (.error (.lib "UnknownPkgVersion")) := by
      unfold NKind.plan
      dsimp only
      rw [this]
      rfl
    simp [NHeap.parse, NHeap.cell, newCell, hpl]

/-! ### images -/

theorem image_of {e : Env} {kids : List (List Char × PTree)} {q : Nat} (h : PropertyImage e 0 kids q) :
    ImageOf e.ks e.buf ∧ Holds e.buf 0 [0x73#8] := by
  obtain ⟨bs, h1, -, h2, -⟩ := h
  have h3 : Holds e.buf 0 ([0x73#8] ++ (bs ++ toLE 2 0)) := h2
  exact ⟨⟨bs, h1, by simpa using h3.right.left⟩, h3.left⟩

theorem opens_image {m : Mode} {st : Bytes → Nat → Byte} {name : List Char} {buf : Bytes} {iv' : Option Bytes} {iv : Bytes} {parent : Option Nat}
    {kids : List (List Char × PTree)} {q : Nat} (hb : buf.length < 2 ^ 63) (hn : ¬NameEnds name ".txt".toList)
    (hp : PropertyImage ⟨m, buf, streamOfIv st iv, fun _ => 0#8⟩ 0 kids q) (hu : NoUol kids)
    (ho : imgFromFile m (imgStream st) name buf iv' = .ok (⟨name, 0, buf.length⟩, iv)) :
    ∃ N, ∀ fuel, N ≤ fuel → OpensImage (openImg m st (some name) buf iv' parent) name parent fuel kids := by
  obtain ⟨N, hN⟩ := C58_image ⟨m, buf, streamOfIv st iv, fun _ => 0#8⟩ name 0 buf.length (.image kids) hb (by decide) (.props kids q hn hp)
    (by intro ps h; cases h; exact hu)
  refine ⟨N, fun fuel hf => ⟨newCell name (.image false (Encodable.encode (Src58.image name 0 buf.length))) parent,
    ⟨m, buf, streamOfIv st iv, fun _ => 0#8⟩, ?_, rfl, rfl, fun h i hc => ?_⟩⟩
  · unfold openImg
    dsimp only
    rw [ho]
    rfl
  · obtain ⟨g, hg, H⟩ := hN fuel hf h i _ hc rfl rfl
    refine ⟨g, hg, fun path n ns hp => ?_⟩
    have := H path (n :: ns) hp
    have hat : arcAt [(name, ATree.image kids)] (name :: n :: ns) = (propAt kids (n :: ns)).map .prop := by
      simp [arcAt, lastNamed]
    rw [hat] at this
    cases hv : propAt kids (n :: ns) with
    | none => rw [hv] at this; exact this
    | some v => rw [hv] at this; exact this

/-- C66, an `.img` file with its IV (`from_img_file_with_iv`) or version: the node has the name of the file and shows every property. -/
theorem C66_img_told (m : Mode) (st : Bytes → Nat → Byte) (name : List Char) (buf iv : Bytes) (parent : Option Nat)
    (kids : List (List Char × PTree)) (q : Nat) (hb : buf.length < 2 ^ 63) (hn : ¬NameEnds name ".txt".toList)
    (hp : PropertyImage ⟨m, buf, streamOfIv st iv, fun _ => 0#8⟩ 0 kids q) (hu : NoUol kids) :
    ∃ N, ∀ fuel, N ≤ fuel → OpensImage (openImg m st (some name) buf (some iv) parent) name parent fuel kids := by
  refine opens_image hb hn hp hu ?_
  have := C47_verify_accepts m (imgStream st) buf iv hb (image_of hp).1
  show (verifyImgIv m (imgStream st) buf iv >>= fun ok => if ok then pure ((⟨name, 0, buf.length⟩, iv) : Img × Bytes) else throw (.lib "WrongVersion")) = _
  rw [this]
  rfl

/-- C66, an `.img` file by its path alone: the key must be one of the three known, and none tried before it may read `Property` as well. -/
theorem C66_img_found (m : Mode) (st : Bytes → Nat → Byte) (name : List Char) (buf iv : Bytes) (parent : Option Nat)
    (kids : List (List Char × PTree)) (q : Nat) (hb : buf.length < 2 ^ 63) (hn : ¬NameEnds name ".txt".toList)
    (hiv : FirstOf ivOrder (fun iv => ImageOf (streamOfIv st iv) buf) iv)
    (hp : PropertyImage ⟨m, buf, streamOfIv st iv, fun _ => 0#8⟩ 0 kids q) (hu : NoUol kids) :
    ∃ N, ∀ fuel, N ≤ fuel → OpensImage (openImgVersion m st (some name) buf none parent) name parent fuel kids := by
  refine opens_image hb hn hp hu ?_
  have hc := (C47_open_image (imgStream st) name buf iv hb (⟨name, 0, buf.length⟩, iv)).2.2 ⟨(image_of hp).2, hiv, rfl⟩
  cases m with
  | checked => exact hc
  | wrap =>
    rcases imgFromFile_ag (b := buf) (imgStream st) name none with h | h
    · rw [h] at hc; cases hc
    · exact h.symm.trans hc

/-- C66, MS archives: if the archive can be opened, the node has the name of the file without its ending; and if the archive shows what
was put into it wherever its node is (`C65_v1`, `C65_v2_partial`), the node that was made does. -/
theorem C66_ms (m : Mode) (C : ChaCha) (file stem : List Char) (buf : Bytes) (f : MsFile) (parent : Option Nat) (content : Content)
    (reader : List Char → Env) (arch : List (List Char × ATree)) (hs : StemOf file stem) (hd : file ≠ ['.', '.'])
    (ho : msOpen m C buf file = .ok f) (hr : MsReadsBack content reader arch) :
    ∃ c, openMs m C (some file) buf parent = .ok (c, f) ∧ c.name = stem ∧ c.parent = parent ∧
      ∀ (h : NHeap) (i : Nat), h.cell i = some c → ∃ g, h.parse content i = (.ok (), g) ∧
        ∀ ops : List MsOp, (∀ op ∈ ops, AllowedMs arch op) →
          FindsMs content reader (runMs content i g ops) i arch ∧ ChildrenMs content reader (runMs content i g ops) i arch := by
  refine ⟨newCell stem (.msFile false 0) parent, ?_, rfl, rfl, fun h i hc => hr h i ⟨_, hc, rfl, rfl⟩⟩
  unfold openMs
  dsimp only
  rw [ho, stem_eq hs hd]

end Wz.Props
