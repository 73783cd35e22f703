import Verif.File.State
import Verif.File.Spec
import Verif.Version.Pkg2Props
/-!
# The loops over the candidates
-/

set_option autoImplicit false
variable {α β γ : Type}

namespace Wz
open Spec

abbrev Kids := List (List Char × DNode)
abbrev Trial := Except Err (Option (Cached × Kids)) × WFile × Dir

/-- a file that differs from the first by the key of its directory only, and not at all if its decryptor is known -/
def Same (f0 f : WFile) : Prop :=
  (∃ k, f = { f0 with env := { f0.env with ks2 := k } }) ∧ (f0.verified = true → f = f0)

theorem Same.refl (f : WFile) : Same f f := ⟨⟨f.env.ks2, rfl⟩, fun _ => rfl⟩

/-- what is true of the directory between attempts -/
structure Between (F : Fuel) (f0 : WFile) (d : Dir) : Prop where
  offset : d.offset = f0.hdr.dataStart
  size : d.blockSize = f0.env.buf.length
  narrow : f0.hdr.isPkg2_64 = false → d.status = .created ∧
    ∃ d0, prepareEntries f0.ctx F.loop f0.root = .ok d0 ∧ d.entries.map Entry.bare = d0.entries.map Entry.bare

/-- the file as read for a candidate -/
def readFor (f : WFile) (c : Cached) : WFile := if f.verified then f else f.updateKeys c.profile c.hash

theorem byte_dirKey (w : BitVec 64) (j : Nat) : (w >>> (8 * j)).setWidth 8 = BitVec.ofNat 8 (w.toNat / 256 ^ j % 256) := by
  apply BitVec.eq_of_toNat_eq
  rw [BitVec.toNat_setWidth, BitVec.toNat_ushiftRight, Nat.shiftRight_eq_div_pow, BitVec.toNat_ofNat,
    show (2 : Nat) ^ (8 * j) = 256 ^ j from by rw [Nat.pow_mul]]
  omega

theorem lo32_eq (w : BitVec 64) : w.setWidth 32 = lo32 w := by
  apply BitVec.eq_of_toNat_eq
  simp [lo32]

theorem ext64_eq (w : BitVec 32) : w.setWidth 64 = BitVec.ofNat 64 w.toNat := by
  apply BitVec.eq_of_toNat_eq
  simp

theorem profileKeys_eq (p : Profile) (h1 t : BitVec 64) :
    profileKeys p h1 t = dirKey (if p.name = .v1202 then kmst1202Key h1 t
      else BitVec.ofNat 64 (kmst1199Key (lo32 h1) (lo32 t)).toNat) := by
  funext i
  unfold profileKeys
  have hw : (if p.is64 = true then kmst1202Key h1 t else (kmst1199Key (h1.setWidth 32) (t.setWidth 32)).setWidth 64) =
      (if p.name = .v1202 then kmst1202Key h1 t else BitVec.ofNat 64 (kmst1199Key (lo32 h1) (lo32 t)).toNat) := by
    unfold Profile.is64
    by_cases h : p.name = .v1202
    · rw [if_pos h, if_pos (by rw [h]; rfl)]
    · rw [if_neg h, if_neg (by simpa using h), lo32_eq, lo32_eq, ext64_eq]
  rw [hw]
  generalize (if p.name = .v1202 then kmst1202Key h1 t else BitVec.ofNat 64 (kmst1199Key (lo32 h1) (lo32 t)).toNat) = w
  unfold Pkg2Dec.keyAt Pkg2Dec.setIv dirKey
  dsimp only
  have : i % 8 < 8 := by omega
  rcases (by omega : i % 8 = 0 ∨ i % 8 = 1 ∨ i % 8 = 2 ∨ i % 8 = 3 ∨ i % 8 = 4 ∨ i % 8 = 5 ∨ i % 8 = 6 ∨ i % 8 = 7) with
    h | h | h | h | h | h | h | h <;> rw [h] <;> exact byte_dirKey w _

theorem readFor_ctx (f : WFile) (c : Cached) : (readFor f c).ctx = reading f c := by
  unfold readFor reading
  cases hv : f.verified with
  | true => rfl
  | false =>
    rw [if_neg (by decide), if_neg (by decide)]
    unfold WFile.updateKeys WFile.ctx
    rw [profileKeys_eq]

theorem readFor_same {f0 f : WFile} (h : Same f0 f) (c : Cached) :
    readFor f c = readFor f0 c ∧ f.verified = f0.verified ∧ f.hdr = f0.hdr := by
  obtain ⟨⟨k, hk⟩, hv⟩ := h
  have h1 : f.verified = f0.verified := by rw [hk]
  refine ⟨?_, h1, by rw [hk]⟩
  unfold readFor
  rw [h1]
  cases hv' : f0.verified with
  | true => rw [if_pos rfl, if_pos rfl]; exact hv hv'
  | false => rw [if_neg (by decide), if_neg (by decide), hk]; rfl

theorem same_readFor (f : WFile) (c : Cached) : Same f (readFor f c) := by
  unfold readFor
  cases hv : f.verified with
  | true => exact .refl f
  | false => exact ⟨⟨_, rfl⟩, fun h => by rw [hv] at h; cases h⟩

theorem reading_key (f : WFile) (c : Cached) : ∃ k, reading f c = f.ctx.key k := by
  unfold reading
  cases f.verified with
  | true => exact ⟨f.env.ks2, rfl⟩
  | false => exact ⟨_, rfl⟩

theorem prepare_reading (F : Fuel) (f : WFile) (c : Cached) (d : Dir) :
    prepareEntries (reading f c) F.loop d = prepareEntries f.ctx F.loop d := by
  obtain ⟨k, hk⟩ := reading_key f c
  rw [hk, prepareEntries_key]

/-- reading the entries of a directory does not depend on hash and profile, unless the header has 64-bit words -/
theorem prepare_narrow (x : DirCtx) (lf : Nat) (d : Dir) (h : BitVec 64) (v : OffsetVersion) (hd : d.status = .init)
    (hn : x.hdr.ident = .v2 → x.hdr.isPkg2_64 = false) :
    prepareEntries x lf { d with hash := h, ver := v } = (prepareEntries x lf d).map fun d => { d with hash := h, ver := v } := by
  rw [prepareEntries_init x lf d hd, prepareEntries_init x lf _ (by exact hd)]
  have : entriesRd x.hdr x.keys2 lf v h = entriesRd x.hdr x.keys2 lf d.ver d.hash := by
    unfold entriesRd
    cases hi : x.hdr.ident with
    | v1 => rfl
    | v2 =>
      dsimp only
      rw [if_neg (by rw [hn hi]; decide), if_neg (by rw [hn hi]; decide)]
    | unknown => rfl
  dsimp only
  rw [this]
  cases ((entriesRd x.hdr x.keys2 lf d.ver d.hash).run x.env ⟨d.offset, 0⟩).1 <;> rfl

/-- the directory before an attempt, compared with the untouched one -/
theorem setUp_spec {F : Fuel} {f0 : WFile} {d : Dir} {c : Cached} (hb : Between F f0 d)
    (hw : c.profile.is64 = f0.hdr.isPkg2_64) :
    setUp c.profile c.hash d = untouched f0 c ∨
    ((setUp c.profile c.hash d).status = .created ∧
      ∃ d0, prepareEntries (reading f0 c) F.loop (untouched f0 c) = .ok d0 ∧ Like (setUp c.profile c.hash d) d0) := by
  cases hx : f0.hdr.isPkg2_64 with
  | true =>
    left
    unfold setUp untouched
    rw [hw, hx, if_pos rfl]
    dsimp only
    rw [hb.offset, hb.size]
  | false =>
    right
    obtain ⟨hc, d0, hp, he⟩ := hb.narrow hx
    have hs : setUp c.profile c.hash d = { d with hash := c.hash, ver := c.profile.ver } := by
      unfold setUp
      rw [hw, hx, if_neg (by decide)]
    rw [hs]
    refine ⟨hc, { d0 with hash := c.hash, ver := c.profile.ver }, ?_, ?_⟩
    · rw [prepare_reading]
      have := prepare_narrow f0.ctx F.loop f0.root c.hash c.profile.ver rfl (fun _ => hx)
      rw [hp] at this
      exact this
    · obtain ⟨s1, s2, s3, s4, s5⟩ := prepare_status (fun h => by cases h) hp
      exact ⟨by rw [hb.offset]; exact s2.symm, by rw [hb.size]; exact s3.symm, rfl, rfl, by rw [s1]; exact hc, he⟩

/-- one attempt as a loop sees it -/
def tryOne (F : Fuel) (f : WFile) (c : Cached) (d : Dir) : Trial :=
  match tryProfile F f c.profile c.hash (setUp c.profile c.hash d) with
  | (.ok ns, f', d') => (.ok (some (c, ns)), f', d')
  | (.error e, f', d') => if e.ends then (.error e, f', d') else (.ok none, f', d')

/-- a trial of a list of candidates that goes as it should -/
structure Tried (F : Fuel) (f0 : WFile) (cands : List Cached) (t : Trial) : Prop where
  finds : ∀ before c after kids, cands = before ++ c :: after → (∀ b ∈ before, Refused F f0 b) → Opens F f0 c kids →
    t.1 = .ok (some (c, kids))
  refused : (∀ b ∈ cands, Refused F f0 b) → t.1 = .ok none
  found : ∀ c kids, t.1 = .ok (some (c, kids)) → t.2.1 = readFor f0 c ∧ Opens F f0 c kids ∧
    ∃ before after, cands = before ++ c :: after ∧ ∀ b ∈ before, ∀ k, ¬Opens F f0 b k
  failed : t.1 = .ok none → (∀ b ∈ cands, ∀ k, ¬Opens F f0 b k) ∧ Same f0 t.2.1 ∧ Between F f0 t.2.2

theorem Refused.not_opens {F : Fuel} {f : WFile} {c : Cached} (h : Refused F f c) (k : Kids) : ¬Opens F f c k := by
  rintro ⟨h1, h2⟩
  rcases h.1 with h0 | ⟨e, he, _⟩
  · exact h1 h0
  · rw [h2] at he; cases he

theorem Tried.nil {F : Fuel} {f0 f : WFile} {d : Dir} (hs : Same f0 f) (hb : Between F f0 d) : Tried F f0 [] (.ok none, f, d) where
  finds := fun before c after kids h => by cases before <;> cases h
  refused := fun _ => rfl
  found := fun c kids h => by cases h
  failed := fun _ => ⟨fun b hb => by (cases hb), hs, hb⟩

/-- what a loop does after an attempt -/
def andThen (t : Trial) (next : WFile → Dir → Trial) : Trial :=
  match t with
  | (.ok none, f, d) => next f d
  | t => t

theorem append_cons_cases {as bs before after : List α} {c : α} (h : as ++ bs = before ++ c :: after) :
    (∃ r, as = before ++ c :: r ∧ after = r ++ bs) ∨ (∃ m, before = as ++ m ∧ bs = m ++ c :: after) := by
  induction as generalizing before with
  | nil => exact .inr ⟨before, rfl, h⟩
  | cons a as ih =>
    cases before with
    | nil =>
      obtain ⟨h1, h2⟩ := List.cons.inj h
      subst h1
      exact .inl ⟨as, rfl, h2.symm⟩
    | cons b before =>
      obtain ⟨h1, h2⟩ := List.cons.inj h
      subst h1
      rcases ih h2 with ⟨r, h3, h4⟩ | ⟨m, h3, h4⟩
      · exact .inl ⟨r, by rw [h3]; rfl, h4⟩
      · exact .inr ⟨m, by rw [h3]; rfl, h4⟩

theorem Tried.andThen {F : Fuel} {f0 : WFile} {as bs : List Cached} {t : Trial} {next : WFile → Dir → Trial}
    (h : Tried F f0 as t) (hn : ∀ f d, Same f0 f → Between F f0 d → Tried F f0 bs (next f d)) :
    Tried F f0 (as ++ bs) (Wz.andThen t next) := by
  obtain ⟨r, f, d⟩ := t
  cases r with
  | error e =>
    refine ⟨fun before c after kids hc hr ho => ?_, fun hr => ?_, fun c kids hc => (by cases hc), fun hc => (by cases hc)⟩
    · rcases append_cons_cases hc with ⟨r, h3, h4⟩ | ⟨m, h3, h4⟩
      · exact absurd (h.finds before c r kids h3 hr ho) (by simp)
      · exact absurd (h.refused fun b hb => hr b (by rw [h3]; exact List.mem_append_left _ hb)) (by simp)
    · exact absurd (h.refused fun b hb => hr b (List.mem_append_left _ hb)) (by simp)
  | ok o =>
    cases o with
    | some r =>
      refine ⟨fun before c after kids hc hr ho => ?_, fun hr => ?_, fun c kids hc => ?_, fun hc => (by cases hc)⟩
      · rcases append_cons_cases hc with ⟨r, h3, h4⟩ | ⟨m, h3, h4⟩
        · exact h.finds before c r kids h3 hr ho
        · exact absurd (h.refused fun b hb => hr b (by rw [h3]; exact List.mem_append_left _ hb)) (by simp)
      · exact absurd (h.refused fun b hb => hr b (List.mem_append_left _ hb)) (by simp)
      · obtain ⟨h1, h2, before, after, h3, h4⟩ := h.found c kids hc
        exact ⟨h1, h2, before, after ++ bs, by rw [h3]; simp, h4⟩
    | none =>
      obtain ⟨hno, hs, hb⟩ := h.failed rfl
      have hn := hn f d hs hb
      refine ⟨fun before c after kids hc hr ho => ?_, fun hr => hn.refused fun b hb => hr b (List.mem_append_right _ hb),
        fun c kids hc => ?_, fun hc => ?_⟩
      · rcases append_cons_cases hc with ⟨r, h3, h4⟩ | ⟨m, h3, h4⟩
        · exact absurd ho (hno c (by rw [h3]; simp) kids)
        · exact hn.finds m c after kids h4 (fun b hb => hr b (by rw [h3]; exact List.mem_append_right _ hb)) ho
      · obtain ⟨h1, h2, before, after, h3, h4⟩ := hn.found c kids hc
        refine ⟨h1, h2, as ++ before, after, by rw [h3]; simp, fun b hb => ?_⟩
        rcases List.mem_append.mp hb with hb | hb
        · exact hno b hb
        · exact h4 b hb
      · obtain ⟨h1, h2, h3⟩ := hn.failed hc
        refine ⟨fun b hb => ?_, h2, h3⟩
        rcases List.mem_append.mp hb with hb | hb
        · exact hno b hb
        · exact h1 b hb

/-- the check of the first name succeeds if the directory can be read -/
theorem verify_of_rest {x : DirCtx} {lf n : Nat} {d : Dir} {ns : Kids} (hc : d.status = .created)
    (h : resolveRest x lf n d = .ok ns) : verifyStringDecryptor x d = .ok true := by
  unfold resolveRest at h
  obtain ⟨d2, h2, h⟩ := bind_ok h
  obtain ⟨nodes, h3, -⟩ := bind_ok h
  obtain ⟨hl, -⟩ := calcVerify_ok_like (mapError_ok h2)
  unfold verifyStringDecryptor
  rw [if_neg (by rw [hc]; decide)]
  have he := hl.entries
  cases hd : d.entries with
  | nil => rfl
  | cons en es =>
    rw [hd] at he
    cases hd2 : d2.entries with
    | nil => rw [hd2] at he; cases he
    | cons en2 es2 =>
      rw [hd2, List.map_cons, List.map_cons] at he
      have hname : en2.name = en.name := by have h9 := congrArg Entry.name (List.cons.inj he).1; exact h9
      rw [hd2] at h3
      have h4 := mapM_all2 h3
      cases h4 with
      | cons h5 _ =>
        have := (toNode_ok h5).1
        unfold StrMeta.Is at this
        rw [hname] at this
        dsimp only
        rw [this]

theorem verify_like {x : DirCtx} {d d' : Dir} (h : Like d d') : verifyStringDecryptor x d = verifyStringDecryptor x d' := by
  unfold verifyStringDecryptor
  rw [h.status]
  split
  · rfl
  · have he := h.entries
    cases hd : d.entries with
    | nil =>
      cases hd' : d'.entries with
      | nil => rfl
      | cons _ _ => rw [hd, hd'] at he; cases he
    | cons en es =>
      cases hd' : d'.entries with
      | nil => rw [hd, hd'] at he; cases he
      | cons en' es' =>
        rw [hd, hd', List.map_cons, List.map_cons] at he
        have hname : en.name = en'.name := by have h9 := congrArg Entry.name (List.cons.inj he).1; exact h9
        dsimp only
        rw [hname]

theorem verify_err_ends {x : DirCtx} {d : Dir} {e : Err} (h : verifyStringDecryptor x d = .error e) : e.ends = true := by
  unfold verifyStringDecryptor at h
  split at h
  · cases h
  · split at h
    · cases h
    · split at h
      · cases h
      · split at h
        · cases h
          rename_i hp
          unfold Err.ends
          rw [hp]; rfl
        · cases h

theorem between_like {F : Fuel} {f0 : WFile} {c : Cached} {d d0 : Dir} (h0 : prepareEntries (reading f0 c) F.loop (untouched f0 c) = .ok d0)
    (hl : Like d d0) : Between F f0 d := by
  obtain ⟨s1, s2, s3, s4, s5⟩ := prepare_status (fun h => by cases h) h0
  refine ⟨by rw [hl.offset, s2]; rfl, by rw [hl.size, s3]; rfl, fun hx => ⟨by rw [hl.status, s1], ?_⟩⟩
  rw [prepare_reading] at h0
  have := prepare_narrow f0.ctx F.loop f0.root c.hash c.profile.ver rfl (fun _ => hx)
  change prepareEntries f0.ctx F.loop (untouched f0 c) = _ at this
  rw [h0] at this
  cases hp : prepareEntries f0.ctx F.loop f0.root with
  | error e => rw [hp] at this; cases this
  | ok d1 =>
    rw [hp] at this
    injection this with this
    exact ⟨d1, rfl, by rw [hl.entries, this]⟩

theorem between_untouched {F : Fuel} {f0 : WFile} {c : Cached} (hx : f0.hdr.isPkg2_64 = true) : Between F f0 (untouched f0 c) :=
  ⟨rfl, rfl, fun h => by rw [hx] at h; cases h⟩

/-- the attempt proper: on the untouched directory or one with prepared entries -/
theorem decode_tried {F : Fuel} {f0 : WFile} {c : Cached} {d1 : Dir} (hn : F.nest ≠ 0) (hbuf : f0.env.buf ≠ [])
    (h : (d1 = untouched f0 c ∧ f0.hdr.isPkg2_64 = true) ∨
      (d1.status = .created ∧ ∃ d0, prepareEntries (reading f0 c) F.loop (untouched f0 c) = .ok d0 ∧ Like d1 d0)) :
    let t := tryDecode (reading f0 c) F.loop F.nest false 0 d1
    (∀ kids, Opens F f0 c kids → t.1 = .ok kids) ∧
    (∀ kids, t.1 = .ok kids → Opens F f0 c kids) ∧
    (Refused F f0 c → ∃ e, t.1 = .error e ∧ e.ends = false) ∧
    (∀ e, t.1 = .error e → e.ends = false → Between F f0 t.2) := by
  intro t
  obtain ⟨n, hnn⟩ : ∃ n, F.nest = n + 1 := ⟨F.nest - 1, by omega⟩
  have hlen : f0.env.buf.length ≠ 0 := by simpa using hbuf
  have hhash : d1.hash = c.hash ∧ d1.blockSize ≠ 0 := by
    rcases h with ⟨h, -⟩ | ⟨-, d0, h0, hl⟩
    · rw [h]; exact ⟨rfl, hlen⟩
    · obtain ⟨s1, s2, s3, s4, s5⟩ := prepare_status (fun h => by cases h) h0
      rw [hl.hash, hl.size, s3, s4]
      exact ⟨rfl, hlen⟩
  have hbt : Between F f0 d1 := by
    rcases h with ⟨h, hx⟩ | ⟨-, d0, h0, hl⟩
    · rw [h]; exact between_untouched hx
    · exact between_like h0 hl
  by_cases hz : c.hash = 0
  · have ht : t = (.error (.lib "ErrorGameVerHash"), d1) := tryDecode_zero _ _ _ _ _ _ (by rw [hhash.1, hz]; rfl)
    rw [ht]
    exact ⟨fun kids ho => absurd hz ho.1, fun kids h => by (cases h), fun _ => ⟨_, rfl, rfl⟩, fun e _ _ => hbt⟩
  · have hatt : attempt F f0 c = resolveDir (reading f0 c) F.loop (n + 1) d1 := by
      unfold attempt
      rw [hnn]
      rcases h with ⟨h, -⟩ | ⟨hc, d0, h0, hl⟩
      · rw [h]
      · rw [resolveDir_rest _ _ _ _ hhash.2, resolveDir_rest _ _ _ _ (by exact hlen), h0, prepare_created (by rw [hc]; decide)]
        exact (resolveRest_like hl).symm
    have hst : d1.status = .created ∨ d1.status = .init ∧ d1.entries = [] := by
      rcases h with ⟨h, -⟩ | ⟨hc, _⟩
      · rw [h]; exact .inr ⟨rfl, rfl⟩
      · exact .inl hc
    have key := tryDecode_spec (reading f0 c) F.loop n false 0 d1 hst hhash.2 (by rw [hhash.1]; exact hz) (by decide)
    rw [← hnn] at key
    rw [show resolveDir (reading f0 c) F.loop F.nest d1 = attempt F f0 c by rw [hatt, hnn]] at key
    obtain ⟨k1, k2⟩ := key
    refine ⟨fun kids ho => k1 kids ho.2, fun kids hk => ?_, fun hr => ?_, fun e he hs => ?_⟩
    · cases ha : attempt F f0 c with
      | ok ns =>
        have := k1 ns ha
        rw [hk] at this
        cases this
        exact ⟨hz, ha⟩
      | error e =>
        obtain ⟨e', h1, _⟩ := k2 e ha
        rw [hk] at h1; cases h1
    · rcases hr.1 with h0 | ⟨e, ha, he⟩
      · exact absurd h0 hz
      · obtain ⟨e', h1, h2, _⟩ := k2 e ha
        exact ⟨e', h1, by rw [h2, he]⟩
    · cases ha : attempt F f0 c with
      | ok ns =>
        have := k1 ns ha
        rw [he] at this; cases this
      | error e' =>
        obtain ⟨e'', h1, h2, h3⟩ := k2 e' ha
        rcases h3 with h3 | ⟨d2, h3, h4⟩
        · change Between F f0 (tryDecode (reading f0 c) F.loop F.nest false 0 d1).2
          rw [h3]; exact hbt
        · rcases h with ⟨h, -⟩ | ⟨hc, d0, h0, hl⟩
          · rw [h] at h3
            exact between_like h3 h4
          · rw [prepare_created (by rw [hc]; decide)] at h3
            cases h3
            exact between_like h0 (h4.trans hl)

theorem tryOne_tried {F : Fuel} {f0 f : WFile} {d : Dir} {c : Cached} (hn : F.nest ≠ 0) (hbuf : f0.env.buf ≠ [])
    (hs : Same f0 f) (hb : Between F f0 d) (hw : c.profile.is64 = f0.hdr.isPkg2_64) :
    Tried F f0 [c] (tryOne F f c d) := by
  obtain ⟨hrf, hver, -⟩ := readFor_same hs c
  -- it is enough to look at the attempt
  have fin : ∀ t : Except Err Kids × WFile × Dir, tryProfile F f c.profile c.hash (setUp c.profile c.hash d) = t →
      t.2.1 = readFor f0 c → (∀ kids, Opens F f0 c kids → t.1 = .ok kids) → (∀ kids, t.1 = .ok kids → Opens F f0 c kids) →
      (Refused F f0 c → ∃ e, t.1 = .error e ∧ e.ends = false) →
      (∀ e, t.1 = .error e → e.ends = false → Between F f0 t.2.2) → Tried F f0 [c] (tryOne F f c d) := by
    rintro ⟨r, f', d'⟩ ht hf h1 h2 h3 h4
    unfold tryOne
    rw [ht]
    dsimp only at hf h1 h2 h3 h4 ⊢
    subst hf
    have one : ∀ before c' after, [c] = before ++ c' :: after → before = [] ∧ c' = c := by
      intro before c' after h
      cases before with
      | nil => cases h; exact ⟨rfl, rfl⟩
      | cons a b => cases b <;> cases h
    cases r with
    | ok ns =>
      refine ⟨fun before c' after kids hc hr ho => ?_, fun hr => ?_, fun c' kids hc => ?_, fun hc => by (cases hc)⟩
      · obtain ⟨-, rfl⟩ := one _ _ _ hc
        have := h1 kids ho
        cases this
        rfl
      · obtain ⟨e, he, -⟩ := h3 (hr c List.mem_cons_self)
        cases he
      · cases hc
        exact ⟨rfl, h2 _ rfl, [], [], rfl, fun b hb => by (cases hb)⟩
    | error e =>
      dsimp only
      cases he : e.ends with
      | true =>
        rw [if_pos rfl]
        refine ⟨fun before c' after kids hc hr ho => ?_, fun hr => ?_, fun c' kids hc => by (cases hc), fun hc => by (cases hc)⟩
        · obtain ⟨-, rfl⟩ := one _ _ _ hc
          have := h1 kids ho
          cases this
        · obtain ⟨e', he', h⟩ := h3 (hr c List.mem_cons_self)
          cases he'
          rw [he] at h; cases h
      | false =>
        rw [if_neg (by decide)]
        refine ⟨fun before c' after kids hc hr ho => ?_, fun hr => rfl, fun c' kids hc => by (cases hc), fun hc => ⟨?_, same_readFor f0 c, h4 e rfl he⟩⟩
        · obtain ⟨-, rfl⟩ := one _ _ _ hc
          have := h1 kids ho
          cases this
        · intro b hb k ho
          rw [List.mem_singleton] at hb
          subst hb
          have := h1 k ho
          cases this
  have hset := setUp_spec hb hw
  have hset' : (setUp c.profile c.hash d = untouched f0 c ∧ f0.hdr.isPkg2_64 = true) ∨
    ((setUp c.profile c.hash d).status = .created ∧
      ∃ d0, prepareEntries (reading f0 c) F.loop (untouched f0 c) = .ok d0 ∧ Like (setUp c.profile c.hash d) d0) := by
    cases hx : f0.hdr.isPkg2_64 with
    | true => rcases hset with h | h; exact .inl ⟨h, rfl⟩; exact .inr h
    | false =>
      rcases hset with h | h
      · exfalso
        have h1 := (hb.narrow hx).1
        have h2 : (setUp c.profile c.hash d).status = d.status := by
          unfold setUp
          rw [hw, hx, if_neg (by decide)]
        rw [h, h1] at h2
        cases h2
      · exact .inr h
  unfold tryProfile at fin
  rw [hver] at fin
  cases hv : f0.verified with
  | true =>
    have hff : f = f0 := hs.2 hv
    subst hff
    have hrd : readFor f c = f := by unfold readFor; rw [hv, if_pos rfl]
    have hcx : f.ctx = reading f c := by rw [← readFor_ctx, hrd]
    rw [hv, if_pos rfl, hcx] at fin
    obtain ⟨h1, h2, h3, h4⟩ := decode_tried hn hbuf hset'
    cases ht : tryDecode (reading f c) F.loop F.nest false 0 (setUp c.profile c.hash d) with
    | mk r d' =>
      rw [ht] at fin h1 h2 h3 h4
      exact fin _ rfl hrd.symm h1 h2 h3 h4
  | false =>
    have hrd : f.updateKeys c.profile c.hash = readFor f0 c := by
      rw [← hrf]; unfold readFor; rw [hver, hv, if_neg (by decide)]
    have hcx : (f.updateKeys c.profile c.hash).ctx = reading f0 c := by rw [hrd, readFor_ctx]
    rw [hv, if_neg (by decide)] at fin
    dsimp only at fin
    rw [hcx, hrd] at fin
    obtain ⟨n, hnn⟩ : ∃ n, F.nest = n + 1 := ⟨F.nest - 1, by omega⟩
    have hlen : (untouched f0 c).blockSize ≠ 0 := by simpa [untouched] using hbuf
    cases hp : prepareEntries (reading f0 c) F.loop (setUp c.profile c.hash d) with
    | error e =>
      rw [hp] at fin
      rcases hset' with ⟨h, hx⟩ | ⟨hc, -⟩
      · rw [h] at hp
        have hatt : attempt F f0 c = .error e := by
          unfold attempt
          rw [hnn, resolveDir_rest _ _ _ _ hlen, hp]; rfl
        refine fin _ rfl rfl (fun kids ho => ?_) (fun kids hk => by (cases hk)) (fun hr => ⟨e, rfl, ?_⟩) (fun _ _ _ => ?_)
        · rw [ho.2] at hatt; cases hatt
        · exact hr.2 hv e (by rw [hp]; rfl)
        · rw [h]; exact between_untouched hx
      · rw [prepare_created (by rw [hc]; decide)] at hp
        cases hp
    | ok d1 =>
      rw [hp] at fin
      dsimp only at fin
      have hd1 : d1.status = .created ∧
          ∃ d0, prepareEntries (reading f0 c) F.loop (untouched f0 c) = .ok d0 ∧ Like d1 d0 := by
        rcases hset' with ⟨h, hx⟩ | ⟨hc, d0, h0, hl⟩
        · rw [h] at hp
          exact ⟨(prepare_status (fun h => by cases h) hp).1, d1, hp, .refl _⟩
        · rw [prepare_created (by rw [hc]; decide)] at hp
          cases hp
          exact ⟨hc, d0, h0, hl⟩
      obtain ⟨hc1, d0, h0, hl⟩ := hd1
      have hc0 : d0.status = .created := by rw [← hl.status]; exact hc1
      have hopen : ∀ kids, Opens F f0 c kids → verifyStringDecryptor (reading f0 c) d1 = .ok true := by
        intro kids ho
        have := ho.2
        unfold attempt at this
        rw [hnn, resolveDir_rest _ _ _ _ hlen, h0] at this
        rw [verify_like hl]
        exact verify_of_rest hc0 this
      cases hvs : verifyStringDecryptor (reading f0 c) d1 with
      | error y =>
        rw [hvs] at fin
        refine fin _ rfl rfl (fun kids ho => ?_) (fun kids hk => by (cases hk)) (fun hr => ⟨y, rfl, ?_⟩) (fun e he hs => ?_)
        · have := hopen kids ho; rw [hvs] at this; cases this
        · exact hr.2 hv y (by rw [h0]; simp only [bind, Except.bind]; rw [← verify_like hl]; exact hvs)
        · exact between_like h0 hl
      | ok b =>
        cases b with
        | false =>
          rw [hvs] at fin
          refine fin _ rfl rfl (fun kids ho => ?_) (fun kids hk => by (cases hk)) (fun hr => ⟨_, rfl, rfl⟩) (fun e he hs => ?_)
          · have := hopen kids ho; rw [hvs] at this; cases this
          · exact between_like h0 hl
        | true =>
          rw [hvs] at fin
          dsimp only at fin
          obtain ⟨h1, h2, h3, h4⟩ := decode_tried hn hbuf (.inr ⟨hc1, d0, h0, hl⟩)
          cases ht : tryDecode (reading f0 c) F.loop F.nest false 0 d1 with
          | mk r d' =>
            rw [ht] at fin h1 h2 h3 h4
            exact fin _ rfl rfl h1 h2 h3 h4

/-! ## Hashes -/

theorem mem_ext64 {l : List (BitVec 32)} {t : BitVec 64} :
    t ∈ l.map (·.setWidth 64) ↔ t.toNat < 2 ^ 32 ∧ lo32 t ∈ l := by
  rw [List.mem_map]
  constructor
  · rintro ⟨u, hu, rfl⟩
    have h1 : (u.setWidth 64).toNat = u.toNat := by
      rw [BitVec.toNat_setWidth]; omega
    refine ⟨by rw [h1]; omega, ?_⟩
    have : lo32 (u.setWidth 64) = u := by
      apply BitVec.eq_of_toNat_eq
      unfold lo32
      rw [BitVec.toNat_ofNat, h1]; omega
    rw [this]; exact hu
  · rintro ⟨h1, h2⟩
    refine ⟨lo32 t, h2, ?_⟩
    apply BitVec.eq_of_toNat_eq
    unfold lo32
    rw [BitVec.toNat_setWidth, BitVec.toNat_ofNat]; omega

theorem nodup_ext64 {l : List (BitVec 32)} (h : l.Nodup) : (l.map (·.setWidth 64) : List (BitVec 64)).Nodup := by
  induction l with
  | nil => exact List.nodup_nil
  | cons a l ih =>
    rw [List.nodup_cons] at h
    rw [List.map_cons, List.nodup_cons]
    refine ⟨fun hm => ?_, ih h.2⟩
    have h2 := (mem_ext64.mp hm).2
    have : lo32 (a.setWidth 64) = a := by
      apply BitVec.eq_of_toNat_eq
      unfold lo32
      rw [BitVec.toNat_ofNat, BitVec.toNat_setWidth]; omega
    rw [this] at h2
    exact h.1 h2

theorem lo32_toNat {t : BitVec 64} (h : t.toNat < 2 ^ 32) : (lo32 t).toNat = t.toNat := by
  unfold lo32
  rw [BitVec.toNat_ofNat]; omega

theorem lo32_zero {t : BitVec 64} (h : t.toNat < 2 ^ 32) : lo32 t = 0#32 ↔ t = 0 := by
  constructor
  · intro h0
    have := congrArg BitVec.toNat h0
    rw [lo32_toNat h] at this
    apply BitVec.eq_of_toNat_eq
    rw [this]; rfl
  · rintro rfl; rfl

theorem lo32_mod (t : BitVec 64) : (lo32 t).toNat % 16 = t.toNat % 16 := by
  unfold lo32
  rw [BitVec.toNat_ofNat]; omega

theorem hashes_spec (p : Profile) (h1 h2 : BitVec 64) (hg : p.gen ≠ .unknown) :
    ∃ hs, p.hashes h1 h2 = .ok hs ∧ hs.Nodup ∧ ∀ t, t ∈ hs ↔ Listed p.gen h1 h2 t := by
  unfold Profile.hashes Listed Equation Overlooked
  have nd := Props.C12_no_duplicates (h1.setWidth 32) (h2.setWidth 32) h1 h2
  have e1 := lo32_eq h1
  have e2 := lo32_eq h2
  cases hgen : p.gen with
  | unknown => exact absurd hgen hg
  | v1 =>
    refine ⟨_, rfl, nodup_ext64 nd.1, fun t => ?_⟩
    dsimp only
    rw [mem_ext64, e1, e2]
    refine ⟨fun ⟨a, b⟩ => ⟨Props.C12_v1_sound _ _ _ b, fun _ => a, fun h => h⟩, fun ⟨a, b, _⟩ => ⟨b (by decide), Props.C13_v1_complete _ _ _ a⟩⟩
  | v2 =>
    refine ⟨_, rfl, nodup_ext64 nd.2.1, fun t => ?_⟩
    dsimp only
    rw [mem_ext64, e1, e2, Props.C13_v2_exact]
    constructor
    · rintro ⟨a, b, c⟩
      rw [lo32_zero a, lo32_toNat a] at c
      exact ⟨b, fun _ => a, fun ⟨h3, h4⟩ => h3 (c h4)⟩
    · rintro ⟨a, b, c⟩
      have b := b (by decide)
      refine ⟨b, a, ?_⟩
      rw [lo32_zero b, lo32_toNat b]
      intro h
      by_cases h0 : t = 0
      · exact h0
      · exact absurd ⟨h0, h⟩ c
  | v3 =>
    refine ⟨_, rfl, nodup_ext64 nd.2.2.1, fun t => ?_⟩
    dsimp only
    rw [mem_ext64, e1, e2, Props.C13_v3_exact]
    constructor
    · rintro ⟨a, b, c⟩
      rw [lo32_zero a, lo32_toNat a, lo32_mod] at c
      exact ⟨b, fun _ => a, fun ⟨h3, h4, h5⟩ => h3 (c h4 h5)⟩
    · rintro ⟨a, b, c⟩
      have b := b (by decide)
      refine ⟨b, a, ?_⟩
      rw [lo32_zero b, lo32_toNat b, lo32_mod]
      intro h h'
      by_cases h0 : t = 0
      · exact h0
      · exact absurd ⟨h0, h, h'⟩ c
  | v4 =>
    refine ⟨_, rfl, nodup_ext64 nd.2.2.2.1, fun t => ?_⟩
    dsimp only
    rw [mem_ext64, e1, e2, Props.C13_v4_exact]
    constructor
    · rintro ⟨a, b, c⟩
      rw [lo32_toNat a] at c
      exact ⟨b, fun _ => a, c⟩
    · rintro ⟨a, b, c⟩
      have b := b (by decide)
      exact ⟨b, a, by rw [lo32_toNat b]; exact c⟩
  | v5 =>
    refine ⟨_, rfl, nodup_ext64 nd.2.2.2.2.1, fun t => ?_⟩
    dsimp only
    rw [mem_ext64, e1, e2, Props.C13_v5_exact]
    constructor
    · rintro ⟨a, b, c⟩
      rw [lo32_toNat a] at c
      exact ⟨b, fun _ => a, c⟩
    · rintro ⟨a, b, c⟩
      have b := b (by decide)
      exact ⟨b, a, by rw [lo32_toNat b]; exact c⟩
  | v6 =>
    refine ⟨_, rfl, nd.2.2.2.2.2, fun t => ?_⟩
    exact ⟨fun b => ⟨Props.C12_v6_sound _ _ _ b, fun h => absurd rfl h, fun h => h⟩, fun ⟨a, _⟩ => Props.C13_v6_complete _ _ _ a⟩

theorem verifyHash_spec (c : Cached) (h1 h2 : BitVec 64) (hg : c.profile.gen ≠ .unknown) :
    ∃ b, c.verifyHash h1 h2 = .ok b ∧ (b = true ↔ Equation c.profile.gen h1 h2 c.hash) := by
  unfold Cached.verifyHash Equation
  have := Props.C12_verifiers (lo32 h1) (lo32 h2) (lo32 c.hash) h1 h2 c.hash
  rw [lo32_eq, lo32_eq, lo32_eq]
  cases hgen : c.profile.gen with
  | unknown => exact absurd hgen hg
  | v1 => exact ⟨_, rfl, this.1⟩
  | v2 => exact ⟨_, rfl, this.2.1⟩
  | v3 => exact ⟨_, rfl, this.2.2.1⟩
  | v4 => exact ⟨_, rfl, this.2.2.2.1⟩
  | v5 => exact ⟨_, rfl, this.2.2.2.2.1⟩
  | v6 => exact ⟨_, rfl, this.2.2.2.2.2⟩

/-! ## The loops -/

theorem is64_iff (p : Profile) (b : Bool) : p.is64 = b ↔ (p.name = .v1202 ↔ b = true) := by
  unfold Profile.is64
  cases b <;> simp

open Classical in
theorem cachedLoop_tried {F : Fuel} {f0 f : WFile} {d : Dir} {cache : List Cached} (hn : F.nest ≠ 0) (hbuf : f0.env.buf ≠ [])
    (hs : Same f0 f) (hb : Between F f0 d) (hg : ∀ c ∈ cache, c.profile.gen ≠ .unknown) :
    Tried F f0 (cache.filter fun c => Fits f0.hdr c) (cachedLoop F f cache d) := by
  induction cache generalizing f d with
  | nil => exact .nil hs hb
  | cons c cs ih =>
    have ih := fun {f d} (hs : Same f0 f) (hb : Between F f0 d) => ih hs hb (fun c hc => hg c (List.mem_cons_of_mem _ hc))
    have hhdr : f.hdr = f0.hdr := (readFor_same hs c).2.2
    unfold cachedLoop
    rw [hhdr]
    by_cases hw : c.profile.is64 = f0.hdr.isPkg2_64
    · rw [if_neg (by simpa using hw)]
      obtain ⟨b, h1, h2⟩ := verifyHash_spec c f0.hdr.hash1 f0.hdr.hash2 (hg c List.mem_cons_self)
      rw [h1]
      cases b with
      | false =>
        dsimp only
        rw [List.filter_cons_of_neg]
        · exact ih hs hb
        · simp only [decide_eq_true_eq]
          rintro ⟨-, h3⟩
          exact absurd (h2.mpr h3) (by decide)
      | true =>
        dsimp only
        rw [List.filter_cons_of_pos]
        · have := (tryOne_tried hn hbuf hs hb hw).andThen (next := fun f d => cachedLoop F f cs d) (fun f d hs hb => ih hs hb)
          rw [List.singleton_append] at this
          convert this using 1
          unfold tryOne andThen
          cases tryProfile F f c.profile c.hash (setUp c.profile c.hash d) with
          | mk r q =>
            cases r with
            | ok ns => rfl
            | error e =>
              dsimp only
              cases e.ends <;> rfl
        · simp only [decide_eq_true_eq]
          exact ⟨(is64_iff _ _).mp hw, h2.mp rfl⟩
    · rw [if_pos hw, List.filter_cons_of_neg]
      · exact ih hs hb
      · simp only [decide_eq_true_eq]
        rintro ⟨h3, -⟩
        exact hw ((is64_iff _ _).mpr h3)

theorem hashLoop_tried {F : Fuel} {f0 f : WFile} {d : Dir} {p : Profile} {hs : List (BitVec 64)} (hn : F.nest ≠ 0)
    (hbuf : f0.env.buf ≠ []) (hsame : Same f0 f) (hb : Between F f0 d) (hw : p.is64 = f0.hdr.isPkg2_64) :
    Tried F f0 (hs.map fun t => ⟨p, t⟩) (hashLoop F p f hs d) := by
  induction hs generalizing f d with
  | nil => exact .nil hsame hb
  | cons h hs ih =>
    have := (tryOne_tried (c := ⟨p, h⟩) hn hbuf hsame hb hw).andThen (next := fun f d => hashLoop F p f hs d)
      (fun f d hs hb => ih hs hb)
    rw [List.map_cons]
    rw [List.singleton_append] at this
    convert this using 1
    unfold tryOne andThen
    rw [hashLoop]
    dsimp only
    cases tryProfile F f p h (setUp p h d) with
    | mk r q =>
      cases r with
      | ok ns => rfl
      | error e =>
        dsimp only
        cases e.ends <;> rfl

theorem Between.ver {F : Fuel} {f0 : WFile} {d : Dir} (h : Between F f0 d) (v : OffsetVersion) : Between F f0 { d with ver := v } :=
  ⟨h.offset, h.size, h.narrow⟩

theorem profileLoop_tried {F : Fuel} {f0 f : WFile} {d : Dir} {ps : List Profile} {lists : List (List (BitVec 64))} (hn : F.nest ≠ 0)
    (hbuf : f0.env.buf ≠ []) (hsame : Same f0 f) (hb : Between F f0 d)
    (hl : All2 (fun (p : Profile) hs => p.hashes f0.hdr.hash1 f0.hdr.hash2 = .ok hs) (ps.filter fun p => p.is64 == f0.hdr.isPkg2_64) lists) :
    Tried F f0 (List.zipWith (fun p hs => hs.map fun t => (⟨p, t⟩ : Cached)) (ps.filter fun p => p.is64 == f0.hdr.isPkg2_64) lists).flatten
      (profileLoop F f ps d) := by
  induction ps generalizing f d lists with
  | nil => exact .nil hsame hb
  | cons p ps ih =>
    have hhdr : f.hdr = f0.hdr := (readFor_same hsame ⟨p, 0⟩).2.2
    unfold profileLoop
    rw [hhdr]
    by_cases hw : p.is64 = f0.hdr.isPkg2_64
    · rw [List.filter_cons_of_pos (by simpa using hw)] at hl ⊢
      rw [if_neg (by simpa using hw)]
      cases hl with
      | @cons _ hs _ lists h1 h2 =>
        rw [h1]
        dsimp only
        have ht := hashLoop_tried (p := p) (hs := hs) hn hbuf hsame (hb.ver p.ver) hw
        rw [List.zipWith_cons_cons, List.flatten_cons]
        have := ht.andThen (next := fun f d => profileLoop F f ps d) (fun f d hs hb => ih hs hb h2)
        convert this using 1
        unfold andThen
        cases hashLoop F p f hs { d with ver := p.ver } with
        | mk r q =>
          cases r with
          | error e => rfl
          | ok o => cases o <;> rfl
    · rw [List.filter_cons_of_neg (by simpa using hw)] at hl ⊢
      rw [if_pos hw]
      exact ih hsame hb hl

theorem lists_exist (h1 h2 : BitVec 64) (ps : List Profile) (hg : ∀ p ∈ ps, p.gen ≠ .unknown) :
    ∃ lists : List (List (BitVec 64)), All2 (fun (p : Profile) hs => p.hashes h1 h2 = .ok hs) ps lists ∧
      All2 (fun (p : Profile) hs => hs.Nodup ∧ ∀ t, t ∈ hs ↔ Listed p.gen h1 h2 t) ps lists := by
  induction ps with
  | nil => exact ⟨[], .nil, .nil⟩
  | cons p ps ih =>
    obtain ⟨lists, a, b⟩ := ih fun p hp => hg p (List.mem_cons_of_mem _ hp)
    obtain ⟨hs, h1, h2⟩ := hashes_spec p h1 h2 (hg p List.mem_cons_self)
    exact ⟨hs :: lists, .cons h1 a, .cons h2 b⟩

theorem allProfiles_rows (b : Bool) : (allProfiles.filter fun p => p.is64 == b) = rows b := by
  cases b <;> rfl

theorem between_start {F : Fuel} {f : WFile} {d : Dir}
    (h : (if f.hdr.isPkg2_64 then .ok f.root else prepareEntries f.ctx F.loop f.root) = Except.ok d) : Between F f d := by
  cases hx : f.hdr.isPkg2_64 with
  | true =>
    rw [hx, if_pos rfl] at h
    cases h
    exact ⟨rfl, rfl, fun h => by rw [hx] at h; cases h⟩
  | false =>
    rw [hx, if_neg (by decide)] at h
    obtain ⟨s1, s2, s3, s4, s5⟩ := prepare_status (fun h => by cases h) h
    exact ⟨s2, s3, fun _ => ⟨s1, d, h, rfl⟩⟩

/-- what `parse_pkg2` does, in terms of the candidates; `cached` are the ones from the cache -/
theorem parsePkg2_tried {F : Fuel} {f : WFile} {cache : List Cached} (hn : F.nest ≠ 0) (hbuf : f.env.buf ≠ [])
    (hg : ∀ c ∈ cache, c.profile.gen ≠ .unknown) :
    ∃ cands cached rest, Candidates f.hdr cache cands ∧ cands = cached ++ rest ∧ (∀ c ∈ cached, c ∈ cache) ∧
      (∀ c ∈ rest, c.profile ∈ rows f.hdr.isPkg2_64 ∧ Listed c.profile.gen f.hdr.hash1 f.hdr.hash2 c.hash) ∧
      ((∃ e, f.hdr.isPkg2_64 = false ∧ prepareEntries f.ctx F.loop f.root = .error e ∧ f.parsePkg2 F cache = (.error e, f, [])) ∨
      ∃ (t1 : Trial) (t2 : WFile → Dir → Trial), Tried F f cached t1 ∧ (∀ f' d', Same f f' → Between F f d' → Tried F f rest (t2 f' d')) ∧
        f.parsePkg2 F cache = match t1 with
          | (.error e, f', _) => (.error e, f', [])
          | (.ok (some (c, ns)), f', _) => (.ok (c, ns), f'.opened c.hash, [])
          | (.ok none, f', d') => match t2 f' d' with
            | (.error e, f', _) => (.error e, f', [])
            | (.ok (some (c, ns)), f', _) => (.ok (c, ns), f'.opened c.hash, [c])
            | (.ok none, f', _) => (.error (.lib "ErrorGameVerHash"), f', [])) := by
  classical
  obtain ⟨lists, ha, hb⟩ := lists_exist f.hdr.hash1 f.hdr.hash2 (rows f.hdr.isPkg2_64) (by
    intro p hp
    unfold rows at hp
    split at hp <;> simp only [List.mem_cons, List.not_mem_nil, or_false] at hp <;>
      rcases hp with rfl | rfl | rfl | rfl | rfl | rfl <;> decide)
  refine ⟨_, _, _, ⟨lists, hb, rfl⟩, rfl, fun c hc => List.mem_of_mem_filter hc, ?_, ?_⟩
  · intro c hc
    generalize rows f.hdr.isPkg2_64 = ps at hb hc
    clear ha
    induction hb with
    | nil => cases hc
    | @cons p hs ps lists h1 h2 ih =>
      rw [List.zipWith_cons_cons, List.flatten_cons, List.mem_append] at hc
      rcases hc with hc | hc
      · obtain ⟨t, ht, rfl⟩ := List.mem_map.mp hc
        exact ⟨List.mem_cons_self, (h1.2 t).mp ht⟩
      · obtain ⟨h3, h4⟩ := ih hc
        exact ⟨List.mem_cons_of_mem _ h3, h4⟩
  · unfold WFile.parsePkg2
    dsimp only
    cases hd : (if f.hdr.isPkg2_64 then .ok f.root else prepareEntries f.ctx F.loop f.root : Except Err Dir) with
    | error e =>
      left
      cases hx : f.hdr.isPkg2_64 with
      | true => rw [hx] at hd; cases hd
      | false =>
        rw [hx, if_neg (by decide)] at hd
        exact ⟨e, rfl, hd, rfl⟩
    | ok d =>
      right
      have hbt := between_start hd
      refine ⟨_, fun f' d' => profileLoop F f' allProfiles d', cachedLoop_tried hn hbuf (.refl f) hbt hg, fun f' d' hs hb => ?_, rfl⟩
      have := profileLoop_tried (ps := allProfiles) (lists := lists) hn hbuf hs hb (by rw [allProfiles_rows]; exact ha)
      rw [allProfiles_rows] at this
      exact this

end Wz
