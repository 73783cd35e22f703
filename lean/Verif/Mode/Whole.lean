import Verif.Mode.Payload
import Verif.Media.PayloadProps
import Verif.Whole.OpenModel
import Verif.Whole.Lemmas
import Verif.Ms.SnowRdLemmas
import Verif.Whole.MsModel
/-!
# The nodes of archives with and without overflow checks
-/

set_option autoImplicit false

namespace Wz

open Spec

/-- the texts of links are the same with two readers -/
def LinkSame (e e' : Env) (o : PObj) : Prop := ∀ m, o = .uol m → resolveMeta e m.ty m.offset m.length = resolveMeta e' m.ty m.offset m.length

theorem propKind_same {e e' : Env} {o : PObj} (h : LinkSame e e' o) : propKind e o = propKind e' o := by
  cases o <;> first
    | rfl
    | (unfold propKind; dsimp only; rw [h _ rfl])

theorem propForest_same {e e' : Env} {ks : List (List Char × PNode)} (h : EveryValue (LinkSame e e') ks) : propForest e ks = propForest e' ks := by
  induction h with
  | nil => rfl
  | cons name o ks rest ho _ _ ihk ihr =>
    rw [propForest, propForest, propTree, propTree, propNode, propNode, propKind_same ho, ihk, ihr]

theorem EveryValue_mono {P Q : PObj → Prop} (hpq : ∀ o, P o → Q o) {ks : List (List Char × PNode)} (h : EveryValue P ks) : EveryValue Q ks := by
  induction h with
  | nil => exact .nil
  | cons name o ks rest ho _ _ ihk ihr => exact .cons _ _ _ _ (hpq _ ho) ihk ihr

section
variable {b : Bytes} {k k2 : Nat → Byte}

theorem link_same {o : PObj} (h : Accessed ⟨.checked, b, k, k2⟩ o) : LinkSame ⟨.checked, b, k, k2⟩ ⟨.wrap, b, k, k2⟩ o := by
  intro m hm
  subst hm
  obtain ⟨h1, h2⟩ := h
  rcases resolveMeta_ag (b := b) (k := k) (k2 := k2) m.ty m.offset m.length with ha | ha
  · by_cases he : m.ty = .empty ∨ m.offset + m.length ≤ b.length
    · obtain ⟨t, ht⟩ := h1 he
      rw [ht] at ha; cases ha
    · rw [not_or] at he
      rw [h2 he.1 (show b.length < m.offset + m.length by omega)] at ha; cases ha
  · exact ha

theorem forest_post (hb : b.length < 2 ^ 63) (img : Img) (fuel : Nat) :
    (Rd.imgChildren img fuel).Post ⟨.checked, b, k, k2⟩ fun ns _ => imgForest ⟨.checked, b, k, k2⟩ ns = imgForest ⟨.wrap, b, k, k2⟩ ns := by
  unfold Rd.imgChildren
  refine Rd.Post.after fun _ => Rd.Post.after fun t => ?_
  split
  · exact Rd.Post.ret fun _ => rfl
  · split
    · unfold Rd.imgLua
      repeat' first
        | exact Rd.Post.fail
        | exact Rd.Post.ret fun _ => rfl
        | refine Rd.Post.after fun _ => ?_
        | split
    · unfold Rd.imgPacked
      repeat' first
        | exact Rd.Post.fail
        | exact Rd.Post.ret fun _ => rfl
        | refine Rd.Post.after fun _ => ?_
        | split
    · refine Rd.Post.after fun _ => ?_
      refine Rd.Post.bind (Rd.Post.list (e := ⟨.checked, b, k, k2⟩) hb (ext_post hb img.offset fuel) img.offset) fun ks c ns c' hk h => ?_
      cases h
      rw [imgForest_props, imgForest_props]
      exact propForest_same (EveryValue_mono (fun _ => link_same) hk)
    · exact Rd.Post.fail

theorem readImage_ag (hb : b.length < 2 ^ 63) (fuel : Nat) (img : Img) :
    AgE (readImage ⟨.checked, b, k, k2⟩ fuel img) (readImage ⟨.wrap, b, k, k2⟩ fuel img) := by
  unfold readImage
  have hp := forest_post (k := k) (k2 := k2) hb img fuel ⟨0, 0⟩
  rcases imgChildren_ag (b := b) (k := k) (k2 := k2) img fuel ⟨0, 0⟩ with h | h
  · rw [h]; exact .inl rfl
  · rw [← h]
    rcases hr : (Rd.imgChildren img fuel).run ⟨.checked, b, k, k2⟩ ⟨0, 0⟩ with ⟨r, c⟩
    cases r with
    | error e => exact .same _
    | ok ns => exact .inr (congrArg Except.ok (hp _ _ hr))

end

section
variable (F : Fuel)

theorem tryProfile_buf (f : WFile) (p : Profile) (hash : BitVec 64) (d : Dir) : (tryProfile F f p hash d).2.1.env.buf = f.env.buf := by
  unfold tryProfile
  dsimp only
  repeat' first
    | rfl
    | split

theorem cachedLoop_buf (f : WFile) (cs : List Cached) (d : Dir) : (cachedLoop F f cs d).2.1.env.buf = f.env.buf := by
  induction cs generalizing f d with
  | nil => rfl
  | cons c cs ih =>
    rw [cachedLoop]
    have ht := tryProfile_buf F f c.profile c.hash (setUp c.profile c.hash d)
    split
    · exact ih f d
    · split
      · rfl
      · exact ih f d
      · rcases hp : tryProfile F f c.profile c.hash (setUp c.profile c.hash d) with ⟨r, g, s⟩
        rw [hp] at ht
        cases r with
        | ok ns => exact ht
        | error e =>
          dsimp only
          split
          · exact ht
          · exact (ih g s).trans ht

theorem hashLoop_buf (p : Profile) (f : WFile) (hs : List (BitVec 64)) (d : Dir) : (hashLoop F p f hs d).2.1.env.buf = f.env.buf := by
  induction hs generalizing f d with
  | nil => rfl
  | cons x hs ih =>
    rw [hashLoop]
    have ht := tryProfile_buf F f p x (setUp p x d)
    rcases hp : tryProfile F f p x (setUp p x d) with ⟨r, g, s⟩
    rw [hp] at ht
    cases r with
    | ok ns => exact ht
    | error e =>
      dsimp only
      split
      · exact ht
      · exact (ih g s).trans ht

theorem profileLoop_buf (f : WFile) (ps : List Profile) (d : Dir) : (profileLoop F f ps d).2.1.env.buf = f.env.buf := by
  induction ps generalizing f d with
  | nil => rfl
  | cons p ps ih =>
    rw [profileLoop]
    split
    · exact ih f d
    · cases p.hashes f.hdr.hash1 f.hdr.hash2 with
      | error e => rfl
      | ok hs =>
        dsimp only
        have ht := hashLoop_buf F p f hs { d with ver := p.ver }
        rcases hp : hashLoop F p f hs { d with ver := p.ver } with ⟨r, g, s⟩
        rw [hp] at ht
        rcases r with e | _ | r
        · exact ht
        · exact (ih g s).trans ht
        · exact ht

/-- parsing does not change the bytes of a file -/
theorem parse_buf (n : Nat) (f : WFile) (cache : List Cached) : (f.parse F n cache).2.env.buf = f.env.buf := by
  unfold WFile.parse
  split
  · unfold WFile.parsePkg1
    dsimp only
    repeat' first
      | rfl
      | split
  · have h2 : (f.parsePkg2 F cache).2.1.env.buf = f.env.buf := by
      unfold WFile.parsePkg2
      dsimp only
      split
      · rfl
      · rename_i d _
        have hc := cachedLoop_buf F f cache d
        rcases hp : cachedLoop F f cache d with ⟨r, g, s⟩
        rw [hp] at hc
        rcases r with e | _ | ⟨c, ns⟩
        · exact hc
        · dsimp only
          have hl := profileLoop_buf F g allProfiles s
          rcases hq : profileLoop F g allProfiles s with ⟨r, g', s'⟩
          rw [hq] at hl
          rcases r with e | _ | ⟨c, ns⟩
          · exact hl.trans hc
          · exact hl.trans hc
          · exact hl.trans hc
        · exact hc
    rcases hp : f.parsePkg2 F cache with ⟨r, g, s⟩
    rw [hp] at h2
    cases r <;> exact h2
  · rfl

end

theorem decryptSlice_length (bs : Bytes) : ∀ (d d' : Snow2) (P : Bytes) (k : Nat), d.decryptSlice bs = .ok (P, k, d') → P.length = bs.length := by
  induction bs using Wz.Snow.words_ind with
  | small bs hs =>
    intro d d' P k h
    rw [Wz.Snow.slice_small _ _ hs] at h
    cases h; rfl
  | word a b c e rest ih =>
    intro d d' P k h
    rw [Snow2.decryptSlice] at h
    cases h1 : d.decryptBlock (BitVec.ofNat 32 (leNat [a, b, c, e])) with
    | error x => rw [h1] at h; cases h
    | ok q =>
      rw [h1] at h
      cases h2 : q.2.decryptSlice rest with
      | error x =>
        simp only [bind, Except.bind, h2] at h
        cases h
      | ok r =>
        simp only [bind, Except.bind, h2, pure, Except.pure] at h
        cases h
        simp only [List.length_append, length_toLE, List.length_cons, ih _ _ _ _ h2]
        omega

theorem sliceIdx_len {buf bs : Bytes} {s t : Nat} (h : sliceIdx buf s t = .ok bs) : bs.length ≤ buf.length := by
  unfold sliceIdx at h
  split at h
  · cases h; simp only [List.length_take, List.length_drop]; omega
  · cases h

/-- the data of an image of an MS archive is not longer than the archive -/
theorem toWzImage_len (m : Mode) (C : ChaCha) (f : MsFile) (im : MsImage) (w : MsOpened) (h : f.toWzImage m C im = .ok w) : w.data.length ≤ f.buf.length := by
  have hv1 : ∀ salt d, imageDataV1 m f.buf salt im = .ok d → d.length ≤ f.buf.length := by
    intro salt d h
    unfold imageDataV1 at h
    simp only [bind, Except.bind] at h
    split at h
    · cases h
    split at h
    · cases h
    split at h
    · cases h
    rename_i data hd
    split at h
    · cases h
    rename_i hh hp1
    obtain ⟨head, k1, d1⟩ := hh
    split at h
    · cases h
    rename_i hh2 hp2
    obtain ⟨dec, k2, d2⟩ := hh2
    have a1 := decryptSlice_length _ _ _ _ _ hp1
    have a2 := decryptSlice_length _ _ _ _ _ hp2
    have a3 := sliceIdx_len hd
    have a4 := sliceIdx_len h
    simp only [List.length_append, List.length_take, List.length_drop] at a1 a2
    dsimp only at a4
    omega
  have hv2 : ∀ salt d, imageDataV2 m C f.buf salt im = .ok d → d.length ≤ f.buf.length := by
    intro salt d h
    unfold imageDataV2 at h
    simp only [bind, Except.bind] at h
    split at h
    · cases h
    split at h
    · cases h
    split at h
    · cases h
    rename_i data hd
    have a3 := sliceIdx_len hd
    have a4 := sliceIdx_len h
    unfold chaApply at a4
    simp only [List.length_append, List.length_mapIdx, List.length_take, List.length_drop] at a4
    omega
  unfold MsFile.toWzImage at h
  have key : ∀ (x : Except Err Bytes), (∀ d, x = .ok d → d.length ≤ f.buf.length) →
      (x >>= fun data => pure (⟨im.entry.name, data, asUsize im.entry.size⟩ : MsOpened)) = .ok w → w.data.length ≤ f.buf.length := by
    intro x hx h
    cases x with
    | error e => cases h
    | ok d => cases h; exact hx d rfl
  dsimp only at h
  split at h
  · exact key _ (hv1 _) h
  · split at h
    · exact key _ (hv2 _) h
    · cases h

/-- what an archive shows, source by source, if the file itself is read without an overflow -/
theorem arcContent_ag (F : Fuel) (n fuel : Nat) (cache : List Cached) (f : WFile) (hb : f.env.buf.length < 2 ^ 63)
    (hp : ((f.inMode .checked).parse F n cache).1 ≠ .error .panicOverflow) (s : Nat) :
    AgE (arcContent F n fuel cache (f.inMode .checked) s) (arcContent F n fuel cache (f.inMode .wrap) s) := by
  rcases (parse_ag F n f cache).cases with ⟨g, u, h⟩ | ⟨r, g, u, h, h'⟩
  · exact (hp (congrArg Prod.fst h)).elim
  rcases h1 : (f.inMode .checked).parse F n cache with ⟨r1, f1⟩
  rcases h2 : (f.inMode .wrap).parse F n cache with ⟨r2, f2⟩
  rw [h1] at h; rw [h2] at h'
  cases h; cases h'
  unfold arcContent
  rw [h1, h2]
  cases Encodable.decode (α := Src58) s with
  | none => exact .same _
  | some x =>
    cases x with
    | file => exact .same _
    | dir o z => exact .same _
    | image name o z =>
      refine readImage_ag ?_ fuel _
      have hl : (g.inMode .checked).env.buf = f.env.buf := by
        have := parse_buf F n (f.inMode .checked) cache
        rw [h1] at this
        exact this
      show g.env.buf.length < 2 ^ 63
      rw [show g.env.buf = f.env.buf from hl]
      exact hb

theorem imgContent_ag {b : Bytes} {k k2 : Nat → Byte} (hb : b.length < 2 ^ 63) (fuel s : Nat) :
    AgE (imgContent ⟨.checked, b, k, k2⟩ fuel s) (imgContent ⟨.wrap, b, k, k2⟩ fuel s) := by
  unfold imgContent
  rcases Encodable.decode (α := Src58) s with _ | _ | _ | _
  · exact .same _
  · exact .same _
  · exact readImage_ag hb _ _
  · exact .same _

theorem msImageForest_ag (C : ChaCha) (k2 : Nat → Byte) (fuel : Nat) (f : MsFile) (hb : f.buf.length < 2 ^ 63) (im : MsImage) :
    AgE (msImageForest .checked C k2 fuel f im) (msImageForest .wrap C k2 fuel f im) := by
  unfold msImageForest
  rcases toWzImage_ag C f im with h | h
  · rw [h]; exact .inl rfl
  rw [← h]
  cases hw : f.toWzImage .checked C im with
  | error e => exact .same _
  | ok w =>
    refine readImage_ag ?_ fuel _
    have hl := toWzImage_len _ _ _ _ _ hw
    split
    · decide
    · omega

theorem msContent_ag (C : ChaCha) (k2 : Nat → Byte) (fuel : Nat) (f : MsFile) (hb : f.buf.length < 2 ^ 63) (s : Nat) :
    AgE (msContent .checked C k2 fuel f s) (msContent .wrap C k2 fuel f s) := by
  unfold msContent
  cases s with
  | zero => exact .map _ (msParse_ag C f)
  | succ k =>
    refine .bind (msParse_ag C f) fun ims => ?_
    cases ims[k]? with
    | none => exact .same _
    | some im => exact msImageForest_ag C k2 fuel f hb im

/-- opening: the same result, but for the reader's overflow checks -/
theorem fromBuf_ag (st : Bytes → Nat → Byte) (b : Bytes) (existing : Option SKey) (iv : Option Bytes) (patch : Option Int) :
    AgE (WFile.fromBuf .checked st b existing iv patch) ((WFile.fromBuf .wrap st b existing iv patch).map (WFile.inMode · .checked)) ∧
    AgE ((WFile.fromBuf .checked st b existing iv patch).map (WFile.inMode · .wrap)) (WFile.fromBuf .wrap st b existing iv patch) := by
  unfold WFile.fromBuf
  rcases openKey_ag (b := b) st (givenKey st existing iv) with h | h
  · rw [h]; exact ⟨.inl rfl, .inl rfl⟩
  · rw [h]
    cases openKey .wrap st b (givenKey st existing iv) with
    | error e => exact ⟨.same _, .same _⟩
    | ok key => exact ⟨.inr rfl, .inr rfl⟩

end Wz
