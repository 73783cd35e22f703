import Verif.File.Blind
/-!
# One attempt does not see what earlier attempts left behind
-/

set_option autoImplicit false
variable {α β γ : Type}

namespace Wz

/-- an entry without its calculated offset -/
def Entry.bare (en : Entry) : Entry := { en with offset := 0 }

theorem locate_bare (x : DirCtx) (h : BitVec 64) (v : OffsetVersion) (en : Entry) :
    Entry.locate x h v en.bare = Entry.locate x h v en := rfl

theorem mapM_locate_bare (x : DirCtx) (h : BitVec 64) (v : OffsetVersion) {es es' : List Entry}
    (hb : es.map Entry.bare = es'.map Entry.bare) :
    es.mapM (Entry.locate x h v) = es'.mapM (Entry.locate x h v) := by
  induction es generalizing es' with
  | nil => cases es' with
    | nil => rfl
    | cons _ _ => cases hb
  | cons en es ih => cases es' with
    | nil => cases hb
    | cons en' es' =>
      rw [List.map_cons, List.map_cons] at hb
      obtain ⟨h1, h2⟩ := List.cons.inj hb
      rw [List.mapM_cons, List.mapM_cons, ih h2, ← locate_bare, h1, locate_bare]

theorem locate_same {x : DirCtx} {h : BitVec 64} {v : OffsetVersion} {en en' : Entry}
    (hl : en.locate x h v = .ok en') : en'.bare = en.bare := by
  unfold Entry.locate at hl
  obtain ⟨off, h1, hl⟩ := bind_ok hl
  dsimp only at hl
  split at hl
  · cases hl; rfl
  · cases hl

/-- the loop in place and the loop that makes a new list -/
theorem locateSt_spec (x : DirCtx) (h : BitVec 64) (v : OffsetVersion) (es : List Entry) :
    (∀ es', es.mapM (Entry.locate x h v) = .ok es' → locateSt x h v es = (.ok (), es') ∧ es'.map Entry.bare = es.map Entry.bare) ∧
    (∀ e, es.mapM (Entry.locate x h v) = .error e →
      (locateSt x h v es).1 = .error e ∧ (locateSt x h v es).2.map Entry.bare = es.map Entry.bare) := by
  induction es with
  | nil =>
    refine ⟨fun es' he => ?_, fun e he => ?_⟩
    · cases he; exact ⟨rfl, rfl⟩
    · cases he
  | cons en es ih =>
    rw [List.mapM_cons]
    unfold locateSt Entry.locate
    simp only [bind, Except.bind, pure, Except.pure, throw, throwThe, MonadExceptOf.throw]
    cases v.calc x.env.mode x.hdr { hash := h, encrypted := en.encOff, offset := en.calcOff } with
    | error y =>
      refine ⟨fun _ he => by (cases he), fun e he => ?_⟩
      cases he
      exact ⟨rfl, rfl⟩
    | ok off =>
      dsimp only
      cases hv : ({ en with offset := off } : Entry).verify x with
      | error y =>
        refine ⟨fun _ he => by (cases he), fun e he => ?_⟩
        cases he
        exact ⟨rfl, rfl⟩
      | ok u =>
        cases u
        dsimp only
        cases hm : es.mapM (Entry.locate x h v) with
        | error y =>
          have hm' := hm
          unfold Entry.locate at hm'
          simp only [bind, Except.bind, pure, Except.pure, throw, throwThe, MonadExceptOf.throw] at hm'
          rw [hm']
          refine ⟨fun _ he => by (cases he), fun e he => ?_⟩
          cases he
          obtain ⟨h1, h2⟩ := ih.2 y hm
          exact ⟨h1, by simp only [List.map_cons, h2]; rfl⟩
        | ok es' =>
          have hm' := hm
          unfold Entry.locate at hm'
          simp only [bind, Except.bind, pure, Except.pure, throw, throwThe, MonadExceptOf.throw] at hm'
          rw [hm']
          refine ⟨fun _ he => ?_, fun e he => by (cases he)⟩
          cases he
          obtain ⟨h1, h2⟩ := ih.1 es' hm
          rw [h1]
          exact ⟨rfl, by simp only [List.map_cons, h2]; rfl⟩

/-- the same directory up to the calculated offsets -/
structure Like (d d' : Dir) : Prop where
  offset : d.offset = d'.offset
  size : d.blockSize = d'.blockSize
  hash : d.hash = d'.hash
  ver : d.ver = d'.ver
  status : d.status = d'.status
  entries : d.entries.map Entry.bare = d'.entries.map Entry.bare

theorem Like.refl (d : Dir) : Like d d := ⟨rfl, rfl, rfl, rfl, rfl, rfl⟩
theorem Like.symm {d d' : Dir} (h : Like d d') : Like d' d :=
  ⟨h.1.symm, h.2.symm, h.3.symm, h.4.symm, h.5.symm, h.6.symm⟩
theorem Like.trans {d d' d'' : Dir} (h : Like d d') (h' : Like d' d'') : Like d d'' :=
  ⟨h.1.trans h'.1, h.2.trans h'.2, h.3.trans h'.3, h.4.trans h'.4, h.5.trans h'.5, h.6.trans h'.6⟩

theorem calcVerify_like {x : DirCtx} {d d' : Dir} (h : Like d d') : calcVerify x d = calcVerify x d' := by
  unfold calcVerify
  rw [mapM_locate_bare x d.hash d.ver h.entries, h.hash, h.ver]
  cases d'.entries.mapM (Entry.locate x d'.hash d'.ver) with
  | error e => rfl
  | ok es =>
    obtain ⟨h1, h2, h3, h4, h5, h6⟩ := h
    cases d; cases d'
    dsimp only at h1 h2 h3 h4 h5
    subst h1; subst h2; subst h3; subst h4; subst h5
    rfl

theorem calcVerify_ok_like {x : DirCtx} {d d' : Dir} (h : calcVerify x d = .ok d') : Like d' d ∧ calcVerifySt x d = (.ok (), d') := by
  unfold calcVerify at h
  obtain ⟨es, h1, h⟩ := bind_ok h
  cases h
  obtain ⟨h2, h3⟩ := (locateSt_spec x d.hash d.ver d.entries).1 es h1
  exact ⟨⟨rfl, rfl, rfl, rfl, rfl, h3⟩, by unfold calcVerifySt; rw [h2]⟩

theorem calcVerify_error_like {x : DirCtx} {d : Dir} {e : Err} (h : calcVerify x d = .error e) :
    ∃ d', Like d' d ∧ calcVerifySt x d = (.error e, d') := by
  unfold calcVerify at h
  cases h1 : d.entries.mapM (Entry.locate x d.hash d.ver) with
  | ok es => rw [h1] at h; cases h
  | error y =>
    rw [h1] at h
    cases h
    obtain ⟨h2, h3⟩ := (locateSt_spec x d.hash d.ver d.entries).2 _ h1
    refine ⟨{ d with entries := (locateSt x d.hash d.ver d.entries).2 }, ⟨rfl, rfl, rfl, rfl, rfl, h3⟩, ?_⟩
    unfold calcVerifySt
    cases h4 : locateSt x d.hash d.ver d.entries with
    | mk r es => rw [h4] at h2; cases h2; rfl

/-! ## `resolveDir` -/

/-- what follows the reading of the entries -/
def resolveRest (x : DirCtx) (lf fuel : Nat) (d : Dir) : Except Err (List (List Char × DNode)) := do
  let d ← (calcVerify x d).mapError (isErrTo "InvalidWzVersion")
  let nodes ← d.entries.mapM (Entry.toNode x)
  nodes.mapM (dirStep x lf fuel d.hash d.ver)

theorem resolveDir_rest (x : DirCtx) (lf fuel : Nat) (d : Dir) (hs : d.blockSize ≠ 0) :
    resolveDir x lf (fuel + 1) d = prepareEntries x lf d >>= resolveRest x lf fuel := resolveDir_succ x lf fuel d hs

theorem resolveRest_like {x : DirCtx} {lf fuel : Nat} {d d' : Dir} (h : Like d d') :
    resolveRest x lf fuel d = resolveRest x lf fuel d' := by
  unfold resolveRest
  rw [calcVerify_like h]

theorem prepare_created {x : DirCtx} {lf : Nat} {d : Dir} (h : d.status ≠ .init) : prepareEntries x lf d = .ok d := by
  unfold prepareEntries
  rw [if_pos h]

theorem prepare_status {x : DirCtx} {lf : Nat} {d d1 : Dir} (hv : d.status ≠ .verified) (h : prepareEntries x lf d = .ok d1) :
    d1.status = .created ∧ d1.offset = d.offset ∧ d1.blockSize = d.blockSize ∧ d1.hash = d.hash ∧ d1.ver = d.ver := by
  unfold prepareEntries at h
  split at h
  · cases h
    rename_i hn
    refine ⟨?_, rfl, rfl, rfl, rfl⟩
    cases hs : d.status with
    | init => exact absurd hs hn
    | created => rfl
    | verified => exact absurd hs hv
  · dsimp only at h
    split at h
    · cases h; exact ⟨rfl, rfl, rfl, rfl, rfl⟩
    · cases h

theorem isErrTo_ends (t : String) (e : Err) : (isErrTo t e).ends = e.ends := by
  unfold isErrTo Err.ends
  cases e <;> simp [Err.isPanic] <;> rfl

theorem ends_if (t : String) (e : Err) : (if e.ends = true then e else Err.lib t).ends = e.ends := by
  cases h : e.ends
  · rfl
  · exact h

/-! ## The first image has a valid head -/

theorem imageHeadOk_verify {x : DirCtx} {en : Entry} (h : en.verify x = .ok ()) (ht : en.ty = .image) :
    imageHeadOk x en.offset = true := by
  unfold Entry.verify at h
  obtain ⟨stop, h1, h⟩ := bind_ok h
  rw [ht] at h
  dsimp only at h
  by_cases hb : stop ≤ x.env.buf.length
  · rw [if_neg (by simpa using hb)] at h
    obtain ⟨b, h3, h⟩ := bind_ok h
    unfold imageHeadOk
    rw [h3]
    dsimp only
    split at h
    · assumption
    · cases h
  · rw [if_pos hb] at h
    cases h

theorem firstImage_mem {ns : List (List Char × DNode)} {off : Nat} (h : firstImage ns = some off) :
    ∃ n size, (n, DNode.image off size) ∈ ns := by
  induction ns with
  | nil => cases h
  | cons p ns ih =>
    obtain ⟨n, d⟩ := p
    cases d with
    | image o s =>
      injection h with h
      subst h
      exact ⟨n, s, List.mem_cons_self⟩
    | dir o s c => obtain ⟨m, s', hm⟩ := ih h; exact ⟨m, s', List.mem_cons_of_mem _ hm⟩
    | none => obtain ⟨m, s', hm⟩ := ih h; exact ⟨m, s', List.mem_cons_of_mem _ hm⟩

theorem all2_right {R : α → β → Prop} {as : List α} {bs : List β} (h : All2 R as bs) {b : β} (hb : b ∈ bs) :
    ∃ a ∈ as, R a b := by
  induction h with
  | nil => cases hb
  | cons h1 h2 ih =>
    cases hb with
    | head => exact ⟨_, List.mem_cons_self, h1⟩
    | tail _ hb => obtain ⟨a, ha, hr⟩ := ih hb; exact ⟨a, List.mem_cons_of_mem _ ha, hr⟩

theorem resolveRest_heads {x : DirCtx} {lf fuel : Nat} {d : Dir} {ns : List (List Char × DNode)} {off : Nat}
    (h : resolveRest x lf fuel d = .ok ns) (hi : firstImage ns = some off) : imageHeadOk x off = true := by
  unfold resolveRest at h
  obtain ⟨d2, h2, h⟩ := bind_ok h
  obtain ⟨nodes, h3, h4⟩ := bind_ok h
  obtain ⟨n, size, hm⟩ := firstImage_mem hi
  obtain ⟨p, hp, hs⟩ := all2_right (mapM_all2 h4) hm
  have hp2 : p = (n, .image off size) := by
    unfold dirStep at hs
    obtain ⟨q, dn⟩ := p
    cases dn with
    | image o s => dsimp only at hs; injection hs
    | dir o s c => dsimp only at hs; obtain ⟨k, _, hs⟩ := bind_ok hs; cases hs
    | none => cases hs
  subst hp2
  obtain ⟨en, hen, ht⟩ := all2_right (mapM_all2 h3) hp
  have ht := (toNode_ok ht).2
  obtain ⟨en0, hen0, hl⟩ := all2_right (calcVerify_ok (mapError_ok h2)).2.2 hen
  obtain ⟨-, hv, -, -, -⟩ := locate_ok hl
  have hty : en.ty = .image ∧ en.offset = off := by
    dsimp only at ht
    cases hty : en.ty <;> rw [hty] at ht <;> simp_all
  rw [← hty.2]
  exact imageHeadOk_verify hv hty.1

/-! ## `tryDecode` -/

/-- what an attempt that failed leaves of the directory -/
def Left (x : DirCtx) (lf : Nat) (d d' : Dir) : Prop :=
  d' = d ∨ ∃ d1, prepareEntries x lf d = .ok d1 ∧ Like d' d1

/-- an attempt on a directory whose entries are prepared, or that has no entries yet -/
theorem tryDecode_spec (x : DirCtx) (lf n : Nat) (we : Bool) (vh : Int) (d : Dir)
    (hd : d.status = .created ∨ d.status = .init ∧ d.entries = []) (hs : d.blockSize ≠ 0) (hh : d.hash ≠ 0#64)
    (h113 : ¬(we = false ∧ vh = 113)) :
    (∀ ns, resolveDir x lf (n + 1) d = .ok ns → (tryDecode x lf (n + 1) we vh d).1 = .ok ns) ∧
    (∀ e, resolveDir x lf (n + 1) d = .error e →
      ∃ e', (tryDecode x lf (n + 1) we vh d).1 = .error e' ∧ e'.ends = e.ends ∧ Left x lf d (tryDecode x lf (n + 1) we vh d).2) := by
  -- after the first calculation of the offsets
  have key : ∀ d1, d1.blockSize ≠ 0 → d1.status = .created →
      (∀ ns, resolveRest x lf n d1 = .ok ns → resolveChildrenSt x lf (n + 1) d1 = (.ok ns, { (resolveChildrenSt x lf (n + 1) d1).2 with status := .verified, entries := [] })) ∧
      (∀ e, resolveRest x lf n d1 = .error e → ∃ e' d2, resolveChildrenSt x lf (n + 1) d1 = (.error e', d2) ∧ e'.ends = e.ends ∧ Like d2 d1) := by
    intro d1 hs1 hc1
    unfold resolveChildrenSt
    rw [if_neg hs1, prepare_created (by rw [hc1]; decide)]
    dsimp only
    cases hcv : calcVerify x d1 with
    | error e =>
      obtain ⟨d2, hl, hst⟩ := calcVerify_error_like hcv
      have hr : resolveRest x lf n d1 = .error (isErrTo "InvalidWzVersion" e) := by
        unfold resolveRest; rw [hcv]; rfl
      rw [hr, hst]
      refine ⟨fun ns h => by (cases h), fun e' h => ?_⟩
      cases h
      exact ⟨_, d2, rfl, by rw [ends_if, isErrTo_ends], hl⟩
    | ok d2 =>
      obtain ⟨hl, hst⟩ := calcVerify_ok_like hcv
      have hr : resolveDir x lf (n + 1) d2 = resolveRest x lf n d1 := by
        rw [resolveDir_rest x lf n d2 (by rw [hl.size]; exact hs1), prepare_created (by rw [hl.status, hc1]; decide)]
        exact resolveRest_like hl
      rw [hst]
      dsimp only
      rw [hr]
      cases resolveRest x lf n d1 with
      | error e =>
        refine ⟨fun ns h => by (cases h), fun e' h => ?_⟩
        cases h
        exact ⟨_, d2, rfl, rfl, hl⟩
      | ok ns =>
        refine ⟨fun ns h => ?_, fun e' h => by (cases h)⟩
        cases h
        rfl
  have fin : ∀ d1 ns, d1.blockSize ≠ 0 → d1.status = .created → resolveRest x lf n d1 = .ok ns →
      ∀ d0, d0.blockSize ≠ 0 → resolveChildrenSt x lf (n + 1) d0 = resolveChildrenSt x lf (n + 1) d1 →
      calcVerifySt x d = (.ok (), d0) → (tryDecode x lf (n + 1) we vh d).1 = .ok ns := by
    intro d1 ns hs1 hc1 hr d0 hs0 he hcv
    unfold tryDecode
    rw [if_neg hh, hcv]
    dsimp only
    rw [he, (key d1 hs1 hc1).1 ns hr]
    dsimp only
    cases hf : firstImage ns with
    | none => dsimp only; rw [if_neg (by decide), if_neg h113]
    | some off =>
      dsimp only
      rw [if_neg (by rw [resolveRest_heads hr hf]; decide), if_neg h113]
  have finE : ∀ d1 e, d1.blockSize ≠ 0 → d1.status = .created → resolveRest x lf n d1 = .error e → Like d1 d1 →
      ∀ d0, resolveChildrenSt x lf (n + 1) d0 = resolveChildrenSt x lf (n + 1) d1 →
      calcVerifySt x d = (.ok (), d0) → ∃ e' d', tryDecode x lf (n + 1) we vh d = (.error e', d') ∧ e'.ends = e.ends ∧ Like d' d1 := by
    intro d1 e hs1 hc1 hr _ d0 he hcv
    obtain ⟨e', d2, h1, h2, h3⟩ := (key d1 hs1 hc1).2 e hr
    refine ⟨e', d2, ?_, h2, h3⟩
    unfold tryDecode
    rw [if_neg hh, hcv]
    dsimp only
    rw [he, h1]
  rw [resolveDir_rest x lf n d hs]
  rcases hd with hc | ⟨hi, hnil⟩
  · rw [prepare_created (by rw [hc]; decide)]
    simp only [bind, Except.bind]
    cases hcv : calcVerify x d with
    | error e =>
      obtain ⟨d2, hl, hst⟩ := calcVerify_error_like hcv
      have hr : resolveRest x lf n d = .error (isErrTo "InvalidWzVersion" e) := by
        unfold resolveRest; rw [hcv]; rfl
      rw [hr]
      refine ⟨fun ns h => by (cases h), fun e' h => ?_⟩
      cases h
      unfold tryDecode
      rw [if_neg hh, hst]
      exact ⟨_, rfl, by rw [ends_if, isErrTo_ends], .inr ⟨d, by rw [prepare_created (by rw [hc]; decide)], hl⟩⟩
    | ok d1 =>
      obtain ⟨hl, hst⟩ := calcVerify_ok_like hcv
      have hs1 : d1.blockSize ≠ 0 := by rw [hl.size]; exact hs
      have hc1 : d1.status = .created := by rw [hl.status]; exact hc
      rw [← resolveRest_like hl]
      refine ⟨fun ns h => fin d1 ns hs1 hc1 h d1 hs1 rfl hst, fun e h => ?_⟩
      obtain ⟨e', d', h1, h2, h3⟩ := finE d1 e hs1 hc1 h (.refl _) d1 rfl hst
      rw [h1]
      exact ⟨e', rfl, h2, .inr ⟨d, by rw [prepare_created (by rw [hc]; decide)], h3.trans hl⟩⟩
  · have hst : calcVerifySt x d = (.ok (), d) := by
      unfold calcVerifySt
      rw [hnil]
      unfold locateSt
      dsimp only
      cases d
      dsimp only at hnil
      rw [hnil]
    cases hp : prepareEntries x lf d with
    | error e =>
      refine ⟨fun ns h => by (cases h), fun e' h => ?_⟩
      cases h
      unfold tryDecode
      rw [if_neg hh, hst]
      dsimp only
      unfold resolveChildrenSt
      rw [if_neg hs, hp]
      exact ⟨_, rfl, rfl, .inl rfl⟩
    | ok d1 =>
      obtain ⟨hc1, -, hs1, -, -⟩ := prepare_status (by rw [hi]; decide) hp
      rw [← hs1] at hs
      have he : resolveChildrenSt x lf (n + 1) d = resolveChildrenSt x lf (n + 1) d1 := by
        unfold resolveChildrenSt
        rw [if_neg hs, if_neg (by rw [← hs1]; exact hs), hp, prepare_created (by rw [hc1]; decide)]
      simp only [bind, Except.bind]
      refine ⟨fun ns h => fin d1 ns hs hc1 h d (by rw [← hs1]; exact hs) he hst, fun e h => ?_⟩
      obtain ⟨e', d', h1, h2, h3⟩ := finE d1 e hs hc1 h (.refl _) d he hst
      rw [h1]
      exact ⟨e', rfl, h2, .inr ⟨d1, hp, h3⟩⟩

theorem tryDecode_zero (x : DirCtx) (lf n : Nat) (we : Bool) (vh : Int) (d : Dir) (hh : d.hash = 0#64) :
    tryDecode x lf n we vh d = (.error (.lib "ErrorGameVerHash"), d) := by
  unfold tryDecode
  rw [if_pos hh]

end Wz
