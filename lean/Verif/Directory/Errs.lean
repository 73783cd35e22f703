import Verif.Directory.Lemmas
import Verif.Reader.Errs
/-!
# Errors and progress of directory parsing
-/

set_option autoImplicit false
variable {α β γ : Type}

namespace Wz
open Spec

variable {S : Env → Err → Prop}

theorem pkg1Tail_errIn (hS : ErrBase S) (m : StrMeta) (ty : DirType) : (Rd.pkg1Tail m ty).ErrIn S :=
  .bind (.readWzInt hS) fun _ => .bind (.readWzInt hS) fun _ => .bind .getPos fun _ =>
    .bind (.readLE hS 4) fun _ => .pure _

theorem readU8At_errIn (hS : ErrBase S) (p : Nat) : (Rd.readU8At p).ErrIn S := by
  intro e c x h
  unfold Rd.readU8At at h
  rw [Rd.bind_ok (Rd.getEnv_run e c), Rd.lift_run] at h
  rw [readAt_err h]
  exact hS.read e

theorem readPkg1Entry_errIn (hS : ErrBase S) (f : Nat) : (Rd.readPkg1Entry f).ErrIn S := by
  refine .bind (.readLE hS 1) fun b => ?_
  split
  · exact .pure _
  · exact .pure _
  · refine .bind (.readInt hS 4) fun so => ?_
    intro e c x h
    rw [Rd.bind_ok (Rd.getEnv_run e c), Rd.bind_run, Rd.lift_run] at h
    cases ha : addU e.mode f (asUsize so) with
    | error y =>
      rw [ha] at h
      obtain ⟨h1, rfl⟩ := addU_err ha
      cases h
      exact hS.overflow e h1
    | ok off =>
      rw [ha] at h
      dsimp only at h
      rw [Rd.bind_run] at h
      cases hr : (Rd.readU8At off).run e c with
      | mk r c' =>
        rw [hr] at h
        cases r with
        | error y =>
          cases h
          exact readU8At_errIn hS off e c x (by rw [hr])
        | ok b2 =>
          dsimp only at h
          rw [Rd.bind_run, Rd.lift_run] at h
          cases ha : addU e.mode off 1 with
          | error y =>
            rw [ha] at h
            obtain ⟨h1, rfl⟩ := addU_err ha
            cases h
            exact hS.overflow e h1
          | ok p =>
            rw [ha] at h
            exact Rd.ErrIn.bind (.readWzStringMetaAt hS p) (fun m => pkg1Tail_errIn hS m _) e c' x h
  · exact .bind (.readWzStringMeta hS) fun m => pkg1Tail_errIn hS m _

theorem pkg1Loop_errIn (hS : ErrBase S) (f n : Nat) (acc : List Entry) : (Rd.pkg1Loop f n acc).ErrIn S := by
  induction n generalizing acc with
  | zero => exact .pure _
  | succ n ih =>
    refine .bind (readPkg1Entry_errIn hS f) fun en => ?_
    split
    · exact .bind (.skip hS 10) fun _ => ih acc
    · exact .lib hS _
    · exact ih _

theorem entriesPkg1_errIn (hS : ErrBase S) (f : Nat) : (Rd.entriesPkg1 f).ErrIn S := by
  refine .bind (.readWzInt hS) fun c => ?_
  split
  · exact .lib hS _
  · exact pkg1Loop_errIn hS f _ _

theorem readName2_errIn (hS : ErrBase S) (k i f : Bool) : (Rd.readName2 k i f).ErrIn S := by
  unfold Rd.readName2
  split
  · split
    · exact .readPkg2DirMeta hS 2
    · exact .readPkg2DirMeta hS 1
  · exact .readWzStringMeta hS

theorem readPkg2Entry_errIn (hS : ErrBase S) (k i : Bool) (c : Int) (f : Bool) : (Rd.readPkg2Entry k i c f).ErrIn S := by
  refine .bind (.readLE hS 1) fun b => ?_
  dsimp only
  split
  · exact .bind (readName2_errIn hS k i f) fun _ => .bind (.readWzInt hS) fun _ => .bind (.readWzInt hS) fun _ => .pure _
  · exact .bind (readName2_errIn hS k i f) fun _ => .bind (.readWzInt hS) fun _ => .bind (.readWzInt hS) fun _ => .pure _
  · refine .bind .getPos fun _ => .bind (.seek _) fun _ => .bind (.readWzInt hS) fun t => ?_
    split
    · exact .bind (.seek _) fun _ => .pure _
    · exact .pure _
  · exact .lib hS _

theorem readOffsets_errIn (hS : ErrBase S) (es : List Entry) : (Rd.readOffsets es).ErrIn S := by
  induction es with
  | nil => exact .pure _
  | cons en es ih => exact .bind .getPos fun _ => .bind (.readLE hS 4) fun _ => .bind ih fun _ => .pure _

theorem pkg2Loop_errIn (hS : ErrBase S) (hf : ∀ e, S e .fuel) (k : Bool) (c : Int) (fuel : Nat) (acc : List Entry) :
    (Rd.pkg2Loop k c fuel acc).ErrIn S := by
  induction fuel generalizing acc with
  | zero => intro e c x h; cases h; exact hf e
  | succ n ih =>
    refine .bind (readPkg2Entry_errIn hS k false c _) fun en => ?_
    split
    · exact .pure _
    · exact .lib hS _
    · exact ih _

theorem pkg2Loop64_errIn (hS : ErrBase S) (k : Bool) (c : Int) (n i : Nat) (acc : List Entry) :
    (Rd.pkg2Loop64 k c n i acc).ErrIn S := by
  induction n generalizing acc i with
  | zero => exact .pure _
  | succ n ih =>
    refine .bind (readPkg2Entry_errIn hS k true c _) fun en => ?_
    split
    · exact ih _ _
    · exact ih _ _
    · exact .lib hS _
    · exact .lib hS _

theorem entryCount64_err {h : Header} {hash enc : BitVec 64} {x : Err} (he : entryCount64 h hash enc = .error x) :
    ∃ t, x = .lib t := by
  unfold entryCount64 at he
  simp only at he
  split at he
  · cases he; exact ⟨_, rfl⟩
  · cases he

theorem entriesPkg2_64_errIn (hS : ErrBase S) (h : Header) (hash : BitVec 64) (k : Bool) :
    (Rd.entriesPkg2_64 .pkg2_64V1 h hash k).ErrIn S := by
  unfold Rd.entriesPkg2_64
  rw [if_neg (by simp)]
  refine .bind (.readWzInt64 hS) fun enc => .bind ?_ fun count => ?_
  · intro e c x hx
    obtain ⟨t, rfl⟩ := entryCount64_err hx
    exact hS.lib e t
  · split
    · exact .lib hS _
    · exact .bind (pkg2Loop64_errIn hS _ _ _ _ _) fun _ => readOffsets_errIn hS _

/-! ### progress in the checked build -/

/-- the position does not decrease when `m` succeeds in the checked build -/
def Rd.Mono (m : Rd α) : Prop := ∀ e c a c', e.mode = .checked → m.run e c = (.ok a, c') → c.pos ≤ c'.pos

theorem Rd.Mono.bind {m : Rd α} {f : α → Rd β} (hm : m.Mono) (hf : ∀ a, (f a).Mono) : (m >>= f).Mono := by
  intro e c b c' hc h
  rw [Rd.bind_run] at h
  cases hr : m.run e c with
  | mk r c1 =>
    rw [hr] at h
    cases r with
    | error y => cases h
    | ok a => exact Nat.le_trans (hm e c a c1 hc hr) (hf a e c1 b c' hc h)

theorem Rd.Mono.pure (a : α) : (Pure.pure a : Rd α).Mono := by
  intro e c b c' _ h; cases h; exact Nat.le_refl _
theorem Rd.Mono.getPos : Rd.getPos.Mono := by
  intro e c b c' _ h; cases h; exact Nat.le_refl _
theorem Rd.Mono.getEnv : Rd.getEnv.Mono := by
  intro e c b c' _ h; cases h; exact Nat.le_refl _
theorem Rd.Mono.lift (x : Except Err α) : (Rd.lift x).Mono := by
  intro e c b c' _ h; cases h; exact Nat.le_refl _
theorem Rd.Mono.fail (x : Err) : (Rd.fail x : Rd α).Mono := by
  intro e c b c' _ h; cases h

theorem addU_checked {a b r : Nat} (h : addU .checked a b = .ok r) : r = a + b := by
  unfold addU at h
  split at h
  · cases h; rfl
  · cases h

theorem Rd.Mono.skip (n : Nat) : (Rd.skip n).Mono := by
  intro e c b c' hc h
  rw [Rd.skip_def, hc] at h
  cases ha : addU .checked c.pos n with
  | error y => rw [ha] at h; cases h
  | ok p =>
    rw [ha] at h
    cases h
    have := addU_checked ha
    simp only; omega

theorem Rd.readLE_checked {e : Env} {c c' : Cur} {w v : Nat} (hc : e.mode = .checked)
    (h : (Rd.readLE w).run e c = (.ok v, c')) : c'.pos = c.pos + w ∧ c.pos + w ≤ e.buf.length := by
  rw [Rd.readLE_def, hc] at h
  cases ha : addU .checked c.pos w with
  | error y => rw [ha] at h; cases h
  | ok p =>
    rw [ha] at h
    have := addU_checked ha
    simp only [Prod.mk.injEq] at h
    obtain ⟨h1, rfl⟩ := h
    unfold readAt at h1
    split at h1
    · exact ⟨this, by assumption⟩
    · cases h1

theorem Rd.Mono.readLE (w : Nat) : (Rd.readLE w).Mono := by
  intro e c b c' hc h
  have := Rd.readLE_checked hc h
  omega
theorem Rd.Mono.readInt (w : Nat) : (Rd.readInt w).Mono := .bind (.readLE w) fun _ => .pure _

theorem Rd.readInt_checked {e : Env} {c c' : Cur} {w : Nat} {v : Int} (hc : e.mode = .checked)
    (h : (Rd.readInt w).run e c = (.ok v, c')) : c'.pos = c.pos + w ∧ c.pos + w ≤ e.buf.length := by
  unfold Rd.readInt at h
  rw [Rd.bind_run] at h
  cases hr : (Rd.readLE w).run e c with
  | mk r c1 =>
    rw [hr] at h
    cases r with
    | error y => cases h
    | ok a =>
      cases h
      exact Rd.readLE_checked hc hr

theorem Rd.readWzInt_checked {e : Env} {c c' : Cur} {v : Int} (hc : e.mode = .checked)
    (h : Rd.readWzInt.run e c = (.ok v, c')) : c.pos < c'.pos ∧ c'.pos ≤ e.buf.length := by
  unfold Rd.readWzInt at h
  rw [Rd.bind_run] at h
  cases hr : Rd.readI8.run e c with
  | mk r c1 =>
    rw [hr] at h
    cases r with
    | error y => cases h
    | ok a =>
      have h1 := Rd.readInt_checked hc hr
      dsimp only at h
      split at h
      · have h2 := Rd.readInt_checked hc h
        omega
      · cases h; omega

theorem Rd.Mono.readWzInt : Rd.readWzInt.Mono := by
  intro e c b c' hc h
  have := Rd.readWzInt_checked hc h
  omega

theorem Rd.Mono.readWzStringMeta : Rd.readWzStringMeta.Mono := by
  refine .bind (.readInt 1) fun small => ?_
  split
  · exact .pure _
  · split
    · exact .bind (.readInt 4) fun _ => .bind .getEnv fun _ => .bind (.lift _) fun _ => .bind .getPos fun _ =>
        .bind (.skip _) fun _ => .pure _
    · exact .bind .getEnv fun _ => .bind (.lift _) fun _ => .bind .getPos fun _ =>
        .bind (.skip _) fun _ => .pure _
  · split
    · exact .bind (.readInt 4) fun _ => .bind .getPos fun _ => .bind (.skip _) fun _ => .pure _
    · exact .bind .getPos fun _ => .bind (.skip _) fun _ => .pure _
  · exact .fail _

theorem Rd.Mono.readPkg2DirMeta (w : Nat) : (Rd.readPkg2DirMeta w).Mono := by
  refine .bind (.readInt w) fun len => ?_
  split
  · exact .pure _
  · refine .bind ?_ fun n => .bind .getPos fun _ => .bind (.skip _) fun _ => .pure _
    refine .bind .getEnv fun e => .bind (.lift _) fun n => ?_
    split
    · exact .pure _
    · split
      · exact .fail _
      · exact .pure _

theorem Rd.Mono.readName2 (k i f : Bool) : (Rd.readName2 k i f).Mono := by
  unfold Rd.readName2
  split
  · split
    · exact .readPkg2DirMeta 2
    · exact .readPkg2DirMeta 1
  · exact .readWzStringMeta

theorem readPkg2Tail_progress {e : Env} {c c' : Cur} {k i f : Bool} {ty : DirType} {en : Entry} (hc : e.mode = .checked)
    (h : (do
        let name ← Rd.readName2 k i f
        let size ← Rd.readWzInt
        let sum ← Rd.readWzInt
        return { name := name, ty := ty, size := asUsize size, checksum := sum } : Rd Entry).run e c = (.ok en, c')) :
    c.pos < c'.pos ∧ c'.pos ≤ e.buf.length := by
  rw [Rd.bind_run] at h
  cases h1 : (Rd.readName2 k i f).run e c with
  | mk r c1 =>
    rw [h1] at h
    cases r with
    | error y => cases h
    | ok a =>
      dsimp only at h
      rw [Rd.bind_run] at h
      cases h2 : Rd.readWzInt.run e c1 with
      | mk r c2 =>
        rw [h2] at h
        cases r with
        | error y => cases h
        | ok a =>
          dsimp only at h
          rw [Rd.bind_run] at h
          cases h3 : Rd.readWzInt.run e c2 with
          | mk r c3 =>
            rw [h3] at h
            cases r with
            | error y => cases h
            | ok a =>
              cases h
              have := Rd.Mono.readName2 k i f e c _ c1 hc h1
              have := Rd.readWzInt_checked hc h2
              have := Rd.readWzInt_checked hc h3
              omega

theorem readPkg2Entry_progress {e : Env} {c c' : Cur} {k i f : Bool} {n : Int} {en : Entry} (hc : e.mode = .checked)
    (h : (Rd.readPkg2Entry k i n f).run e c = (.ok en, c')) (hty : en.ty ≠ .unknown) (hty2 : ∀ b, en.ty ≠ .other b) :
    c.pos < c'.pos ∧ c'.pos ≤ e.buf.length := by
  unfold Rd.readPkg2Entry at h
  rw [Rd.bind_run] at h
  cases h1 : Rd.readU8.run e c with
  | mk r c1 =>
    rw [h1] at h
    cases r with
    | error y => cases h
    | ok b =>
      have hp := Rd.readLE_checked hc h1
      dsimp only at h
      split at h
      · have := readPkg2Tail_progress hc h
        omega
      · have := readPkg2Tail_progress hc h
        omega
      · rw [Rd.bind_ok (Rd.getPos_run e c1), Rd.bind_ok (Rd.seek_run _ e c1), Rd.bind_run] at h
        split at h
        · split at h
          · rw [Rd.bind_ok (Rd.seek_run _ e _)] at h
            cases h
            exact absurd rfl hty
          · cases h
            exact absurd rfl (hty2 _)
        · cases h
      · cases h

theorem pkg2Loop_noFuel {e : Env} (hc : e.mode = .checked) (k : Bool) (n : Int) (fuel : Nat) (acc : List Entry) (c : Cur)
    (hf : e.buf.length < c.pos + fuel) (hp : c.pos ≤ e.buf.length) : ((Rd.pkg2Loop k n fuel acc).run e c).1 ≠ .error .fuel := by
  induction fuel generalizing acc c with
  | zero => omega
  | succ fuel ih =>
    unfold Rd.pkg2Loop
    rw [Rd.bind_run]
    cases hr : (Rd.readPkg2Entry k false n acc.isEmpty).run e c with
    | mk r c1 =>
      cases r with
      | error y =>
        dsimp only
        intro hy
        cases hy
        exact readPkg2Entry_errIn errBase_noFuel k false n acc.isEmpty e c .fuel (by rw [hr]) rfl
      | ok en =>
        dsimp only
        split
        · nofun
        · nofun
        · rename_i h1 h2
          have := readPkg2Entry_progress hc hr h1 h2
          exact ih _ c1 (by omega) (by omega)

theorem entriesPkg2_noFuel {e : Env} (hc : e.mode = .checked) (k : Bool) (fuel : Nat) (c : Cur) (hf : e.buf.length < fuel) :
    ((Rd.entriesPkg2 k fuel).run e c).1 ≠ .error .fuel := by
  unfold Rd.entriesPkg2
  rw [Rd.bind_run]
  cases hr : Rd.readWzInt.run e c with
  | mk r c1 =>
    cases r with
    | error y =>
      dsimp only
      intro hy
      cases hy
      exact Rd.ErrIn.readWzInt errBase_noFuel e c .fuel (by rw [hr]) rfl
    | ok n =>
      dsimp only
      have hp := Rd.readWzInt_checked hc hr
      have hl := pkg2Loop_noFuel hc k n fuel [] c1 (by omega) (by omega)
      rw [Rd.bind_run]
      cases hr2 : (Rd.pkg2Loop k n fuel []).run e c1 with
      | mk r c2 =>
        rw [hr2] at hl
        cases r with
        | error y =>
          dsimp only at hl ⊢
          intro hy
          cases hy
          exact hl rfl
        | ok es =>
          dsimp only
          intro h
          refine Rd.ErrIn.bind (S := fun _ x => x ≠ .fuel) (.readWzInt errBase_noFuel) (fun o => ?_) e c2 .fuel h rfl
          split
          · exact .lib errBase_noFuel _
          · exact readOffsets_errIn errBase_noFuel _

/-! ### what success means -/

theorem mem_childInsert {ν : Type} {m : List (List Char × ν)} {k : List Char} {v : ν} {a : List Char × ν}
    (h : a ∈ childInsert m k v) : a ∈ m ∨ a = (k, v) := by
  unfold childInsert at h
  split at h
  · rw [List.mem_map] at h
    obtain ⟨q, hq, h⟩ := h
    split at h
    · exact .inr h.symm
    · subst h; exact .inl hq
  · simpa using h

theorem mem_childInsertAll {ν : Type} {l m : List (List Char × ν)} {a : List Char × ν}
    (h : a ∈ childInsertAll m l) : a ∈ m ∨ a ∈ l := by
  induction l generalizing m with
  | nil => exact .inl h
  | cons b l ih =>
    rcases ih (show a ∈ childInsertAll (childInsert m b.1 b.2) l from h) with h | h
    · rcases mem_childInsert h with h | h
      · exact .inl h
      · subst h; exact .inr List.mem_cons_self
    · exact .inr (List.mem_cons_of_mem _ h)

/-- the recursive step of `resolveDir` -/
def dirStep (x : DirCtx) (loopFuel fuel : Nat) (hash : BitVec 64) (ver : OffsetVersion) (p : List Char × DNode) :
    Except Err (List Char × DNode) :=
  match p.2 with
  | .dir off size _ => do
    let kids ← resolveDir x loopFuel fuel { offset := off, blockSize := size, hash := hash, ver := ver }
    return (p.1, .dir off size (childInsertAll [] kids))
  | n => return (p.1, n)

theorem resolveDir_succ (x : DirCtx) (lf fuel : Nat) (d : Dir) (hs : d.blockSize ≠ 0) :
    resolveDir x lf (fuel + 1) d = (do
      let d ← prepareEntries x lf d
      let d ← (calcVerify x d).mapError (isErrTo "InvalidWzVersion")
      let nodes ← d.entries.mapM (Entry.toNode x)
      nodes.mapM (dirStep x lf fuel d.hash d.ver)) := by
  unfold resolveDir
  rw [if_neg hs]
  rfl

theorem bind_ok {m : Except Err α} {f : α → Except Err β} {b : β} (h : (m >>= f) = .ok b) :
    ∃ a, m = .ok a ∧ f a = .ok b := by
  cases m with
  | error x => cases h
  | ok a => exact ⟨a, rfl, h⟩

theorem mapError_ok {m : Except Err α} {f : Err → Err} {a : α} (h : m.mapError f = .ok a) : m = .ok a := by
  cases m with
  | error x => cases h
  | ok b => cases h; rfl

theorem resolveDir_ok {x : DirCtx} {lf fuel : Nat} {d : Dir} {items : List (List Char × DNode)} (hs : d.blockSize ≠ 0)
    (h : resolveDir x lf (fuel + 1) d = .ok items) :
    ∃ d1 d2 nodes, prepareEntries x lf d = .ok d1 ∧ calcVerify x d1 = .ok d2 ∧ d2.entries.mapM (Entry.toNode x) = .ok nodes ∧
      nodes.mapM (dirStep x lf fuel d2.hash d2.ver) = .ok items := by
  rw [resolveDir_succ x lf fuel d hs] at h
  obtain ⟨d1, h1, h⟩ := bind_ok h
  obtain ⟨d2, h2, h⟩ := bind_ok h
  obtain ⟨nodes, h3, h⟩ := bind_ok h
  exact ⟨d1, d2, nodes, h1, mapError_ok h2, h3, h⟩

theorem calcVerify_ok {x : DirCtx} {d1 d2 : Dir} (h : calcVerify x d1 = .ok d2) :
    d2.hash = d1.hash ∧ d2.ver = d1.ver ∧
      All2 (fun a b => Entry.locate x d1.hash d1.ver a = .ok b) d1.entries d2.entries := by
  unfold calcVerify at h
  obtain ⟨es, h1, h⟩ := bind_ok h
  cases h
  exact ⟨rfl, rfl, mapM_all2 h1⟩

theorem prepareEntries_ok {x : DirCtx} {lf : Nat} {d d1 : Dir} (h : prepareEntries x lf d = .ok d1) :
    d1.hash = d.hash ∧ d1.ver = d.ver := by
  unfold prepareEntries at h
  split at h
  · cases h; exact ⟨rfl, rfl⟩
  · dsimp only at h
    split at h
    · cases h; exact ⟨rfl, rfl⟩
    · cases h

theorem locate_ok {x : DirCtx} {hash : BitVec 64} {ver : OffsetVersion} {en en' : Entry}
    (h : en.locate x hash ver = .ok en') :
    ver.calc x.env.mode x.hdr { hash := hash, encrypted := en.encOff, offset := en.calcOff } = .ok en'.offset ∧
    en'.verify x = .ok () ∧ en'.size = en.size ∧ en'.ty = en.ty ∧ en'.name = en.name := by
  unfold Entry.locate at h
  obtain ⟨off, h1, h⟩ := bind_ok h
  dsimp only at h
  split at h
  · cases h
    exact ⟨h1, by assumption, rfl, rfl, rfl⟩
  · cases h

theorem toNode_ok {x : DirCtx} {en : Entry} {n : List Char × DNode} (h : en.toNode x = .ok n) :
    en.name.Is x.env n.1 ∧ n.2 = (match en.ty with
      | .dir => .dir en.offset en.size []
      | .image => .image en.offset en.size
      | _ => .none) := by
  unfold Entry.toNode at h
  obtain ⟨name, h1, h⟩ := bind_ok h
  cases h
  refine ⟨?_, rfl⟩
  unfold unwrapR at h1
  unfold StrMeta.Is
  split at h1
  · cases h1; assumption
  · cases h1

/-- size of a node -/
def DNode.size : DNode → Nat
  | .image _ s => s
  | .dir _ s _ => s
  | .none => 0

theorem verify_ok {x : DirCtx} {en : Entry} (h : en.verify x = .ok ()) (ho : en.offset < 2 ^ 32)
    (hs : x.env.mode = .checked ∨ en.size < 2 ^ 63) (hb : x.env.buf.length < 2 ^ 63) :
    en.offset + en.size ≤ x.env.buf.length ∧
    (en.ty = .image → ∃ b, Holds x.env.buf en.offset [b] ∧ (b = 0x73#8 ∨ b = 0x01#8 ∨ b = 0x23#8)) ∧
    (en.ty = .dir → ∃ c bs, (0 : Int) ≤ c ∧ Holds x.env.buf en.offset bs ∧
      IsWzInt (if x.hdr.isPkg2_64 then 8 else 4) c bs) := by
  unfold Entry.verify at h
  obtain ⟨stop, h1, h⟩ := bind_ok h
  have hstop : stop = en.offset + en.size := by
    rcases hs with hs | hs
    · rw [hs] at h1; exact addU_checked h1
    · rw [addU_ok (by omega)] at h1; cases h1; rfl
  have hle : stop ≤ x.env.buf.length := by
    apply Classical.byContradiction
    intro hn
    rw [if_pos hn] at h
    cases h
  rw [if_neg (fun h => h hle)] at h
  refine ⟨by omega, ?_, ?_⟩
  · intro hty
    rw [hty] at h
    obtain ⟨b, h2, h⟩ := bind_ok (show (readAt x.env.buf 1 en.offset >>= _) = .ok () from h)
    obtain ⟨bs, hh, hl, rfl⟩ := readAt_ok_iff.mp h2
    obtain ⟨b, rfl⟩ : ∃ b, bs = [b] := by
      match bs, hl with
      | [b], _ => exact ⟨b, rfl⟩
    refine ⟨b, hh, ?_⟩
    by_cases hv : validImageHeader (leNat [b]) = true
    · simp only [validImageHeader, leNat, Nat.mul_zero, Nat.add_zero, Bool.or_eq_true, beq_iff_eq] at hv
      rcases hv with (hv | hv) | hv
      · exact .inl (BitVec.eq_of_toNat_eq hv)
      · exact .inr (.inl (BitVec.eq_of_toNat_eq hv))
      · exact .inr (.inr (BitVec.eq_of_toNat_eq hv))
    · rw [if_neg hv] at h; cases h
  · intro hty
    rw [hty] at h
    obtain ⟨c, h2, h⟩ := bind_ok
      (show ((Rd.run (if x.hdr.isPkg2_64 = true then Rd.readWzInt64 else Rd.readWzInt) x.env ⟨en.offset, 0⟩).1 >>= _) = .ok () from h)
    have hc : 0 ≤ c := by
      apply Classical.byContradiction
      intro hn
      rw [if_pos (by omega)] at h
      cases h
    cases hp : x.hdr.isPkg2_64 with
    | true =>
      rw [hp] at h2
      have := Props.C01_int64_only x.env ⟨en.offset, 0⟩ (Rd.run Rd.readWzInt64 x.env ⟨en.offset, 0⟩).2 c hb (Prod.ext h2 rfl)
      obtain ⟨bs, h3, h4, _⟩ := this
      exact ⟨c, bs, hc, h4, h3⟩
    | false =>
      rw [hp] at h2
      have := Props.C01_int32_only x.env ⟨en.offset, 0⟩ (Rd.run Rd.readWzInt x.env ⟨en.offset, 0⟩).2 c hb (Prod.ext h2 rfl)
      obtain ⟨bs, h3, h4, _⟩ := this
      exact ⟨c, bs, hc, h4, h3⟩


/-! ### errors of whole directories -/

theorem Entry.verify_err {x : DirCtx} {en : Entry} {y : Err} (hS : ErrBase S) (h : en.verify x = .error y) : S x.env y := by
  unfold Entry.verify at h
  cases h1 : addU x.env.mode en.offset en.size with
  | error z =>
    rw [h1] at h
    obtain ⟨hm, rfl⟩ := addU_err h1
    cases h
    exact hS.overflow x.env hm
  | ok stop =>
    rw [h1] at h
    replace h : (if ¬(stop ≤ x.env.buf.length) then _ else _ : Except Err Unit) = _ := h
    by_cases hle : stop ≤ x.env.buf.length
    · rw [if_neg (fun h => h hle)] at h
      split at h
      · replace h : (readAt x.env.buf 1 en.offset >>= _) = .error y := h
        cases h2 : readAt x.env.buf 1 en.offset with
        | error z =>
          rw [h2] at h
          cases h
          rw [readAt_err h2]
          exact hS.read _
        | ok b =>
          rw [h2] at h
          replace h : (if validImageHeader b = true then _ else _ : Except Err Unit) = _ := h
          split at h
          · cases h
          · cases h; exact hS.lib _ _
      · replace h : ((Rd.run (if x.hdr.isPkg2_64 = true then Rd.readWzInt64 else Rd.readWzInt) x.env ⟨en.offset, 0⟩).1 >>= _) = .error y := h
        have herr : (if x.hdr.isPkg2_64 = true then Rd.readWzInt64 else Rd.readWzInt).ErrIn S := by
          split
          · exact .readWzInt64 hS
          · exact .readWzInt hS
        cases h2 : (Rd.run (if x.hdr.isPkg2_64 = true then Rd.readWzInt64 else Rd.readWzInt) x.env ⟨en.offset, 0⟩).1 with
        | error z =>
          rw [h2] at h
          cases h
          exact herr _ _ _ h2
        | ok c =>
          rw [h2] at h
          replace h : (if c < 0 then _ else _ : Except Err Unit) = _ := h
          split at h
          · cases h; exact hS.lib _ _
          · cases h
      · cases h
    · rw [if_pos hle] at h
      cases h
      exact hS.lib _ _

theorem mapM_error {f : α → Except Err β} {l : List α} {y : Err} (h : l.mapM f = .error y) : ∃ a ∈ l, f a = .error y := by
  induction l with
  | nil => cases h
  | cons a l ih =>
    rw [List.mapM_cons] at h
    cases ha : f a with
    | error z => rw [ha] at h; cases h; exact ⟨a, List.mem_cons_self, ha⟩
    | ok b =>
      rw [ha] at h
      cases hl : l.mapM f with
      | error z =>
        rw [hl] at h
        cases h
        obtain ⟨a, hm, h⟩ := ih hl
        exact ⟨a, List.mem_cons_of_mem _ hm, h⟩
      | ok bs => rw [hl] at h; cases h

theorem locate_err {x : DirCtx} {hash : BitVec 64} {ver : OffsetVersion} {en : Entry} {y : Err} (hf : x.hdr.fstart < 2 ^ 32)
    (hS : ErrBase S) (h : en.locate x hash ver = .error y) : S x.env y := by
  unfold Entry.locate at h
  obtain ⟨real, hr, _⟩ := Props.C10_total ver x.env.mode x.hdr ⟨hash, en.encOff, en.calcOff⟩ hf
  rw [hr] at h
  replace h : (match ({ en with offset := real } : Entry).verify x with
    | .ok () => pure { en with offset := real }
    | .error e => throw (if e.isPanic then e else .lib "InvalidWzVersion") : Except Err Entry) = .error y := h
  split at h
  · cases h
  · rename_i e he
    have := Entry.verify_err hS he
    split at h
    · cases h; exact this
    · cases h; exact hS.lib _ _

theorem calcVerify_err {x : DirCtx} {d : Dir} {y : Err} (hf : x.hdr.fstart < 2 ^ 32) (hS : ErrBase S)
    (h : calcVerify x d = .error y) : S x.env y := by
  unfold calcVerify at h
  cases h1 : d.entries.mapM (Entry.locate x d.hash d.ver) with
  | ok es => rw [h1] at h; cases h
  | error z =>
    rw [h1] at h
    cases h
    obtain ⟨en, _, h⟩ := mapM_error h1
    exact locate_err hf hS h

/-- with enough fuel for the entry loop, preparing entries does not run out of fuel -/
theorem prepareEntries_noFuel {x : DirCtx} {lf : Nat} {d : Dir} (hlf : x.env.buf.length < lf)
    (hm : x.hdr.ident = .v2 → x.hdr.isPkg2_64 = false → x.env.mode = .checked) : prepareEntries x lf d ≠ .error .fuel := by
  intro h
  unfold prepareEntries at h
  split at h
  · cases h
  · dsimp only at h
    split at h
    · cases h
    · rename_i e he
      cases h
      cases hid : x.hdr.ident with
      | v1 =>
        rw [hid] at he
        exact entriesPkg1_errIn errBase_noFuel _ _ _ _ he rfl
      | unknown => rw [hid] at he; cases he
      | v2 =>
        rw [hid] at he
        cases h64 : x.hdr.isPkg2_64 with
        | false =>
          rw [h64] at he
          exact entriesPkg2_noFuel (hm hid h64) x.keys2 lf _ hlf he
        | true =>
          rw [h64] at he
          by_cases hv : d.ver = .pkg2_64V1
          · rw [hv] at he
            exact entriesPkg2_64_errIn errBase_noFuel _ _ _ _ _ _ he rfl
          · simp only [Rd.entriesPkg2_64, hv, ne_eq, not_false_eq_true, if_true, Rd.fail_run] at he
            cases he

theorem prepareEntries_noPanic {x : DirCtx} {lf : Nat} {d : Dir} {y : Err} (hw : x.env.mode = .wrap)
    (hv : x.hdr.isPkg2_64 = true → d.ver = .pkg2_64V1) (h : prepareEntries x lf d = .error y) : y.isPanic = false := by
  unfold prepareEntries at h
  split at h
  · cases h
  · dsimp only at h
    split at h
    · cases h
    · rename_i e he
      cases h
      cases hid : x.hdr.ident with
      | v1 =>
        rw [hid] at he
        exact entriesPkg1_errIn errBase_noPanic _ _ _ _ he hw
      | unknown => rw [hid] at he; cases he; rfl
      | v2 =>
        rw [hid] at he
        cases h64 : x.hdr.isPkg2_64 with
        | false =>
          rw [h64] at he
          have hE : (Rd.entriesPkg2 x.keys2 lf).ErrIn fun e x => e.mode = .wrap → x.isPanic = false := by
            refine .bind (.readWzInt errBase_noPanic) fun n => .bind (pkg2Loop_errIn errBase_noPanic (fun _ _ => rfl) _ _ _ _) fun es =>
              .bind (.readWzInt errBase_noPanic) fun o => ?_
            split
            · exact .lib errBase_noPanic _
            · exact readOffsets_errIn errBase_noPanic _
          exact hE _ _ _ he hw
        | true =>
          rw [h64, hv h64] at he
          exact entriesPkg2_64_errIn errBase_noPanic _ _ _ _ _ _ he hw

theorem units_ne_fuel {bs : Bytes} : units bs ≠ .error .fuel := by
  fun_induction units bs with
  | case1 => nofun
  | case2 => nofun
  | case3 a b r ih =>
    intro h
    cases hu : units r with
    | error x => rw [hu] at h; cases h; exact ih hu
    | ok us => rw [hu] at h; cases h

theorem decryptSlice_ne_fuel {m : Mode} {buf : Bytes} {ks : Nat → Byte} {p n : Nat} :
    decryptSlice m buf ks p n ≠ .error .fuel := by
  intro h
  unfold decryptSlice at h
  cases h1 : addU m p n with
  | error x => rw [h1] at h; obtain ⟨_, rfl⟩ := addU_err h1; cases h
  | ok q =>
    rw [h1] at h
    replace h : (sliceOrError buf p q >>= _) = Except.error Err.fuel := h
    unfold sliceOrError at h
    split at h <;> cases h

theorem resolveMeta_ne_fuel {e : Env} {ty : StrType} {p n : Nat} {x : Err} (h : resolveMeta e ty p n = .error x) : x ≠ .fuel := by
  intro hx
  subst hx
  cases ty with
  | empty => cases h
  | ascii =>
    cases h1 : decryptSlice e.mode e.buf e.ks p n with
    | error y => simp only [resolveMeta, resolveAsciiRaw, h1] at h; cases h; exact decryptSlice_ne_fuel h1
    | ok d => simp only [resolveMeta, resolveAsciiRaw, h1] at h; cases h
  | unicode =>
    cases h1 : decryptSlice e.mode e.buf e.ks p n with
    | error y => simp only [resolveMeta, resolveUnicodeRaw, h1] at h; cases h; exact decryptSlice_ne_fuel h1
    | ok d =>
      cases h2 : units d with
      | error y =>
        simp only [resolveMeta, resolveUnicodeRaw, h1] at h
        change ((units d >>= _) >>= _) = _ at h
        rw [h2] at h; cases h; exact units_ne_fuel h2
      | ok us =>
        simp only [resolveMeta, resolveUnicodeRaw, h1] at h
        change ((units d >>= _) >>= _) = _ at h
        rw [h2] at h; cases h
  | pkg2Dir =>
    cases h1 : decryptSlice e.mode e.buf e.ks2 p n with
    | error y => simp only [resolveMeta, resolvePkg2DirRaw, h1] at h; cases h; exact decryptSlice_ne_fuel h1
    | ok d =>
      cases h2 : units d with
      | error y =>
        simp only [resolveMeta, resolvePkg2DirRaw, h1] at h
        change (units d >>= _) = _ at h
        rw [h2] at h; cases h; exact units_ne_fuel h2
      | ok us =>
        simp only [resolveMeta, resolvePkg2DirRaw, h1] at h
        change (units d >>= _) = _ at h
        rw [h2] at h; cases h

end Wz
