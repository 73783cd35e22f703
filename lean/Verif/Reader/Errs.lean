import Verif.Reader.Reads
/-!
# Which errors reading operations can give
-/

set_option autoImplicit false
variable {α β γ : Type}

namespace Wz

/-- every error of `m` satisfies `S` -/
def Rd.ErrIn (S : Env → Err → Prop) (m : Rd α) : Prop := ∀ e c x, (m.run e c).1 = .error x → S e x

/-- `S` allows read errors, and overflow panics in the checked build -/
structure ErrBase (S : Env → Err → Prop) : Prop where
  read : ∀ e, S e .read
  lib : ∀ e t, S e (.lib t)
  overflow : ∀ e, e.mode = .checked → S e .panicOverflow

theorem errBase_noFuel : ErrBase fun _ x => x ≠ .fuel :=
  ⟨fun _ => nofun, fun _ _ => nofun, fun _ _ => nofun⟩

theorem errBase_noPanic : ErrBase fun e x => e.mode = .wrap → x.isPanic = false :=
  ⟨fun _ _ => rfl, fun _ _ _ => rfl, fun e h h' => by rw [h] at h'; cases h'⟩

variable {S : Env → Err → Prop}

theorem Rd.ErrIn.bind {m : Rd α} {f : α → Rd β} (hm : m.ErrIn S) (hf : ∀ a, (f a).ErrIn S) :
    (m >>= f).ErrIn S := by
  intro e c x h
  rw [Rd.bind_run] at h
  cases hr : m.run e c with
  | mk r c' =>
    rw [hr] at h
    cases r with
    | ok a => exact hf a e c' x h
    | error y =>
      cases h
      exact hm e c x (by rw [hr])

theorem Rd.ErrIn.pure (a : α) : (Pure.pure a : Rd α).ErrIn S := fun _ _ _ h => nomatch h
theorem Rd.ErrIn.getEnv : Rd.getEnv.ErrIn S := fun _ _ _ h => nomatch h
theorem Rd.ErrIn.getPos : Rd.getPos.ErrIn S := fun _ _ _ h => nomatch h
theorem Rd.ErrIn.seek (p : Nat) : (Rd.seek p).ErrIn S := fun _ _ _ h => nomatch h
theorem Rd.ErrIn.lib (hS : ErrBase S) (t : String) : (Rd.fail (.lib t) : Rd α).ErrIn S := by
  intro e c x h
  cases h
  exact hS.lib e t

/-- after the environment is read, only that environment matters -/
theorem Rd.ErrIn.getEnvBind {f : Env → Rd β} (hf : ∀ e c x, ((f e).run e c).1 = .error x → S e x) :
    (Rd.getEnv >>= f).ErrIn S := by
  intro e c x h
  exact hf e c x h

theorem addU_err {m : Mode} {a b : Nat} {x : Err} (h : addU m a b = .error x) : m = .checked ∧ x = .panicOverflow := by
  unfold addU at h
  split at h
  · cases h
  · cases m with
    | checked => cases h; exact ⟨rfl, rfl⟩
    | wrap => cases h

theorem mulU32_err {m : Mode} {a b : Nat} {x : Err} (h : mulU32 m a b = .error x) : m = .checked ∧ x = .panicOverflow := by
  unfold mulU32 at h
  split at h
  · cases h
  · cases m with
    | checked => cases h; exact ⟨rfl, rfl⟩
    | wrap => cases h

theorem negI_err {m : Mode} {n : Nat} {a : Int} {x : Err} (h : negI m n a = .error x) : m = .checked ∧ x = .panicOverflow := by
  unfold negI at h
  split at h
  · cases m with
    | checked => cases h; exact ⟨rfl, rfl⟩
    | wrap => cases h
  · cases h

theorem readAt_err {buf : Bytes} {w p : Nat} {x : Err} (h : readAt buf w p = .error x) : x = .read := by
  unfold readAt at h
  split at h
  · cases h
  · cases h; rfl

theorem Rd.ErrIn.skip (hS : ErrBase S) (n : Nat) : (Rd.skip n).ErrIn S := by
  intro e c x h
  rw [Rd.skip_def] at h
  cases ha : addU e.mode c.pos n with
  | ok p => rw [ha] at h; cases h
  | error y =>
    rw [ha] at h
    obtain ⟨h1, rfl⟩ := addU_err ha
    cases h
    exact hS.overflow e h1

theorem Rd.ErrIn.readLE (hS : ErrBase S) (w : Nat) : (Rd.readLE w).ErrIn S := by
  intro e c x h
  rw [Rd.readLE_def] at h
  cases ha : addU e.mode c.pos w with
  | ok p =>
    rw [ha] at h
    rw [readAt_err h]
    exact hS.read e
  | error y =>
    rw [ha] at h
    obtain ⟨h1, rfl⟩ := addU_err ha
    cases h
    exact hS.overflow e h1

theorem Rd.ErrIn.readInt (hS : ErrBase S) (w : Nat) : (Rd.readInt w).ErrIn S :=
  .bind (.readLE hS w) fun _ => .pure _

theorem Rd.ErrIn.readWzInt (hS : ErrBase S) : Rd.readWzInt.ErrIn S := by
  refine .bind (.readInt hS 1) fun small => ?_
  split
  · exact .readInt hS 4
  · exact .pure _

theorem Rd.ErrIn.readWzInt64 (hS : ErrBase S) : Rd.readWzInt64.ErrIn S := by
  refine .bind (.readInt hS 1) fun small => ?_
  split
  · exact .readInt hS 8
  · exact .pure _

theorem Rd.ErrIn.run {m : Rd α} (h : m.ErrIn S) {e : Env} {c : Cur} {x : Err} (hr : (m.run e c).1 = .error x) : S e x :=
  h e c x hr

/-- an overflow-checked operation followed by something harmless -/
theorem Rd.ErrIn.liftBind (hS : ErrBase S) {f : Env → Except Err α} {g : α → Rd β}
    (hf : ∀ e x, f e = .error x → e.mode = .checked ∧ x = .panicOverflow) (hg : ∀ a, (g a).ErrIn S) :
    (Rd.getEnv >>= fun e => Rd.lift (f e) >>= g).ErrIn S := by
  intro e c x h
  rw [Rd.bind_ok (Rd.getEnv_run e c), Rd.bind_run, Rd.lift_run] at h
  cases ha : f e with
  | ok a => rw [ha] at h; exact hg a e c x h
  | error y =>
    rw [ha] at h
    obtain ⟨h1, rfl⟩ := hf e y ha
    cases h
    exact hS.overflow e h1

theorem Rd.ErrIn.readWzStringMeta (hS : ErrBase S) : Rd.readWzStringMeta.ErrIn S := by
  refine .bind (.readInt hS 1) fun small => ?_
  split
  · exact .pure _
  · split
    · exact .bind (.readInt hS 4) fun _ => .liftBind hS (fun _ _ h => mulU32_err h) fun _ => .bind .getPos fun _ =>
        .bind (.skip hS _) fun _ => .pure _
    · exact .liftBind hS (fun _ _ h => mulU32_err h) fun _ => .bind .getPos fun _ =>
        .bind (.skip hS _) fun _ => .pure _
  · split
    · exact .bind (.readInt hS 4) fun _ => .bind .getPos fun _ => .bind (.skip hS _) fun _ => .pure _
    · exact .bind .getPos fun _ => .bind (.skip hS _) fun _ => .pure _
  · rename_i h
    exact absurd h (strType_ne_pkg2 _)

theorem Rd.ErrIn.readWzStringMetaAt (hS : ErrBase S) (o : Nat) : (Rd.readWzStringMetaAt o).ErrIn S :=
  fun e c x h => Rd.ErrIn.readWzStringMeta hS e ⟨o, c.pos⟩ x h

theorem Rd.ErrIn.readPkg2DirMeta (hS : ErrBase S) (w : Nat) : (Rd.readPkg2DirMeta w).ErrIn S := by
  refine .bind (.readInt hS w) fun len => ?_
  split
  · exact .pure _
  · refine .bind ?_ fun n => .bind .getPos fun _ => .bind (.skip hS _) fun _ => .pure _
    intro e c x h
    unfold Rd.pkg2Len at h
    rw [Rd.bind_ok (Rd.getEnv_run e c), Rd.bind_run, Rd.lift_run] at h
    cases ha : negI e.mode (8 * w) len with
    | error y =>
      rw [ha] at h
      obtain ⟨h1, rfl⟩ := negI_err ha
      cases h
      exact hS.overflow e h1
    | ok a =>
      rw [ha] at h
      dsimp only at h
      by_cases hc : asUsize a * 2 < 2 ^ 64
      · rw [if_pos hc] at h; cases h
      · rw [if_neg hc] at h
        cases hm : e.mode with
        | checked => rw [hm] at h; cases h; exact hS.overflow e hm
        | wrap => rw [hm] at h; cases h

end Wz
