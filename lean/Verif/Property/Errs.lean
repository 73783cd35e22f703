import Verif.Directory.Errs
import Verif.Property.TreeLemmas
/-!
# The bound on the depth of the recursion
-/

set_option autoImplicit false
variable {α β γ : Type}

namespace Wz
open Spec

/-! ## A larger bound changes nothing unless the bound was reached -/

/-- `m'` does what `m` does, unless `m` ends at its recursion bound -/
def Rd.Le (m m' : Rd α) : Prop := ∀ e c, (m.run e c).1 = .error .fuel ∨ m'.run e c = m.run e c

theorem Rd.Le.refl (m : Rd α) : m.Le m := fun _ _ => .inr rfl

theorem Rd.Le.bind {m m' : Rd α} {f f' : α → Rd β} (hm : m.Le m') (hf : ∀ a, (f a).Le (f' a)) :
    (m >>= f).Le (m' >>= f') := by
  intro e c
  rw [Rd.bind_run, Rd.bind_run]
  rcases hm e c with h | h
  · cases hr : m.run e c with
    | mk r c1 =>
      rw [hr] at h
      dsimp only at h
      subst h
      exact .inl rfl
  · rw [h]
    cases m.run e c with
    | mk r c1 =>
      cases r with
      | ok a => exact hf a e c1
      | error x => exact .inr rfl

theorem Rd.Le.same {m : Rd α} {f f' : α → Rd β} (hf : ∀ a, (f a).Le (f' a)) : (m >>= f).Le (m >>= f') :=
  .bind (.refl m) hf

def ExtLe (x y : Rd.Ext) : Prop := ∀ eob name, (x eob name).Le (y eob name)

theorem parseNode_le {x y : Rd.Ext} (h : ExtLe x y) (o : Nat) (name : List Char) (ty : Nat) :
    (Rd.parseNode x o name ty).Le (Rd.parseNode y o name ty) := by
  unfold Rd.parseNode
  split
  · exact .same fun _ => .same fun _ => .same fun _ => .same fun _ => .bind (h _ _) fun _ => .refl _
  · exact .refl _

theorem parseItems_le {x y : Rd.Ext} (h : ExtLe x y) (o n : Nat) : (Rd.parseItems x o n).Le (Rd.parseItems y o n) := by
  induction n with
  | zero => exact .refl _
  | succ n ih =>
    exact .bind (.same fun _ => .same fun _ => parseNode_le h _ _ _) fun _ => .bind ih fun _ => .refl _

theorem parseListWith_le {x y : Rd.Ext} (h : ExtLe x y) (o : Nat) : (Rd.parseListWith x o).Le (Rd.parseListWith y o) := by
  refine .same fun n => ?_
  split
  · exact .refl _
  · exact parseItems_le h _ _

theorem parseKids_le {x y : Rd.Ext} (h : ExtLe x y) (o : Nat) : (Rd.parseKids x o).Le (Rd.parseKids y o) :=
  .same fun _ => .bind (parseListWith_le h o) fun _ => .refl _

theorem parseKidsIf_le {x y : Rd.Ext} (h : ExtLe x y) (o : Nat) (b : Bool) : (Rd.parseKidsIf x o b).Le (Rd.parseKidsIf y o b) := by
  cases b
  · exact Rd.Le.refl (Pure.pure [])
  · exact parseKids_le h o

theorem convexLoop_le {x y : Rd.Ext} (h : ExtLe x y) (eob n i : Nat) (acc : List (List Char × PNode)) :
    (Rd.convexLoop x eob n i acc).Le (Rd.convexLoop y eob n i acc) := by
  induction n generalizing i acc with
  | zero => exact .refl _
  | succ n ih =>
    rw [Rd.convexLoop, Rd.convexLoop]
    refine .bind (h _ _) fun r => ?_
    cases r with
    | ok a => exact ih _ _
    | error a => exact .refl _

theorem parseMore_le {x y : Rd.Ext} (h : ExtLe x y) (o eob : Nat) (name : List Char) (k : Option Kind) :
    (Rd.parseMore x o eob name k).Le (Rd.parseMore y o eob name k) := by
  cases k with
  | none => exact .refl _
  | some k =>
    cases k with
    | property => exact .bind (parseKids_le h o) fun _ => .refl _
    | canvas => exact .same fun _ => .same fun _ => .bind (parseKidsIf_le h o _) fun _ => .refl _
    | convex =>
      refine .same fun n => ?_
      split
      · exact .refl _
      · exact .bind (convexLoop_le h _ _ _ _) fun _ => .refl _
    | raw => exact .same fun _ => .bind (parseKidsIf_le h o _) fun _ => .refl _
    | _ => exact .refl _

theorem parseExt_le (o f d : Nat) : ExtLe (Rd.parseExt o f) (Rd.parseExt o (f + d)) := by
  induction f with
  | zero => intro eob name e c; exact .inl rfl
  | succ f ih =>
    intro eob name
    rw [Nat.add_right_comm]
    exact .same fun t => parseMore_le ih _ _ _ _

/-! ## With overflow checks the depth is bounded by the length of the buffer -/

/-- started at `lo` or behind it, `m` does not end at a recursion bound, and if it succeeds it ends at `hi`
or behind it -/
def Rd.Good (e : Env) (lo hi : Nat) (m : Rd α) : Prop :=
  ∀ c, lo ≤ c.pos → (m.run e c).1 ≠ .error .fuel ∧ ∀ a c', m.run e c = (.ok a, c') → hi ≤ c'.pos

section
variable {e : Env} {lo mid hi : Nat}

theorem Rd.Good.bind {m : Rd α} {f : α → Rd β} (hm : m.Good e lo mid) (hf : ∀ a, (f a).Good e mid hi) :
    (m >>= f).Good e lo hi := by
  intro c hc
  obtain ⟨h1, h2⟩ := hm c hc
  rw [Rd.bind_run]
  cases hr : m.run e c with
  | mk r c1 =>
    rw [hr] at h1
    cases r with
    | ok a => exact hf a c1 (h2 a c1 hr)
    | error x => exact ⟨fun h => h1 (by cases h; rfl), fun _ _ h => nomatch h⟩

theorem Rd.Good.mono {m : Rd α} {hi' : Nat} (h : m.Good e lo hi) (hle : hi' ≤ hi) : m.Good e lo hi' :=
  fun c hc => ⟨(h c hc).1, fun a c' hr => Nat.le_trans hle ((h c hc).2 a c' hr)⟩

theorem Rd.Good.of {m : Rd α} (hc : e.mode = .checked) (h1 : m.ErrIn (fun _ x => x ≠ .fuel)) (h2 : m.Mono) :
    m.Good e lo lo :=
  fun c hp => ⟨fun h => h1 e c _ h rfl, fun a c' hr => Nat.le_trans hp (h2 e c a c' hc hr)⟩

theorem Rd.Good.pure (a : α) : (Pure.pure a : Rd α).Good e lo lo :=
  fun c hp => ⟨nofun, fun b c' hr => by cases hr; exact hp⟩

theorem Rd.Good.fail {x : Err} (h : x ≠ .fuel) : (Rd.fail x : Rd α).Good e lo hi :=
  fun c hp => ⟨fun h' => h (by cases h'; rfl), fun b c' hr => nomatch hr⟩

theorem Rd.Good.seek {p : Nat} (h : hi ≤ p) : (Rd.seek p).Good e lo hi :=
  fun c hp => ⟨nofun, fun b c' hr => by cases hr; exact h⟩

theorem Rd.Good.getEnvBind {f : Env → Rd β} (h : (f e).Good e lo hi) : (Rd.getEnv >>= f).Good e lo hi := by
  intro c hc
  rw [Rd.bind_ok (Rd.getEnv_run e c)]
  exact h c hc

theorem Rd.Good.getPosBind {f : Nat → Rd β} (h : ∀ p, lo ≤ p → (f p).Good e lo hi) : (Rd.getPos >>= f).Good e lo hi := by
  intro c hc
  rw [Rd.bind_ok (Rd.getPos_run e c)]
  exact h _ hc c hc

theorem Rd.Good.liftBind {x : Except Err α} {f : α → Rd β} (hx : x ≠ .error .fuel)
    (h : ∀ a, x = .ok a → (f a).Good e lo hi) : (Rd.lift x >>= f).Good e lo hi := by
  intro c hc
  rw [Rd.bind_run, Rd.lift_run]
  cases x with
  | ok a => exact h a rfl c hc
  | error y => exact ⟨fun hy => hx (by cases hy; rfl), fun _ _ hr => nomatch hr⟩

theorem Rd.Good.readLE (hc : e.mode = .checked) (w : Nat) : (Rd.readLE w).Good e lo (lo + w) :=
  fun c hp => ⟨fun h => Rd.ErrIn.readLE errBase_noFuel w e c _ h rfl, fun a c' hr => by
    have := Rd.readLE_checked hc hr
    omega⟩

theorem Rd.Good.readInt (hc : e.mode = .checked) (w : Nat) : (Rd.readInt w).Good e lo (lo + w) :=
  .bind (.readLE hc w) fun _ => .pure _

theorem Rd.Good.skip (hc : e.mode = .checked) (n : Nat) : (Rd.skip n).Good e lo lo :=
  .of hc (.skip errBase_noFuel n) (.skip n)

theorem Rd.Good.readWzInt (hc : e.mode = .checked) : Rd.readWzInt.Good e lo lo :=
  .of hc (.readWzInt errBase_noFuel) .readWzInt

theorem Rd.Mono.readWzInt64 : Rd.readWzInt64.Mono := by
  refine .bind (.readInt 1) fun small => ?_
  split
  · exact .readInt 8
  · exact .pure _

theorem Rd.Good.readWzInt64 (hc : e.mode = .checked) : Rd.readWzInt64.Good e lo lo :=
  .of hc (.readWzInt64 errBase_noFuel) .readWzInt64

theorem mulI32_ne_fuel {m : Mode} {a b : Int} : mulI32 m a b ≠ .error .fuel := by
  unfold mulI32
  split
  · nofun
  · split <;> nofun

theorem addU_ne_fuel {m : Mode} {a b : Nat} : addU m a b ≠ .error .fuel := by
  intro h; have := (addU_err h).2; cases this

theorem Rd.Good.readWzString (hc : e.mode = .checked) : Rd.readWzString.Good e lo lo := by
  refine .bind ((Rd.Good.readInt hc 1).mono (hi' := lo) (by omega)) fun small => ?_
  split
  · exact .pure _
  · refine .bind (mid := lo) ?_ fun len => ?_
    · unfold Rd.readUnicodeStrLen
      split
      · exact (Rd.Good.readInt hc 4).mono (by omega)
      · exact .pure _
    · split
      · exact .pure _
      · refine .getEnvBind (.liftBind mulI32_ne_fuel fun l2 _ => .getPosBind fun p _ => .liftBind ?_ fun s _ => .bind (.skip hc _) fun _ => .pure _)
        exact fun h => resolveMeta_ne_fuel h rfl
  · refine .bind (mid := lo) ?_ fun len => ?_
    · unfold Rd.readAsciiStrLen
      split
      · exact (Rd.Good.readInt hc 4).mono (by omega)
      · exact .pure _
    · dsimp only
      split
      · exact .pure _
      · refine .getEnvBind (.getPosBind fun p _ => .liftBind ?_ fun s _ => .bind (.skip hc _) fun _ => .pure _)
        exact fun h => resolveMeta_ne_fuel h rfl
  · exact .fail nofun

theorem Rd.Good.readWzStringAtOffset (hc : e.mode = .checked) (o : Nat) : (Rd.readWzStringAtOffset o).Good e lo lo := by
  intro c hp
  have h1 := (Rd.Good.readWzString (lo := 0) hc ⟨o, c.pos⟩ (Nat.zero_le _)).1
  refine ⟨h1, fun a c' hr => ?_⟩
  have hk := Rd.KeepsSaved.readWzString e ⟨o, c.pos⟩
  have : c'.pos = (Rd.readWzString.run e ⟨o, c.pos⟩).2.saved := by
    have := congrArg (fun x => x.2.pos) hr
    exact this.symm
  rw [this, hk]
  exact hp

theorem Rd.Good.readWzStringBlock (hc : e.mode = .checked) (o : Nat) : (Rd.readWzStringBlock o).Good e lo (lo + 1) := by
  refine .bind (.readLE hc 1) fun t => ?_
  split
  · exact .readWzString hc
  · split
    · refine .bind ((Rd.Good.readInt hc 4).mono (hi' := lo + 1) (by omega)) fun a => .getEnvBind (.liftBind addU_ne_fuel fun _ _ => ?_)
      exact .readWzStringAtOffset hc _
    · exact .pure _

theorem Rd.Good.readWzStringMetaAt (hc : e.mode = .checked) (o : Nat) : (Rd.readWzStringMetaAt o).Good e lo lo := by
  intro c hp
  refine ⟨fun h => Rd.ErrIn.readWzStringMetaAt errBase_noFuel o e c _ h rfl, fun a c' hr => ?_⟩
  have hk := Rd.KeepsSaved.readWzStringMeta e ⟨o, c.pos⟩
  have : c'.pos = (Rd.readWzStringMeta.run e ⟨o, c.pos⟩).2.saved := by
    have := congrArg (fun x => x.2.pos) hr
    exact this.symm
  rw [this, hk]
  exact hp

theorem Rd.Good.readWzStringBlockMeta (hc : e.mode = .checked) (o : Nat) : (Rd.readWzStringBlockMeta o).Good e lo (lo + 1) := by
  refine .bind (.readLE hc 1) fun t => ?_
  split
  · exact .of hc (.readWzStringMeta errBase_noFuel) .readWzStringMeta
  · split
    · refine .bind ((Rd.Good.readInt hc 4).mono (hi' := lo + 1) (by omega)) fun a => .getEnvBind (.liftBind addU_ne_fuel fun _ _ => ?_)
      exact .readWzStringMetaAt hc _
    · exact .pure _

theorem Rd.Good.readPlain (hc : e.mode = .checked) (o ty : Nat) : (Rd.readPlain o ty).Good e lo lo := by
  unfold Rd.readPlain
  split
  · exact .pure _
  split
  · exact .bind ((Rd.Good.readInt hc 2).mono (hi' := lo) (by omega)) fun _ => .pure _
  split
  · exact .bind (.readWzInt hc) fun _ => .pure _
  split
  · exact .bind (.readWzInt64 hc) fun _ => .pure _
  split
  · refine .bind ((Rd.Good.readLE hc 1).mono (hi' := lo) (by omega)) fun t => ?_
    split
    · exact .bind ((Rd.Good.readLE hc 4).mono (hi' := lo) (by omega)) fun _ => .pure _
    · exact .pure _
  split
  · exact .bind ((Rd.Good.readLE hc 8).mono (hi' := lo) (by omega)) fun _ => .pure _
  split
  · exact .bind ((Rd.Good.readWzStringBlockMeta hc o).mono (hi' := lo) (by omega)) fun _ => .pure _
  · exact .fail nofun

/-- what the recursive calls must satisfy -/
def ExtGood (e : Env) (lo : Nat) (x : Rd.Ext) : Prop := ∀ eob name, (x eob name).Good e lo lo

theorem Rd.Good.parseNode {x : Rd.Ext} (hc : e.mode = .checked) (h : ExtGood e lo x) (o : Nat) (name : List Char) (ty : Nat) :
    (Rd.parseNode x o name ty).Good e lo lo := by
  unfold Rd.parseNode
  split
  · refine .bind ((Rd.Good.readLE hc 4).mono (hi' := lo) (by omega)) fun size => .getPosBind fun p hp => .getEnvBind (.liftBind addU_ne_fuel fun next hn => ?_)
    rw [hc] at hn
    have := addU_checked hn
    refine .bind (h _ _) fun r => ?_
    cases r with
    | ok a => exact .bind (.seek (by omega)) fun _ => .pure _
    | error a => exact .bind (.seek (by omega)) fun _ => .pure _
  · exact .bind (.readPlain hc _ _) fun _ => .pure _

theorem Rd.Good.parseItems {x : Rd.Ext} (hc : e.mode = .checked) (h : ExtGood e lo x) (o n : Nat) : (Rd.parseItems x o n).Good e lo lo := by
  induction n with
  | zero => exact .pure _
  | succ n ih =>
    refine .bind (mid := lo) ?_ fun _ => .bind ih fun _ => .pure _
    exact .bind ((Rd.Good.readWzStringBlock hc o).mono (hi' := lo) (by omega)) fun name =>
      .bind ((Rd.Good.readLE hc 1).mono (hi' := lo) (by omega)) fun ty => .parseNode hc h _ _ _

theorem Rd.Good.parseListWith {x : Rd.Ext} (hc : e.mode = .checked) (h : ExtGood e lo x) (o : Nat) : (Rd.parseListWith x o).Good e lo lo := by
  refine .bind (.readWzInt hc) fun n => ?_
  split
  · exact .fail nofun
  · exact .parseItems hc h _ _

theorem Rd.Good.parseKids {x : Rd.Ext} (hc : e.mode = .checked) (h : ExtGood e lo x) (o : Nat) : (Rd.parseKids x o).Good e lo lo :=
  .bind (.skip hc 2) fun _ => .bind (.parseListWith hc h o) fun _ => .pure _

theorem Rd.Good.parseKidsIf {x : Rd.Ext} (hc : e.mode = .checked) (h : ExtGood e lo x) (o : Nat) (b : Bool) :
    (Rd.parseKidsIf x o b).Good e lo lo := by
  cases b
  · exact .pure _
  · exact .parseKids hc h o

theorem Rd.Good.convexLoop {x : Rd.Ext} (h : ExtGood e lo x) (eob n i : Nat) (acc : List (List Char × PNode)) :
    (Rd.convexLoop x eob n i acc).Good e lo lo := by
  induction n generalizing i acc with
  | zero => exact .pure _
  | succ n ih =>
    refine .bind (h _ _) fun r => ?_
    cases r with
    | ok a => exact ih _ _
    | error a => exact .pure _

theorem subU_ne_fuel {m : Mode} {a b : Nat} : subU m a b ≠ .error .fuel := by
  unfold subU
  split
  · nofun
  · cases m <;> nofun

theorem decI32_ne_fuel {m : Mode} {a : Int} : decI32 m a ≠ .error .fuel := by
  unfold decI32
  split
  · nofun
  · cases m <;> nofun

theorem sliceIdx_ne_fuel {b : Bytes} {s t : Nat} : sliceIdx b s t ≠ .error .fuel := by
  unfold sliceIdx
  split <;> nofun

theorem Rd.Good.parsePng (hc : e.mode = .checked) : Rd.parsePng.Good e lo lo :=
  .bind (.readWzInt hc) fun _ => .bind (.readWzInt hc) fun _ => .bind (.readWzInt hc) fun _ =>
    .bind ((Rd.Good.readInt hc 1).mono (hi' := lo) (by omega)) fun _ => .bind (.readWzInt hc) fun _ =>
    .bind (.readWzInt hc) fun _ => .bind (.skip hc 2) fun _ =>
    .bind ((Rd.Good.readInt hc 4).mono (hi' := lo) (by omega)) fun _ => .getEnvBind (.liftBind decI32_ne_fuel fun _ _ =>
      .bind (.skip hc 1) fun _ => .getPosBind fun _ _ => .bind ((Rd.Good.readLE hc 2).mono (hi' := lo) (by omega)) fun _ => .pure _)

theorem Rd.Good.parseSound (hc : e.mode = .checked) (eob : Nat) : (Rd.parseSound eob).Good e lo lo :=
  .bind (.skip hc 1) fun _ => .bind (.readWzInt hc) fun _ => .bind (.readWzInt hc) fun _ =>
    .getEnvBind (.liftBind subU_ne_fuel fun _ _ => .getPosBind fun _ _ => .liftBind subU_ne_fuel fun _ _ =>
      .liftBind addU_ne_fuel fun _ _ => .liftBind sliceIdx_ne_fuel fun _ _ => .pure _)

theorem Rd.Good.rawHasKids (hc : e.mode = .checked) : Rd.rawHasKids.Good e lo lo := by
  refine .bind ((Rd.Good.readLE hc 1).mono (hi' := lo) (by omega)) fun _ => ?_
  split
  · exact .bind ((Rd.Good.readLE hc 1).mono (hi' := lo) (by omega)) fun _ => .pure _
  · exact .pure _

theorem Rd.Good.parseMore {x : Rd.Ext} (hc : e.mode = .checked) (h : ExtGood e lo x) (o eob : Nat) (name : List Char)
    (k : Option Kind) : (Rd.parseMore x o eob name k).Good e lo lo := by
  cases k with
  | none => exact .pure _
  | some k =>
    cases k with
    | property => exact .bind (.parseKids hc h o) fun _ => .pure _
    | canvas =>
      exact .bind (.skip hc 1) fun _ => .bind ((Rd.Good.readLE hc 1).mono (hi' := lo) (by omega)) fun _ =>
        .bind (.parseKidsIf hc h o _) fun _ => .bind (.parsePng hc) fun _ => .pure _
    | convex =>
      refine .bind (.readWzInt hc) fun n => ?_
      split
      · exact .fail nofun
      · refine .bind (.convexLoop h _ _ _ _) fun r => ?_
        cases r <;> exact .pure _
    | vector => exact .bind (.readWzInt hc) fun _ => .bind (.readWzInt hc) fun _ => .pure _
    | sound => exact .bind (.parseSound hc eob) fun _ => .pure _
    | uol => exact .bind (.skip hc 1) fun _ => .bind ((Rd.Good.readWzStringBlockMeta hc o).mono (hi' := lo) (by omega)) fun _ => .pure _
    | raw =>
      exact .bind (.rawHasKids hc) fun _ => .bind (.parseKidsIf hc h o _) fun _ => .bind (.readWzInt hc) fun _ =>
        .getPosBind fun _ _ => .pure _
    | video => exact .bind (.skip hc 3) fun _ => .bind (.readWzInt hc) fun _ => .getPosBind fun _ _ => .pure _

/-- behind the end of the buffer no block can be read -/
theorem readWzStringBlock_behind {o : Nat} {c c' : Cur} {s : List Char} (hc : e.mode = .checked)
    (h : (Rd.readWzStringBlock o).run e c = (.ok s, c')) : c.pos < e.buf.length := by
  unfold Rd.readWzStringBlock at h
  rw [Rd.bind_run] at h
  cases hr : Rd.readU8.run e c with
  | mk r c1 =>
    rw [hr] at h
    cases r with
    | error x => cases h
    | ok t => have := Rd.readLE_checked hc hr; omega

theorem Rd.Good.parseExt (hc : e.mode = .checked) (o f : Nat) : ∀ lo, e.buf.length + 2 ≤ lo + f → 1 ≤ f → ExtGood e lo (Rd.parseExt o f) := by
  induction f with
  | zero => intro lo _ h; omega
  | succ f ih =>
    intro lo h _ eob name c hp
    show ((Rd.readWzStringBlock o >>= _).run e c).1 ≠ _ ∧ _
    by_cases hlo : c.pos < e.buf.length
    · have hx : ExtGood e (lo + 1) (Rd.parseExt o f) := ih (lo + 1) (by omega) (by omega)
      have : (Rd.parseExt o (f + 1) eob name).Good e lo lo :=
        .bind (.readWzStringBlock hc o) fun t => (Rd.Good.parseMore hc hx o eob name _).mono (by omega)
      exact this c hp
    · have h1 := (Rd.Good.readWzStringBlock (lo := lo) hc o c hp).1
      rw [Rd.bind_run]
      cases hr : (Rd.readWzStringBlock o).run e c with
      | mk r c1 =>
        cases r with
        | ok t => exact absurd (readWzStringBlock_behind hc hr) hlo
        | error x =>
          rw [hr] at h1
          refine ⟨fun h => h1 (by cases h; rfl), fun a c' h => ?_⟩
          have h2 : (Rd.readWzStringBlock o >>= fun t => Rd.parseMore (Rd.parseExt o f) o eob name (Kind.of t)).run e c = (.ok a, c') := h
          rw [Rd.bind_run, hr] at h2
          cases h2

end

end Wz

namespace Wz
open Spec
section
variable {e : Env} {lo : Nat}

theorem Rd.Good.skipPlain (hc : e.mode = .checked) (ty : Nat) : (Rd.skipPlain ty).Good e lo lo := by
  unfold Rd.skipPlain
  split
  · exact .pure _
  split
  · exact .skip hc 2
  split
  · exact .bind (.readWzInt hc) fun _ => .pure _
  split
  · exact .bind (.readWzInt64 hc) fun _ => .pure _
  split
  · refine .bind ((Rd.Good.readLE hc 1).mono (hi' := lo) (by omega)) fun t => ?_
    split
    · exact .skip hc 4
    · exact .pure _
  split
  · exact .skip hc 8
  split
  · refine .bind ((Rd.Good.readLE hc 1).mono (hi' := lo) (by omega)) fun t => ?_
    split
    · exact .bind (.of hc (.readWzStringMeta errBase_noFuel) .readWzStringMeta) fun _ => .pure _
    · split
      · exact .skip hc 4
      · exact .pure _
  · exact .fail nofun

theorem Rd.Good.findItems {x : Rd.Ext} (hc : e.mode = .checked) (h : ExtGood e lo x) (o : Nat) (cur : List Char) (last : Bool) (n : Nat) :
    (Rd.findItems x o cur last n).Good e lo lo := by
  induction n with
  | zero => exact .pure _
  | succ n ih =>
    refine .bind ((Rd.Good.readWzStringBlock hc o).mono (hi' := lo) (by omega)) fun name =>
      .bind ((Rd.Good.readLE hc 1).mono (hi' := lo) (by omega)) fun ty => ?_
    split
    · exact .bind (.parseNode hc h _ _ _) fun _ => .pure _
    split
    · split
      · exact .bind (.skip hc 4) fun _ => .bind ((Rd.Good.readWzStringBlockMeta hc o).mono (hi' := lo) (by omega)) fun _ =>
          .bind (.skip hc 2) fun _ => .pure _
      · exact .bind ((Rd.Good.readLE hc 4).mono (hi' := lo) (by omega)) fun _ => .bind (.skip hc _) fun _ => ih
    · exact .bind (.skipPlain hc _) fun _ => ih

theorem Rd.Good.getNodeLoop {x : Rd.Ext} (hc : e.mode = .checked) (h : ExtGood e lo x) (o : Nat) (rest : List (List Char)) :
    ∀ cur, (Rd.getNodeLoop x o cur rest).Good e lo lo := by
  induction rest with
  | nil =>
    intro cur
    rw [Rd.getNodeLoop]
    refine .bind (.readWzInt hc) fun n => .bind (.findItems hc h _ _ _ _) fun r => ?_
    cases r
    · exact .pure _
    · exact .fail nofun
    · exact .fail nofun
  | cons y ys ih =>
    intro cur
    rw [Rd.getNodeLoop]
    refine .bind (.readWzInt hc) fun n => .bind (.findItems hc h _ _ _ _) fun r => ?_
    cases r
    · exact .pure _
    · exact ih _
    · exact ih _

theorem Rd.Good.getNode (hc : e.mode = .checked) (path : List Char) (o fuel : Nat) (h : e.buf.length + 2 ≤ lo + fuel) (h1 : 1 ≤ fuel) :
    (Rd.getNode path o fuel).Good e lo lo := by
  unfold Rd.getNode
  split
  · exact .fail nofun
  split
  · exact .getNodeLoop hc (Rd.Good.parseExt hc o fuel lo h h1) o _ _
  · exact .fail nofun

end
end Wz
