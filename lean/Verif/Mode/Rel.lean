import Verif.Reader.Lemmas
/-!
# Results with and without overflow checks
-/

set_option autoImplicit false

namespace Wz
variable {α β γ : Type}

/-- the first result is the panic of an overflow, or both are equal -/
def AgE (x y : Except Err α) : Prop := x = .error .panicOverflow ∨ x = y

/-- the same for the result and the state behind it -/
def AgP {σ : Type} (x y : Except Err α × σ) : Prop := x.1 = .error .panicOverflow ∨ x = y

/-- the same for two readers of the same bytes, of which the first checks for overflows -/
def AgR (b : Bytes) (k k2 : Nat → Byte) (d d' : Rd α) : Prop :=
  ∀ c, AgP (d.run ⟨.checked, b, k, k2⟩ c) (d'.run ⟨.wrap, b, k, k2⟩ c)

theorem AgE.same (x : Except Err α) : AgE x x := .inr rfl

theorem AgE.bind {x y : Except Err α} {f g : α → Except Err β} (h : AgE x y) (hf : ∀ a, AgE (f a) (g a)) : AgE (x >>= f) (y >>= g) := by
  rcases h with h | h
  · subst h; exact .inl rfl
  · subst h
    cases x with
    | error e => exact .inr rfl
    | ok a => exact hf a

theorem AgE.map {x y : Except Err α} (f : α → β) (h : AgE x y) : AgE (x.map f) (y.map f) := by
  rcases h with h | h <;> subst h
  · exact .inl rfl
  · exact .inr rfl

theorem AgE.ite {c : Prop} [Decidable c] {x y u v : Except Err α} (h : c → AgE x y) (h' : ¬c → AgE u v) :
    AgE (if c then x else u) (if c then y else v) := by
  by_cases hc : c
  · rw [if_pos hc, if_pos hc]; exact h hc
  · rw [if_neg hc, if_neg hc]; exact h' hc

theorem AgE.mapM {l : List α} {f g : α → Except Err β} (h : ∀ a, AgE (f a) (g a)) : AgE (l.mapM f) (l.mapM g) := by
  induction l with
  | nil => exact .same _
  | cons a l ih =>
    rw [List.mapM_cons, List.mapM_cons]
    exact .bind (h a) fun b => .bind ih fun bs => .same _

theorem AgE.foldlM {l : List α} {f g : β → α → Except Err β} (h : ∀ b a, AgE (f b a) (g b a)) (b : β) : AgE (l.foldlM f b) (l.foldlM g b) := by
  induction l generalizing b with
  | nil => exact .same _
  | cons a l ih =>
    rw [List.foldlM_cons, List.foldlM_cons]
    exact .bind (h b a) fun b => ih b

theorem AgP.same {σ : Type} (x : Except Err α × σ) : AgP x x := .inr rfl

theorem AgP.fst {σ : Type} {x y : Except Err α × σ} (h : AgP x y) : AgE x.1 y.1 := by
  rcases h with h | h
  · exact .inl h
  · exact .inr (congrArg Prod.fst h)

theorem AgP.ite {σ : Type} {c : Prop} [Decidable c] {x y u v : Except Err α × σ} (h : c → AgP x y) (h' : ¬c → AgP u v) :
    AgP (if c then x else u) (if c then y else v) := by
  by_cases hc : c
  · rw [if_pos hc, if_pos hc]; exact h hc
  · rw [if_neg hc, if_neg hc]; exact h' hc

section
variable {b : Bytes} {k k2 : Nat → Byte}

theorem AgR.bind {d d' : Rd α} {f f' : α → Rd β} (h : AgR b k k2 d d') (hf : ∀ a, AgR b k k2 (f a) (f' a)) : AgR b k k2 (d >>= f) (d' >>= f') := by
  intro c
  rw [Rd.bind_run, Rd.bind_run]
  rcases h c with h | h
  · rcases hd : d.run ⟨.checked, b, k, k2⟩ c with ⟨r, c1⟩
    rw [hd] at h
    cases h
    exact .inl rfl
  · rw [← h]
    rcases d.run ⟨.checked, b, k, k2⟩ c with ⟨r, c1⟩
    cases r with
    | error e => exact .inr rfl
    | ok a => exact hf a c1

theorem AgR.pure (a : α) : AgR b k k2 (Pure.pure a) (Pure.pure a) := fun _ => .inr rfl

theorem AgR.fail (x : Err) : AgR (α := α) b k k2 (Rd.fail x) (Rd.fail x) := fun _ => .inr rfl

theorem AgR.lift {x y : Except Err α} (h : AgE x y) : AgR b k k2 (Rd.lift x) (Rd.lift y) := by
  intro c
  rcases h with h | h <;> subst h
  · exact .inl rfl
  · exact .inr rfl

theorem AgR.getPos : AgR b k k2 Rd.getPos Rd.getPos := fun _ => .inr rfl

theorem AgR.seek (p : Nat) : AgR b k k2 (Rd.seek p) (Rd.seek p) := fun _ => .inr rfl

theorem AgR.getEnv {f f' : Env → Rd α} (h : AgR b k k2 (f ⟨.checked, b, k, k2⟩) (f' ⟨.wrap, b, k, k2⟩)) :
    AgR b k k2 (Rd.getEnv >>= f) (Rd.getEnv >>= f') := fun c => h c

theorem AgR.ite {c : Prop} [Decidable c] {x y u v : Rd α} (h : c → AgR b k k2 x y) (h' : ¬c → AgR b k k2 u v) :
    AgR b k k2 (if c then x else u) (if c then y else v) := by
  by_cases hc : c
  · rw [if_pos hc, if_pos hc]; exact h hc
  · rw [if_neg hc, if_neg hc]; exact h' hc

end

theorem addU_ag (a b : Nat) : AgE (addU .checked a b) (addU .wrap a b) := by
  unfold addU; split
  · exact .same _
  · exact .inl rfl

theorem mulU32_ag (a b : Nat) : AgE (mulU32 .checked a b) (mulU32 .wrap a b) := by
  unfold mulU32; split
  · exact .same _
  · exact .inl rfl

theorem mulI32_ag (a b : Int) : AgE (mulI32 .checked a b) (mulI32 .wrap a b) := by
  unfold mulI32; split
  · exact .same _
  · exact .inl rfl

theorem negI_ag (n : Nat) (x : Int) : AgE (negI .checked n x) (negI .wrap n x) := by
  unfold negI; split
  · exact .inl rfl
  · exact .same _

/-- one step of a proof that two readers agree; every lemma on a function is added to it -/
syntax "ag_step" : tactic
macro_rules | `(tactic| ag_step) => `(tactic| with_reducible exact AgR.pure _)
macro_rules | `(tactic| ag_step) => `(tactic| with_reducible exact AgR.fail _)
macro_rules | `(tactic| ag_step) => `(tactic| with_reducible exact AgR.getPos)
macro_rules | `(tactic| ag_step) => `(tactic| with_reducible exact AgR.seek _)
macro_rules | `(tactic| ag_step) => `(tactic| with_reducible exact addU_ag _ _)
macro_rules | `(tactic| ag_step) => `(tactic| with_reducible exact mulU32_ag _ _)
macro_rules | `(tactic| ag_step) => `(tactic| with_reducible exact mulI32_ag _ _)
macro_rules | `(tactic| ag_step) => `(tactic| with_reducible exact negI_ag _ _)

/-- go through the steps of two readers that agree -/
macro "ag" : tactic => `(tactic| repeat' first
  | ag_step
  | assumption
  | with_reducible exact AgE.same _
  | with_reducible refine AgR.getEnv ?_
  | with_reducible refine AgR.bind ?_ fun _ => ?_
  | with_reducible refine AgR.lift ?_
  | with_reducible refine AgR.ite (fun _ => ?_) (fun _ => ?_)
  | with_reducible refine AgE.bind ?_ fun _ => ?_
  | with_reducible refine AgE.ite (fun _ => ?_) (fun _ => ?_)
  | split)

end Wz
