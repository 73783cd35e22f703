import Verif.Thread.CrashSpec
import Verif.Thread.Logic

/-!
# Lemmas: threads that panic
-/

set_option autoImplicit false

namespace Wz

open Spec

/-- what an event does: a step of the pool, or a panic -/
theorem crash_next {α : Type} {queue : Bool} {C D : CrashPool α} {ev : Event} (hn : C.next queue ev = some D) :
    (∃ t P, ev = .go t ∧ C.pool.next queue t = some P ∧ D = { C with pool := P } ∧
      ∀ th m i k, C.pool.threads[t]? = some th → th.prog = .acquire m i k → i ∉ C.bad) ∨
    ∃ t th, C.pool.threads[t]? = some th ∧ D = C.panic t th ∧ (∀ a, th.prog ≠ .done a) ∧
      ((ev = .crash t ∧ t ∉ C.gone) ∨ (ev = .go t ∧ ∃ m i k, th.prog = .acquire m i k ∧ i ∈ C.bad)) := by
  cases ev with
  | go t =>
    unfold CrashPool.next at hn
    dsimp only at hn
    cases ht : C.pool.threads[t]? with
    | none => rw [ht] at hn; cases hn
    | some th =>
      rw [ht] at hn
      dsimp only at hn
      cases hp : th.prog with
      | acquire m i k =>
        rw [hp] at hn
        dsimp only at hn
        by_cases hb : i ∈ C.bad
        · rw [if_pos hb] at hn
          split at hn
          · cases hn
            exact .inr ⟨t, th, ht, rfl, (by intro a h; rw [hp] at h; cases h), .inr ⟨rfl, m, i, k, hp, hb⟩⟩
          · cases hn
        · rw [if_neg hb] at hn
          obtain ⟨P, h1, h2⟩ := Option.map_eq_some_iff.1 hn
          refine .inl ⟨t, P, rfl, h1, h2.symm, fun th' m' i' k' h3 h4 => ?_⟩
          rw [ht] at h3; cases h3
          rw [hp] at h4; cases h4
          exact hb
      | done a =>
        rw [hp] at hn
        obtain ⟨P, h1, h2⟩ := Option.map_eq_some_iff.1 hn
        refine .inl ⟨t, P, rfl, h1, h2.symm, fun th' m' i' k' h3 h4 => ?_⟩
        rw [ht] at h3; cases h3
        rw [hp] at h4; cases h4
      | release m i k =>
        rw [hp] at hn
        obtain ⟨P, h1, h2⟩ := Option.map_eq_some_iff.1 hn
        refine .inl ⟨t, P, rfl, h1, h2.symm, fun th' m' i' k' h3 h4 => ?_⟩
        rw [ht] at h3; cases h3
        rw [hp] at h4; cases h4
      | act upd k =>
        rw [hp] at hn
        obtain ⟨P, h1, h2⟩ := Option.map_eq_some_iff.1 hn
        refine .inl ⟨t, P, rfl, h1, h2.symm, fun th' m' i' k' h3 h4 => ?_⟩
        rw [ht] at h3; cases h3
        rw [hp] at h4; cases h4
  | crash t =>
    unfold CrashPool.next at hn
    dsimp only at hn
    by_cases hg : t ∈ C.gone
    · rw [if_pos hg] at hn; cases hn
    · rw [if_neg hg] at hn
      cases ht : C.pool.threads[t]? with
      | none => rw [ht] at hn; cases hn
      | some th =>
        rw [ht] at hn
        dsimp only at hn
        right
        refine ⟨t, th, ht, ?_, ?_, .inl ⟨rfl, hg⟩⟩
        · cases hp : th.prog <;> rw [hp] at hn <;> cases hn <;> rfl
        · intro a ha
          rw [ha] at hn; cases hn

/-- a step of the pool can always be done or ends in a panic -/
theorem crash_go {α : Type} {queue : Bool} {C : CrashPool α} {t : Nat} (hn : C.next queue (.go t) = none) :
    C.pool.next queue t = none := by
  unfold CrashPool.next at hn
  dsimp only at hn
  unfold Pool.next
  cases ht : C.pool.threads[t]? with
  | none => rfl
  | some th =>
    rw [ht] at hn
    dsimp only at hn ⊢
    cases hp : th.prog with
    | acquire m i k =>
      rw [hp] at hn
      dsimp only at hn ⊢
      split at hn
      · split at hn
        · cases hn
        · rename_i h; rw [if_neg h]
      · have h1 := Option.map_eq_none_iff.1 hn
        unfold Pool.next at h1
        rw [ht] at h1
        dsimp only at h1
        rw [hp] at h1
        exact h1
    | done a => rfl
    | release m i k =>
      rw [hp] at hn
      have h1 := Option.map_eq_none_iff.1 hn
      unfold Pool.next at h1
      rw [ht] at h1; dsimp only at h1; rw [hp] at h1
      exact h1
    | act upd k =>
      rw [hp] at hn
      have h1 := Option.map_eq_none_iff.1 hn
      unfold Pool.next at h1
      rw [ht] at h1; dsimp only at h1; rw [hp] at h1
      exact h1

/-! ## rules -/

/-- unwinding is safe -/
theorem safe_unwind {R : NHeap → NHeap → Prop} {rank : Nat → Nat} {α : Type} {Q : NHeap → Option α → Prop} (hq : ∀ g, Q g none)
    (h : NHeap) : ∀ held : List (LMode × Nat), Safe R rank Q [] h held (unwindProg held)
  | [] => .done h none fun g _ => hq g
  | (m, i) :: held => by
    refine .release h _ m i _ List.mem_cons_self ?_
    rw [List.erase_cons_head]
    exact safe_unwind hq h held

/-- what holds of an answer, if there is one -/
def IfAnswer {α : Type} (Q : Nat → NHeap → α → Prop) (t : Nat) (g : NHeap) (o : Option α) : Prop := ∀ a, o = some a → Q t g a

theorem Safe.some {R : NHeap → NHeap → Prop} {rank : Nat → Nat} {α : Type} {Q : Nat → NHeap → α → Prop} {t : Nat}
    {fin : List (LMode × Nat)} {h : NHeap} {held : List (LMode × Nat)} {p : Prog α} (S : Safe R rank (Q t) fin h held p) :
    Safe R rank (IfAnswer Q t) fin h held (p.bind fun a => .done (Option.some a)) := by
  induction S with
  | done h a hq => exact .done h _ fun g hg b hb => by cases hb; exact hq g hg
  | acquire h held m i k hr _ ih => exact .acquire h held m i _ hr ih
  | release h held m i k hm _ ih => exact .release h held m i _ hm ih
  | act h held upd k hu _ ih => exact .act h held upd _ hu ih

theorem crashSafe_start {R : NHeap → NHeap → Prop} {rank : Nat → Nat} {α : Type} {Q : Nat → NHeap → α → Prop}
    {h : NHeap} {ps : List (Prog α)} (S : PoolSafe R rank Q (Pool.start h ps)) :
    PoolSafe R rank (IfAnswer Q) (CrashPool.start h ps).pool := by
  intro t th ht
  simp only [CrashPool.start, Pool.start, List.getElem?_map, Option.map_map] at ht
  cases hp : ps[t]? with
  | none => rw [hp] at ht; cases ht
  | some p =>
    rw [hp] at ht
    cases ht
    exact (S t ⟨[], p⟩ (by simp only [Pool.start, List.getElem?_map, hp, Option.map_some])).some

theorem crashSafe_next {R : NHeap → NHeap → Prop} {rank : Nat → Nat} {α : Type} {Q : Nat → NHeap → α → Prop} (hR : Rely R)
    {queue : Bool} {C D : CrashPool α} {ev : Event} (S : PoolSafe R rank (IfAnswer Q) C.pool) (hn : C.next queue ev = some D) :
    PoolSafe R rank (IfAnswer Q) D.pool ∧ R C.pool.heap D.pool.heap := by
  rcases crash_next hn with ⟨t, P, _, h1, rfl, _⟩ | ⟨t, th, ht, rfl, _, _⟩
  · exact poolSafe_next hR S h1
  · refine ⟨fun s a hs => ?_, hR.refl _⟩
    rcases set_get hs with ⟨rfl, rfl⟩ | ⟨_, h⟩
    · exact safe_unwind (fun g a ha => by cases ha) _ _
    · exact S s a h

theorem crashRun_cons {α : Type} {queue : Bool} {C D : CrashPool α} {ev : Event} {evs : List Event}
    (hr : C.run queue (ev :: evs) = some D) : ∃ E, C.next queue ev = some E ∧ E.run queue evs = some D := by
  unfold CrashPool.run at hr
  cases hn : C.next queue ev with
  | none => rw [hn] at hr; cases hr
  | some E => rw [hn] at hr; exact ⟨E, rfl, hr⟩

theorem crashSafe_run {R : NHeap → NHeap → Prop} {rank : Nat → Nat} {α : Type} {Q : Nat → NHeap → α → Prop} (hR : Rely R)
    {queue : Bool} : ∀ (evs : List Event) (C D : CrashPool α), PoolSafe R rank (IfAnswer Q) C.pool → C.run queue evs = some D →
    PoolSafe R rank (IfAnswer Q) D.pool ∧ R C.pool.heap D.pool.heap
  | [], C, D, S, h => by cases h; exact ⟨S, hR.refl _⟩
  | ev :: evs, C, D, S, h => by
    obtain ⟨E, h1, h2⟩ := crashRun_cons h
    obtain ⟨h3, h4⟩ := crashSafe_next hR S h1
    obtain ⟨h5, h6⟩ := crashSafe_run hR evs E D h3 h2
    exact ⟨h5, hR.trans _ _ _ h4 h6⟩

theorem crashSafe_moves {R : NHeap → NHeap → Prop} {rank : Nat → Nat} {α : Type} {Q : Nat → NHeap → Option α → Prop}
    {queue : Bool} {C : CrashPool α} (S : PoolSafe R rank Q C.pool) : ¬ Stuck queue C :=
  fun ⟨h1, h2⟩ => poolSafe_moves (queue := queue) S ⟨h1, fun t => crash_go (h2 t)⟩

/-- an invariant of all events -/
theorem crash_keeps {α : Type} {queue : Bool} {I : CrashPool α → Prop}
    (hstep : ∀ C D ev, I C → C.next queue ev = some D → I D) : ∀ (evs : List Event) (C D : CrashPool α), I C →
    C.run queue evs = some D → I D
  | [], C, D, hI, h => by cases h; exact hI
  | ev :: evs, C, D, hI, h => by
    obtain ⟨E, h1, h2⟩ := crashRun_cons h
    exact crash_keeps hstep evs E D (hstep _ _ _ hI h1) h2

/-! ## who has panicked -/

/-- the program only gives back locks and has no answer -/
inductive Unwinding {α : Type} : Prog (Option α) → Prop
  | done : Unwinding (.done none)
  | release (m : LMode) (i : Nat) (k : Prog (Option α)) : Unwinding k → Unwinding (.release m i k)

/-- the program ends with an answer -/
inductive Answering {α : Type} : Prog (Option α) → Prop
  | done (a : α) : Answering (.done (some a))
  | acquire (m : LMode) (i : Nat) (k : Prog (Option α)) : Answering k → Answering (.acquire m i k)
  | release (m : LMode) (i : Nat) (k : Prog (Option α)) : Answering k → Answering (.release m i k)
  | act (upd : NHeap → NHeap) (k : NHeap → Prog (Option α)) : (∀ h, Answering (k h)) → Answering (.act upd k)

theorem unwinding_unwind {α : Type} : ∀ held : List (LMode × Nat), Unwinding (unwindProg (α := α) held)
  | [] => .done
  | (m, i) :: held => .release m i _ (unwinding_unwind held)

theorem answering_bind {α : Type} (p : Prog α) : Answering (p.bind fun a => .done (some a)) := by
  induction p with
  | done a => exact .done a
  | acquire m i k ih => exact .acquire m i _ ih
  | release m i k ih => exact .release m i _ ih
  | act upd k ih => exact .act upd _ ih

/-- those that have panicked are being unwound, the others will answer -/
def Sorted82 {α : Type} (C : CrashPool α) : Prop :=
  ∀ t th, C.pool.threads[t]? = some th → (t ∈ C.gone → Unwinding th.prog) ∧ (t ∉ C.gone → Answering th.prog)

theorem sorted_start {α : Type} (h : NHeap) (ps : List (Prog α)) : Sorted82 (CrashPool.start h ps) := by
  intro t th ht
  refine ⟨fun hg => (by cases hg), fun _ => ?_⟩
  simp only [CrashPool.start, Pool.start, List.getElem?_map, Option.map_map] at ht
  cases hp : ps[t]? with
  | none => rw [hp] at ht; cases ht
  | some p =>
    rw [hp] at ht
    cases ht
    exact answering_bind p

/-- what a step makes of the program -/
theorem next_prog {α : Type} {queue : Bool} {P P' : Pool α} {t : Nat} (hn : P.next queue t = some P') :
    ∃ a b, P.threads[t]? = some a ∧ P'.threads = P.threads.set t b ∧ Prog.After b.prog a.prog := by
  unfold Pool.next at hn
  cases ht : P.threads[t]? with
  | none => rw [ht] at hn; cases hn
  | some th =>
    rw [ht] at hn
    dsimp only at hn
    cases hp : th.prog with
    | done a => rw [hp] at hn; cases hn
    | acquire m i k =>
      rw [hp] at hn
      dsimp only at hn
      split at hn
      · cases hn; exact ⟨th, _, rfl, rfl, by rw [hp]; exact .acquire m i k⟩
      · cases hn
    | release m i k => rw [hp] at hn; cases hn; exact ⟨th, _, rfl, rfl, by rw [hp]; exact .release m i k⟩
    | act upd k => rw [hp] at hn; cases hn; exact ⟨th, _, rfl, rfl, by rw [hp]; exact .act upd k _⟩

theorem sorted_next {α : Type} {queue : Bool} {C D : CrashPool α} {ev : Event} (I : Sorted82 C) (hn : C.next queue ev = some D) :
    Sorted82 D := by
  rcases crash_next hn with ⟨t, P, _, h1, rfl, _⟩ | ⟨t, th, ht, rfl, _, _⟩
  · obtain ⟨a, b, h2, h3, h4⟩ := next_prog h1
    intro s c hs
    dsimp only at hs ⊢
    rw [h3] at hs
    rcases set_get hs with ⟨rfl, rfl⟩ | ⟨_, h⟩
    · obtain ⟨i1, i2⟩ := I s a h2
      refine ⟨fun hg => ?_, fun hg => ?_⟩
      · have := i1 hg
        generalize c.prog = q at h4
        generalize a.prog = p at this h4
        cases h4 with
        | acquire m i k => cases this
        | release m i k => cases this with
          | release _ _ _ h => exact h
        | act upd k h => cases this
      · have := i2 hg
        generalize c.prog = q at h4
        generalize a.prog = p at this h4
        cases h4 with
        | acquire m i k => cases this with
          | acquire _ _ _ h => exact h
        | release m i k => cases this with
          | release _ _ _ h => exact h
        | act upd k g => cases this with
          | act _ _ h => exact h g
    · exact I s c h
  · intro s c hs
    rcases set_get hs with ⟨rfl, rfl⟩ | ⟨hne, h⟩
    · exact ⟨fun _ => unwinding_unwind _, fun hg => absurd List.mem_cons_self hg⟩
    · obtain ⟨i1, i2⟩ := I s c h
      refine ⟨fun hg => i1 ?_, fun hg => i2 fun h => hg (List.mem_cons_of_mem _ h)⟩
      rcases List.mem_cons.1 hg with h | h
      · exact absurd h hne
      · exact h

/-! ## everything ends -/

/-- the threads that have not panicked -/
def leftOf (n : Nat) (gone : List Nat) : Nat := ((List.range n).filter fun t => !(gone.contains t)).length

theorem leftOf_cons {n t : Nat} {gone : List Nat} (ht : t < n) (hg : t ∉ gone) : leftOf n (t :: gone) < leftOf n gone := by
  unfold leftOf
  have e : (List.range n).filter (fun x => !((t :: gone).contains x)) =
      ((List.range n).filter fun x => !(gone.contains x)).filter fun x => !(x == t) := by
    rw [List.filter_filter]
    refine List.filter_congr fun x _ => ?_
    rw [List.contains_cons, Bool.not_or]
  rw [e]
  refine List.length_filter_lt_length_iff_exists.2 ⟨t, List.mem_filter.2 ⟨List.mem_range.2 ht, ?_⟩, by simp⟩
  simpa using hg

theorem crash_ends {α : Type} {queue : Bool} {C : CrashPool α} (I : Sorted82 C) : EndsAnyway queue C := by
  have main : ∀ m, ∀ ps : List (Prog (Option α)), Acc OneAfter ps → ∀ C : CrashPool α, Sorted82 C →
      leftOf C.pool.threads.length C.gone = m → C.pool.threads.map Thread.prog = ps → EndsAnyway queue C := by
    intro m
    induction m using Nat.strongRecOn with
    | _ m ihm =>
      intro ps hps
      induction hps with
      | intro ps _ ihp =>
        rintro C I hm hC ⟨f, h0, hf⟩
        obtain ⟨ev, hev⟩ := hf 0
        rw [h0] at hev
        have tail : ∃ g : Nat → CrashPool α, g 0 = f 1 ∧ ∀ n, ∃ ev, (g n).next queue ev = some (g (n + 1)) :=
          ⟨fun n => f (n + 1), rfl, fun n => hf (n + 1)⟩
        have I' := sorted_next I hev
        rcases crash_next hev with ⟨t, P, _, h1, h2, _⟩ | ⟨t, th, ht, h2, hd, h3⟩
        · obtain ⟨a, b, h4, h5, _⟩ := next_prog h1
          have hl : P.threads.length = C.pool.threads.length := by rw [h5, List.length_set]
          have hpool : (f (0 + 1)).pool = P := by rw [h2]
          have hgone : (f (0 + 1)).gone = C.gone := by rw [h2]
          refine ihp (P.threads.map Thread.prog) (hC ▸ next_after h1) (f 1) I' ?_ (by rw [← hpool]) tail
          show leftOf (f (0 + 1)).pool.threads.length (f (0 + 1)).gone = m
          rw [hpool, hgone, hl]; exact hm
        · have hg : t ∉ C.gone := by
            rcases h3 with ⟨_, h⟩ | ⟨_, m', i, k, hp, _⟩
            · exact h
            · intro hg
              have := (I t th ht).1 hg
              rw [hp] at this
              cases this
          have hlt : t < C.pool.threads.length := by
            rcases Nat.lt_or_ge t C.pool.threads.length with h | h
            · exact h
            · rw [List.getElem?_eq_none h] at ht; cases ht
          have hle : leftOf (f 1).pool.threads.length (f 1).gone < m := by
            rw [show f 1 = C.panic t th from h2]
            unfold CrashPool.panic
            dsimp only
            rw [List.length_set, ← hm]
            exact leftOf_cons hlt hg
          exact ihm _ hle _ (oneAfter_acc _) (f 1) I' rfl rfl tail
  exact main _ _ (oneAfter_acc _) C I rfl rfl

theorem crash_run_append {α : Type} {queue : Bool} {D : CrashPool α} {more : List Event} : ∀ (evs : List Event) (C : CrashPool α),
    C.run queue evs = some D → C.run queue (evs ++ more) = D.run queue more
  | [], C, h => by cases h; rfl
  | ev :: evs, C, h => by
    obtain ⟨E, h1, h2⟩ := crashRun_cons h
    show CrashPool.run queue (ev :: (evs ++ more)) C = _
    rw [CrashPool.run, h1]
    exact crash_run_append evs E h2

/-- where nothing gets stuck everything gets done, without further panics of its own -/
theorem crash_finishes {α : Type} {queue : Bool} {C : CrashPool α} (I : Sorted82 C)
    (hd : ∀ evs D, C.run queue evs = some D → ¬ Stuck queue D) :
    ∃ evs D, NoCrash evs ∧ C.run queue evs = some D ∧ AllDone D.pool := by
  refine Classical.byContradiction fun hc => ?_
  -- otherwise there is an endless row of steps
  have step : ∀ D : CrashPool α, (∃ evs, NoCrash evs ∧ C.run queue evs = some D) →
      ∃ E, (∃ t, D.next queue (.go t) = some E) ∧ ∃ evs, NoCrash evs ∧ C.run queue evs = some E := by
    rintro D ⟨evs, h1, h2⟩
    have hna : ¬ AllDone D.pool := fun h => hc ⟨evs, D, h1, h2, h⟩
    have : ∃ t, D.next queue (.go t) ≠ none :=
      Classical.byContradiction fun h => hd evs D h2 ⟨hna, fun t => Classical.byContradiction fun ht => h ⟨t, ht⟩⟩
    obtain ⟨t, ht⟩ := this
    cases hn : D.next queue (.go t) with
    | none => exact absurd hn ht
    | some E =>
      refine ⟨E, ⟨t, hn⟩, evs ++ [.go t], fun ev hev => ?_, ?_⟩
      · rcases List.mem_append.1 hev with h | h
        · exact h1 ev h
        · exact ⟨t, List.mem_singleton.1 h⟩
      · rw [crash_run_append evs C h2, CrashPool.run, hn]; rfl
  let next : {D : CrashPool α // ∃ evs, NoCrash evs ∧ C.run queue evs = some D} →
      {D : CrashPool α // ∃ evs, NoCrash evs ∧ C.run queue evs = some D} :=
    fun D => ⟨(step D.1 D.2).choose, (step D.1 D.2).choose_spec.2⟩
  let f : Nat → {D : CrashPool α // ∃ evs, NoCrash evs ∧ C.run queue evs = some D} :=
    fun n => Nat.rec ⟨C, [], (fun _ h => by cases h), rfl⟩ (fun _ D => next D) n
  refine crash_ends (queue := queue) I ⟨fun n => (f n).1, rfl, fun n => ?_⟩
  obtain ⟨t, ht⟩ := (step (f n).1 (f n).2).choose_spec.1
  exact ⟨.go t, ht⟩

/-- locks of others are respected, panics or not -/
theorem crash_exclusive {α : Type} {queue : Bool} {C D : CrashPool α} {ev : Event} (E : Exclusive C.pool)
    (hn : C.next queue ev = some D) : Exclusive D.pool := by
  rcases crash_next hn with ⟨t, P, _, h1, rfl, _⟩ | ⟨t, th, ht, rfl, _, _⟩
  · exact exclusive_next E h1
  · intro s u i a b m hsu ha hb hw
    have old : ∀ (x : Nat) (c : Thread (Option α)), (C.panic t th).pool.threads[x]? = some c →
        ∃ c' : Thread (Option α), C.pool.threads[x]? = some c' ∧ c'.held = c.held := by
      intro x c hx
      rcases set_get hx with ⟨rfl, rfl⟩ | ⟨_, h⟩
      · exact ⟨th, ht, rfl⟩
      · exact ⟨c, h, rfl⟩
    obtain ⟨a', h1, h2⟩ := old s a ha
    obtain ⟨b', h3, h4⟩ := old u b hb
    rw [← h4]
    exact E s u i a' b' m hsu h1 h3 (by rw [h2]; exact hw)

end Wz
