import Verif.Thread.Spec

/-!
# Rules for threads: what each does is right whatever the others do
-/

set_option autoImplicit false

namespace Wz

open Spec

/-- From heap `h`, with the locks `held`, the program can be run while others change the heap in ways `R` allows: it takes
locks only above those it has, changes the heap only in ways `R` allows, ends with the locks `fin` and an answer for which
`Q` holds. -/
inductive Safe (R : NHeap → NHeap → Prop) (rank : Nat → Nat) {α : Type} (Q : NHeap → α → Prop) (fin : List (LMode × Nat)) :
    NHeap → List (LMode × Nat) → Prog α → Prop
  | done (h : NHeap) (a : α) : (∀ g, R h g → Q g a) → Safe R rank Q fin h fin (.done a)
  | acquire (h : NHeap) (held : List (LMode × Nat)) (m : LMode) (i : Nat) (k : Prog α) :
      (∀ x : LMode × Nat, x ∈ held → rank x.2 < rank i) → Safe R rank Q fin h ((m, i) :: held) k →
      Safe R rank Q fin h held (.acquire m i k)
  | release (h : NHeap) (held : List (LMode × Nat)) (m : LMode) (i : Nat) (k : Prog α) : (m, i) ∈ held →
      Safe R rank Q fin h (held.erase (m, i)) k → Safe R rank Q fin h held (.release m i k)
  | act (h : NHeap) (held : List (LMode × Nat)) (upd : NHeap → NHeap) (k : NHeap → Prog α) :
      (∀ g, R h g → R g (upd g)) → (∀ g, R h g → Safe R rank Q fin (upd g) held (k g)) →
      Safe R rank Q fin h held (.act upd k)

/-- `R` can be put together -/
structure Rely (R : NHeap → NHeap → Prop) : Prop where
  refl : ∀ h, R h h
  trans : ∀ h g k, R h g → R g k → R h k

/-- what the others do does not matter -/
theorem Safe.stable {R : NHeap → NHeap → Prop} {rank : Nat → Nat} {α : Type} {Q : NHeap → α → Prop} {fin : List (LMode × Nat)}
    (hR : Rely R) {h : NHeap} {held : List (LMode × Nat)} {p : Prog α} (S : Safe R rank Q fin h held p) :
    ∀ g, R h g → Safe R rank Q fin g held p := by
  induction S with
  | done h a hq => exact fun g hg => .done g a fun k hk => hq k (hR.trans _ _ _ hg hk)
  | acquire h held m i k hr _ ih => exact fun g hg => .acquire g held m i k hr (ih g hg)
  | release h held m i k hm _ ih => exact fun g hg => .release g held m i k hm (ih g hg)
  | act h held upd k hu hk _ =>
    exact fun g hg => .act g held upd k (fun j hj => hu j (hR.trans _ _ _ hg hj)) (fun j hj => hk j (hR.trans _ _ _ hg hj))

theorem Safe.bind {R : NHeap → NHeap → Prop} {rank : Nat → Nat} {α β : Type} {Q : NHeap → α → Prop} {Q' : NHeap → β → Prop}
    {mid fin : List (LMode × Nat)} (hR : Rely R) {h : NHeap} {held : List (LMode × Nat)} {p : Prog α} {f : α → Prog β}
    (S : Safe R rank Q mid h held p) : (∀ g a, R h g → Q g a → Safe R rank Q' fin g mid (f a)) →
    Safe R rank Q' fin h held (p.bind f) := by
  induction S with
  | done h a hq => exact fun hf => hf h a (hR.refl _) (hq h (hR.refl _))
  | acquire h held m i k hr _ ih => exact fun hf => .acquire h held m i _ hr (ih hf)
  | release h held m i k hm _ ih => exact fun hf => .release h held m i _ hm (ih hf)
  | act h held upd k hu hk ih =>
    exact fun hf => .act h held upd _ hu fun g hg => ih g hg fun j a hj => hf j a (hR.trans _ _ _ hg (hR.trans _ _ _ (hu g hg) hj))

theorem Safe.weaken {R : NHeap → NHeap → Prop} {rank : Nat → Nat} {α : Type} {Q Q' : NHeap → α → Prop}
    {fin : List (LMode × Nat)} {h : NHeap} {held : List (LMode × Nat)} {p : Prog α} (S : Safe R rank Q fin h held p)
    (hq : ∀ g a, Q g a → Q' g a) : Safe R rank Q' fin h held p := by
  induction S with
  | done h a h1 => exact .done h a fun g hg => hq g a (h1 g hg)
  | acquire h held m i k hr _ ih => exact .acquire h held m i k hr ih
  | release h held m i k hm _ ih => exact .release h held m i k hm ih
  | act h held upd k hu _ ih => exact .act h held upd k hu ih

/-- a look at the heap -/
theorem Safe.look {R : NHeap → NHeap → Prop} {rank : Nat → Nat} {α : Type} {Q : NHeap → α → Prop} {fin : List (LMode × Nat)}
    (hR : Rely R) {h : NHeap} {held : List (LMode × Nat)} {k : NHeap → Prog α} (hk : ∀ g, R h g → Safe R rank Q fin g held (k g)) :
    Safe R rank Q fin h held (Prog.look k) :=
  .act h held id k (fun g _ => hR.refl g) hk

/-! ## Pools -/

/-- every thread is safe; thread `t` for answers that `Q t` allows -/
def PoolSafe (R : NHeap → NHeap → Prop) (rank : Nat → Nat) {α : Type} (Q : Nat → NHeap → α → Prop) (P : Pool α) : Prop :=
  ∀ t th, P.threads[t]? = some th → Safe R rank (Q t) [] P.heap th.held th.prog

theorem set_get {α : Type} {l : List α} {t s : Nat} {a b : α} (h : (l.set t a)[s]? = some b) : (s = t ∧ b = a) ∨ (s ≠ t ∧ l[s]? = some b) := by
  rw [List.getElem?_set] at h
  split at h
  · rename_i e
    subst e
    split at h
    · cases h; exact .inl ⟨rfl, rfl⟩
    · cases h
  · rename_i e
    exact .inr ⟨fun e' => e e'.symm, h⟩

theorem poolSafe_next {R : NHeap → NHeap → Prop} {rank : Nat → Nat} {α : Type} {Q : Nat → NHeap → α → Prop} (hR : Rely R)
    {queue : Bool} {P P' : Pool α} {t : Nat} (S : PoolSafe R rank Q P) (hn : P.next queue t = some P') :
    PoolSafe R rank Q P' ∧ R P.heap P'.heap := by
  unfold Pool.next at hn
  cases ht : P.threads[t]? with
  | none => rw [ht] at hn; cases hn
  | some th =>
    rw [ht] at hn
    dsimp only at hn
    have St := S t th ht
    cases hp : th.prog with
    | done a => rw [hp] at hn; cases hn
    | acquire m i k =>
      rw [hp] at hn St
      dsimp only at hn
      split at hn
      · cases hn
        refine ⟨fun s a hs => ?_, hR.refl _⟩
        rcases set_get hs with ⟨rfl, rfl⟩ | ⟨_, h⟩
        · generalize th.held = hd at St
          cases St with
          | acquire _ _ _ _ _ _ h1 => exact h1
        · exact S s a h
      · cases hn
    | release m i k =>
      rw [hp] at hn St
      cases hn
      refine ⟨fun s a hs => ?_, hR.refl _⟩
      rcases set_get hs with ⟨rfl, rfl⟩ | ⟨_, h⟩
      · generalize th.held = hd at St
        cases St with
        | release _ _ _ _ _ _ h1 => exact h1
      · exact S s a h
    | act upd k =>
      rw [hp] at hn St
      cases hn
      have hu : R P.heap (upd P.heap) := by
        generalize th.held = hd at St
        cases St with
        | act _ _ _ _ h1 _ => exact h1 _ (hR.refl _)
      refine ⟨fun s a hs => ?_, hu⟩
      rcases set_get hs with ⟨rfl, rfl⟩ | ⟨_, h⟩
      · generalize th.held = hd at St
        cases St with
        | act _ _ _ _ _ h1 => exact h1 _ (hR.refl _)
      · exact (S s a h).stable hR _ hu

theorem poolSafe_run {R : NHeap → NHeap → Prop} {rank : Nat → Nat} {α : Type} {Q : Nat → NHeap → α → Prop} (hR : Rely R)
    {queue : Bool} : ∀ (sched : List Nat) (P P' : Pool α), PoolSafe R rank Q P → P.run queue sched = some P' →
    PoolSafe R rank Q P' ∧ R P.heap P'.heap
  | [], P, P', S, h => by cases h; exact ⟨S, hR.refl _⟩
  | t :: ts, P, P', S, h => by
    unfold Pool.run at h
    cases hn : P.next queue t with
    | none => rw [hn] at h; cases h
    | some Q =>
      rw [hn] at h
      obtain ⟨h1, h2⟩ := poolSafe_next hR S hn
      obtain ⟨h3, h4⟩ := poolSafe_run hR ts Q P' h1 h
      exact ⟨h3, hR.trans _ _ _ h2 h4⟩

/-- the answers -/
theorem poolSafe_answer {R : NHeap → NHeap → Prop} {rank : Nat → Nat} {α : Type} {Q : Nat → NHeap → α → Prop} (hR : Rely R)
    {P : Pool α} {t : Nat} {th : Thread α} {a : α} (S : PoolSafe R rank Q P) (ht : P.threads[t]? = some th) (ha : Answer th a) :
    Q t P.heap a ∧ th.held = [] := by
  have := S t th ht
  unfold Answer at ha
  rw [ha] at this
  generalize th.held = hd at this
  cases this with
  | done _ _ h => exact ⟨h _ (hR.refl _), rfl⟩

/-! ### nobody waits for ever -/

/-- the node a thread waits for -/
def Thread.wants {α : Type} (th : Thread α) : Option (LMode × Nat) := match th.prog with
  | .acquire m i _ => some (m, i)
  | _ => none

theorem safe_wants {R : NHeap → NHeap → Prop} {rank : Nat → Nat} {α : Type} {Q : NHeap → α → Prop} {h : NHeap} {th : Thread α}
    (S : Safe R rank Q [] h th.held th.prog) {m : LMode} {i : Nat} (hw : th.wants = some (m, i)) :
    ∀ x : LMode × Nat, x ∈ th.held → rank x.2 < rank i := by
  unfold Thread.wants at hw
  cases hp : th.prog with
  | acquire m' i' k =>
    rw [hp] at hw S
    cases hw
    generalize th.held = hd at S
    cases S with
    | acquire _ _ _ _ _ h1 _ => exact h1
  | done a => rw [hp] at hw; cases hw
  | release a b c => rw [hp] at hw; cases hw
  | act a b => rw [hp] at hw; cases hw

/-- a thread that cannot go on is done or waits for a lock -/
theorem next_none {α : Type} {queue : Bool} {P : Pool α} {t : Nat} {th : Thread α} (ht : P.threads[t]? = some th)
    (hn : P.next queue t = none) : (∃ a, th.prog = .done a) ∨ ∃ m i, th.wants = some (m, i) ∧ canTake queue P.threads m i = false := by
  unfold Pool.next at hn
  rw [ht] at hn
  dsimp only at hn
  cases hp : th.prog with
  | done a => exact .inl ⟨a, rfl⟩
  | acquire m i k =>
    rw [hp] at hn
    dsimp only at hn
    refine .inr ⟨m, i, by unfold Thread.wants; rw [hp], ?_⟩
    cases hc : canTake queue P.threads m i with
    | false => rfl
    | true => rw [hc] at hn; cases hn
  | release a b c => rw [hp] at hn; cases hn
  | act a b => rw [hp] at hn; cases hn

/-- who is in the way: a thread that has the lock, or, for a reader, a thread that waits to write -/
theorem canTake_false {α : Type} {queue : Bool} {ts : List (Thread α)} {m : LMode} {i : Nat} (h : canTake queue ts m i = false) :
    (∃ th ∈ ts, ∃ x : LMode × Nat, x ∈ th.held ∧ x.2 = i) ∨ (m = .read ∧ ∃ th ∈ ts, th.wants = some (.write, i)) := by
  cases m with
  | write =>
    unfold canTake at h
    rw [List.all_eq_false] at h
    obtain ⟨th, h1, h2⟩ := h
    simp only [Bool.not_eq_true, List.all_eq_false] at h2
    obtain ⟨x, h3, h4⟩ := h2
    exact .inl ⟨th, h1, x, h3, by simpa using h4⟩
  | read =>
    unfold canTake at h
    rw [List.all_eq_false] at h
    obtain ⟨th, h1, h2⟩ := h
    simp only [Bool.not_eq_true, Bool.and_eq_false_iff] at h2
    rcases h2 with h2 | h2
    · rw [List.all_eq_false] at h2
      obtain ⟨x, h3, h4⟩ := h2
      refine .inl ⟨th, h1, x, h3, ?_⟩
      have : x = (.write, i) := by simpa using h4
      rw [this]
    · refine .inr ⟨rfl, th, h1, ?_⟩
      simp only [Bool.not_eq_false', Bool.and_eq_true] at h2
      have := h2.2
      unfold Thread.wantsWrite at this
      unfold Thread.wants
      cases hp : th.prog with
      | acquire m j k =>
        rw [hp] at this
        cases m with
        | read => cases this
        | write =>
          have e : i = j := by simpa using this
          rw [e]
      | done a => rw [hp] at this; cases this
      | release a b c => rw [hp] at this; cases this
      | act a b => rw [hp] at this; cases this

/-- a thread that waits has someone above it in the way -/
theorem waits_above {R : NHeap → NHeap → Prop} {rank : Nat → Nat} {α : Type} {Q : Nat → NHeap → α → Prop}
    {queue : Bool} {P : Pool α} (S : PoolSafe R rank Q P) (hs : ∀ t, P.next queue t = none) {th : Thread α} (hth : th ∈ P.threads)
    {m : LMode} {i : Nat} (hw : th.wants = some (m, i)) :
    ∃ th' ∈ P.threads, ∃ m' i', th'.wants = some (m', i') ∧ rank i < rank i' := by
  have holder : ∀ u ∈ P.threads, ∀ x : LMode × Nat, x ∈ u.held → ∃ m' i', u.wants = some (m', i') ∧ rank x.2 < rank i' := by
    intro u hu x hx
    obtain ⟨t, ht⟩ := List.getElem?_of_mem hu
    rcases next_none ht (hs t) with ⟨a, ha⟩ | ⟨m', i', h1, _⟩
    · have := S t u ht
      rw [ha] at this
      generalize u.held = hd at this hx
      cases this with
      | done => cases hx
    · exact ⟨m', i', h1, safe_wants (S t u ht) h1 x hx⟩
  have blocked : ∀ u ∈ P.threads, ∀ m i, u.wants = some (m, i) → canTake queue P.threads m i = false := by
    intro u hu m i hu'
    obtain ⟨t, ht⟩ := List.getElem?_of_mem hu
    rcases next_none ht (hs t) with ⟨a, ha⟩ | ⟨m', i', h1, h2⟩
    · unfold Thread.wants at hu'
      rw [ha] at hu'
      cases hu'
    · rw [h1] at hu'
      cases hu'
      exact h2
  have writer : ∀ u ∈ P.threads, u.wants = some (.write, i) → ∃ th' ∈ P.threads, ∃ m' i', th'.wants = some (m', i') ∧ rank i < rank i' := by
    intro u hu hu'
    rcases canTake_false (blocked u hu _ _ hu') with ⟨v, hv, x, hx, hxi⟩ | ⟨h, _⟩
    · obtain ⟨m', i', h1, h2⟩ := holder v hv x hx
      exact ⟨v, hv, m', i', h1, by rw [← hxi]; exact h2⟩
    · cases h
  rcases canTake_false (blocked th hth _ _ hw) with ⟨v, hv, x, hx, hxi⟩ | ⟨_, u, hu, hu'⟩
  · obtain ⟨m', i', h1, h2⟩ := holder v hv x hx
    exact ⟨v, hv, m', i', h1, by rw [← hxi]; exact h2⟩
  · exact writer u hu hu'

/-- **threads that are safe never get stuck** -/
theorem poolSafe_moves {R : NHeap → NHeap → Prop} {rank : Nat → Nat} {α : Type} {Q : Nat → NHeap → α → Prop}
    {queue : Bool} {P : Pool α} (S : PoolSafe R rank Q P) : ¬ Deadlock queue P := by
  rintro ⟨h1, h2⟩
  have up : ∀ n, ∃ th ∈ P.threads, ∃ m i, th.wants = some (m, i) ∧ n ≤ rank i := by
    intro n
    induction n with
    | zero =>
      have : ∃ th ∈ P.threads, ¬ ∃ a, Answer th a := by
        refine Classical.byContradiction fun hc => h1 fun th hth => Classical.byContradiction fun ha => hc ⟨th, hth, ha⟩
      obtain ⟨th, hth, hna⟩ := this
      obtain ⟨t, ht⟩ := List.getElem?_of_mem hth
      rcases next_none ht (h2 t) with ⟨a, ha⟩ | ⟨m, i, h3, _⟩
      · exact absurd ⟨a, ha⟩ hna
      · exact ⟨th, hth, m, i, h3, Nat.zero_le _⟩
    | succ n ih =>
      obtain ⟨th, hth, m, i, hw, hn⟩ := ih
      obtain ⟨u, hu, m', i', h3, h4⟩ := waits_above S h2 hth hw
      exact ⟨u, hu, m', i', h3, by omega⟩
  have bound : ∀ ts : List (Thread α), ∃ N, ∀ th ∈ ts, ∀ m i, th.wants = some (m, i) → rank i < N := by
    intro ts
    induction ts with
    | nil => exact ⟨0, fun th hth => by cases hth⟩
    | cons a ts ih =>
      obtain ⟨N, hN⟩ := ih
      cases ha : a.wants with
      | none =>
        refine ⟨N, fun th hth m i hw => ?_⟩
        rcases List.mem_cons.1 hth with rfl | hth
        · rw [ha] at hw; cases hw
        · exact hN th hth m i hw
      | some x =>
        refine ⟨N + rank x.2 + 1, fun th hth m i hw => ?_⟩
        rcases List.mem_cons.1 hth with rfl | hth
        · rw [ha] at hw
          cases hw
          dsimp only
          omega
        · have := hN th hth m i hw
          omega
  obtain ⟨N, hN⟩ := bound P.threads
  obtain ⟨th, hth, m, i, hw, hn⟩ := up N
  have := hN th hth m i hw
  omega

/-! ### nothing goes on for ever -/

/-- what a program can go on with -/
inductive Prog.After {α : Type} : Prog α → Prog α → Prop
  | acquire (m : LMode) (i : Nat) (k : Prog α) : After k (.acquire m i k)
  | release (m : LMode) (i : Nat) (k : Prog α) : After k (.release m i k)
  | act (upd : NHeap → NHeap) (k : NHeap → Prog α) (h : NHeap) : After (k h) (.act upd k)

theorem after_acc {α : Type} (p : Prog α) : Acc Prog.After p := by
  induction p with
  | done a => exact ⟨_, fun y hy => by cases hy⟩
  | acquire m i k ih => exact ⟨_, fun y hy => by cases hy; exact ih⟩
  | release m i k ih => exact ⟨_, fun y hy => by cases hy; exact ih⟩
  | act upd k ih => exact ⟨_, fun y hy => by cases hy; exact ih _⟩

/-- one of several programs goes on -/
inductive OneAfter {α : Type} : List (Prog α) → List (Prog α) → Prop
  | here (p q : Prog α) (ps : List (Prog α)) : Prog.After q p → OneAfter (q :: ps) (p :: ps)
  | later (p : Prog α) (ps qs : List (Prog α)) : OneAfter qs ps → OneAfter (p :: qs) (p :: ps)

theorem oneAfter_cons {α : Type} {p : Prog α} (hp : Acc Prog.After p) : ∀ {ps : List (Prog α)}, Acc OneAfter ps →
    Acc OneAfter (p :: ps) := by
  induction hp with
  | intro p h1 ih1 =>
    intro ps hps
    induction hps with
    | intro ps h2 ih2 =>
      refine ⟨_, fun y hy => ?_⟩
      cases hy with
      | here _ q _ hq => exact ih1 q hq ⟨_, h2⟩
      | later _ _ qs hq => exact ih2 qs hq

theorem oneAfter_acc {α : Type} : ∀ ps : List (Prog α), Acc OneAfter ps
  | [] => ⟨_, fun y hy => by cases hy⟩
  | p :: ps => oneAfter_cons (after_acc p) (oneAfter_acc ps)

theorem oneAfter_set {α : Type} : ∀ {ts : List (Thread α)} {t : Nat} {a b : Thread α}, ts[t]? = some a → Prog.After b.prog a.prog →
    OneAfter ((ts.set t b).map Thread.prog) (ts.map Thread.prog)
  | [], t, a, b, h, _ => by simp at h
  | c :: ts, 0, a, b, h, ha => by
    simp only [List.getElem?_cons_zero, Option.some.injEq] at h
    subst h
    exact .here _ _ _ ha
  | c :: ts, t + 1, a, b, h, ha => by
    simp only [List.getElem?_cons_succ] at h
    exact .later _ _ _ (oneAfter_set h ha)

theorem next_after {α : Type} {queue : Bool} {P P' : Pool α} {t : Nat} (h : P.next queue t = some P') :
    OneAfter (P'.threads.map Thread.prog) (P.threads.map Thread.prog) := by
  unfold Pool.next at h
  cases ht : P.threads[t]? with
  | none => rw [ht] at h; cases h
  | some th =>
    rw [ht] at h
    dsimp only at h
    cases hp : th.prog with
    | done a => rw [hp] at h; cases h
    | acquire m i k =>
      rw [hp] at h
      dsimp only at h
      split at h
      · cases h
        exact oneAfter_set ht (by rw [hp]; exact .acquire _ _ _)
      · cases h
    | release m i k =>
      rw [hp] at h
      cases h
      exact oneAfter_set ht (by rw [hp]; exact .release _ _ _)
    | act upd k =>
      rw [hp] at h
      cases h
      exact oneAfter_set ht (by rw [hp]; exact .act _ _ _)

theorem no_chain {β : Type} {r : β → β → Prop} {b : β} (hb : Acc r b) : ∀ f : Nat → β, f 0 = b → ¬ ∀ n, r (f (n + 1)) (f n) := by
  induction hb with
  | intro b _ ih =>
    intro f h0 hf
    exact ih (f 1) (by rw [← h0]; exact hf 0) (fun n => f (n + 1)) rfl fun n => hf (n + 1)

theorem pool_ends {α : Type} (queue : Bool) (P : Pool α) : Ends queue P := by
  rintro ⟨f, h0, hf⟩
  refine no_chain (oneAfter_acc (P.threads.map Thread.prog)) (fun n => (f n).threads.map Thread.prog) (by simp only [h0]) fun n => ?_
  obtain ⟨t, ht⟩ := hf n
  exact next_after ht

/-! ### locks keep others out -/

theorem exclusive_next {α : Type} {queue : Bool} {P P' : Pool α} {t : Nat} (E : Exclusive P) (h : P.next queue t = some P') :
    Exclusive P' := by
  have key : ∀ (th b : Thread α), P.threads[t]? = some th → (∀ x, x ∈ b.held → x ∈ th.held ∨ canTake queue P.threads x.1 x.2 = true) →
      ∀ h, Exclusive ⟨h, P.threads.set t b⟩ := by
    intro th b ht hb hh s u i x y m hsu hx hy hw hm
    have hsmem : ∀ {v z}, P.threads[v]? = some z → z ∈ P.threads := fun hz => List.mem_of_getElem? hz
    rcases set_get hx with ⟨rfl, rfl⟩ | ⟨hs, hx'⟩
    · rcases set_get hy with ⟨rfl, rfl⟩ | ⟨hu, hy⟩
      · exact hsu rfl
      · rcases hb _ hw with h1 | h1
        · exact E s u i th y m hsu ht hy h1 hm
        · unfold canTake at h1
          rw [List.all_eq_true] at h1
          have := h1 y (hsmem hy)
          rw [List.all_eq_true] at this
          have := this _ hm
          simp at this
    · rcases set_get hy with ⟨rfl, rfl⟩ | ⟨hu, hy⟩
      · rcases hb _ hm with h1 | h1
        · exact E s u i x th m hsu hx' ht hw h1
        · cases m with
          | write =>
            unfold canTake at h1
            rw [List.all_eq_true] at h1
            have := h1 x (hsmem hx')
            rw [List.all_eq_true] at this
            have := this _ hw
            simp at this
          | read =>
            unfold canTake at h1
            rw [List.all_eq_true] at h1
            have := h1 x (hsmem hx')
            rw [Bool.and_eq_true, List.all_eq_true] at this
            have := this.1 _ hw
            simp at this
      · exact E s u i x y m hsu hx' hy hw hm
  unfold Pool.next at h
  cases ht : P.threads[t]? with
  | none => rw [ht] at h; cases h
  | some th =>
    rw [ht] at h
    dsimp only at h
    cases hp : th.prog with
    | done a => rw [hp] at h; cases h
    | acquire m i k =>
      rw [hp] at h
      dsimp only at h
      split at h
      · rename_i hc
        cases h
        refine key th _ ht (fun x hx => ?_) _
        rcases List.mem_cons.1 hx with rfl | hx
        · exact .inr hc
        · exact .inl hx
      · cases h
    | release m i k =>
      rw [hp] at h
      cases h
      exact key th _ ht (fun x hx => .inl (List.mem_of_mem_erase hx)) _
    | act upd k =>
      rw [hp] at h
      cases h
      exact key th ⟨th.held, k P.heap⟩ ht (fun x hx => .inl hx) _

end Wz
