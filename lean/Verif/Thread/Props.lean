import Verif.Thread.Lemmas

/-!
# C76: threads that share a tree neither get in each other's way nor wait for ever
-/

set_option autoImplicit false

namespace Wz.Props

open Wz Wz.Spec

/-! ## every schedule -/

/-- No schedule goes on for ever, whatever the threads do. -/
theorem C76_every_schedule_ends {α : Type} (queue : Bool) (P : Pool α) : Ends queue P := pool_ends queue P

theorem exclusive_run {α : Type} {queue : Bool} : ∀ (sched : List Nat) (P P' : Pool α), Exclusive P → P.run queue sched = some P' → Exclusive P'
  | [], P, P', E, h => by cases h; exact E
  | t :: ts, P, P', E, h => by
    unfold Pool.run at h
    cases hn : P.next queue t with
    | none => rw [hn] at h; cases h
    | some Q =>
      rw [hn] at h
      exact exclusive_run ts Q P' (exclusive_next E hn) h

/-- While a thread writes to a node, no other thread has that node. -/
theorem C76_exclusive {α : Type} {queue : Bool} {h : NHeap} {ps : List (Prog α)} {sched : List Nat} {P : Pool α}
    (hr : (Pool.start h ps).run queue sched = some P) : Exclusive P := by
  refine exclusive_run sched _ P ?_ hr
  intro s t i a b m _ ha _ hw
  obtain ⟨p, _, rfl⟩ := List.mem_map.1 (List.mem_of_getElem? ha)
  cases hw

/-- All calls change nodes that others may know of only while they have them locked for writing, and give back all locks. -/
theorem C76_writes_locked (content : Content) (held : List (LMode × Nat)) :
    (∀ i, WritesLocked held held (parseProg content i)) ∧ (∀ i, WritesLocked held held (unparseProg i)) ∧
    (∀ i path, WritesLocked held held (peekProg i path)) ∧ (∀ m i path, WritesLocked held held (findProg content m i path)) ∧
    (∀ stop fuel i, WritesLocked held held (upProg stop fuel i)) ∧
    (∀ fuel i path, WritesLocked held held (outlinkProg content fuel i path)) ∧
    ∀ force fuel i (f : Nat → Prog Unit), (∀ held i, WritesLocked held held (f i)) → WritesLocked held held (walkProg content force f fuel i) :=
  ⟨locked_parse content held, locked_unparse held, locked_peek held, locked_find content held, fun stop fuel i => locked_up stop held fuel i,
    locked_outlink content held, fun _ fuel i _ hf => locked_walk hf fuel held i⟩

/-- A node that exists changes only through a thread that has it locked for writing, and then no other thread has it; a
thread that is done has no locks. -/
theorem C76_changes {α : Type} {queue : Bool} {h : NHeap} {ps : List (Prog α)} (hp : ∀ p ∈ ps, WritesLocked [] [] p) {sched : List Nat}
    {P : Pool α} (hr : (Pool.start h ps).run queue sched = some P) :
    (∀ t P' x, P.next queue t = some P' → x < P.heap.length → P'.heap.cell x ≠ P.heap.cell x →
      ∃ th, P.threads[t]? = some th ∧ (LMode.write, x) ∈ th.held ∧
        ∀ (s : Nat) (other : Thread α) (m : LMode), t ≠ s → P.threads[s]? = some other → (m, x) ∉ other.held) ∧
    ∀ th ∈ P.threads, ∀ a, Answer th a → th.held = [] := by
  have A : AllLocked P := by
    refine allLocked_run sched _ P (fun th hth => ?_) hr
    obtain ⟨p, h1, rfl⟩ := List.mem_map.1 hth
    exact hp p h1
  refine ⟨fun t P' x hn hx hc => ?_, fun th hth a ha => ?_⟩
  · obtain ⟨th, ht, hw⟩ := (allLocked_next A hn).2 x hx hc
    exact ⟨th, ht, hw, fun s other m hs ho => C76_exclusive hr t s x th other m hs ht ho hw⟩
  · have := A th hth
    unfold Answer at ha
    rw [ha] at this
    generalize th.held = hd at this
    cases this
    rfl

theorem run_cons76 {α : Type} {queue : Bool} {P Q : Pool α} {t : Nat} (hn : P.next queue t = some Q) (ts : List Nat) :
    P.run queue (t :: ts) = Q.run queue ts := by
  show Pool.run queue (t :: ts) P = _
  simp only [Pool.run, hn]

theorem run_append76 {α : Type} {queue : Bool} {P' : Pool α} {ts : List Nat} : ∀ (ss : List Nat) (P : Pool α), P.run queue ss = some P' →
    P.run queue (ss ++ ts) = P'.run queue ts
  | [], P, h => by cases h; rfl
  | s :: ss, P, h => by
    unfold Pool.run at h
    cases hn : P.next queue s with
    | none => rw [hn] at h; cases h
    | some Q =>
      rw [hn] at h
      exact (run_cons76 hn _).trans (run_append76 ss Q h)

/-- where no deadlock can be reached everybody gets done -/
theorem finishes_of {α : Type} {queue : Bool} {P : Pool α} (hd : ∀ sched P', P.run queue sched = some P' → ¬ Deadlock queue P') :
    ∃ sched P', P.run queue sched = some P' ∧ AllDone P' := by
  have main : ∀ ps : List (Prog α), Acc OneAfter ps → ∀ Q : Pool α, Q.threads.map Thread.prog = ps →
      (∀ sched P', Q.run queue sched = some P' → ¬ Deadlock queue P') → ∃ sched P', Q.run queue sched = some P' ∧ AllDone P' := by
    intro ps hps
    induction hps with
    | intro ps _ ih =>
      intro Q hQ hd
      by_cases ha : AllDone Q
      · exact ⟨[], Q, rfl, ha⟩
      · have : ∃ t, Q.next queue t ≠ none := by
          refine Classical.byContradiction fun hc => hd [] Q rfl ⟨ha, fun t => Classical.byContradiction fun ht => hc ⟨t, ht⟩⟩
        obtain ⟨t, ht⟩ := this
        cases hn : Q.next queue t with
        | none => exact absurd hn ht
        | some Q' =>
          have step : ∀ sched, Q.run queue (t :: sched) = Q'.run queue sched := run_cons76 hn
          obtain ⟨sched, P', h1, h2⟩ := ih _ (by rw [← hQ]; exact next_after hn) Q' rfl fun s P' h => hd (t :: s) P' (by rw [step]; exact h)
          exact ⟨t :: sched, P', by rw [step]; exact h1, h2⟩
  exact main _ (oneAfter_acc _) P rfl hd

/-! ## trees without links -/

/-- Threads that look up, read, forget and walk, from whatever nodes they have, never wait for each other in a circle: in a
tree without links, for every schedule, whether or not readers wait for waiting writers. -/
theorem C76_no_deadlock_partial {content : Content} (hL : ∀ s f, content s = .ok f → Spec.Forest.All NoLink f) {h : NHeap} (hm : MadeBefore h)
    {α : Type} {ps : List (Prog α)} (hp : ∀ p ∈ ps, CallsDown content p) {queue : Bool} {sched : List Nat} {P : Pool α}
    (hr : (Pool.start h ps).run queue sched = some P) : ¬ Deadlock queue P ∧ MadeBefore P.heap := by
  have S : PoolSafe Down id (fun _ _ _ => True) (Pool.start h ps) := by
    intro t th ht
    obtain ⟨p, h1, rfl⟩ := List.mem_map.1 (List.mem_of_getElem? ht)
    exact down_calls hL (hp p h1) h hm
  obtain ⟨h1, h2⟩ := poolSafe_run down_rely sched _ P S hr
  exact ⟨poolSafe_moves h1, h2 hm⟩

/-- And so all get done: every schedule can be gone on with until all threads have their answers. -/
theorem C76_finishes_partial {content : Content} (hL : ∀ s f, content s = .ok f → Spec.Forest.All NoLink f) {h : NHeap} (hm : MadeBefore h)
    {α : Type} {ps : List (Prog α)} (hp : ∀ p ∈ ps, CallsDown content p) {queue : Bool} {sched : List Nat} {P : Pool α}
    (hr : (Pool.start h ps).run queue sched = some P) : ∃ more P', P.run queue more = some P' ∧ AllDone P' :=
  finishes_of fun more P' h' => (C76_no_deadlock_partial hL hm hp (sched := sched ++ more) (by rw [run_append76 _ _ hr]; exact h')).1

/-! ## threads that only read -/

/-- Threads that only read never wait, in any tree, links or not; the tree stays as it is, and each gets the answer it would
get alone. -/
theorem C76_readers {α : Type} {h : NHeap} {ps : List (Prog α)} (hp : ∀ p ∈ ps, OnlyReads p) {queue : Bool} {sched : List Nat} {P : Pool α}
    (hr : (Pool.start h ps).run queue sched = some P) : P.heap = h ∧
    (∀ (t : Nat) (th : Thread α), P.threads[t]? = some th → (∃ a, Answer th a) ∨ ∃ P', P.next queue t = some P') ∧
    ∀ (t : Nat) (th : Thread α) (a : α) (p : Prog α), P.threads[t]? = some th → ps[t]? = some p → Answer th a → a = (runAlone h p).1 := by
  have R := readers_run sched _ P (readers_start hp) hr
  refine ⟨R.heap, fun t th ht => ?_, fun t th a p ht hpt ha => ?_⟩
  · obtain ⟨h1, h2⟩ := R.reads th (List.mem_of_getElem? ht)
    generalize hq : th.prog = q at h1
    cases h1 with
    | done a => exact .inl ⟨a, hq⟩
    | acquire i k hk =>
      refine .inr (Option.isSome_iff_exists.1 ?_)
      unfold Pool.next
      rw [ht]
      dsimp only
      rw [hq]
      dsimp only
      rw [if_pos (readers_can R queue i)]
      rfl
    | release m i k hk =>
      refine .inr (Option.isSome_iff_exists.1 ?_)
      unfold Pool.next
      rw [ht]
      dsimp only
      rw [hq]
      rfl
    | look k hk =>
      refine .inr (Option.isSome_iff_exists.1 ?_)
      unfold Pool.next
      rw [ht]
      dsimp only
      rw [hq]
      rfl
  · have := congrArg (fun l => l[t]?) R.answers
    simp only [List.getElem?_map, ht, hpt, Option.map_some, Option.some.injEq] at this
    unfold Answer at ha
    rw [← this, ha]
    rfl

/-- `at_path` only reads; alone it gives what `C25_at_path` says. -/
theorem C76_at_path_reads (i : Nat) (path : List Char) : OnlyReads (peekProg i path) ∧ ∀ h, (runAlone h (peekProg i path)).1 = h.atPath i path := by
  refine ⟨.acquire i _ (.look _ fun h => onlyReads_bind ?_ fun _ => .release _ _ _ (.done _)), fun h => ?_⟩
  · unfold peekFrom
    split
    · exact .done _
    · split
      · exact .done _
      · exact foldPeek_reads _ _
  · show (runAlone h ((peekFrom h i path).bind _)).1 = _
    rw [runAlone_bind]
    show (runAlone h (peekFrom h i path)).1 = _
    unfold peekFrom NHeap.atPath
    cases splitSlash path with
    | nil => rfl
    | cons x xs =>
      dsimp only
      cases h.at i x with
      | none => rfl
      | some j => dsimp only; rw [foldPeek_alone]

/-- Searching upwards (`filter_parent`, and the locks of `get_full_path`) only reads; alone it gives what
`C25_filter_parent` says. -/
theorem C76_upwards_reads (stop : NCell → Bool) (fuel i : Nat) : OnlyReads (upProg stop fuel i) ∧
    ∀ h r, h.filterParent stop fuel i = some r → (runAlone h (upProg stop fuel i)).1 = r := by
  refine ⟨.acquire i _ (.look _ fun h => onlyReads_bind (climb_reads _ _ _) fun _ => .release _ _ _ (.done _)), fun h r hr => ?_⟩
  show (runAlone h ((climbProg stop fuel (h.up i)).bind _)).1 = _
  rw [runAlone_bind]
  show (runAlone h (climbProg stop fuel (h.up i))).1 = _
  rw [climb_alone h stop fuel _ r hr]

/-- A walk without `force_parse` only reads, if its callback does; alone it visits what `C57_walk` says. -/
theorem C76_walk_reads (content : Content) (f : Nat → Prog Unit) (hf : ∀ i, OnlyReads (f i)) (fuel i : Nat) :
    OnlyReads (walkProg content false f fuel i) ∧
    ∀ h vs, h.walk fuel i = some vs → (runAlone h (walkProg content false f fuel i)).1 = vs :=
  ⟨walk_reads hf fuel i, fun _ vs hv => walk_alone hf fuel i vs hv⟩

/-! ## one thread alone -/

/-- the thread alone can get from here to there -/
def Alone {α : Type} (queue : Bool) (h : NHeap) (th : Thread α) (h' : NHeap) (th' : Thread α) : Prop :=
  ∃ n, Pool.run queue (List.replicate n 0) ⟨h, [th]⟩ = some ⟨h', [th']⟩

theorem Alone.refl {α : Type} {queue : Bool} {h : NHeap} {th : Thread α} : Alone queue h th h th := ⟨0, rfl⟩

theorem Alone.trans {α : Type} {queue : Bool} {h h' h'' : NHeap} {th th' th'' : Thread α} :
    Alone queue h th h' th' → Alone queue h' th' h'' th'' → Alone queue h th h'' th'' := by
  rintro ⟨n, hn⟩ ⟨m, hm⟩
  exact ⟨n + m, by rw [List.replicate_add, run_append76 _ _ hn]; exact hm⟩

theorem Alone.step {α : Type} {queue : Bool} {h h' h'' : NHeap} {th th' th'' : Thread α}
    (hs : Pool.next queue ⟨h, [th]⟩ 0 = some ⟨h', [th']⟩) (A : Alone queue h' th' h'' th'') : Alone queue h th h'' th'' := by
  obtain ⟨n, hn⟩ := A
  refine ⟨n + 1, ?_⟩
  rw [List.replicate_succ]
  unfold Pool.run
  rw [hs]
  exact hn

theorem Alone.acquire {α : Type} {queue : Bool} {h h' : NHeap} {held : List (LMode × Nat)} {m : LMode} {i : Nat} {k : Prog α} {th' : Thread α}
    (hh : ∀ x : LMode × Nat, x ∈ held → x.2 ≠ i) (A : Alone queue h ⟨(m, i) :: held, k⟩ h' th') :
    Alone queue h ⟨held, .acquire m i k⟩ h' th' := by
  refine .step ?_ A
  unfold Pool.next
  dsimp only [List.getElem?_cons_zero]
  have hc : canTake queue [(⟨held, .acquire m i k⟩ : Thread α)] m i = true := by
    unfold canTake
    cases m with
    | write =>
      simp only [List.all_cons, List.all_nil, Bool.and_true, List.all_eq_true]
      intro x hx
      simpa using hh x hx
    | read =>
      simp only [List.all_cons, List.all_nil, Bool.and_true, Bool.and_eq_true, List.all_eq_true]
      refine ⟨fun x hx => ?_, by simp [Thread.wantsWrite]⟩
      have := hh x hx
      simp only [Bool.not_eq_true', beq_eq_false_iff_ne, ne_eq]
      rintro rfl
      exact this rfl
  rw [if_pos hc]
  rfl

theorem Alone.release {α : Type} {queue : Bool} {h h' : NHeap} {held : List (LMode × Nat)} {m : LMode} {i : Nat} {k : Prog α} {th' : Thread α}
    (A : Alone queue h ⟨held, k⟩ h' th') : Alone queue h ⟨(m, i) :: held, .release m i k⟩ h' th' := by
  refine .step ?_ A
  unfold Pool.next
  dsimp only [List.getElem?_cons_zero]
  rw [List.erase_cons_head]
  rfl

theorem Alone.act {α : Type} {queue : Bool} {h h' : NHeap} {held : List (LMode × Nat)} {upd : NHeap → NHeap} {k : NHeap → Prog α} {th' : Thread α}
    (A : Alone queue (upd h) ⟨held, k h⟩ h' th') : Alone queue h ⟨held, .act upd k⟩ h' th' := .step rfl A

theorem fold_alone {α : Type} {queue : Bool} {content : Content} {m : LMode} {i : Nat} (f : Except Err Nat → Prog α) : ∀ (xs : List (List Char)) (h : NHeap) (j : Nat),
    (NHeap.foldParsed content i h j xs).1 ≠ .error (.lib "deadlock") →
    Alone queue h ⟨[(m, i)], (foldProg content j xs).bind f⟩ (NHeap.foldParsed content i h j xs).2
      ⟨[(m, i)], f (NHeap.foldParsed content i h j xs).1⟩
  | [], h, j, _ => .refl
  | x :: xs, h, j, hd => by
    unfold NHeap.foldParsed at hd ⊢
    unfold foldProg
    by_cases hj : j = i
    · rw [if_pos hj] at hd
      exact absurd rfl hd
    · rw [if_neg hj] at hd ⊢
      refine .acquire (fun y hy => ?_) (.act (.release ?_))
      · rw [List.mem_singleton.1 hy]
        exact fun e => hj e.symm
      · generalize h.parse content j = z at hd ⊢
        obtain ⟨r, g⟩ := z
        cases r with
        | error e => exact .refl
        | ok u =>
          dsimp only at hd ⊢
          cases hx : g.at j x with
          | none => exact .refl
          | some k =>
            rw [hx] at hd
            exact fold_alone f xs g k hd

/-- A thread that is alone gets from `at_path_parsed` what the model without locks says, whose theorems are those of C27,
C53, C58 and C70 - unless that says the call hangs on its own lock. -/
theorem C76_alone {content : Content} {h : NHeap} {i : Nat} {path : List Char} (m : LMode) (queue : Bool)
    (hd : (h.atPathParsed content i path).1 ≠ .error (.lib "deadlock")) :
    ∃ sched, (Pool.start h [findProg content m i path]).run queue sched =
      some ⟨(h.atPathParsed content i path).2, [⟨[], .done (h.atPathParsed content i path).1⟩]⟩ := by
  have : Alone queue h ⟨[], findProg content m i path⟩ (h.atPathParsed content i path).2 ⟨[], .done (h.atPathParsed content i path).1⟩ := by
    unfold findProg
    refine .acquire (fun x hx => by cases hx) (.act ?_)
    refine Alone.trans (h' := (h.atPathParsed content i path).2) (th' := ⟨[(m, i)], .release m i (.done (h.atPathParsed content i path).1)⟩) ?_ (.release .refl)
    unfold findFrom
    unfold NHeap.atPathParsed at hd ⊢
    generalize splitSlash path = l at hd ⊢
    cases l with
    | nil => exact .refl
    | cons x xs =>
      dsimp only at hd ⊢
      cases hx : h.at i x with
      | none => exact .refl
      | some j =>
        rw [hx] at hd
        exact fold_alone (fun r => .release m i (.done r)) xs h j hd
  obtain ⟨n, hn⟩ := this
  exact ⟨_, hn⟩

end Wz.Props
