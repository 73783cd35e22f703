import Verif.Thread.Props

/-!
# C76: where threads do wait for ever or miss nodes, and concrete cases
-/

set_option autoImplicit false

namespace Wz.Props

open Wz Wz.Spec

/-- is the thread done? -/
def isDone76 {α : Type} (th : Thread α) : Bool := match th.prog with
  | .done _ => true
  | _ => false

/-- the test for a deadlock -/
def stuck76 {α : Type} (queue : Bool) (P : Pool α) : Bool :=
  P.threads.any (fun th => !isDone76 th) && (List.range P.threads.length).all fun t => (P.next queue t).isNone

theorem stuck_deadlock {α : Type} {queue : Bool} {P : Pool α} (h : stuck76 queue P = true) : Deadlock queue P := by
  unfold stuck76 at h
  rw [Bool.and_eq_true, List.any_eq_true, List.all_eq_true] at h
  obtain ⟨⟨th, h1, h2⟩, h3⟩ := h
  refine ⟨fun ha => ?_, fun t => ?_⟩
  · obtain ⟨a, ha⟩ := ha th h1
    unfold isDone76 at h2
    unfold Answer at ha
    rw [ha] at h2
    cases h2
  · by_cases ht : t < P.threads.length
    · have := h3 t (List.mem_range.2 ht)
      exact Option.isNone_iff_eq_none.1 this
    · unfold Pool.next
      rw [List.getElem?_eq_none (by omega)]

/-- a schedule that leads to a deadlock -/
theorem leads76 {α : Type} {queue : Bool} {P : Pool α} {sched : List Nat} (h : ((P.run queue sched).map (stuck76 queue)) = some true) :
    ∃ P', P.run queue sched = some P' ∧ Deadlock queue P' := by
  cases hr : P.run queue sched with
  | none => rw [hr] at h; cases h
  | some P' =>
    rw [hr] at h
    simp only [Option.map_some, Option.some.injEq] at h
    exact ⟨P', rfl, stuck_deadlock h⟩

/-- the answer of thread `t`, if it has one -/
def answer76 {α : Type} (P : Pool α) (t : Nat) : Option α := match P.threads[t]? with
  | some ⟨_, .done a⟩ => some a
  | _ => none

/-- `Base` with a directory `d`, in it an image `i`, not read yet -/
def tree76 : NHeap :=
  [ some ⟨"Base".toList, .file true 0, none, [(['d'], 1)]⟩,
    some ⟨['d'], .dir true true 1, some 0, [(['i'], 2)]⟩,
    some ⟨['i'], .image false 2, some 1, []⟩ ]

/-- the image holds one property -/
def content76 : Content := fun s => if s = 2 then .ok (.node ['p'] (.other 7) .nil .nil) else .ok .nil

theorem content76_noLink : ∀ s f, content76 s = .ok f → Spec.Forest.All NoLink f := by
  intro s f h
  unfold content76 at h
  split at h
  · cases h
    exact ⟨fun t ht => (by cases ht), trivial, trivial⟩
  · cases h
    trivial

theorem tree76_made : MadeBefore tree76 := by
  intro i c n k hc hk
  match i with
  | 0 | 1 | 2 =>
    cases hc
    simp only [List.mem_singleton, List.not_mem_nil, Prod.mk.injEq] at hk
    try omega
  | n + 3 => simp [NHeap.cell, tree76] at hc

/-! ## where the property ends -/

/-- **`resolve_outlink` with `force_parse` against `get_full_path`.**  The first thread follows an outlink: it has the base
for writing and asks for `d`.  The second reads `d` and asks for the base, to put its name into the path.  Both wait for
ever, whatever the locks do about waiting writers. -/
theorem C76_outlink_counterexample (queue : Bool) : ∃ sched P,
    (Pool.start tree76 [(outlinkProg content76 5 2 "d/i".toList).bind (fun _ => .done ()), (upProg (fun _ => false) 5 1).bind fun _ => .done ()]).run
      queue sched = some P ∧ Deadlock queue P :=
  ⟨[1, 1, 0, 0, 0, 0, 0, 0, 0, 0, 0, 0, 0], by cases queue <;> exact leads76 (by decide +kernel)⟩

/-- **Looking up, asking for a path, and parsing the root.**  Where readers wait for waiting writers three threads are
enough, the third of which comes later: one has the root for reading and waits to parse `d`; one reads `d` and waits for the root, since one more is
waiting to write to the root. -/
theorem C76_lookup_counterexample : ∃ sched P,
    (Pool.start tree76 [(findProg content76 .read 0 "d/i".toList).bind (fun _ => .done ()), (upProg (fun _ => false) 5 1).bind (fun _ => .done ()),
      .look fun _ => (parseProg content76 0).bind fun _ => .done ()]).run true sched = some P ∧ Deadlock true P :=
  ⟨[1, 1, 0, 0, 2], leads76 (by decide +kernel)⟩

/-- **A walk whose callback asks for the path of the node**, as in the examples of the library, while another thread parses
the root: the walk has the root and asks for it again, behind the writer. -/
theorem C76_walk_counterexample : ∃ sched P,
    (Pool.start tree76 [(walkProg content76 false (fun i => (upProg (fun _ => false) 5 i).bind fun _ => .done ()) 5 0).bind (fun _ => .done ()),
      .look fun _ => (parseProg content76 0).bind fun _ => .done ()]).run true sched = some P ∧ Deadlock true P :=
  ⟨[0, 0, 0, 0, 0, 0, 0, 1], leads76 (by decide +kernel)⟩

/-- **Two walks with `force_parse` at once.**  Alone a walk visits all nodes.  Together one can find an image empty: the
other has forgotten it between the parse and the look at its children.  No error is reported. -/
theorem C76_walks_counterexample : ∃ sched P,
    (Pool.start tree76 [walkProg content76 true (fun _ => .done ()) 5 1, walkProg content76 true (fun _ => .done ()) 5 1]).run false sched = some P ∧
      AllDone P ∧ answer76 P 0 = some [1, 2, 3] ∧ answer76 P 1 = some [1, 2] ∧
      (runAlone tree76 (walkProg content76 true (fun _ => .done ()) 5 1)).1 = [1, 2, 3] := by
  have key : ∀ (Q : Pool (List Nat)) (sched : List Nat),
      ((Q.run false sched).map fun P => P.threads.all isDone76 && (answer76 P 0 == some [1, 2, 3]) && (answer76 P 1 == some [1, 2])) = some true →
      ∃ sched P, Q.run false sched = some P ∧ AllDone P ∧ answer76 P 0 = some [1, 2, 3] ∧ answer76 P 1 = some [1, 2] := by
    intro Q sched h
    cases hr : Q.run false sched with
    | none => rw [hr] at h; cases h
    | some P =>
      rw [hr] at h
      simp only [Option.map_some, Option.some.injEq, Bool.and_eq_true, beq_iff_eq, List.all_eq_true] at h
      refine ⟨sched, P, hr, fun th hth => ?_, h.1.2, h.2⟩
      have := h.1.1 th hth
      unfold isDone76 at this
      split at this
      · rename_i a ha
        exact ⟨a, ha⟩
      · cases this
  obtain ⟨sched, P, h1, h2, h3, h4⟩ := key (Pool.start tree76 [walkProg content76 true (fun _ => .done ()) 5 1, walkProg content76 true (fun _ => .done ()) 5 1])
    (List.replicate 3 0 ++ List.replicate 8 1 ++ List.replicate 23 0 ++ List.replicate 10 1 ++ List.replicate 4 0 ++ List.replicate 3 1) (by decide +kernel)
  exact ⟨sched, P, h1, h2, h3, h4, by decide +kernel⟩

/-! ## concrete cases -/

/-- two threads that walk, look up and read -/
def work76 : List (Prog (List Nat)) :=
  [(callProg content76 (.walk true true 5 0)).bind fun a => (callProg content76 (.parse (a.headD 0))).bind .done,
   (callProg content76 (.find .read 0 "d/i/p".toList)).bind fun a => (callProg content76 (.unparse 2)).bind fun _ => .done a]

theorem work76_down : ∀ p ∈ work76, CallsDown content76 p := by
  intro p hp
  rcases List.mem_cons.1 hp with rfl | hp
  · exact .call _ _ fun a => .call _ _ fun b => .done b
  · rw [List.mem_singleton.1 hp]
    exact .call _ _ fun a => .call _ _ fun _ => .done a

example (queue : Bool) (sched : List Nat) (P : Pool (List Nat)) (hr : (Pool.start tree76 work76).run queue sched = some P) :
    ¬ Deadlock queue P := (C76_no_deadlock_partial content76_noLink tree76_made work76_down hr).1

example (queue : Bool) (sched : List Nat) (P : Pool (List Nat)) (hr : (Pool.start tree76 work76).run queue sched = some P) :
    ∃ more P', P.run queue more = some P' ∧ AllDone P' := C76_finishes_partial content76_noLink tree76_made work76_down hr

/-- such a run: the second thread finds the property while the first walks -/
example : ((Pool.start tree76 work76).run true [0, 0, 0, 1, 1, 0, 0, 0, 1, 1, 1]).isSome = true := by decide +kernel

example : Exclusive (Pool.start tree76 work76) := C76_exclusive (queue := true) (sched := []) rfl

/-- the hypothesis of `C76_changes` is met by threads that look up, read, forget and walk -/
example : ∀ p ∈ work76, WritesLocked [] [] p := fun p hp => locked_calls (work76_down p hp)

/-- a step that changes a node: the first thread parses the image -/
example : ∃ P P', (Pool.start tree76 [parseProg content76 2]).run true [0] = some P ∧ P.next true 0 = some P' ∧ P'.heap.cell 2 ≠ P.heap.cell 2 :=
  ⟨_, _, rfl, rfl, by decide +kernel⟩

example (P : Pool (List Nat)) : Ends true P := C76_every_schedule_ends true P

/-- two readers at once -/
example (queue : Bool) (sched : List Nat) (P : Pool (Option Nat))
    (hr : (Pool.start tree76 [peekProg 0 "d/i".toList, upProg NCell.isBase 5 2]).run queue sched = some P) (th : Thread (Option Nat)) (a : Option Nat)
    (ht : P.threads[0]? = some th) (ha : Answer th a) : a = some 2 := by
  have hp : ∀ p ∈ [peekProg 0 "d/i".toList, upProg NCell.isBase 5 2], OnlyReads p := by
    intro p hp
    rcases List.mem_cons.1 hp with rfl | hp
    · exact (C76_at_path_reads _ _).1
    · rw [List.mem_singleton.1 hp]
      exact (C76_upwards_reads _ _ _).1
  rw [(C76_readers hp hr).2.2 0 th a _ ht rfl ha, (C76_at_path_reads _ _).2]
  decide +kernel

example : (runAlone tree76 (upProg NCell.isBase 5 2)).1 = some 0 := (C76_upwards_reads _ _ _).2 _ _ (by decide +kernel)

example : (runAlone tree76 (walkProg content76 false (fun i => lookProg i) 5 0)).1 = [0, 1, 2] :=
  (C76_walk_reads _ _ (fun i => .acquire i _ (.look _ fun _ => .release _ _ _ (.done _))) _ _).2 _ _ (by decide +kernel)

example : ∃ sched P, (Pool.start tree76 [findProg content76 .read 0 "d/i/p".toList]).run true sched = some P := by
  obtain ⟨s, h⟩ := C76_alone (content := content76) (h := tree76) (i := 0) (path := "d/i/p".toList) .read true (by
    have : ((tree76.atPathParsed content76 0 "d/i/p".toList).1 matches .ok 3) = true := by decide +kernel
    intro h
    rw [h] at this
    cases this)
  exact ⟨s, _, h⟩

end Wz.Props
