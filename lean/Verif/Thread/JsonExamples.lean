import Verif.Thread.JsonProps

/-!
# C84: where exports do wait for ever or mix two moments, and concrete cases
-/

set_option autoImplicit false

namespace Wz.Props

open Wz Wz.Spec

/-- a reader of nothing -/
def env84 : Env := ⟨.checked, [], fun _ => 0, fun _ => 0⟩

/-- **An export, two paths and two writers.**  Where readers wait for waiting writers: the export has the root and asks for `d`; one more thread has `d`
and asks for the root, to make a full path; both are behind threads that wait to write to these nodes.  All four wait for ever. -/
theorem C84_path_counterexample : ∃ sched P,
    (Pool.start tree76 [(exportProg env84 5 0).bind (fun _ => .done ()), (upProg (fun _ => false) 5 1).bind (fun _ => .done ()),
      .look fun _ => (parseProg content76 0).bind fun _ => .done (), .look fun _ => (parseProg content76 1).bind fun _ => .done ()]).run true sched = some P ∧
    Deadlock true P :=
  ⟨[1, 1, 0, 0, 2, 3], leads76 (by decide +kernel)⟩

/-- a directory with the files `a` and `b`, not opened yet -/
def tree84 : NHeap :=
  [ some ⟨['d'], .dir true true 1, none, [(['a'], 1), (['b'], 2)]⟩,
    some ⟨['a'], .file false 2, some 0, []⟩,
    some ⟨['b'], .file false 2, some 0, []⟩ ]

/-- each file holds an image `p` -/
def files84 : Content := fun s => if s = 2 then .ok (.node ['p'] (.image false 3) .nil .nil) else .ok .nil

/-- has the file been opened? -/
def wasOpened (h : NHeap) (i : Nat) : Bool := match h.cell i with
  | some ⟨_, .file true _, _, _⟩ => true
  | _ => false

theorem take84 {α : Type} {queue : Bool} (T : NHeap → Bool) (P : Pool α) (sched : List Nat)
    (h : ((List.range (sched.length + 1)).all fun n => match P.run queue (sched.take n) with
      | none => true
      | some Q => T Q.heap) = true) (n : Nat) (Q : Pool α) (hr : P.run queue (sched.take n) = some Q) : T Q.heap = true := by
  rw [List.all_eq_true] at h
  by_cases hn : n ≤ sched.length
  · have := h n (List.mem_range.2 (by omega))
    rw [hr] at this
    exact this
  · have := h sched.length (List.mem_range.2 (by omega))
    rw [List.take_of_length_le (by omega : sched.length ≤ n)] at hr
    rw [List.take_of_length_le (Nat.le_refl _), hr] at this
    exact this

/-- **A directory is not exported at one moment.**  One thread exports it, another opens `a` and then `b`.  The JSON can show what is in `b` and nothing of `a`,
although at no moment `b` was open and `a` was not. -/
theorem C84_two_files_counterexample (queue : Bool) : ∃ sched P,
    (Pool.start tree84 [exportProg env84 5 0, .look fun _ => (parseProg files84 1).bind fun _ => (parseProg files84 2).bind fun _ => .done none]).run queue sched = some P ∧
    answer76 P 0 = some (some (.ok (.obj [(['a'], .null), (['b'], .obj [(['p'], .null)])]))) ∧
    ∀ n Q, (Pool.start tree84 [exportProg env84 5 0, .look fun _ => (parseProg files84 1).bind fun _ => (parseProg files84 2).bind fun _ => .done none]).run queue
      (sched.take n) = some Q → wasOpened Q.heap 2 = true → wasOpened Q.heap 1 = true := by
  refine ⟨[0, 0, 0, 0, 0, 1, 1, 1, 1, 1, 1, 1, 0, 0, 0, 0, 0, 0, 0], ?_⟩
  have key : ∀ a b : Bool, (!a || b) = true → a = true → b = true := by decide
  cases queue
  · refine ⟨_, rfl, ?_, fun n Q hr => key _ _ (take84 (fun h => !wasOpened h 2 || wasOpened h 1) _ _ (by decide +kernel) n Q hr)⟩
    rfl
  · exact ⟨_, rfl, rfl, fun n Q hr => key _ _ (take84 (fun h => !wasOpened h 2 || wasOpened h 1) _ _ (by decide +kernel) n Q hr)⟩

/-! ### the cases are met -/

/-- the code of the number 5 -/
def five84 : Nat := Encodable.encode (Leaf58.prop (.int 5))

theorem kind84 : kindObject env84 (.other five84) = .value (.int 5) := by
  unfold five84
  rw [kindObject, Encodable.encodek]
  rfl

/-- the image of `tree76` holds the number 5, under `p` -/
def content84 : Content := fun s => if s = 2 then .ok (.node ['p'] (.other five84) .nil .nil) else .ok .nil

theorem content84_noLink : ∀ s f, content84 s = .ok f → Spec.Forest.All NoLink f := by
  intro s f h
  unfold content84 at h
  split at h
  · cases h
    exact ⟨fun t ht => (by cases ht), trivial, trivial⟩
  · cases h
    trivial

theorem content84_inImage : ∀ f, content84 2 = .ok f → Spec.Forest.All InImage f := by
  intro f h
  cases h
  exact ⟨.inl ⟨five84, rfl⟩, trivial, trivial⟩

theorem json84 : NHeap.exportJson env84 (NHeap.parse tree76 content84 2).2 5 2 = some (.ok (.obj [(['p'], .int 5)])) := by
  rw [exportJson_look, look_cell (h := (NHeap.parse tree76 content84 2).2) (i := 2) (c := ⟨['i'], .image true 2, some 1, [(['p'], 3)]⟩) rfl]
  dsimp only
  rw [NHeap.jsonLoop, exportJson_look, look_cell (h := (NHeap.parse tree76 content84 2).2) (i := 3) (c := ⟨['p'], .other five84, some 2, []⟩) rfl]
  dsimp only
  rw [kind84]
  rfl

/-- one thread reads the image and exports it, another forgets it, a third walks with parsing -/
def work84 : List (Prog (Option (Except Err Json))) :=
  [ (callProg content84 (.parse 2)).bind fun _ => exportProg env84 5 2,
    (callProg content84 (.unparse 2)).bind fun _ => .done none,
    (callProg content84 (.walk true true 9 0)).bind fun _ => .done none ]

theorem bind_done84 {α : Type} : ∀ p : Prog α, p.bind (fun a => .done a) = p
  | .done a => rfl
  | .acquire m i k => by rw [Prog.bind, bind_done84 k]
  | .release m i k => by rw [Prog.bind, bind_done84 k]
  | .act upd k => by
    rw [Prog.bind]
    exact congrArg (Prog.act upd) (funext fun h => bind_done84 (k h))

theorem exports84 (e : Env) (fuel i : Nat) : CallsAndExports content84 (exportProg e fuel i) := by
  rw [← bind_done84 (exportProg e fuel i)]
  exact .json e fuel i _ fun _ => .done _

theorem work84_calls : ∀ p ∈ work84, CallsAndExports content84 p := by
  intro p hp
  simp only [work84, List.mem_cons, List.not_mem_nil, or_false] at hp
  rcases hp with rfl | rfl | rfl
  · exact .call _ _ fun _ => exports84 ..
  · exact .call _ _ fun _ => .done _
  · exact .call _ _ fun _ => .done _

/-- All hypotheses of `C84_all_or_nothing_partial` are met. -/
theorem answers84 (queue : Bool) (sched : List Nat) (P : Pool (Option (Except Err Json))) (hr : (Pool.start tree76 work84).run queue sched = some P)
    (a : Option (Except Err Json)) (ha : answer76 P 0 = some a) :
    a = some (.ok .null) ∨ a = some (.ok (.obj [(['p'], .int 5)])) := by
  rw [← json84]
  cases hth : P.threads[0]? with
  | none => rw [answer76, hth] at ha; cases ha
  | some th =>
    have hA : Answer th a := by
      rw [answer76, hth] at ha
      obtain ⟨held, p⟩ := th
      cases p <;> cases ha
      rfl
    exact C84_all_or_nothing_partial content84_noLink tree76_made (i := 2) (s := 2) rfl rfl rfl content84_inImage work84_calls (t := 0)
      (before := (callProg content84 (.parse 2)).bind fun _ => .done ()) (.call _ _ fun _ => .done _) (e := env84) (fuel := 5) rfl hr hth hA

example (queue : Bool) : ∃ more P', (Pool.start tree76 work84).run queue more = some P' ∧ AllDone P' :=
  C84_finishes_partial content84_noLink tree76_made work84_calls (sched := []) rfl

/-- the image was forgotten before it was exported -/
example : ∃ sched P, (Pool.start tree76 work84).run false sched = some P ∧ answer76 P 0 = some (some (.ok .null)) :=
  ⟨[0, 0, 0, 1, 1, 1, 0, 0, 0], _, rfl, rfl⟩

/-- two threads export at once -/
example (queue : Bool) (sched : List Nat) (P : Pool (Option (Except Err Json)))
    (hr : (Pool.start tree84 ([(env84, 5, 0), (env84, 5, 0)].map fun w => exportProg w.1 w.2.1 w.2.2)).run queue sched = some P) :
    ∀ (th : Thread (Option (Except Err Json))) (a : Option (Except Err Json)), P.threads[1]? = some th → Answer th a →
      a = some (.ok (.obj [(['a'], .null), (['b'], .null)])) :=
  fun th a ht ha => (C84_together hr).2.2 1 th a (env84, 5, 0) ht rfl ha

end Wz.Props
