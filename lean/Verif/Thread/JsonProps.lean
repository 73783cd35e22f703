import Verif.Thread.JsonSpec
import Verif.Thread.SnapLemmas
import Verif.Thread.Examples

/-!
# C84: the JSON export while other threads use the tree
-/

set_option autoImplicit false

namespace Wz

open Wz.Spec Wz.Props

theorem acts_exports {content : Content} {α : Type} {p : Prog α} (D : CallsAndExports content p) : ActsBy (ReadForget content) p := by
  induction D with
  | done a => exact .done a
  | call c k _ ih => exact actsBy_bind (acts_call c) ih
  | json e fuel i k _ ih => exact actsBy_bind (actsBy_reads (.inl rfl) (export_reads e fuel i)) ih

theorem down_exports {content : Content} (hL : ∀ s f, content s = .ok f → Spec.Forest.All NoLink f) {α : Type} {p : Prog α}
    (D : CallsAndExports content p) : ∀ h, MadeBefore h → Safe Down id (fun _ _ => True) [] h [] p := by
  induction D with
  | done a => exact fun h _ => .done _ _ fun _ _ => trivial
  | call c k _ ih => exact fun h H => (down_call hL H c).bind down_rely fun g a K _ => ih a g (K H)
  | json e fuel i k _ ih =>
    exact fun h H => (down_export e fuel [] h i H fun x hx => by cases hx).bind down_rely fun g a K _ => ih a g (K H)

theorem locked_exports {content : Content} {α : Type} {p : Prog α} (D : CallsAndExports content p) : WritesLocked [] [] p := by
  induction D with
  | done a => exact .done a
  | call c k _ ih => exact writesLocked_bind (locked_call content c) ih
  | json e fuel i k _ ih => exact writesLocked_bind (locked_export e fuel [] i) ih

/-- the threads of `C84_all_or_nothing_partial` are safe -/
theorem poolSafe_snap {content : Content} (hL : ∀ s f, content s = .ok f → Spec.Forest.All NoLink f) {h : NHeap} (hm : MadeBefore h)
    {i s : Nat} {c : NCell} (hc : h.cell i = some c) (hk : c.kind = .image false s) (hkids : c.kids = [])
    (hI : ∀ f, content s = .ok f → Spec.Forest.All InImage f) {ps : List (Prog (Option (Except Err Json)))} (hp : ∀ p ∈ ps, CallsAndExports content p)
    {t : Nat} {β : Type} {before : Prog β} (hb : CallsAndExports content before) {e : Env} {fuel : Nat}
    (ht : ps[t]? = some (before.bind fun _ => exportProg e fuel i)) :
    PoolSafe (KeepsSnap e i s c.name (fun fuel => (h.parse content i).2.exportJson e fuel i)) id
      (fun t' _ a => t' = t → a = (h.parse content i).2.exportJson e fuel i ∨ a = (if fuel = 0 then none else some (.ok .null)))
      (Pool.start h ps) := by
  have hA := keepsSnap_acts (e := e) hL hc hk hkids hI
  have hS : ∀ h' g', KeepsSnap e i s c.name (fun fuel => (h.parse content i).2.exportJson e fuel i) h' g' → Down h' g' :=
    fun _ _ K M => (K M).1
  have hR := keepsSnap_rely e i s c.name (fun fuel => (h.parse content i).2.exportJson e fuel i)
  have S0 : Snap e i s c.name (fun fuel => (h.parse content i).2.exportJson e fuel i) h := ⟨c, hc, rfl, .inl ⟨hk, hkids⟩⟩
  intro t' th' ht'
  simp only [Pool.start, List.getElem?_map] at ht'
  cases hq : ps[t']? with
  | none => rw [hq] at ht'; cases ht'
  | some p =>
    rw [hq] at ht'
    cases ht'
    by_cases htt : t' = t
    · subst htt
      rw [ht] at hq
      cases hq
      refine (Safe.acts hS hA (down_exports hL hb h hm) (acts_exports hb)).bind hR fun g _ K _ => ?_
      obtain ⟨M', _, S'⟩ := K hm
      exact (safe_image fuel g M' (S' S0)).weaken fun _ _ hq _ => hq
    · have hp' := hp p (List.mem_of_getElem? hq)
      exact (Safe.acts hS hA (down_exports hL hp' h hm) (acts_exports hp')).weaken fun _ _ _ h' => absurd h' htt

theorem snap_null {h : NHeap} {i s : Nat} {c : NCell} (hc : h.cell i = some c) (hk : c.kind = .image false s) (hkids : c.kids = []) (e : Env)
    (fuel : Nat) : h.exportJson e fuel i = if fuel = 0 then none else some (.ok .null) := by
  cases fuel with
  | zero => rfl
  | succ fuel =>
    rw [exportJson_look, look_cell hc, hkids, hk]
    rfl

end Wz

namespace Wz.Props

open Wz Wz.Spec

/-- An export locks for reading only and changes nothing; alone it gives what `C46` and `C83` speak of. -/
theorem C84_reads (e : Env) (fuel i : Nat) :
    OnlyReads (exportProg e fuel i) ∧ ∀ h, (runAlone h (exportProg e fuel i)).1 = h.exportJson e fuel i :=
  ⟨export_reads e fuel i, fun h => export_alone e h fuel i⟩

/-- **Exports do not disturb each other**: any number of threads export any nodes, links or not.  None waits, the nodes stay as they are,
and each gets the JSON it would get alone. -/
theorem C84_together {h : NHeap} {work : List (Env × Nat × Nat)} {queue : Bool} {sched : List Nat} {P : Pool (Option (Except Err Json))}
    (hr : (Pool.start h (work.map fun w => exportProg w.1 w.2.1 w.2.2)).run queue sched = some P) : P.heap = h ∧
    (∀ (t : Nat) (th : Thread (Option (Except Err Json))), P.threads[t]? = some th → (∃ a, Answer th a) ∨ ∃ P', P.next queue t = some P') ∧
    ∀ (t : Nat) (th : Thread (Option (Except Err Json))) (a : Option (Except Err Json)) (w : Env × Nat × Nat), P.threads[t]? = some th →
      work[t]? = some w → Answer th a → a = h.exportJson w.1 w.2.1 w.2.2 := by
  obtain ⟨h1, h2, h3⟩ := C76_readers (fun p hp => by
    obtain ⟨w, _, rfl⟩ := List.mem_map.1 hp
    exact export_reads ..) hr
  refine ⟨h1, h2, fun t th a w ht hw ha => ?_⟩
  rw [h3 t th a _ ht (by rw [List.getElem?_map, hw]; rfl) ha, export_alone]

/-- Threads that look up, parse, unparse, walk and export in a tree without links never all wait for each other. -/
theorem C84_no_deadlock_partial {content : Content} (hL : ∀ s f, content s = .ok f → Spec.Forest.All NoLink f) {h : NHeap} (hm : MadeBefore h)
    {α : Type} {ps : List (Prog α)} (hp : ∀ p ∈ ps, CallsAndExports content p) {queue : Bool} {sched : List Nat} {P : Pool α}
    (hr : (Pool.start h ps).run queue sched = some P) : ¬ Deadlock queue P ∧ MadeBefore P.heap := by
  have S : PoolSafe Down id (fun _ _ _ => True) (Pool.start h ps) := by
    intro t th ht
    obtain ⟨p, h1, rfl⟩ := List.mem_map.1 (List.mem_of_getElem? ht)
    exact down_exports hL (hp p h1) h hm
  obtain ⟨h1, h2⟩ := poolSafe_run down_rely sched _ P S hr
  exact ⟨poolSafe_moves h1, h2 hm⟩

/-- So each gets its answer, if turns are given to all that can go on. -/
theorem C84_finishes_partial {content : Content} (hL : ∀ s f, content s = .ok f → Spec.Forest.All NoLink f) {h : NHeap} (hm : MadeBefore h)
    {α : Type} {ps : List (Prog α)} (hp : ∀ p ∈ ps, CallsAndExports content p) {queue : Bool} {sched : List Nat} {P : Pool α}
    (hr : (Pool.start h ps).run queue sched = some P) : ∃ more P', P.run queue more = some P' ∧ AllDone P' :=
  finishes_of fun more P' h' => (C84_no_deadlock_partial hL hm hp (sched := sched ++ more) (by rw [run_append76 _ _ hr]; exact h')).1

/-- **All or nothing.**  An image has not been read.  Threads look up, parse, unparse, walk and export in the tree, in any order of turns.  Whoever exports
the image, after whatever calls, gets either nothing, as of an image that was not read, or all that is in it, as if it had been read and exported by one
thread alone; never a part of it. -/
theorem C84_all_or_nothing_partial {content : Content} (hL : ∀ s f, content s = .ok f → Spec.Forest.All NoLink f) {h : NHeap} (hm : MadeBefore h)
    {i s : Nat} {c : NCell} (hc : h.cell i = some c) (hk : c.kind = .image false s) (hkids : c.kids = [])
    (hI : ∀ f, content s = .ok f → Spec.Forest.All InImage f) {ps : List (Prog (Option (Except Err Json)))} (hp : ∀ p ∈ ps, CallsAndExports content p)
    {t : Nat} {β : Type} {before : Prog β} (hb : CallsAndExports content before) {e : Env} {fuel : Nat}
    (ht : ps[t]? = some (before.bind fun _ => exportProg e fuel i)) {queue : Bool} {sched : List Nat} {P : Pool (Option (Except Err Json))}
    (hr : (Pool.start h ps).run queue sched = some P) {th : Thread (Option (Except Err Json))} {a : Option (Except Err Json)}
    (hth : P.threads[t]? = some th) (ha : Answer th a) : a = h.exportJson e fuel i ∨ a = (h.parse content i).2.exportJson e fuel i := by
  have hR := keepsSnap_rely e i s c.name (fun fuel => (h.parse content i).2.exportJson e fuel i)
  obtain ⟨h1, _⟩ := poolSafe_run hR sched _ P (poolSafe_snap hL hm hc hk hkids hI hp hb ht) hr
  rcases (poolSafe_answer hR h1 hth ha).1 rfl with h2 | h2
  · exact .inr h2
  · exact .inl (h2.trans (snap_null hc hk hkids e fuel).symm)

end Wz.Props
