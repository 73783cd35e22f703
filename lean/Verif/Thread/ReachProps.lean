import Verif.Thread.ReachLemmas

/-!
# C76 and C84 for trees below which there are no links

The theorems `C76_no_deadlock_partial` to `C84_all_or_nothing_partial` ask that no place at all holds a link.  In an archive whatever stands at any
offset counts as a place, most of which no directory names.  Here it is enough that no link is at the places that calls on this tree can reach.
-/

set_option autoImplicit false

namespace Wz

open Wz.Spec Wz.Props

theorem prog_bind_done {α : Type} (p : Prog α) : p.bind .done = p := by
  induction p with
  | done a => rfl
  | acquire m i k ih => rw [Prog.bind, ih]
  | release m i k ih => rw [Prog.bind, ih]
  | act u k ih => rw [Prog.bind]; congr 1; funext h; exact ih h

theorem prog_bind_bind {α β γ : Type} (p : Prog α) (f : α → Prog β) (g : β → Prog γ) : (p.bind f).bind g = p.bind fun a => (f a).bind g := by
  induction p with
  | done a => rfl
  | acquire m i k ih => simp only [Prog.bind, ih]
  | release m i k ih => simp only [Prog.bind, ih]
  | act u k ih => simp only [Prog.bind, ih]

theorem exports_bind {content : Content} {α β : Type} {p : Prog α} (D : CallsAndExports content p) {f : α → Prog β}
    (hf : ∀ a, CallsAndExports content (f a)) : CallsAndExports content (p.bind f) := by
  induction D with
  | done a => exact hf a
  | call c k _ ih => rw [prog_bind_bind]; exact .call c _ ih
  | json e fuel i k _ ih => rw [prog_bind_bind]; exact .json e fuel i _ ih

theorem exports_calls {content : Content} {α : Type} {p : Prog α} (D : CallsDown content p) : CallsAndExports content p := by
  induction D with
  | done a => exact .done a
  | call c k _ ih => exact .call c k ih

theorem alike_replace {R : Type} {rel : R → R → Prop} {ps qs : List R} (F : List.Forall₂ rel ps qs) {p q : R} (h : rel p q) :
    ∀ t : Nat, ps[t]? = some p → List.Forall₂ rel ps (qs.set t q) := by
  induction F with
  | nil => exact fun t _ => .nil
  | cons h' F' ih =>
    intro t ht
    cases t with
    | zero => cases ht; exact .cons h F'
    | succ t => exact .cons h' (ih t ht)

end Wz

namespace Wz.Props

open Wz Wz.Spec

/-- Threads that look up, parse, unparse, walk and export never all wait for each other, in a tree below which there are no links. -/
theorem C84_reached_no_deadlock_partial {content : Content} {h : NHeap} (hL : NoLinksBelow content h) (hm : MadeBefore h)
    {α : Type} {ps : List (Prog α)} (hp : ∀ p ∈ ps, CallsAndExports content p) {queue : Bool} {sched : List Nat} {P : Pool α}
    (hr : (Pool.start h ps).run queue sched = some P) :
    ¬ Deadlock queue P ∧ MadeBefore P.heap ∧ ∃ more P', P.run queue more = some P' ∧ AllDone P' := by
  have key : ∀ (sched : List Nat) (P : Pool α), (Pool.start h ps).run queue sched = some P → ¬ Deadlock queue P ∧ MadeBefore P.heap := by
    intro sched P hr
    obtain ⟨qs, h1, h2⟩ := within_run hL hp
    obtain ⟨Q, h3, h4⟩ := alike_run sched (h2) hr
    obtain ⟨h5, h6⟩ := C84_no_deadlock_partial (within_noLink hL) hm h1 h3
    exact ⟨fun D => h5 (alike_deadlock h4 D), by rw [h4.heap]; exact h6⟩
  exact ⟨(key sched P hr).1, (key sched P hr).2, finishes_of fun more P' h' => (key (sched ++ more) P' (by rw [run_append76 _ _ hr]; exact h')).1⟩

/-- The same for threads that only look up, parse, unparse and walk. -/
theorem C76_reached_partial {content : Content} {h : NHeap} (hL : NoLinksBelow content h) (hm : MadeBefore h)
    {α : Type} {ps : List (Prog α)} (hp : ∀ p ∈ ps, CallsDown content p) {queue : Bool} {sched : List Nat} {P : Pool α}
    (hr : (Pool.start h ps).run queue sched = some P) :
    ¬ Deadlock queue P ∧ MadeBefore P.heap ∧ ∃ more P', P.run queue more = some P' ∧ AllDone P' :=
  C84_reached_no_deadlock_partial hL hm (fun p h' => exports_calls (hp p h')) hr

/-- All or nothing, in a tree below which there are no links. -/
theorem C84_reached_all_or_nothing_partial {content : Content} {h : NHeap} (hL : NoLinksBelow content h) (hm : MadeBefore h)
    {i s : Nat} {c : NCell} (hc : h.cell i = some c) (hk : c.kind = .image false s) (hkids : c.kids = [])
    (hI : ∀ f, content s = .ok f → Spec.Forest.All InImage f) {ps : List (Prog (Option (Except Err Json)))} (hp : ∀ p ∈ ps, CallsAndExports content p)
    {t : Nat} {β : Type} {before : Prog β} (hb : CallsAndExports content before) {e : Env} {fuel : Nat}
    (ht : ps[t]? = some (before.bind fun _ => exportProg e fuel i)) {queue : Bool} {sched : List Nat} {P : Pool (Option (Except Err Json))}
    (hr : (Pool.start h ps).run queue sched = some P) {th : Thread (Option (Except Err Json))} {a : Option (Except Err Json)}
    (hth : P.threads[t]? = some th) (ha : Answer th a) : a = h.exportJson e fuel i ∨ a = (h.parse content i).2.exportJson e fuel i := by
  obtain ⟨qs, h1, h2⟩ := within_forall hL hp
  obtain ⟨before', hb', hbb⟩ := alike_exports (within_parse hL) (fun g i H => sourced_unparse H i) hb
  have ha' : CallsAndExports (within content h) (before'.bind fun _ => exportProg e fuel i) :=
    exports_bind hb' fun _ => by
      rw [← prog_bind_done (exportProg e fuel i)]
      exact .json e fuel i _ fun a => .done a
  have h2' := alike_replace h2 (hbb.bind fun _ => alike_reads (export_reads e fuel i)) t ht
  have hl : t < qs.length := by
    have h5 := (List.getElem?_eq_some_iff.1 ht).1
    have h6 := List.Forall₂.length_eq h2
    omega
  obtain ⟨Q, h3, h4⟩ := alike_run sched (alike_start (sourced_self content h) h2') hr
  rcases alike_get h4.threads t with ⟨h5, _⟩ | ⟨x, y, h5, h6, h7⟩
  · rw [h5] at hth; cases hth
  · rw [h5] at hth
    cases hth
    have hw := within_eq (Reachable.node (content := content) i c s hc (by rw [hk]; exact .inr (.inr (.inr (.inl ⟨false, rfl⟩)))))
    rw [(within_parse hL h i (sourced_self content h)).1]
    refine C84_all_or_nothing_partial (within_noLink hL) hm hc hk hkids (fun f hf => hI f (by rw [← hw]; exact hf)) (fun q hq => ?_) hb'
      (List.getElem?_set_self hl) h3 h6 ((alike_answer h7 a).1 ha)
    rcases List.mem_or_eq_of_mem_set hq with hq | rfl
    · exact h1 q hq
    · exact ha'

end Wz.Props
