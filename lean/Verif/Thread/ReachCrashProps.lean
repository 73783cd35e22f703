import Verif.Thread.ReachArchiveProps
import Verif.Thread.CrashProps

/-!
# C82 and C84 together: threads that export and panic, in trees below which there are no links
-/

set_option autoImplicit false

namespace Wz

open Wz.Spec Wz.Props

/-- what is kept on heaps for which `T` holds -/
def KeepsBoth (T : NHeap → Prop) (R : NHeap → NHeap → Prop) (h g : NHeap) : Prop := T h → T g ∧ R h g

theorem keepsBoth_rely {T : NHeap → Prop} {R : NHeap → NHeap → Prop} (hR : Rely R) : Rely (KeepsBoth T R) :=
  ⟨fun h t => ⟨t, hR.refl h⟩, fun _ _ _ h1 h2 t => ⟨(h2 (h1 t).1).1, hR.trans _ _ _ (h1 t).2 (h2 (h1 t).1).2⟩⟩

/-- a program is as safe as one that does the same -/
theorem safe_alike {T : NHeap → Prop} {R : NHeap → NHeap → Prop} {rank : Nat → Nat} {α : Type} {Q : NHeap → α → Prop} {fin : List (LMode × Nat)}
    {p q : Prog α} (A : Alike T p q) : ∀ {h : NHeap} {held : List (LMode × Nat)}, T h → Safe R rank Q fin h held q →
      Safe (KeepsBoth T R) rank Q fin h held p := by
  induction A with
  | done a =>
    intro h held t S
    cases S with
    | done _ _ hq => exact .done h a fun g hg => hq g (hg t).2
  | acquire m i k k' _ ih =>
    intro h held t S
    cases S with
    | acquire _ _ _ _ _ hr S => exact .acquire h held m i k hr (ih t S)
  | release m i k k' _ ih =>
    intro h held t S
    cases S with
    | release _ _ _ _ _ hm S => exact .release h held m i k hm (ih t S)
  | act u u' k k' hu _ ih =>
    intro h held t S
    cases S with
    | act _ _ _ _ h1 h2 =>
      refine .act h held u k (fun g hg tg => ⟨(hu g tg).2, ?_⟩) fun g hg => ?_
      · rw [(hu g tg).1]
        exact h1 g (hg t).2
      · have tg := (hg t).1
        refine ih g tg (hu g tg).2 ?_
        rw [(hu g tg).1]
        exact h2 g (hg t).2

theorem poolSafe_alike {T : NHeap → Prop} {R : NHeap → NHeap → Prop} {rank : Nat → Nat} {α : Type} {Q : Nat → NHeap → α → Prop} {P P' : Pool α}
    (A : AlikePool T P P') (S : PoolSafe R rank Q P') : PoolSafe (KeepsBoth T R) rank Q P := by
  intro t th ht
  rcases alike_get A.threads t with ⟨h1, _⟩ | ⟨a, b, h1, h2, h3, h4⟩
  · rw [h1] at ht; cases ht
  · rw [h1] at ht
    cases ht
    have S' := S t b h2
    rw [← A.heap, ← h3] at S'
    exact safe_alike h4 A.keeps S'

end Wz

namespace Wz.Props

open Wz Wz.Spec

/-- Threads look up, parse, unparse, walk and export in a tree below which there are no links, and panic at whatever point.  Nobody waits for ever,
and all get done, with an answer or a panic of their own.  `_partial`: see `C82_trees_partial`. -/
theorem C82_reached_partial {content : Content} {h : NHeap} (hL : NoLinksBelow content h) (hm : MadeBefore h)
    {α : Type} {ps : List (Prog α)} (hp : ∀ p ∈ ps, CallsAndExports content p) {queue : Bool} {evs : List Event} {C : CrashPool α}
    (hr : (CrashPool.start h ps).run queue evs = some C) :
    ¬ Stuck queue C ∧ (∃ more D, NoCrash more ∧ C.run queue more = some D ∧ AllDone D.pool) ∧ MadeBefore C.pool.heap := by
  have hR := keepsBoth_rely (T := Sourced (Reachable content h)) down_rely
  have S : PoolSafe (KeepsBoth (Sourced (Reachable content h)) Down) id (fun _ _ _ => True) (Pool.start h ps) := by
    intro t th ht
    obtain ⟨p, h1, rfl⟩ := List.mem_map.1 (List.mem_of_getElem? ht)
    obtain ⟨q, h3, h4⟩ := alike_exports (within_parse hL) (fun g i H => sourced_unparse H i) (hp p h1)
    exact safe_alike h4 (sourced_self content h) (down_exports (within_noLink hL) h3 h hm)
  obtain ⟨h1, h2⟩ := crashSafe_run hR evs _ C (crashSafe_start S) hr
  exact ⟨crashSafe_moves h1, crash_finishes (crash_keeps (fun _ _ _ I hn => sorted_next I hn) evs _ C (sorted_start h ps) hr)
    fun more D hD => crashSafe_moves (crashSafe_run hR more _ D h1 hD).1, (h2 (sourced_self content h)).2 hm⟩

/-- **All or nothing, even if others panic.**  As `C84_reached_all_or_nothing_partial`, but any thread may panic at any point, while it reads the image too.
Whoever exports the image and does not panic gets nothing or all of it. -/
theorem C84_panics_partial {content : Content} {h : NHeap} (hL : NoLinksBelow content h) (hm : MadeBefore h)
    {i s : Nat} {c : NCell} (hc : h.cell i = some c) (hk : c.kind = .image false s) (hkids : c.kids = [])
    (hI : ∀ f, content s = .ok f → Spec.Forest.All InImage f) {ps : List (Prog (Option (Except Err Json)))} (hp : ∀ p ∈ ps, CallsAndExports content p)
    {t : Nat} {β : Type} {before : Prog β} (hb : CallsAndExports content before) {e : Env} {fuel : Nat}
    (ht : ps[t]? = some (before.bind fun _ => exportProg e fuel i)) {queue : Bool} {evs : List Event} {C : CrashPool (Option (Except Err Json))}
    (hr : (CrashPool.start h ps).run queue evs = some C) {th : Thread (Option (Option (Except Err Json)))} {a : Option (Except Err Json)}
    (hth : C.pool.threads[t]? = some th) (ha : Answer th (some a)) : a = h.exportJson e fuel i ∨ a = (h.parse content i).2.exportJson e fuel i := by
  obtain ⟨qs, h1, h2⟩ := within_forall hL hp
  obtain ⟨before', hb', hbb⟩ := alike_exports (within_parse hL) (fun g i H => sourced_unparse H i) hb
  have h2' := alike_replace h2 (hbb.bind fun _ => alike_reads (export_reads e fuel i)) t ht
  have hl : t < qs.length := by
    have h5 := (List.getElem?_eq_some_iff.1 ht).1
    have h6 := List.Forall₂.length_eq h2
    omega
  have hw := within_eq (Reachable.node (content := content) i c s hc (by rw [hk]; exact .inr (.inr (.inr (.inl ⟨false, rfl⟩)))))
  have hq : ∀ q ∈ qs.set t (before'.bind fun _ => exportProg e fuel i), CallsAndExports (within content h) q := by
    intro q hq
    rcases List.mem_or_eq_of_mem_set hq with hq | rfl
    · exact h1 q hq
    · refine exports_bind hb' fun _ => ?_
      rw [← prog_bind_done (exportProg e fuel i)]
      exact .json e fuel i _ fun a => .done a
  have S := poolSafe_alike (alike_start (sourced_self content h) h2') (poolSafe_snap (within_noLink hL) hm hc hk hkids
    (fun f hf => hI f (by rw [← hw]; exact hf)) hq hb' (List.getElem?_set_self hl))
  rw [← (within_parse hL h i (sourced_self content h)).1] at S
  have hR := keepsBoth_rely (T := Sourced (Reachable content h))
    (keepsSnap_rely e i s c.name (fun fuel => (h.parse content i).2.exportJson e fuel i))
  obtain ⟨h3, _⟩ := crashSafe_run hR evs _ C (crashSafe_start S) hr
  rcases (poolSafe_answer hR h3 hth ha).1 a rfl rfl with h4 | h4
  · exact .inr h4
  · exact .inl (h4.trans (snap_null hc hk hkids e fuel).symm)

/-! ## an example -/

/-- place 9 has a link to itself, but no node names it -/
def content84l : Content := fun s => if s = 9 then .ok (.node ['l'] (.uol (some ['l'])) .nil .nil) else content84 s

theorem content84l_link : ∃ f, content84l 9 = .ok f ∧ ¬ Spec.Forest.All NoLink f :=
  ⟨_, rfl, fun h => h.1 _ rfl⟩

theorem noLinks84l : NoLinksBelow content84l tree76 := by
  have key : ∀ s, Reachable content84l tree76 s → s ≠ 9 := by
    intro s r
    induction r with
    | node i c s hc hs =>
      rcases i with _ | _ | _ | i
      · cases hc; simp [SourceOf] at hs; omega
      · cases hc; simp [SourceOf] at hs; omega
      · cases hc; simp [SourceOf] at hs; omega
      · exact absurd (cell_lt hc) (by show ¬ (i + 1 + 1 + 1 < 3); omega)
    | found s f k s' _ hc hk hs ih =>
      rw [content84l, if_neg ih, content84] at hc
      split at hc
      · cases hc
        rcases hk with rfl | hk | hk
        · simp [SourceOf] at hs
        · exact hk.elim
        · exact hk.elim
      · cases hc
        exact hk.elim
  intro s r f hf
  rw [content84l, if_neg (key s r)] at hf
  exact content84_noLink s f hf

/-- one thread reads the image and exports it, another reads it, a third forgets it -/
def work84l : List (Prog (Option (Except Err Json))) :=
  [ (callProg content84l (.parse 2)).bind fun _ => exportProg env84 5 2,
    (callProg content84l (.parse 2)).bind fun _ => .done none,
    (callProg content84l (.unparse 2)).bind fun _ => .done none ]

theorem work84l_calls : ∀ p ∈ work84l, CallsAndExports content84l p := by
  intro p hp
  simp only [work84l, List.mem_cons, List.not_mem_nil, or_false] at hp
  rcases hp with rfl | rfl | rfl
  · refine .call _ _ fun _ => ?_
    rw [← prog_bind_done (exportProg env84 5 2)]
    exact .json _ _ _ _ fun _ => .done _
  · exact .call _ _ fun _ => .done _
  · exact .call _ _ fun _ => .done _

/-- All hypotheses of `C82_reached_partial` and `C84_panics_partial` are met, though there is a place with a link. -/
example (queue : Bool) (evs : List Event) (C : CrashPool (Option (Except Err Json))) (hr : (CrashPool.start tree76 work84l).run queue evs = some C) :
    ¬ Stuck queue C ∧ ∀ th a, C.pool.threads[0]? = some th → Answer th (some a) →
      a = tree76.exportJson env84 5 2 ∨ a = (tree76.parse content84l 2).2.exportJson env84 5 2 :=
  ⟨(C82_reached_partial noLinks84l tree76_made work84l_calls hr).1, fun _ _ hth ha =>
    C84_panics_partial noLinks84l tree76_made (i := 2) (s := 2) rfl rfl rfl (fun f hf => content84_inImage f hf) work84l_calls (t := 0)
      (before := (callProg content84l (.parse 2)).bind fun _ => .done ()) (.call _ _ fun _ => .done _) rfl hr hth ha⟩

/-- the same for threads that do not panic -/
example (queue : Bool) (sched : List Nat) (P : Pool (Option (Except Err Json))) (hr : (Pool.start tree76 work84l).run queue sched = some P) :
    ¬ Deadlock queue P ∧ ∀ th a, P.threads[0]? = some th → Answer th a →
      a = tree76.exportJson env84 5 2 ∨ a = (tree76.parse content84l 2).2.exportJson env84 5 2 :=
  ⟨(C84_reached_no_deadlock_partial noLinks84l tree76_made work84l_calls hr).1, fun _ _ hth ha =>
    C84_reached_all_or_nothing_partial noLinks84l tree76_made (i := 2) (s := 2) rfl rfl rfl (fun f hf => content84_inImage f hf) work84l_calls
      (t := 0) (before := (callProg content84l (.parse 2)).bind fun _ => .done ()) (.call _ _ fun _ => .done _) rfl hr hth ha⟩

/-- all hypotheses of `C76_reached_partial` are met -/
example (queue : Bool) : ∃ more P', (Pool.start tree76 [callProg content84l (.walk true true 9 0), callProg content84l (.unparse 2)]).run queue more = some P' ∧
    AllDone P' := by
  refine (C76_reached_partial noLinks84l tree76_made (fun p hp => ?_) (sched := []) rfl).2.2
  simp only [List.mem_cons, List.not_mem_nil, or_false] at hp
  rcases hp with rfl | rfl
  · rw [← prog_bind_done (callProg content84l (.walk true true 9 0))]
    exact .call _ _ fun _ => .done _
  · rw [← prog_bind_done (callProg content84l (.unparse 2))]
    exact .call _ _ fun _ => .done _

end Wz.Props
