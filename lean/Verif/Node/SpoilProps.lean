import Verif.Node.SpoilLemmas

/-!
# C80: what a panic under a lock leaves behind

One thread makes calls on nodes and goes on after panics.  A panic while a node is being read spoils the lock of that node
and of no other, except that a forced outlink spoils the lock of the base as well.
-/

set_option autoImplicit false

namespace Wz.Props

open Wz Wz.Spec

/-- After any calls without a forced outlink: the nodes are as some calls without panics leave them (so C75 tells what they
show); a lock is poisoned only if reading that node panics by itself; and a call gives what it gives where no lock is
poisoned, or it panics because it locks such a node. -/
theorem C80_answers_partial (content : Content) (h : NHeap) (cs : List LockCall) (st : Locked)
    (hcs : ∀ c ∈ cs, ∀ fuel i path, c ≠ .outlink fuel i path) (hst : st = ((allSound h).calls content cs).2) :
    ReadHistory content h st.heap ∧
    (∀ k, st.bad k = true → PanicsAlone content h k) ∧
    ∀ c, ((st.call content c).1 = (soundly content st.heap c).1 ∧ (st.call content c).2.heap = (soundly content st.heap c).2) ∨
      ((st.call content c).1 = .error .panicUnwrap ∧ ∃ k, CallLocks content st.heap c k ∧ PanicsAlone content h k) := by
  have hbad : ∀ (cs : List LockCall) (st0 : Locked), (∀ c ∈ cs, ∀ fuel i path, c ≠ .outlink fuel i path) →
      ReadHistory content h st0.heap → (∀ k, st0.bad k = true → PanicsAlone content h k) →
      ∀ k, (st0.calls content cs).2.bad k = true → PanicsAlone content h k := by
    intro cs
    induction cs with
    | nil => intro st0 _ _ h0 k hk; exact h0 k hk
    | cons c cs ih =>
      intro st0 hc hp h0 k hk
      refine ih _ (fun c' h' => hc c' (List.mem_cons_of_mem _ h')) (hp.append (call_ok st0 c).past) (fun k hk => ?_) k hk
      rcases call_damage st0 c k hk with hk | hk | ⟨hk, _⟩
      · exact h0 k hk
      · exact panicsAlone_of hp hk
      · cases c with
        | outlink fuel i path => exact absurd rfl (hc _ List.mem_cons_self fuel i path)
        | _ => cases hk
  have hb := hbad cs (allSound h) hcs .start (fun k hk => by cases hk)
  subst hst
  refine ⟨calls_past cs (allSound h), hb, fun c => ?_⟩
  rcases (call_ok (content := content) ((allSound h).calls content cs).2 c).right with hr | ⟨hr, k, hk, hk'⟩
  · exact .inl hr
  · exact .inr ⟨hr, k, hk, hb k hk'⟩

/-- With forced outlinks too, where besides the locks of such nodes those of files called "Base" may be poisoned. -/
theorem C80_outlinks (content : Content) (h : NHeap) (cs : List LockCall) (st : Locked)
    (hst : st = ((allSound h).calls content cs).2) :
    ReadHistory content h st.heap ∧
    (∀ k, st.bad k = true → PanicsAlone content h k ∨ ∃ g, ReadHistory content h g ∧ BaseFile g k) ∧
    ∀ c, ((st.call content c).1 = (soundly content st.heap c).1 ∧ (st.call content c).2.heap = (soundly content st.heap c).2) ∨
      ((st.call content c).1 = .error .panicUnwrap ∧ ∃ k, CallLocks content st.heap c k ∧ st.bad k = true) := by
  have hbad : ∀ (cs : List LockCall) (st0 : Locked), ReadHistory content h st0.heap →
      (∀ k, st0.bad k = true → PanicsAlone content h k ∨ ∃ g, ReadHistory content h g ∧ BaseFile g k) →
      ∀ k, (st0.calls content cs).2.bad k = true → PanicsAlone content h k ∨ ∃ g, ReadHistory content h g ∧ BaseFile g k := by
    intro cs
    induction cs with
    | nil => intro st0 _ h0 k hk; exact h0 k hk
    | cons c cs ih =>
      intro st0 hp h0 k hk
      refine ih _ (hp.append (call_ok st0 c).past) (fun k hk => ?_) k hk
      rcases call_damage st0 c k hk with hk | hk | ⟨_, hk, _⟩
      · exact h0 k hk
      · exact .inl (panicsAlone_of hp hk)
      · exact .inr ⟨_, hp, hk⟩
  subst hst
  exact ⟨calls_past cs (allSound h), hbad cs _ .start (fun k hk => by cases hk), fun c => (call_ok _ c).right⟩

/-- A poisoned lock stays poisoned, and every later call that locks that node panics. -/
theorem C80_spoiled (content : Content) (st : Locked) (cs : List LockCall) (c : LockCall) (k : Nat) (hb : st.bad k = true)
    (hk : CallLocks content (st.calls content cs).2.heap c k) :
    ((st.calls content cs).2.call content c).1 = .error .panicUnwrap :=
  (call_ok _ c).stuck k hk (calls_kept cs st k hb)

/-- A call that panics leaves a poisoned lock among the nodes it locked. -/
theorem C80_marks (content : Content) (st : Locked) (c : LockCall) (e : Err) (hr : (st.call content c).1 = .error e)
    (he : e.isPanic = true) : ∃ k, CallLocks content st.heap c k ∧ (st.call content c).2.bad k = true :=
  (call_ok st c).marks e hr he

/-- Parsing a node whose reading panics poisons its lock. -/
theorem C80_parse_marks (content : Content) (st : Locked) (i : Nat) (e : Err) (hr : (st.heap.parse content i).1 = .error e)
    (he : e.isPanic = true) : (st.call content (.parse i)).2.bad i = true := by
  cases hb : st.bad i with
  | true => exact (call_ok st (.parse i)).kept i hb
  | false =>
    rcases (call_ok (content := content) st (.parse i)).right with ⟨h1, _⟩ | ⟨_, k, hk, hk'⟩
    · have h1 : (st.call content (.parse i)).1 = .error e := by
        rw [h1]
        show (st.heap.parse content i).1.map _ = _
        rw [hr]; rfl
      obtain ⟨k, hk, hk'⟩ := (call_ok (content := content) st (.parse i)).marks e h1 he
      cases hk
      exact hk'
    · cases hk
      rw [hb] at hk'; cases hk'

/-- Where no node panics when it is read, locks make no difference to any calls. -/
theorem C80_undamaged (content : Content) (h : NHeap) (cs : List LockCall) (hd : ∀ k, ¬ PanicsAlone content h k) :
    ((allSound h).calls content cs).1 = (soundCalls content h cs).1 ∧
    ((allSound h).calls content cs).2.heap = (soundCalls content h cs).2 ∧
    ∀ k, ((allSound h).calls content cs).2.bad k = false := by
  have hall : ∀ (cs : List LockCall) (st : Locked), ReadHistory content h st.heap → (∀ k, st.bad k = false) →
      (st.calls content cs).1 = (soundCalls content st.heap cs).1 ∧
      (st.calls content cs).2.heap = (soundCalls content st.heap cs).2 ∧ ∀ k, (st.calls content cs).2.bad k = false := by
    intro cs
    induction cs with
    | nil => intro st _ hb; exact ⟨rfl, rfl, hb⟩
    | cons c cs ih =>
      intro st hp hb
      have hc := call_ok (content := content) st c
      have h1 : (st.call content c).1 = (soundly content st.heap c).1 ∧
          (st.call content c).2.heap = (soundly content st.heap c).2 := by
        rcases hc.right with h1 | ⟨_, k, _, hk⟩
        · exact h1
        · rw [hb k] at hk; cases hk
      have h2 : ∀ k, (st.call content c).2.bad k = false := by
        intro k
        cases hk : (st.call content c).2.bad k with
        | false => rfl
        | true =>
          rcases call_damage st c k hk with h | h | ⟨_, _, k', h | h⟩
          · rw [hb k] at h; cases h
          · exact absurd (panicsAlone_of hp h) (hd k)
          · rw [hb k'] at h; cases h
          · exact absurd (panicsAlone_of hp h) (hd k')
      obtain ⟨q1, q2, q3⟩ := ih _ (hp.append hc.past) h2
      rw [h1.2] at q1 q2
      exact ⟨by show _ :: _ = _ :: _; rw [h1.1, q1], q2, q3⟩
  exact hall cs (allSound h) .start (fun _ => rfl)

/-! ## A concrete archive -/

/-- what is read: a directory of two images, an image whose reading panics, and an image with one entry -/
def content80 : Content
  | 0 => .ok (.node ['b'] (.image false 1) .nil (.node ['a'] (.image false 2) .nil .nil))
  | 1 => .error .panicIndex
  | 2 => .ok (.node ['x'] (.other 7) .nil .nil)
  | _ => .error .read

/-- a file called "Base" and an empty folder -/
def heap80 : NHeap :=
  [some ⟨['B', 'a', 's', 'e'], .file true 9, none, [(['M'], 1)]⟩, some ⟨['M'], .dir false false 0, some 0, []⟩]

/-- Reading the folder, then the damaged image twice, then what the other image holds: only the damaged image is lost. -/
example : ((allSound heap80).calls content80 [.find 0 "M/b/x".toList, .find 0 "M/b/x".toList, .find 0 "M/a/x".toList,
      .fullPath 5 4, .look 0 "M/b".toList, .fullPath 5 2, .forget 1]).1 =
    [.error .panicIndex, .error .panicUnwrap, .ok (.node (some 4)), .ok (.path (some "Base/M/a/x".toList)),
      .ok (.node (some 2)), .error .panicUnwrap, .ok .done] := by decide +kernel

example : PanicsAlone content80 heap80 2 :=
  ⟨_, .panicIndex, .call _ _ .start (.parse heap80 1), rfl, rfl⟩

example := C80_answers_partial content80 heap80 [.find 0 "M/b/x".toList, .forget 1] _ (by
  intro c hc fuel i path
  rcases List.mem_cons.1 hc with rfl | hc
  · intro h; cases h
  · rcases List.mem_singleton.1 hc with rfl
    intro h; cases h) rfl

example : (((allSound heap80).calls content80 [.find 0 "M/b/x".toList, .parse 3]).2.call content80 (.fullPath 3 2)).1 =
    .error .panicUnwrap :=
  C80_spoiled content80 ((allSound heap80).calls content80 [.find 0 "M/b/x".toList]).2 [.parse 3] _ 2 (by decide +kernel)
    (.fullPath 3 2 2 (.here 3 2))

example : ∃ k, CallLocks content80 heap80 (.find 0 "M/b/x".toList) k ∧
    ((allSound heap80).call content80 (.find 0 "M/b/x".toList)).2.bad k = true :=
  C80_marks content80 (allSound heap80) _ .panicIndex (by decide +kernel) rfl

/-- where every image is empty nothing panics -/
theorem calm80 (h : NHeap) (k : Nat) : ¬ PanicsAlone (fun _ => .ok .nil) h k := by
  rintro ⟨g, e, _, hr, _⟩
  unfold NHeap.parse at hr
  cases hc : g.cell k with
  | none => rw [hc] at hr; cases hr
  | some c =>
    obtain ⟨n, kd, p, ks⟩ := c
    rw [hc] at hr
    cases kd with
    | dir a b s => cases a <;> cases b <;> cases hr
    | file a s => cases a <;> cases hr
    | msFile a s => cases a <;> cases hr
    | image a s => cases a <;> cases hr
    | msImage s => cases hr
    | uol t => cases hr
    | other v => cases hr

example : ((allSound heap80).calls (fun _ => .ok .nil) [.find 0 "M/b/x".toList, .forget 1, .look 0 "M".toList]).1 =
    (soundCalls (fun _ => .ok .nil) heap80 [.find 0 "M/b/x".toList, .forget 1, .look 0 "M".toList]).1 :=
  (C80_undamaged _ heap80 _ (calm80 heap80)).1

/-- A forced outlink to the damaged image spoils the base, whose own reading never panics: then nothing at all is found any
more, though every one of these calls gives an answer where no lock is poisoned. -/
theorem C80_counterexample : ∃ (content : Content) (h : NHeap) (st : Locked),
    st = ((allSound h).calls content [.parse 1, .parse 3, .outlink 5 4 "M/b/x".toList]).2 ∧
    (h.parse content 0).1 = .ok () ∧ st.bad 0 = true ∧ ¬ PanicsAlone content h 0 ∧
    (st.call content (.look 0 "M/a/x".toList)).1 = .error .panicUnwrap ∧
    (soundly content st.heap (.look 0 "M/a/x".toList)).1 = .ok (.node (some 4)) ∧
    (st.call content (.fullPath 5 4)).1 = .error .panicUnwrap ∧
    (soundly content st.heap (.fullPath 5 4)).1 = .ok (.path (some "Base/M/a/x".toList)) := by
  refine ⟨content80, heap80, _, rfl, by decide +kernel, by decide +kernel, ?_, by decide +kernel, by decide +kernel, by decide +kernel,
    by decide +kernel⟩
  rintro ⟨g, e, hh, hr, he⟩
  obtain ⟨⟨n, k, p, ks⟩, hd, _, hk⟩ := kept_history hh 0 _ (show heap80.cell 0 = some _ from rfl)
  unfold NHeap.parse at hr
  rw [hd] at hr
  dsimp only at hk hr
  cases hk with
  | file _ b _ =>
    cases b with
    | true => cases hr
    | false => cases hr; cases he

end Wz.Props
