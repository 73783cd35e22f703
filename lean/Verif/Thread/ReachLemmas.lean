import Verif.Thread.ReachSpec
import Verif.Thread.JsonProps

/-!
# Lemmas: programs that do the same on the trees they can meet
-/

set_option autoImplicit false

namespace Wz

open Spec Wz.Props

/-- the two programs do the same on heaps for which `T` holds, and keep `T` -/
inductive Alike (T : NHeap → Prop) {α : Type} : Prog α → Prog α → Prop
  | done (a : α) : Alike T (.done a) (.done a)
  | acquire (m : LMode) (i : Nat) (k k' : Prog α) : Alike T k k' → Alike T (.acquire m i k) (.acquire m i k')
  | release (m : LMode) (i : Nat) (k k' : Prog α) : Alike T k k' → Alike T (.release m i k) (.release m i k')
  | act (u u' : NHeap → NHeap) (k k' : NHeap → Prog α) : (∀ g, T g → u g = u' g ∧ T (u g)) → (∀ g, T g → Alike T (k g) (k' g)) →
      Alike T (.act u k) (.act u' k')

theorem Alike.bind {T : NHeap → Prop} {α β : Type} {p q : Prog α} (S : Alike T p q) {f f' : α → Prog β} (hf : ∀ a, Alike T (f a) (f' a)) :
    Alike T (p.bind f) (q.bind f') := by
  induction S with
  | done a => exact hf a
  | acquire m i k k' _ ih => exact .acquire _ _ _ _ ih
  | release m i k k' _ ih => exact .release _ _ _ _ ih
  | act u u' k k' h1 _ ih => exact .act _ _ _ _ h1 ih

theorem Alike.look {T : NHeap → Prop} {α : Type} {k k' : NHeap → Prog α} (h : ∀ g, T g → Alike T (k g) (k' g)) :
    Alike T (Prog.look k) (Prog.look k') := .act _ _ _ _ (fun _ hg => ⟨rfl, hg⟩) h

theorem alike_reads {T : NHeap → Prop} {α : Type} {p : Prog α} (R : OnlyReads p) : Alike T p p := by
  induction R with
  | done a => exact .done a
  | acquire i k _ ih => exact .acquire _ _ _ _ ih
  | release m i k _ ih => exact .release _ _ _ _ ih
  | look k _ ih => exact .look fun g _ => ih g

/-! ### pools of such programs -/

/-- the same locks, and programs that do the same -/
def AlikeThread (T : NHeap → Prop) {α : Type} (a b : Thread α) : Prop := a.held = b.held ∧ Alike T a.prog b.prog

structure AlikePool (T : NHeap → Prop) {α : Type} (P Q : Pool α) : Prop where
  heap : P.heap = Q.heap
  keeps : T P.heap
  threads : List.Forall₂ (AlikeThread T) P.threads Q.threads

theorem alike_get {T : NHeap → Prop} {α : Type} {as bs : List (Thread α)} (F : List.Forall₂ (AlikeThread T) as bs) :
    ∀ t : Nat, (as[t]? = none ∧ bs[t]? = none) ∨ ∃ a b, as[t]? = some a ∧ bs[t]? = some b ∧ AlikeThread T a b := by
  induction F with
  | nil => exact fun t => .inl ⟨rfl, rfl⟩
  | cons h _ ih =>
    intro t
    cases t with
    | zero => exact .inr ⟨_, _, rfl, rfl, h⟩
    | succ t => exact ih t

theorem alike_set {T : NHeap → Prop} {α : Type} {as bs : List (Thread α)} (F : List.Forall₂ (AlikeThread T) as bs) {a b : Thread α}
    (h : AlikeThread T a b) : ∀ t, List.Forall₂ (AlikeThread T) (as.set t a) (bs.set t b) := by
  induction F with
  | nil => exact fun t => .nil
  | cons h' F' ih =>
    intro t
    cases t with
    | zero => exact .cons h F'
    | succ t => exact .cons h' (ih t)

theorem alike_wants {T : NHeap → Prop} {α : Type} {a b : Thread α} (h : AlikeThread T a b) (i : Nat) : a.wantsWrite i = b.wantsWrite i := by
  obtain ⟨ha, pa⟩ := a
  obtain ⟨hb, pb⟩ := b
  obtain ⟨_, h2⟩ := h
  dsimp only at h2
  unfold Thread.wantsWrite
  cases h2 with
  | done => rfl
  | acquire m => cases m <;> rfl
  | release => rfl
  | act => rfl

theorem alike_canTake {T : NHeap → Prop} {α : Type} {as bs : List (Thread α)} (F : List.Forall₂ (AlikeThread T) as bs) (queue : Bool) (m : LMode)
    (i : Nat) : canTake queue as m i = canTake queue bs m i := by
  induction F with
  | nil => rfl
  | cons h _ ih =>
    cases m with
    | write =>
      simp only [canTake, List.all_cons] at ih ⊢
      rw [ih, h.1]
    | read =>
      simp only [canTake, List.all_cons] at ih ⊢
      rw [ih, h.1, alike_wants h]

theorem alike_next {T : NHeap → Prop} {α : Type} {P Q : Pool α} (A : AlikePool T P Q) (queue : Bool) (t : Nat) :
    (P.next queue t = none ∧ Q.next queue t = none) ∨ ∃ P' Q', P.next queue t = some P' ∧ Q.next queue t = some Q' ∧ AlikePool T P' Q' := by
  obtain ⟨h1, h2, h3⟩ := A
  unfold Pool.next
  rcases alike_get h3 t with ⟨ha, hb⟩ | ⟨a, b, ha, hb, hab⟩
  · rw [ha, hb]
    exact .inl ⟨rfl, rfl⟩
  · rw [ha, hb]
    obtain ⟨la, pa⟩ := a
    obtain ⟨lb, pb⟩ := b
    obtain ⟨hl, hp⟩ := hab
    dsimp only at hl hp ⊢
    subst hl
    cases hp with
    | done => exact .inl ⟨rfl, rfl⟩
    | acquire m i k k' hk =>
      dsimp only
      rw [alike_canTake h3]
      split
      · exact .inr ⟨_, _, rfl, rfl, h1, h2, alike_set h3 (a := ⟨_, k⟩) (b := ⟨_, k'⟩) ⟨rfl, hk⟩ t⟩
      · exact .inl ⟨rfl, rfl⟩
    | release m i k k' hk => exact .inr ⟨_, _, rfl, rfl, h1, h2, alike_set h3 (a := ⟨_, k⟩) (b := ⟨_, k'⟩) ⟨rfl, hk⟩ t⟩
    | act u u' k k' hu hk =>
      refine .inr ⟨_, _, rfl, rfl, ?_, (hu _ h2).2, alike_set h3 (a := ⟨_, k P.heap⟩) (b := ⟨_, k' Q.heap⟩) ⟨rfl, ?_⟩ t⟩
      · exact (hu _ h2).1.trans (by rw [h1])
      · dsimp only
        rw [← h1]
        exact hk _ h2

theorem alike_run {T : NHeap → Prop} {α : Type} {queue : Bool} : ∀ (sched : List Nat) {P Q : Pool α} {P' : Pool α}, AlikePool T P Q →
    P.run queue sched = some P' → ∃ Q', Q.run queue sched = some Q' ∧ AlikePool T P' Q'
  | [], P, Q, P', A, h => by cases h; exact ⟨Q, rfl, A⟩
  | t :: ts, P, Q, P', A, h => by
    unfold Pool.run at h
    rcases alike_next A queue t with ⟨h1, _⟩ | ⟨P1, Q1, h1, h2, A1⟩
    · rw [h1] at h; cases h
    · rw [h1] at h
      obtain ⟨Q', h3, h4⟩ := alike_run ts A1 h
      refine ⟨Q', ?_, h4⟩
      unfold Pool.run
      rw [h2]
      exact h3

theorem alike_answer {T : NHeap → Prop} {α : Type} {a b : Thread α} (h : AlikeThread T a b) (x : α) : Answer a x ↔ Answer b x := by
  obtain ⟨ha, pa⟩ := a
  obtain ⟨hb, pb⟩ := b
  obtain ⟨_, h2⟩ := h
  dsimp only at h2
  unfold Answer
  cases h2 <;> simp

theorem alike_allDone {T : NHeap → Prop} {α : Type} {P Q : Pool α} (A : AlikePool T P Q) (D : AllDone Q) : AllDone P := by
  intro th hth
  obtain ⟨t, ht⟩ := List.getElem?_of_mem hth
  rcases alike_get A.threads t with ⟨ha, _⟩ | ⟨a, b, ha, hb, hab⟩
  · rw [ha] at ht; cases ht
  · rw [ha] at ht
    cases ht
    obtain ⟨x, hx⟩ := D b (List.mem_of_getElem? hb)
    exact ⟨x, (alike_answer hab x).2 hx⟩

theorem alike_deadlock {T : NHeap → Prop} {α : Type} {queue : Bool} {P Q : Pool α} (A : AlikePool T P Q) (D : Deadlock queue P) : Deadlock queue Q := by
  refine ⟨fun h => D.1 (alike_allDone A h), fun t => ?_⟩
  rcases alike_next A queue t with ⟨_, h⟩ | ⟨P', Q', h, _⟩
  · exact h
  · rw [D.2 t] at h; cases h

theorem alike_start {T : NHeap → Prop} {α : Type} {h : NHeap} (hT : T h) {ps qs : List (Prog α)} (F : List.Forall₂ (Alike T) ps qs) :
    AlikePool T (Pool.start h ps) (Pool.start h qs) := by
  refine ⟨rfl, hT, ?_⟩
  simp only [Pool.start]
  induction F with
  | nil => exact .nil
  | cons h _ ih => exact .cons ⟨rfl, h⟩ ih

/-! ### the calls, with two readers that agree on what can be read -/

section calls

variable {T : NHeap → Prop} {content content' : Content} (hp : ∀ g i, T g → g.parse content i = g.parse content' i ∧ T (g.parse content i).2)
  (hu : ∀ g i, T g → T (g.unparse i))

include hp in
theorem alike_parse (i : Nat) : Alike T (parseProg content i) (parseProg content' i) := by
  refine .acquire _ _ _ _ (.act _ _ _ _ (fun g hg => ⟨by rw [(hp g i hg).1], (hp g i hg).2⟩) fun g hg => ?_)
  rw [(hp g i hg).1]
  exact .release _ _ _ _ (.done _)

include hu in
theorem alike_unparse (i : Nat) : Alike T (unparseProg i) (unparseProg i) :=
  .acquire _ _ _ _ (.act _ _ _ _ (fun g hg => ⟨rfl, hu g i hg⟩) fun g _ => .release _ _ _ _ (.done _))

include hp in
theorem alike_fold : ∀ (xs : List (List Char)) (j : Nat), Alike T (foldProg content j xs) (foldProg content' j xs)
  | [], j => .done _
  | x :: xs, j => by
    unfold foldProg
    refine .acquire _ _ _ _ (.act _ _ _ _ (fun g hg => ⟨by rw [(hp g j hg).1], (hp g j hg).2⟩) fun g hg => ?_)
    rw [(hp g j hg).1]
    refine .release _ _ _ _ ?_
    generalize g.parse content' j = z
    obtain ⟨r, g'⟩ := z
    cases r with
    | error e => exact .done _
    | ok u =>
      dsimp only
      cases g'.at j x with
      | none => exact .done _
      | some k => exact alike_fold xs k

include hp in
theorem alike_find (m : LMode) (i : Nat) (path : List Char) : Alike T (findProg content m i path) (findProg content' m i path) := by
  refine .acquire _ _ _ _ (.look fun g _ => Alike.bind ?_ fun a => .release _ _ _ _ (.done _))
  unfold findFrom
  cases splitSlash path with
  | nil => exact .done _
  | cons x xs =>
    dsimp only
    cases g.at i x with
    | none => exact .done _
    | some j => exact alike_fold hp xs j

theorem alike_peek : ∀ (xs : List (List Char)) (j : Nat), Alike T (foldPeek j xs) (foldPeek j xs)
  | [], j => .done _
  | x :: xs, j => by
    unfold foldPeek
    refine .acquire _ _ _ _ (.look fun g _ => .release _ _ _ _ ?_)
    cases g.at j x with
    | none => exact .done _
    | some k => exact alike_peek xs k

theorem alike_peekProg (i : Nat) (path : List Char) : Alike T (peekProg i path) (peekProg i path) := by
  refine .acquire _ _ _ _ (.look fun g _ => Alike.bind ?_ fun a => .release _ _ _ _ (.done _))
  unfold peekFrom
  cases splitSlash path with
  | nil => exact .done _
  | cons x xs =>
    dsimp only
    cases g.at i x with
    | none => exact .done _
    | some j => exact alike_peek xs j

theorem alike_kids {rec rec' : Nat → Prog (List Nat)} (h : ∀ c, Alike T (rec c) (rec' c)) :
    ∀ ks : List (List Char × Nat), Alike T (walkKids rec ks) (walkKids rec' ks)
  | [] => .done _
  | (n, c) :: ks => (h c).bind fun _ => (alike_kids h ks).bind fun _ => .done _

include hp hu in
theorem alike_walk {force : Bool} {f : Nat → Prog Unit} (hf : ∀ i, Alike T (f i) (f i)) :
    ∀ fuel i, Alike T (walkProg content force f fuel i) (walkProg content' force f fuel i)
  | 0, _ => .done _
  | fuel + 1, i => by
    unfold walkProg
    refine Alike.bind ?_ fun _ => (hf i).bind fun _ => .acquire _ _ _ _ (.look fun g _ => (alike_kids (alike_walk hf fuel) _).bind fun vs =>
      .release _ _ _ _ ?_)
    · split
      · exact (alike_parse hp i).bind fun _ => .done _
      · exact .done _
    · split
      · refine .acquire _ _ _ _ (.look fun g _ => .release _ _ _ _ ?_)
        split
        · exact (alike_unparse hu i).bind fun _ => .done _
        · exact .done _
      · exact .done _

include hp hu in
theorem alike_call (c : TreeCall) : Alike T (callProg content c) (callProg content' c) := by
  cases c with
  | parse i => exact (alike_parse hp i).bind fun _ => .done _
  | unparse i => exact (alike_unparse hu i).bind fun _ => .done _
  | peek i p => exact (alike_peekProg i p).bind fun _ => .done _
  | find m i p => exact (alike_find hp m i p).bind fun _ => .done _
  | walk force touch fuel i =>
    refine alike_walk hp hu (fun j => ?_) fuel i
    split
    · exact .acquire _ _ _ _ (.look fun _ _ => .release _ _ _ _ (.done _))
    · exact .done _

include hp hu in
theorem alike_exports {α : Type} {p : Prog α} (D : CallsAndExports content p) : ∃ q, CallsAndExports content' q ∧ Alike T p q := by
  induction D with
  | done a => exact ⟨_, .done a, .done a⟩
  | call c k _ ih =>
    exact ⟨_, .call c (fun a => (ih a).choose) fun a => (ih a).choose_spec.1, (alike_call hp hu c).bind fun a => (ih a).choose_spec.2⟩
  | json e fuel i k _ ih =>
    exact ⟨_, .json e fuel i (fun a => (ih a).choose) fun a => (ih a).choose_spec.1,
      (alike_reads (export_reads e fuel i)).bind fun a => (ih a).choose_spec.2⟩

end calls

/-! ### nothing else is read -/

/-- all nodes read from places in `S` -/
def Sourced (S : Nat → Prop) (g : NHeap) : Prop := ∀ i c s, g.cell i = some c → SourceOf c.kind s → S s

theorem has_cells {d : NCell} : ∀ (f : Forest) (p b : Nat) (live : Bool), some d ∈ f.cells p b live → Spec.Forest.Has d.kind f
  | .nil, _, _, _, h => by simp [Forest.cells] at h
  | .node m q ks rest, p, b, live, h => by
    unfold Forest.cells at h
    dsimp only at h
    rcases List.mem_cons.1 h with h | h
    · split at h
      · cases h
        exact .inl rfl
      · cases h
    · rcases List.mem_append.1 h with h | h
      · exact .inr (.inl (has_cells ks _ _ _ h))
      · exact .inr (.inr (has_cells rest _ _ _ h))

theorem sourceOf_plan {content : Content} {k k' : NKind} {f : Forest} (h : k.plan content = some (.ok (f, k'))) :
    ∃ s, SourceOf k s ∧ (f = .nil ∨ content s = .ok f) ∧ ∀ s', SourceOf k' s' → s' = s := by
  have key : ∀ (s : Nat) (kk : NKind), some ((content s).map fun f => (f, kk)) = some (.ok (f, k')) → content s = .ok f ∧ k' = kk := by
    intro s kk h
    cases hs : content s with
    | error e => rw [hs] at h; cases h
    | ok f' => rw [hs] at h; cases h; exact ⟨rfl, rfl⟩
  unfold NKind.plan at h
  cases k with
  | dir p q s =>
    dsimp only at h
    refine ⟨s, .inl ⟨p, q, rfl⟩, ?_⟩
    cases p with
    | true => cases h
    | false =>
      cases q with
      | true =>
        cases h
        exact ⟨.inl rfl, fun s' hs => by simpa [SourceOf, eq_comm] using hs⟩
      | false =>
        obtain ⟨h1, rfl⟩ := key _ _ h
        exact ⟨.inr h1, fun s' hs => by simpa [SourceOf, eq_comm] using hs⟩
  | file p s =>
    refine ⟨s, .inr (.inl ⟨p, rfl⟩), ?_⟩
    cases p with
    | true => cases h
    | false =>
      obtain ⟨h1, rfl⟩ := key _ _ h
      exact ⟨.inr h1, fun s' hs => by simpa [SourceOf, eq_comm] using hs⟩
  | msFile p s =>
    refine ⟨s, .inr (.inr (.inl ⟨p, rfl⟩)), ?_⟩
    cases p with
    | true => cases h
    | false =>
      obtain ⟨h1, rfl⟩ := key _ _ h
      exact ⟨.inr h1, fun s' hs => by simpa [SourceOf, eq_comm] using hs⟩
  | image p s =>
    refine ⟨s, .inr (.inr (.inr (.inl ⟨p, rfl⟩))), ?_⟩
    cases p with
    | true => cases h
    | false =>
      obtain ⟨h1, rfl⟩ := key _ _ h
      exact ⟨.inr h1, fun s' hs => by simpa [SourceOf, eq_comm] using hs⟩
  | msImage s =>
    refine ⟨s, .inr (.inr (.inr (.inr rfl))), ?_⟩
    obtain ⟨h1, rfl⟩ := key _ _ h
    exact ⟨.inr h1, fun s' hs => by simpa [SourceOf, eq_comm] using hs⟩
  | uol t => cases h
  | other v => cases h

theorem plan_agree {content content' : Content} {k : NKind} (h : ∀ s, SourceOf k s → content s = content' s) : k.plan content = k.plan content' := by
  unfold NKind.plan
  cases k with
  | dir p q s => dsimp only; rw [h s (.inl ⟨p, q, rfl⟩)]
  | file p s => dsimp only; rw [h s (.inr (.inl ⟨p, rfl⟩))]
  | msFile p s => dsimp only; rw [h s (.inr (.inr (.inl ⟨p, rfl⟩)))]
  | image p s => dsimp only; rw [h s (.inr (.inr (.inr (.inl ⟨p, rfl⟩))))]
  | msImage s => dsimp only; rw [h s (.inr (.inr (.inr (.inr rfl))))]
  | uol t => rfl
  | other v => rfl

theorem sourceOf_unparsed {k k' : NKind} (h : k.unparsed = some k') (s : Nat) (hs : SourceOf k' s) : SourceOf k s := by
  unfold NKind.unparsed at h
  cases k <;> cases h <;> simpa [SourceOf] using hs

theorem sourced_unparse {S : Nat → Prop} {g : NHeap} (H : Sourced S g) (i : Nat) : Sourced S (g.unparse i) := by
  unfold NHeap.unparse
  cases hc : g.cell i with
  | none => exact H
  | some c =>
    dsimp only
    cases hk : c.kind.unparsed with
    | none => exact H
    | some k =>
      dsimp only
      intro x d s hd hs
      rw [cell_set (cell_lt hc)] at hd
      split at hd
      · cases hd
        exact H i c s hc (sourceOf_unparsed hk s hs)
      · exact H x d s hd hs

theorem sourced_parse {content : Content} {S : Nat → Prop} (hS : ∀ s f, S s → content s = .ok f → Spec.Forest.All NoLink f ∧
    ∀ k s', Spec.Forest.Has k f → SourceOf k s' → S s') {h : NHeap} (H : Sourced S h) (i : Nat) : Sourced S (h.parse content i).2 := by
  cases hc : h.cell i with
  | none => unfold NHeap.parse; rw [hc]; exact H
  | some c =>
    rw [parse_eq hc]
    have hi := cell_lt hc
    cases hpl : c.kind.plan content with
    | none => exact H
    | some r =>
      cases r with
      | error e => exact H
      | ok fk =>
        obtain ⟨f, k⟩ := fk
        obtain ⟨s0, h1, h2, h3⟩ := sourceOf_plan hpl
        have hs0 := H i c s0 hc h1
        have hf : Spec.Forest.All NoLink f ∧ ∀ k s', Spec.Forest.Has k f → SourceOf k s' → S s' := by
          rcases h2 with rfl | h2
          · exact ⟨trivial, fun _ _ h => h.elim⟩
          · exact hS s0 f hs0 h2
        dsimp only
        rw [uols_nil76 f _ hf.1]
        intro x d s hd hs
        simp only [NHeap.resolveUols] at hd
        by_cases hx : x < h.length
        · rw [fresh_old hi hx] at hd
          split at hd
          · cases hd
            rw [h3 s hs]
            exact hs0
          · exact H x d s hd hs
        · obtain ⟨y, rfl⟩ : ∃ y, x = h.length + y := ⟨x - h.length, by omega⟩
          exact hf.2 _ s (has_cells f _ _ _ (fresh_mem hd)) hs

open Classical in
/-- the reader that refuses what cannot be reached -/
noncomputable def within (content : Content) (h : NHeap) : Content := fun s => if Reachable content h s then content s else .error .read

theorem within_noLink {content : Content} {h : NHeap} (N : NoLinksBelow content h) :
    ∀ s f, within content h s = .ok f → Spec.Forest.All NoLink f := by
  intro s f hf
  unfold within at hf
  split at hf
  · exact N s (by assumption) f hf
  · cases hf

theorem within_eq {content : Content} {h : NHeap} {s : Nat} (R : Reachable content h s) : within content h s = content s := by
  unfold within
  rw [if_pos R]

theorem within_parse {content : Content} {h : NHeap} (N : NoLinksBelow content h) (g : NHeap) (i : Nat) (H : Sourced (Reachable content h) g) :
    g.parse content i = g.parse (within content h) i ∧ Sourced (Reachable content h) (g.parse content i).2 := by
  refine ⟨?_, sourced_parse (fun s f hs hf => ⟨N s hs f hf, fun k s' hk hs' => .found s f k s' hs hf hk hs'⟩) H i⟩
  unfold NHeap.parse
  cases hc : g.cell i with
  | none => rfl
  | some c =>
    dsimp only
    rw [plan_agree fun s hs => (within_eq (H i c s hc hs)).symm]

theorem sourced_self (content : Content) (h : NHeap) : Sourced (Reachable content h) h := fun i c s hc hs => .node i c s hc hs

/-- threads on a tree without links do what threads with a reader do that never finds links -/
theorem within_forall {content : Content} {h : NHeap} (N : NoLinksBelow content h) {α : Type} {ps : List (Prog α)}
    (hp : ∀ p ∈ ps, CallsAndExports content p) :
    ∃ qs : List (Prog α), (∀ q ∈ qs, CallsAndExports (within content h) q) ∧ List.Forall₂ (Alike (Sourced (Reachable content h))) ps qs := by
  induction ps with
  | nil => exact ⟨[], (fun q hq => by cases hq), .nil⟩
  | cons p ps ih =>
    obtain ⟨qs, h1, h2⟩ := ih fun q hq => hp q (List.mem_cons_of_mem _ hq)
    obtain ⟨q, h3, h4⟩ := alike_exports (within_parse N) (fun g i H => sourced_unparse H i) (hp p (List.mem_cons_self ..))
    refine ⟨q :: qs, fun r hr => ?_, .cons h4 h2⟩
    rcases List.mem_cons.1 hr with rfl | hr
    · exact h3
    · exact h1 r hr

theorem within_run {content : Content} {h : NHeap} (N : NoLinksBelow content h) {α : Type} {ps : List (Prog α)}
    (hp : ∀ p ∈ ps, CallsAndExports content p) : ∃ qs : List (Prog α), (∀ q ∈ qs, CallsAndExports (within content h) q) ∧
      AlikePool (Sourced (Reachable content h)) (Pool.start h ps) (Pool.start h qs) := by
  obtain ⟨qs, h1, h2⟩ := within_forall N hp
  exact ⟨qs, h1, alike_start (sourced_self content h) h2⟩

end Wz
