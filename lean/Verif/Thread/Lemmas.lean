import Verif.Thread.Logic
import Verif.Node.HistoryLemmas
import Verif.Directory.Errs

/-!
# Lemmas: threads on trees without links, threads that only read
-/

set_option autoImplicit false

namespace Wz

open Spec Wz.Props

/-! ### nodes are made before the nodes in them -/

theorem childInsertAll_mem76 {m : List Char} {k : Nat} (xs ks : List (List Char × Nat)) (h : (m, k) ∈ childInsertAll ks xs) :
    (m, k) ∈ ks ∨ ∃ n, (n, k) ∈ xs := by
  rcases mem_childInsertAll h with h | h
  · exact .inl h
  · exact .inr ⟨m, h⟩

theorem roots_ge76 {n : List Char} {k : Nat} : ∀ (f : Forest) (b : Nat), (n, k) ∈ f.roots b → b ≤ k
  | .nil, b, h => by cases h
  | .node m q ks rest, b, h => by
    unfold Forest.roots at h
    rcases List.mem_cons.1 h with h | h
    · cases h
      exact Nat.le_refl _
    · have := roots_ge76 rest _ h
      omega

theorem cells_below76 : ∀ (f : Forest) (p b : Nat) (live : Bool) (x : Nat) (c : NCell), (f.cells p b live)[x]? = some (some c) →
    ∀ n k, (n, k) ∈ c.kids → b + x < k
  | .nil, _, _, _, x, c, h => by simp [Forest.cells] at h
  | .node m q ks rest, p, b, live, x, c, h => by
    intro n k hk
    unfold Forest.cells at h
    dsimp only at h
    cases x with
    | zero =>
      rw [List.getElem?_cons_zero] at h
      simp only [Option.some.injEq] at h
      split at h
      · cases h
        rcases childInsertAll_mem76 _ _ hk with h | ⟨n', h⟩
        · cases h
        · have := roots_ge76 _ _ h
          omega
      · cases h
    | succ x =>
      rw [List.getElem?_cons_succ] at h
      by_cases hx : x < ks.size
      · rw [List.getElem?_append_left (by rw [cells_length]; exact hx)] at h
        have := cells_below76 ks _ _ _ x c h n k hk
        omega
      · rw [List.getElem?_append_right (by rw [cells_length]; omega), cells_length] at h
        have := cells_below76 rest _ _ _ _ c h n k hk
        omega

theorem uols_nil76 : ∀ (f : Forest) (b : Nat), Spec.Forest.All NoLink f → f.uols b = []
  | .nil, _, _ => rfl
  | .node m q ks rest, b, ⟨h1, h2, h3⟩ => by
    unfold Forest.uols
    rw [uols_nil76 ks _ h2, uols_nil76 rest _ h3]
    cases q <;> first | rfl | exact absurd rfl (h1 _)

theorem parse_madeBefore {content : Content} (hL : ∀ s f, content s = .ok f → Spec.Forest.All NoLink f) {h : NHeap} (H : MadeBefore h)
    (i : Nat) : MadeBefore (h.parse content i).2 := by
  cases hc : h.cell i with
  | none => unfold NHeap.parse; rw [hc]; exact H
  | some c =>
    rw [parse_eq hc]
    have hi := cell_lt hc
    cases hpl : c.kind.plan content with
    | none => exact H
    | some r =>
      cases r with
      | error e => exact H
      | ok fk =>
        obtain ⟨f, k⟩ := fk
        have hno : Spec.Forest.All NoLink f := by
          rcases plan_from hpl with rfl | ⟨s, hs⟩
          · trivial
          · exact hL s f hs
        dsimp only
        rw [uols_nil76 f _ hno]
        intro x d n j hd hj
        simp only [NHeap.resolveUols] at hd
        by_cases hx : x < h.length
        · rw [fresh_old hi hx] at hd
          split at hd
          · rename_i e
            subst e
            cases hd
            rcases childInsertAll_mem76 _ _ hj with h1 | ⟨n', h1⟩
            · exact H x c n j hc h1
            · have := roots_ge76 _ _ h1
              omega
          · exact H x d n j hd hj
        · obtain ⟨y, rfl⟩ : ∃ y, x = h.length + y := ⟨x - h.length, by omega⟩
          rw [fresh_new] at hd
          cases hg : (f.cells i h.length true)[y]? with
          | none => rw [hg] at hd; cases hd
          | some o =>
            rw [hg] at hd
            have : o = some d := hd
            subst this
            exact cells_below76 f _ _ _ y d hg n j hj

theorem unparse_madeBefore {h : NHeap} (H : MadeBefore h) (i : Nat) : MadeBefore (h.unparse i) := by
  unfold NHeap.unparse
  cases hc : h.cell i with
  | none => exact H
  | some c =>
    dsimp only
    cases c.kind.unparsed with
    | none => exact H
    | some k =>
      dsimp only
      intro x d n j hd hj
      rw [cell_set (cell_lt hc)] at hd
      split at hd
      · cases hd
        cases hj
      · exact H x d n j hd hj

/-- what threads that call downwards keep -/
def Down (h g : NHeap) : Prop := MadeBefore h → MadeBefore g

theorem down_rely : Rely Down := ⟨fun _ h => h, fun _ _ _ h1 h2 h => h2 (h1 h)⟩

section down

variable {content : Content} (hL : ∀ s f, content s = .ok f → Spec.Forest.All NoLink f)

/-- a step with the lock of one node -/
theorem down_lock {α : Type} {held : List (LMode × Nat)} {fin : List (LMode × Nat)} {Q : NHeap → α → Prop} {h : NHeap} (m : LMode) (i : Nat)
    {upd : NHeap → NHeap} {k : NHeap → Prog α} (hh : ∀ x : LMode × Nat, x ∈ held → x.2 < i) (hu : ∀ g, Down g (upd g))
    (hk : ∀ g, Down h g → Safe Down id Q fin (upd g) held (k g)) :
    Safe Down id Q fin h held (.acquire m i (.act upd fun g => .release m i (k g))) := by
  refine .acquire h _ m i _ hh (.act h _ _ _ (fun g _ => hu g) fun g hg => .release _ _ m i _ (List.mem_cons_self ..) ?_)
  rw [List.erase_cons_head]
  exact hk g hg

theorem at_above {h : NHeap} (H : MadeBefore h) {i k : Nat} {x : List Char} (hx : h.at i x = some k) : i < k := by
  unfold NHeap.at at hx
  cases hc : h.cell i with
  | none => rw [hc] at hx; cases hx
  | some c =>
    rw [hc] at hx
    exact H i c x k hc (kidAt_mem hx)

include hL in
theorem down_fold {held : List (LMode × Nat)} : ∀ (xs : List (List Char)) (h : NHeap) (j : Nat), MadeBefore h →
    (∀ x : LMode × Nat, x ∈ held → x.2 < j) → Safe Down id (fun _ _ => True) held h held (foldProg content j xs)
  | [], h, j, _, _ => .done h _ fun _ _ => trivial
  | x :: xs, h, j, H, hh => by
    refine down_lock .write j hh (fun g G => parse_madeBefore hL G j) fun g K => ?_
    have G := parse_madeBefore hL (K H) j
    generalize g.parse content j = z at G ⊢
    obtain ⟨r, g'⟩ := z
    cases r with
    | error e => exact .done _ _ fun _ _ => trivial
    | ok u =>
      dsimp only at G ⊢
      cases hx : g'.at j x with
      | none => exact .done _ _ fun _ _ => trivial
      | some k =>
        have := at_above G hx
        exact down_fold xs g' k G fun y hy => Nat.lt_trans (hh y hy) this

theorem down_peek {held : List (LMode × Nat)} : ∀ (xs : List (List Char)) (h : NHeap) (j : Nat), MadeBefore h →
    (∀ x : LMode × Nat, x ∈ held → x.2 < j) → Safe Down id (fun _ _ => True) held h held (foldPeek j xs)
  | [], h, j, _, _ => .done h _ fun _ _ => trivial
  | x :: xs, h, j, H, hh => by
    refine down_lock .read j hh (fun g G => G) fun g K => ?_
    have G := K H
    cases hx : g.at j x with
    | none => exact .done _ _ fun _ _ => trivial
    | some k =>
      have := at_above G hx
      exact down_peek xs g k G fun y hy => Nat.lt_trans (hh y hy) this

theorem down_release {α : Type} {m : LMode} {i : Nat} {g : NHeap} {held : List (LMode × Nat)} {p : Prog α}
    {fin : List (LMode × Nat)} (S : Safe Down id (fun _ _ => True) fin g held p) :
    Safe Down id (fun _ _ => True) fin g ((m, i) :: held) (.release m i p) := by
  refine .release g _ m i _ (List.mem_cons_self ..) ?_
  rw [List.erase_cons_head]
  exact S

include hL in
theorem down_find {h : NHeap} (H : MadeBefore h) (m : LMode) (i : Nat) (path : List Char) :
    Safe Down id (fun _ _ => True) [] h [] (findProg content m i path) := by
  refine .acquire h _ m i _ (fun x hx => by cases hx) (.look down_rely fun g K => ?_)
  have G := K H
  refine Safe.bind down_rely (mid := [(m, i)]) (Q := fun _ _ => True) ?_ fun g' a _ _ => down_release (.done _ _ fun _ _ => trivial)
  unfold findFrom
  cases splitSlash path with
  | nil => exact .done _ _ fun _ _ => trivial
  | cons x xs =>
    dsimp only
    cases hx : g.at i x with
    | none => exact .done _ _ fun _ _ => trivial
    | some j =>
      refine down_fold hL xs g j G fun y hy => ?_
      rw [List.mem_singleton.1 hy]
      exact at_above G hx

theorem down_peekProg {h : NHeap} (H : MadeBefore h) (i : Nat) (path : List Char) :
    Safe Down id (fun _ _ => True) [] h [] (peekProg i path) := by
  refine .acquire h _ .read i _ (fun x hx => by cases hx) (.look down_rely fun g K => ?_)
  have G := K H
  refine Safe.bind down_rely (mid := [(.read, i)]) (Q := fun _ _ => True) ?_ fun g' a _ _ => down_release (.done _ _ fun _ _ => trivial)
  unfold peekFrom
  cases splitSlash path with
  | nil => exact .done _ _ fun _ _ => trivial
  | cons x xs =>
    dsimp only
    cases hx : g.at i x with
    | none => exact .done _ _ fun _ _ => trivial
    | some j =>
      refine down_peek xs g j G fun y hy => ?_
      rw [List.mem_singleton.1 hy]
      exact at_above G hx

include hL in
theorem down_parse {h : NHeap} {held : List (LMode × Nat)} (i : Nat) (hh : ∀ x : LMode × Nat, x ∈ held → x.2 < i) :
    Safe Down id (fun _ _ => True) held h held (parseProg content i) :=
  down_lock .write i hh (fun _ G => parse_madeBefore hL G i) fun _ _ => .done _ _ fun _ _ => trivial

theorem down_unparse {h : NHeap} {held : List (LMode × Nat)} (i : Nat) (hh : ∀ x : LMode × Nat, x ∈ held → x.2 < i) :
    Safe Down id (fun _ _ => True) held h held (unparseProg i) :=
  down_lock .write i hh (fun _ G => unparse_madeBefore G i) fun _ _ => .done _ _ fun _ _ => trivial

theorem down_kids {rec : Nat → Prog (List Nat)} {held : List (LMode × Nat)} {i : Nat}
    (hrec : ∀ (g : NHeap) (c : Nat), MadeBefore g → i < c → Safe Down id (fun _ _ => True) held g held (rec c)) :
    ∀ (ks : List (List Char × Nat)) (h : NHeap), MadeBefore h → (∀ n c, (n, c) ∈ ks → i < c) →
    Safe Down id (fun _ _ => True) held h held (walkKids rec ks)
  | [], h, _, _ => .done _ _ fun _ _ => trivial
  | (n, c) :: ks, h, H, hk => by
    refine (hrec h c H (hk n c (List.mem_cons_self ..))).bind down_rely fun g a K _ => ?_
    exact (down_kids hrec ks g (K H) fun n c hc => hk n c (List.mem_cons_of_mem _ hc)).bind down_rely fun _ _ _ _ =>
      .done _ _ fun _ _ => trivial

include hL in
theorem down_walk {force : Bool} {f : Nat → Prog Unit}
    (hf : ∀ (held : List (LMode × Nat)) (g : NHeap) (i : Nat), (∀ x : LMode × Nat, x ∈ held → x.2 < i) →
      Safe Down id (fun _ _ => True) held g held (f i)) :
    ∀ (fuel : Nat) (held : List (LMode × Nat)) (h : NHeap) (i : Nat), MadeBefore h → (∀ x : LMode × Nat, x ∈ held → x.2 < i) →
    Safe Down id (fun _ _ => True) held h held (walkProg content force f fuel i)
  | 0, _, _, _, _, _ => .done _ _ fun _ _ => trivial
  | fuel + 1, held, h, i, H, hh => by
    unfold walkProg
    refine Safe.bind down_rely (mid := held) (Q := fun _ _ => True) ?_ fun g1 _ K1 _ => ?_
    · split
      · exact (down_parse hL i hh).bind down_rely fun _ _ _ _ => .done _ _ fun _ _ => trivial
      · exact .done _ _ fun _ _ => trivial
    refine (hf held g1 i hh).bind down_rely fun g2 _ K2 _ => ?_
    refine .acquire _ _ .read i _ hh (.look down_rely fun g3 K3 => ?_)
    have G3 := K3 (K2 (K1 H))
    refine Safe.bind down_rely (mid := (.read, i) :: held) (Q := fun _ _ => True) ?_ fun g4 vs K4 _ => down_release ?_
    · refine down_kids (i := i) (fun g c G hc => down_walk hf fuel _ g c G fun x hx => ?_) _ g3 G3 fun n c hc => ?_
      · rcases List.mem_cons.1 hx with rfl | hx
        · exact hc
        · exact Nat.lt_trans (hh x hx) hc
      · cases hcell : g3.cell i with
        | none => rw [hcell] at hc; cases hc
        | some d =>
          rw [hcell] at hc
          exact G3 i d n c hcell hc
    · split
      · refine down_lock .read i hh (fun g G => G) fun g5 K5 => ?_
        split
        · exact (down_unparse i hh).bind down_rely fun _ _ _ _ => .done _ _ fun _ _ => trivial
        · exact .done _ _ fun _ _ => trivial
      · exact .done _ _ fun _ _ => trivial

include hL in
theorem down_call {h : NHeap} (H : MadeBefore h) (c : TreeCall) : Safe Down id (fun _ _ => True) [] h [] (callProg content c) := by
  have hn : ∀ i, ∀ x : LMode × Nat, x ∈ ([] : List (LMode × Nat)) → x.2 < i := fun i x hx => by cases hx
  cases c with
  | parse i => exact (down_parse hL i (hn i)).bind down_rely fun _ _ _ _ => .done _ _ fun _ _ => trivial
  | unparse i => exact (down_unparse i (hn i)).bind down_rely fun _ _ _ _ => .done _ _ fun _ _ => trivial
  | peek i p => exact (down_peekProg H i p).bind down_rely fun _ _ _ _ => .done _ _ fun _ _ => trivial
  | find m i p => exact (down_find hL H m i p).bind down_rely fun _ _ _ _ => .done _ _ fun _ _ => trivial
  | walk force touch fuel i =>
    refine down_walk hL (fun held g j hh => ?_) fuel [] h i H (hn i)
    split
    · exact down_lock .read j hh (fun g G => G) fun _ _ => .done _ _ fun _ _ => trivial
    · exact .done _ _ fun _ _ => trivial

include hL in
theorem down_calls {α : Type} {p : Prog α} (D : CallsDown content p) : ∀ h, MadeBefore h → Safe Down id (fun _ _ => True) [] h [] p := by
  induction D with
  | done a => exact fun h _ => .done _ _ fun _ _ => trivial
  | call c k _ ih => exact fun h H => (down_call hL H c).bind down_rely fun g a K _ => ih a g (K H)

end down

/-! ### threads that only read -/

theorem onlyReads_bind {α β : Type} {p : Prog α} {f : α → Prog β} (hp : OnlyReads p) (hf : ∀ a, OnlyReads (f a)) : OnlyReads (p.bind f) := by
  induction hp with
  | done a => exact hf a
  | acquire i k _ ih => exact .acquire i _ ih
  | release m i k _ ih => exact .release m i _ ih
  | look k _ ih => exact .look _ ih

theorem runAlone_bind {α β : Type} {f : α → Prog β} : ∀ (p : Prog α) (h : NHeap),
    runAlone h (p.bind f) = runAlone (runAlone h p).2 (f (runAlone h p).1)
  | .done a, h => rfl
  | .acquire m i k, h => runAlone_bind k h
  | .release m i k, h => runAlone_bind k h
  | .act upd k, h => runAlone_bind (k h) (upd h)

/-- threads that only read, at any time -/
structure Readers {α : Type} (h : NHeap) (ps : List (Prog α)) (P : Pool α) : Prop where
  heap : P.heap = h
  reads : ∀ th ∈ P.threads, OnlyReads th.prog ∧ ∀ x ∈ th.held, x.1 = LMode.read
  answers : P.threads.map (fun th => (runAlone h th.prog).1) = ps.map fun p => (runAlone h p).1

theorem readers_can {α : Type} {h : NHeap} {ps : List (Prog α)} {P : Pool α} (R : Readers h ps P) (queue : Bool) (i : Nat) :
    canTake queue P.threads .read i = true := by
  unfold canTake
  rw [List.all_eq_true]
  intro th hth
  obtain ⟨h1, h2⟩ := R.reads th hth
  rw [Bool.and_eq_true]
  refine ⟨?_, ?_⟩
  · rw [List.all_eq_true]
    intro x hx
    have := h2 x hx
    obtain ⟨a, b⟩ := x
    dsimp only at this
    subst this
    simp
  · have : th.wantsWrite i = false := by
      unfold Thread.wantsWrite
      generalize th.prog = p at h1
      cases h1 <;> rfl
    rw [this]
    simp

theorem readers_set {α : Type} {h : NHeap} {ps : List (Prog α)} {P : Pool α} (R : Readers h ps P) {t : Nat} {a b : Thread α}
    (ht : P.threads[t]? = some a) (hb : OnlyReads b.prog ∧ ∀ x ∈ b.held, x.1 = LMode.read)
    (he : (runAlone h b.prog).1 = (runAlone h a.prog).1) : Readers h ps ⟨h, P.threads.set t b⟩ := by
  refine ⟨rfl, fun th hth => ?_, ?_⟩
  · rcases List.mem_or_eq_of_mem_set hth with hm | rfl
    · exact R.reads th hm
    · exact hb
  · rw [← R.answers]
    dsimp only
    rw [List.map_set, he]
    obtain ⟨hlt, hget⟩ := List.getElem?_eq_some_iff.1 ht
    have := List.set_getElem_self (as := P.threads.map fun th => (runAlone h th.prog).1) (i := t) (by simpa using hlt)
    rw [List.getElem_map, hget] at this
    exact this

theorem readers_next {α : Type} {queue : Bool} {h : NHeap} {ps : List (Prog α)} {P P' : Pool α} {t : Nat} (R : Readers h ps P)
    (hn : P.next queue t = some P') : Readers h ps P' := by
  unfold Pool.next at hn
  cases ht : P.threads[t]? with
  | none => rw [ht] at hn; cases hn
  | some th =>
    rw [ht] at hn
    dsimp only at hn
    obtain ⟨h1, h2⟩ := R.reads th (List.mem_of_getElem? ht)
    generalize hp : th.prog = p at hn h1
    cases h1 with
    | done a => cases hn
    | acquire i k hk =>
      dsimp only at hn
      split at hn
      · cases hn
        rw [R.heap]
        refine readers_set R ht ⟨hk, fun x hx => ?_⟩ (by rw [hp]; rfl)
        rcases List.mem_cons.1 hx with rfl | hx
        · rfl
        · exact h2 x hx
      · cases hn
    | release m i k hk =>
      cases hn
      rw [R.heap]
      exact readers_set R ht ⟨hk, fun x hx => h2 x (List.mem_of_mem_erase hx)⟩ (by rw [hp]; rfl)
    | look k hk =>
      cases hn
      rw [R.heap]
      exact readers_set R ht ⟨hk h, h2⟩ (by rw [hp]; rfl)

theorem readers_run {α : Type} {queue : Bool} {h : NHeap} {ps : List (Prog α)} : ∀ (sched : List Nat) (P P' : Pool α), Readers h ps P →
    P.run queue sched = some P' → Readers h ps P'
  | [], P, P', R, hr => by cases hr; exact R
  | t :: ts, P, P', R, hr => by
    unfold Pool.run at hr
    cases hn : P.next queue t with
    | none => rw [hn] at hr; cases hr
    | some Q =>
      rw [hn] at hr
      exact readers_run ts Q P' (readers_next R hn) hr

theorem readers_start {α : Type} {h : NHeap} {ps : List (Prog α)} (hp : ∀ p ∈ ps, OnlyReads p) : Readers h ps (Pool.start h ps) := by
  refine ⟨rfl, fun th hth => ?_, ?_⟩
  · obtain ⟨p, h1, rfl⟩ := List.mem_map.1 hth
    exact ⟨hp p h1, fun x hx => by cases hx⟩
  · unfold Pool.start
    rw [List.map_map]
    rfl

theorem foldPeek_reads : ∀ (xs : List (List Char)) (j : Nat), OnlyReads (foldPeek j xs)
  | [], j => .done _
  | x :: xs, j => by
    refine .acquire j _ (.look _ fun h => .release _ _ _ ?_)
    cases h.at j x with
    | none => exact .done _
    | some k => exact foldPeek_reads xs k

theorem foldPeek_alone (h : NHeap) : ∀ (xs : List (List Char)) (j : Nat), runAlone h (foldPeek j xs) = (foldPath h.at j xs, h)
  | [], j => rfl
  | x :: xs, j => by
    show runAlone h (match h.at j x with
      | none => Prog.done none
      | some k => foldPeek k xs) = _
    unfold foldPath
    cases h.at j x with
    | none => rfl
    | some k => exact foldPeek_alone h xs k

theorem climb_reads (stop : NCell → Bool) : ∀ (fuel : Nat) (o : Option Nat), OnlyReads (climbProg stop fuel o)
  | fuel, none => by unfold climbProg; exact .done _
  | 0, some p => .done _
  | fuel + 1, some p => by
    refine .acquire p _ (.look _ fun h => .release _ _ _ ?_)
    cases h.cell p with
    | none => exact .done _
    | some c =>
      dsimp only
      split
      · exact .done _
      · exact climb_reads stop fuel _

theorem climb_alone (h : NHeap) (stop : NCell → Bool) : ∀ (fuel : Nat) (o r : Option Nat), h.filterLoop stop fuel o = some r →
    runAlone h (climbProg stop fuel o) = (r, h)
  | fuel, none, r, hr => by
    unfold NHeap.filterLoop at hr
    unfold climbProg
    cases hr
    rfl
  | 0, some p, r, hr => by cases hr
  | fuel + 1, some p, r, hr => by
    unfold NHeap.filterLoop at hr
    show runAlone h (match h.cell p with
      | none => Prog.done none
      | some c => if stop c then .done (some p) else climbProg stop fuel (h.up p)) = _
    cases hc : h.cell p with
    | none => rw [hc] at hr; cases hr; rfl
    | some c =>
      rw [hc] at hr
      dsimp only at hr ⊢
      split at hr
      · rename_i e
        rw [if_pos e]
        cases hr
        rfl
      · rename_i e
        rw [if_neg e]
        exact climb_alone h stop fuel _ r hr

theorem kids_reads {rec : Nat → Prog (List Nat)} (hr : ∀ c, OnlyReads (rec c)) : ∀ ks : List (List Char × Nat), OnlyReads (walkKids rec ks)
  | [] => .done _
  | (_, c) :: ks => onlyReads_bind (hr c) fun _ => onlyReads_bind (kids_reads hr ks) fun _ => .done _

theorem walk_reads {content : Content} {f : Nat → Prog Unit} (hf : ∀ i, OnlyReads (f i)) : ∀ (fuel i : Nat),
    OnlyReads (walkProg content false f fuel i)
  | 0, i => .done _
  | fuel + 1, i => by
    unfold walkProg
    refine onlyReads_bind (.done _) fun _ => onlyReads_bind (hf i) fun _ => .acquire i _ (.look _ fun h => ?_)
    exact onlyReads_bind (kids_reads (fun c => walk_reads hf fuel c) _) fun _ => .release _ _ _ (.done _)

theorem onlyReads_heap {α : Type} {p : Prog α} (hp : OnlyReads p) : ∀ h, (runAlone h p).2 = h := by
  induction hp with
  | done a => exact fun _ => rfl
  | acquire i k _ ih => exact ih
  | release m i k _ ih => exact ih
  | look k _ ih => exact fun h => ih h h

theorem kids_alone {h : NHeap} {rec : Nat → Prog (List Nat)} {rec' : Nat → Option (List Nat)} (hr : ∀ c, OnlyReads (rec c))
    (he : ∀ c vs, rec' c = some vs → (runAlone h (rec c)).1 = vs) : ∀ (ks : List (List Char × Nat)) (vs : List Nat),
    NHeap.walkLoop rec' ks = some vs → (runAlone h (walkKids rec ks)).1 = vs
  | [], vs, hv => by cases hv; rfl
  | (_, c) :: ks, vs, hv => by
    unfold NHeap.walkLoop at hv
    cases ha : rec' c with
    | none => rw [ha] at hv; cases hv
    | some a =>
      rw [ha] at hv
      dsimp only at hv
      cases hb : NHeap.walkLoop rec' ks with
      | none => rw [hb] at hv; cases hv
      | some b =>
        rw [hb] at hv
        cases hv
        unfold walkKids
        rw [runAlone_bind, runAlone_bind, onlyReads_heap (hr c)]
        rw [he c a ha, kids_alone hr he ks b hb]
        rfl

theorem walk_alone {content : Content} {f : Nat → Prog Unit} (hf : ∀ i, OnlyReads (f i)) {h : NHeap} : ∀ (fuel i : Nat) (vs : List Nat),
    h.walk fuel i = some vs → (runAlone h (walkProg content false f fuel i)).1 = vs
  | 0, i, vs, hv => by cases hv
  | fuel + 1, i, vs, hv => by
    unfold NHeap.walk at hv
    unfold walkProg
    rw [runAlone_bind, runAlone_bind, onlyReads_heap (hf i)]
    show (runAlone h ((walkKids (walkProg content false f fuel) (match h.cell i with
        | none => []
        | some c => c.kids)).bind fun vs => Prog.release .read i (Prog.done (i :: vs)))).1 = vs
    rw [runAlone_bind]
    cases hc : h.cell i with
    | none =>
      rw [hc] at hv
      cases hv
      rfl
    | some c =>
      rw [hc] at hv
      dsimp only at hv ⊢
      cases hw : NHeap.walkLoop (h.walk fuel) c.kids with
      | none => rw [hw] at hv; cases hv
      | some ws =>
        rw [hw] at hv
        cases hv
        rw [kids_alone (fun c => walk_reads hf fuel c) (fun c vs hv => walk_alone hf fuel c vs hv) _ ws hw]
        rfl

/-! ### changes only under the lock -/

theorem writesLocked_bind {α β : Type} {mid fin held : List (LMode × Nat)} {p : Prog α} {f : α → Prog β} (hp : WritesLocked mid held p)
    (hf : ∀ a, WritesLocked fin mid (f a)) : WritesLocked fin held (p.bind f) := by
  induction hp with
  | done a => exact hf a
  | acquire held m i k _ ih => exact .acquire held m i _ ih
  | release held m i k hm _ ih => exact .release held m i _ hm ih
  | act held upd k hu _ ih => exact .act held upd _ hu ih

theorem writesLocked_look {α : Type} {fin held : List (LMode × Nat)} {k : NHeap → Prog α} (hk : ∀ h, WritesLocked fin held (k h)) :
    WritesLocked fin held (Prog.look k) := .act held id k (fun _ _ _ h => absurd rfl h) hk

theorem writesLocked_give {α : Type} {fin held : List (LMode × Nat)} {m : LMode} {i : Nat} {k : Prog α} (hk : WritesLocked fin held k) :
    WritesLocked fin ((m, i) :: held) (.release m i k) :=
  .release _ m i k (List.mem_cons_self ..) (by rw [List.erase_cons_head]; exact hk)

theorem parse_only {h : NHeap} {content : Content} {i x : Nat} (hx : x < h.length) (hn : (h.parse content i).2.cell x ≠ h.cell x) : x = i :=
  Classical.byContradiction fun hi => hn (parse_frame hx hi)

theorem unparse_only {h : NHeap} {i x : Nat} (hn : (h.unparse i).cell x ≠ h.cell x) : x = i := by
  refine Classical.byContradiction fun hi => hn ?_
  unfold NHeap.unparse
  cases hc : h.cell i with
  | none => rfl
  | some c =>
    dsimp only
    cases c.kind.unparsed with
    | none => rfl
    | some k => dsimp only; rw [cell_set (cell_lt hc), if_neg hi]

theorem locked_parse (content : Content) (held : List (LMode × Nat)) (i : Nat) : WritesLocked held held (parseProg content i) :=
  .acquire _ _ _ _ (.act _ _ _ (fun h x hx hn => by rw [parse_only hx hn]; exact List.mem_cons_self ..) fun _ => writesLocked_give (.done _))

theorem locked_unparse (held : List (LMode × Nat)) (i : Nat) : WritesLocked held held (unparseProg i) :=
  .acquire _ _ _ _ (.act _ _ _ (fun h x _ hn => by rw [unparse_only hn]; exact List.mem_cons_self ..) fun _ => writesLocked_give (.done _))

theorem locked_fold (content : Content) (held : List (LMode × Nat)) : ∀ (xs : List (List Char)) (j : Nat),
    WritesLocked held held (foldProg content j xs)
  | [], j => .done _
  | x :: xs, j => by
    refine .acquire _ _ _ _ (.act _ _ _ (fun h x hx hn => by rw [parse_only hx hn]; exact List.mem_cons_self ..) fun h => writesLocked_give ?_)
    generalize h.parse content j = z
    obtain ⟨r, g⟩ := z
    cases r with
    | error e => exact .done _
    | ok u =>
      dsimp only
      cases g.at j x with
      | none => exact .done _
      | some k => exact locked_fold content held xs k

theorem locked_find (content : Content) (held : List (LMode × Nat)) (m : LMode) (i : Nat) (path : List Char) :
    WritesLocked held held (findProg content m i path) := by
  refine .acquire _ _ _ _ (writesLocked_look fun h => writesLocked_bind ?_ fun _ => writesLocked_give (.done _))
  unfold findFrom
  split
  · exact .done _
  · split
    · exact .done _
    · exact locked_fold _ _ _ _

theorem locked_foldPeek (held : List (LMode × Nat)) : ∀ (xs : List (List Char)) (j : Nat), WritesLocked held held (foldPeek j xs)
  | [], j => .done _
  | x :: xs, j => by
    refine .acquire _ _ _ _ (writesLocked_look fun h => writesLocked_give ?_)
    cases h.at j x with
    | none => exact .done _
    | some k => exact locked_foldPeek held xs k

theorem locked_peek (held : List (LMode × Nat)) (i : Nat) (path : List Char) : WritesLocked held held (peekProg i path) := by
  refine .acquire _ _ _ _ (writesLocked_look fun h => writesLocked_bind ?_ fun _ => writesLocked_give (.done _))
  unfold peekFrom
  split
  · exact .done _
  · split
    · exact .done _
    · exact locked_foldPeek _ _ _

theorem locked_climb (stop : NCell → Bool) (held : List (LMode × Nat)) : ∀ (fuel : Nat) (o : Option Nat),
    WritesLocked held held (climbProg stop fuel o)
  | fuel, none => by unfold climbProg; exact .done _
  | 0, some p => .done _
  | fuel + 1, some p => by
    refine .acquire _ _ _ _ (writesLocked_look fun h => writesLocked_give ?_)
    cases h.cell p with
    | none => exact .done _
    | some c =>
      dsimp only
      split
      · exact .done _
      · exact locked_climb stop held fuel _

theorem locked_up (stop : NCell → Bool) (held : List (LMode × Nat)) (fuel i : Nat) : WritesLocked held held (upProg stop fuel i) :=
  .acquire _ _ _ _ (writesLocked_look fun _ => writesLocked_bind (locked_climb _ _ _ _) fun _ => writesLocked_give (.done _))

theorem locked_outlink (content : Content) (held : List (LMode × Nat)) (fuel i : Nat) (path : List Char) :
    WritesLocked held held (outlinkProg content fuel i path) := by
  refine writesLocked_bind (locked_up _ _ _ _) fun r => ?_
  cases r with
  | none => exact .done _
  | some b => exact locked_find _ _ _ _ _

theorem locked_kids {rec : Nat → Prog (List Nat)} {held : List (LMode × Nat)} (hr : ∀ c, WritesLocked held held (rec c)) :
    ∀ ks : List (List Char × Nat), WritesLocked held held (walkKids rec ks)
  | [] => .done _
  | (_, c) :: ks => writesLocked_bind (hr c) fun _ => writesLocked_bind (locked_kids hr ks) fun _ => .done _

theorem locked_walk {content : Content} {force : Bool} {f : Nat → Prog Unit} (hf : ∀ held i, WritesLocked held held (f i)) :
    ∀ (fuel : Nat) (held : List (LMode × Nat)) (i : Nat), WritesLocked held held (walkProg content force f fuel i)
  | 0, _, _ => .done _
  | fuel + 1, held, i => by
    unfold walkProg
    refine writesLocked_bind (mid := held) ?_ fun _ => writesLocked_bind (hf held i) fun _ => .acquire _ _ _ _ (writesLocked_look fun h =>
      writesLocked_bind (locked_kids (fun c => locked_walk hf fuel _ c) _) fun vs => writesLocked_give ?_)
    · split
      · exact writesLocked_bind (locked_parse _ _ _) fun _ => .done _
      · exact .done _
    · split
      · refine .acquire _ _ _ _ (writesLocked_look fun h => writesLocked_give ?_)
        split
        · exact writesLocked_bind (locked_unparse _ _) fun _ => .done _
        · exact .done _
      · exact .done _

theorem locked_look (held : List (LMode × Nat)) (i : Nat) : WritesLocked held held (lookProg i) :=
  .acquire _ _ _ _ (writesLocked_look fun _ => writesLocked_give (.done _))

theorem locked_call (content : Content) (c : TreeCall) : WritesLocked [] [] (callProg content c) := by
  cases c with
  | parse i => exact writesLocked_bind (locked_parse _ _ _) fun _ => .done _
  | unparse i => exact writesLocked_bind (locked_unparse _ _) fun _ => .done _
  | peek i p => exact writesLocked_bind (locked_peek _ _ _) fun _ => .done _
  | find m i p => exact writesLocked_bind (locked_find _ _ _ _ _) fun _ => .done _
  | walk force touch fuel i =>
    refine locked_walk (fun held j => ?_) fuel [] i
    split
    · exact locked_look _ _
    · exact .done _

theorem locked_calls {content : Content} {α : Type} {p : Prog α} (D : CallsDown content p) : WritesLocked [] [] p := by
  induction D with
  | done a => exact .done a
  | call c k _ ih => exact writesLocked_bind (locked_call content c) ih

theorem locked_ops (content : Content) (i : Nat) : ∀ ops : List ThreadOp, WritesLocked [] [] (opsProg content i ops)
  | [] => .done _
  | op :: ops => by
    refine writesLocked_bind (mid := []) ?_ fun _ => writesLocked_bind (locked_ops content i ops) fun _ => .done _
    cases op with
    | peek p => exact writesLocked_bind (locked_peek _ _ _) fun _ => .done _
    | find p => exact locked_find _ _ _ _ _
    | load p =>
      refine writesLocked_bind (locked_find _ _ _ _ _) fun r => ?_
      cases r with
      | error e => exact .done _
      | ok j => exact writesLocked_bind (locked_parse _ _ _) fun _ => .done _
    | close p =>
      refine writesLocked_bind (locked_find _ _ _ _ _) fun r => ?_
      cases r with
      | error e => exact .done _
      | ok j => exact writesLocked_bind (locked_unparse _ _) fun _ => .done _

/-- all threads change only what they have locked -/
def AllLocked {α : Type} (P : Pool α) : Prop := ∀ th ∈ P.threads, WritesLocked [] th.held th.prog

theorem allLocked_set {α : Type} {P : Pool α} (A : AllLocked P) {t : Nat} {b : Thread α} (hb : WritesLocked [] b.held b.prog) (h : NHeap) :
    AllLocked ⟨h, P.threads.set t b⟩ := by
  intro th hth
  rcases List.mem_or_eq_of_mem_set hth with hm | rfl
  · exact A th hm
  · exact hb

theorem allLocked_next {α : Type} {queue : Bool} {P P' : Pool α} {t : Nat} (A : AllLocked P) (hn : P.next queue t = some P') :
    AllLocked P' ∧ ∀ x, x < P.heap.length → P'.heap.cell x ≠ P.heap.cell x → ∃ th, P.threads[t]? = some th ∧ (LMode.write, x) ∈ th.held := by
  unfold Pool.next at hn
  cases ht : P.threads[t]? with
  | none => rw [ht] at hn; cases hn
  | some th =>
    rw [ht] at hn
    dsimp only at hn
    have h1 := A th (List.mem_of_getElem? ht)
    generalize hp : th.prog = p at hn h1
    generalize hh : th.held = hd at hn h1
    cases h1 with
    | done a => cases hn
    | acquire _ m i k hk =>
      dsimp only at hn
      split at hn
      · cases hn
        exact ⟨allLocked_set A hk _, fun x _ hx => absurd rfl hx⟩
      · cases hn
    | release _ m i k _ hk =>
      cases hn
      exact ⟨allLocked_set A hk _, fun x _ hx => absurd rfl hx⟩
    | act _ upd k hu hk =>
      cases hn
      exact ⟨allLocked_set A (hk _) _, fun x hx hn => ⟨th, rfl, by rw [hh]; exact hu _ x hx hn⟩⟩

theorem allLocked_run {α : Type} {queue : Bool} : ∀ (sched : List Nat) (P P' : Pool α), AllLocked P → P.run queue sched = some P' → AllLocked P'
  | [], P, P', A, hr => by cases hr; exact A
  | t :: ts, P, P', A, hr => by
    unfold Pool.run at hr
    cases hn : P.next queue t with
    | none => rw [hn] at hr; cases hr
    | some Q =>
      rw [hn] at hr
      exact allLocked_run ts Q P' (allLocked_next A hn).1 hr

end Wz
