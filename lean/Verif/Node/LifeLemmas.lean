import Verif.Node.LifeSpec
import Verif.Node.PathLemmas
import Verif.Node.ParseLemmas
import Verif.Node.IsoLemmas
import Verif.Node.HistoryLemmas

/-!
# Lemmas: how long nodes live
-/

set_option autoImplicit false

namespace Wz

open Spec

theorem sum_zero_iff (l : List Nat) : l.sum = 0 ↔ ∀ x ∈ l, x = 0 := by
  induction l with
  | nil => simp
  | cons a l ih => rw [List.sum_cons, List.forall_mem_cons, ← ih]; omega

theorem cell_mem {h : NHeap} {i : Nat} {c : NCell} (hc : h.cell i = some c) : some c ∈ h := by
  unfold NHeap.cell at hc
  cases hi : h[i]? with
  | none => rw [hi] at hc; cases hc
  | some o =>
    rw [hi] at hc
    have : o = some c := hc
    subst this
    exact List.mem_of_getElem? hi

theorem mem_cell {h : NHeap} {c : NCell} (hc : some c ∈ h) : ∃ i, h.cell i = some c := by
  obtain ⟨i, hi⟩ := List.getElem?_of_mem hc
  exact ⟨i, by unfold NHeap.cell; rw [hi]; rfl⟩

theorem strong_zero {h : NHeap} {hold : List Nat} {i : Nat} :
    h.strong hold i = 0 ↔ i ∉ hold ∧ ∀ p n, ¬ ChildOf h p n i := by
  unfold NHeap.strong NHeap.entriesOf
  constructor
  · intro h0
    refine ⟨fun hi => ?_, fun p n ⟨c, hc, hk⟩ => ?_⟩
    · have := List.count_pos_iff.2 hi; omega
    · have h1 := (sum_zero_iff _).1 (show (h.map (entriesIn i)).sum = 0 from by omega) _ (List.mem_map.2 ⟨some c, cell_mem hc, rfl⟩)
      unfold entriesIn at h1
      have : (n, i) ∈ c.kids.filter fun x => x.2 == i := List.mem_filter.2 ⟨hk, by simp⟩
      rw [List.length_eq_zero_iff.1 h1] at this
      cases this
  · rintro ⟨h1, h2⟩
    have e1 := List.count_eq_zero.2 h1
    have e2 : (h.map (entriesIn i)).sum = 0 := by
      refine (sum_zero_iff _).2 fun x hx => ?_
      obtain ⟨o, ho, rfl⟩ := List.mem_map.1 hx
      cases o with
      | none => rfl
      | some c =>
        obtain ⟨p, hp⟩ := mem_cell ho
        refine List.length_eq_zero_iff.2 (List.eq_nil_iff_forall_not_mem.2 fun y hy => ?_)
        obtain ⟨h3, h4⟩ := List.mem_filter.1 hy
        have : y.2 = i := by simpa using h4
        exact h2 p y.1 ⟨c, hp, by rw [← this]; exact h3⟩
    omega

theorem cell_kill {h : NHeap} {k i : Nat} : NHeap.cell (h.set k none) i = if i = k then none else h.cell i := by
  unfold NHeap.cell
  by_cases hi : i = k
  · subst hi
    rw [if_pos rfl, List.getElem?_set]
    by_cases hl : i < h.length
    · simp [hl]
    · simp [hl]
  · rw [if_neg hi, List.getElem?_set_ne (fun h => hi h.symm)]

theorem sum_kill {h : NHeap} {k : Nat} {c : NCell} (hc : h.cell k = some c) :
    (List.map kidCount (h.set k none)).sum + c.kids.length = (h.map kidCount).sum := by
  induction h generalizing k with
  | nil => simp [NHeap.cell] at hc
  | cons o h ih =>
    cases k with
    | zero =>
      have : o = some c := by simpa [NHeap.cell] using hc
      subst this
      simp [kidCount]
      omega
    | succ k =>
      have := ih (k := k) (by simpa [NHeap.cell] using hc)
      simp only [List.set_cons_succ, List.map_cons, List.sum_cons]
      omega

theorem dropRefs_some {hold : List Nat} : ∀ (fuel : Nat) (h : NHeap) (ks : List Nat), h.dropFuel ks ≤ fuel →
    ∃ g, NHeap.dropRefs hold fuel h ks = some g
  | fuel, h, [], _ => ⟨h, by cases fuel <;> rfl⟩
  | 0, h, k :: ks, hf => by unfold NHeap.dropFuel at hf; simp at hf
  | fuel + 1, h, k :: ks, hf => by
    have hl : h.dropFuel ks ≤ fuel := by unfold NHeap.dropFuel at *; simp only [List.length_cons] at hf; omega
    unfold NHeap.dropRefs
    by_cases hs : h.strong hold k = 0
    · rw [if_pos hs]
      cases hc : h.cell k with
      | none => exact dropRefs_some fuel h ks hl
      | some c =>
        refine dropRefs_some fuel _ _ ?_
        have := sum_kill hc
        unfold NHeap.dropFuel at *
        simp only [List.length_append, List.length_map]
        omega
    · rw [if_neg hs]
      exact dropRefs_some fuel h ks hl

theorem childOf_kill {h : NHeap} {k p j : Nat} {n : List Char} : ChildOf (h.set k none) p n j ↔ p ≠ k ∧ ChildOf h p n j := by
  unfold ChildOf
  rw [cell_kill]
  by_cases hp : p = k
  · simp [hp]
  · simp [hp]

/-- what dropping references leaves -/
structure Dropped (hold : List Nat) (h g : NHeap) (ks : List Nat) : Prop where
  length : g.length = h.length
  sub : ∀ i c, g.cell i = some c → h.cell i = some c
  keeps : ∀ i, InReach h hold i → g.cell i = h.cell i ∧ InReach g hold i
  lost : (∀ i, Lives h i → h.strong hold i ≠ 0 ∨ i ∈ ks) → ∀ i, Lives g i → g.strong hold i ≠ 0
  ring : ∀ R, Ring h R → Ring g R
  supp : ∀ R, Supported h hold R → Supported g hold R

theorem inReach_kill {h : NHeap} {hold : List Nat} {k : Nat} (hs : h.strong hold k = 0) {i : Nat} (hi : InReach h hold i) :
    i ≠ k ∧ InReach (h.set k none) hold i := by
  obtain ⟨h1, h2⟩ := strong_zero.1 hs
  induction hi with
  | handle i hi => exact ⟨fun he => h1 (he ▸ hi), .handle i hi⟩
  | child i j n _ hc ih => exact ⟨fun he => h2 i n (he ▸ hc), .child i j n ih.2 (childOf_kill.2 ⟨ih.1, hc⟩)⟩

theorem dropRefs_ok {hold : List Nat} : ∀ (fuel : Nat) (h : NHeap) (ks : List Nat) (g : NHeap),
    NHeap.dropRefs hold fuel h ks = some g → Dropped hold h g ks
  | fuel, h, [], g, hg => by
    have : g = h := by cases fuel <;> (unfold NHeap.dropRefs at hg; exact (Option.some.inj hg).symm)
    subst this
    refine ⟨rfl, fun _ _ h => h, fun i hi => ⟨rfl, hi⟩, fun hw i hi => ?_, fun _ h => h, fun _ h => h⟩
    rcases hw i hi with h | h
    · exact h
    · cases h
  | 0, h, k :: ks, g, hg => by unfold NHeap.dropRefs at hg; cases hg
  | fuel + 1, h, k :: ks, g, hg => by
    unfold NHeap.dropRefs at hg
    by_cases hs : h.strong hold k = 0
    · rw [if_pos hs] at hg
      cases hc : h.cell k with
      | none =>
        rw [hc] at hg
        obtain ⟨q1, q2, q3, q4, q5, q6⟩ := dropRefs_ok fuel h ks g hg
        refine ⟨q1, q2, q3, fun hw => q4 fun i hi => ?_, q5, q6⟩
        rcases hw i hi with h | h
        · exact .inl h
        · rcases List.mem_cons.1 h with rfl | h
          · obtain ⟨c, hi⟩ := hi; rw [hc] at hi; cases hi
          · exact .inr h
      | some c =>
        rw [hc] at hg
        obtain ⟨q1, q2, q3, q4, q5, q6⟩ := dropRefs_ok fuel _ _ g hg
        refine ⟨by rw [q1, List.length_set], fun i d hi => ?_, fun i hi => ?_, fun hw => q4 fun i hi => ?_, fun R hR => q5 R ?_,
          fun R hR => q6 R ?_⟩
        · have := q2 i d hi
          rw [cell_kill] at this
          split at this
          · cases this
          · exact this
        · obtain ⟨h1, h2⟩ := inReach_kill hs hi
          obtain ⟨h3, h4⟩ := q3 i h2
          exact ⟨by rw [h3, cell_kill, if_neg h1], h4⟩
        · obtain ⟨d, hd⟩ := hi
          rw [cell_kill] at hd
          by_cases hik : i = k
          · rw [if_pos hik] at hd; cases hd
          · rw [if_neg hik] at hd
            by_cases h0 : NHeap.strong (h.set k none) hold i = 0
            · right
              obtain ⟨h1, h2⟩ := strong_zero.1 h0
              rcases hw i ⟨d, hd⟩ with h3 | h3
              · by_cases hk : ∃ n, (n, i) ∈ c.kids
                · obtain ⟨n, hk⟩ := hk
                  exact List.mem_append_left _ (List.mem_map.2 ⟨(n, i), hk, rfl⟩)
                · refine absurd (strong_zero.2 ⟨h1, fun p n hp => ?_⟩) h3
                  by_cases hpk : p = k
                  · obtain ⟨c', hc', hm⟩ := hp
                    rw [hpk, hc] at hc'; cases hc'
                    exact hk ⟨n, hm⟩
                  · exact h2 p n (childOf_kill.2 ⟨hpk, hp⟩)
              · rcases List.mem_cons.1 h3 with h3 | h3
                · exact absurd h3 hik
                · exact List.mem_append_right _ h3
            · exact .inl h0
        · have hnk : ∀ j, R j → j ≠ k := by
            intro j hj he
            obtain ⟨_, p, n, _, hp⟩ := hR j hj
            exact (strong_zero.1 hs).2 p n (he ▸ hp)
          intro j hj
          obtain ⟨⟨d, hd⟩, p, n, hp, hpj⟩ := hR j hj
          exact ⟨⟨d, by rw [cell_kill, if_neg (hnk j hj)]; exact hd⟩, p, n, hp, childOf_kill.2 ⟨hnk p hp, hpj⟩⟩
        · have hnk : ∀ j, R j → j ≠ k := by
            intro j hj he
            rcases (hR j hj).2 with hp | ⟨p, n, _, hp⟩
            · exact (strong_zero.1 hs).1 (he ▸ hp)
            · exact (strong_zero.1 hs).2 p n (he ▸ hp)
          intro j hj
          obtain ⟨⟨d, hd⟩, hj'⟩ := hR j hj
          refine ⟨⟨d, by rw [cell_kill, if_neg (hnk j hj)]; exact hd⟩, ?_⟩
          rcases hj' with hp | ⟨p, n, hp, hpj⟩
          · exact .inl hp
          · exact .inr ⟨p, n, hp, childOf_kill.2 ⟨hnk p hp, hpj⟩⟩
    · rw [if_neg hs] at hg
      obtain ⟨q1, q2, q3, q4, q5, q6⟩ := dropRefs_ok fuel h ks g hg
      refine ⟨q1, q2, q3, fun hw => q4 fun i hi => ?_, q5, q6⟩
      rcases hw i hi with h | h
      · exact .inl h
      · rcases List.mem_cons.1 h with rfl | h
        · exact .inl hs
        · exact .inr h

theorem drops_some (st : Life) (ks : List Nat) : ∃ g, st.drops ks = some ⟨g, st.hold⟩ ∧ Dropped st.hold st.heap g ks := by
  obtain ⟨g, hg⟩ := dropRefs_some (hold := st.hold) _ st.heap ks (Nat.le_refl _)
  exact ⟨g, by unfold Life.drops; rw [hg]; rfl, dropRefs_ok _ _ _ _ hg⟩

theorem nothingLost_iff {st : Life} : NothingLost st ↔ ∀ i, Lives st.heap i → st.heap.strong st.hold i ≠ 0 := by
  unfold NothingLost
  refine forall_congr' fun i => imp_congr_right fun _ => ?_
  rw [Ne, strong_zero]
  constructor
  · rintro (h | ⟨p, n, h⟩) ⟨h1, h2⟩
    · exact h1 h
    · exact h2 p n h
  · intro h
    by_cases hi : i ∈ st.hold
    · exact .inl hi
    · right
      apply Classical.byContradiction
      intro hn
      exact h ⟨hi, fun p n hp => hn ⟨p, n, hp⟩⟩

/-! ## one step -/

/-- the nodes without drops, the nodes to look at, the handles -/
structure StepOk (content : Content) (st st' : Life) (op : LifeOp) (ks : List Nat) : Prop where
  dropped : Dropped st'.hold (heapAfter content st op) st'.heap ks
  covers : NothingLost st → ∀ i, Lives (heapAfter content st op) i → (heapAfter content st op).strong st'.hold i ≠ 0 ∨ i ∈ ks

theorem dropped_refl (hold : List Nat) (h : NHeap) : Dropped hold h h [] :=
  dropRefs_ok 0 h [] h (by unfold NHeap.dropRefs; rfl)

theorem covers_same {st : Life} (hn : NothingLost st) {hold : List Nat} (hs : ∀ i ∈ st.hold, i ∈ hold) (ks : List Nat) :
    ∀ i, Lives st.heap i → st.heap.strong hold i ≠ 0 ∨ i ∈ ks := by
  intro i hi
  left
  intro h0
  obtain ⟨h1, h2⟩ := strong_zero.1 h0
  rcases hn i hi with h3 | ⟨p, n, h3⟩
  · exact h1 (hs i h3)
  · exact h2 p n h3

theorem kidsOf_mem {h : NHeap} {i j : Nat} {n : List Char} (hc : ChildOf h i n j) : j ∈ h.kidsOf i := by
  obtain ⟨c, hc, hk⟩ := hc
  unfold NHeap.kidsOf; rw [hc]
  exact List.mem_map.2 ⟨_, hk, rfl⟩

theorem covers_change {st : Life} {i : Nat} {g : NHeap} {ks : List Nat} (hi : i ∈ st.hold)
    (hf : ∀ x, x < st.heap.length → x ≠ i → g.cell x = st.heap.cell x)
    (hnew : ∀ x, Lives g x → st.heap.length ≤ x → x ∈ ks) (hks : ∀ x ∈ st.heap.kidsOf i, x ∈ ks) (hn : NothingLost st) :
    ∀ x, Lives g x → g.strong st.hold x ≠ 0 ∨ x ∈ ks := by
  intro x hx
  by_cases hl : st.heap.length ≤ x
  · exact .inr (hnew x hx hl)
  · by_cases hxi : x = i
    · left; intro h0; exact (strong_zero.1 h0).1 (hxi ▸ hi)
    · obtain ⟨c, hx⟩ := hx
      rw [hf x (by omega) hxi] at hx
      rcases hn x ⟨c, hx⟩ with h | ⟨p, n, h⟩
      · left; intro h0; exact (strong_zero.1 h0).1 h
      · by_cases hpi : p = i
        · exact .inr (hks x (kidsOf_mem (hpi ▸ h)))
        · left; intro h0
          obtain ⟨d, hd, hk⟩ := h
          exact (strong_zero.1 h0).2 p n ⟨d, by rw [hf p (cell_lt hd) hpi]; exact hd, hk⟩

theorem step_ok (content : Content) (st : Life) (op : LifeOp) :
    ∃ st' ks, st.step content op = some st' ∧ StepOk content st st' op ks := by
  have same : ∀ hold : List Nat, (∀ i ∈ st.hold, i ∈ hold) → heapAfter content st op = st.heap →
      StepOk content st ⟨st.heap, hold⟩ op [] := by
    intro hold hs hh
    refine ⟨by rw [hh]; exact dropped_refl _ _, fun hn => ?_⟩
    rw [hh]
    exact covers_same hn hs _
  cases op with
  | get i path =>
    show ∃ st' ks, (if i ∈ st.hold then _ else _) = _ ∧ _
    by_cases hi : i ∈ st.hold
    · rw [if_pos hi]
      cases st.heap.atPath i path with
      | none => exact ⟨st, [], rfl, same _ (fun _ h => h) rfl⟩
      | some j => exact ⟨_, [], rfl, same _ (fun _ h => List.mem_cons_of_mem _ h) rfl⟩
    · rw [if_neg hi]; exact ⟨st, [], rfl, same _ (fun _ h => h) rfl⟩
  | parent i =>
    show ∃ st' ks, (if i ∈ st.hold then _ else _) = _ ∧ _
    by_cases hi : i ∈ st.hold
    · rw [if_pos hi]
      cases st.heap.up i with
      | none => exact ⟨st, [], rfl, same _ (fun _ h => h) rfl⟩
      | some j => exact ⟨_, [], rfl, same _ (fun _ h => List.mem_cons_of_mem _ h) rfl⟩
    · rw [if_neg hi]; exact ⟨st, [], rfl, same _ (fun _ h => h) rfl⟩
  | drop i =>
    show ∃ st' ks, (if i ∈ st.hold then _ else _) = _ ∧ _
    by_cases hi : i ∈ st.hold
    · rw [if_pos hi]
      obtain ⟨g, hg, hd⟩ := drops_some { st with hold := st.hold.erase i } [i]
      refine ⟨_, [i], hg, hd, fun hn x hx => ?_⟩
      by_cases hxi : x = i
      · exact .inr (by simp [hxi])
      · rcases covers_same hn (hold := st.hold) (fun _ h => h) [] x hx with h | h
        · left
          intro h0
          obtain ⟨h1, h2⟩ := strong_zero.1 h0
          exact h (strong_zero.2 ⟨fun h3 => h1 ((List.mem_erase_of_ne hxi).2 h3), h2⟩)
        · cases h
    · rw [if_neg hi]; exact ⟨st, [], rfl, same _ (fun _ h => h) rfl⟩
  | parse i =>
    show ∃ st' ks, (if i ∈ st.hold then _ else _) = _ ∧ _
    by_cases hi : i ∈ st.hold
    · rw [if_pos hi]
      have hh : heapAfter content st (.parse i) = (st.heap.parse content i).2 := if_pos hi
      obtain ⟨g, hg, hd⟩ := drops_some { st with heap := (st.heap.parse content i).2 }
        (st.heap.kidsOf i ++ List.range' st.heap.length ((st.heap.parse content i).2.length - st.heap.length))
      refine ⟨_, _, hg, by rw [hh]; exact hd, ?_⟩
      rw [hh]
      intro hn
      refine covers_change (st := st) hi (fun x hx hxi => parse_frame hx hxi) (fun x ⟨c, hx⟩ hl => List.mem_append_right _ ?_)
        (fun x hx => List.mem_append_left _ hx) hn
      have := cell_lt hx
      rw [List.mem_range'_1]; omega
    · rw [if_neg hi]; exact ⟨st, [], rfl, same _ (fun _ h => h) (if_neg hi)⟩
  | forget i =>
    show ∃ st' ks, (if i ∈ st.hold then _ else _) = _ ∧ _
    by_cases hi : i ∈ st.hold
    · rw [if_pos hi]
      have hh : heapAfter content st (.forget i) = st.heap.unparse i := if_pos hi
      obtain ⟨g, hg, hd⟩ := drops_some { st with heap := st.heap.unparse i } (st.heap.kidsOf i)
      refine ⟨_, _, hg, by rw [hh]; exact hd, ?_⟩
      rw [hh]
      intro hn
      refine covers_change (st := st) hi (fun x hx hxi => unparse_frame hxi) (fun x ⟨c, hx⟩ hl => ?_) (fun x hx => hx) hn
      have := cell_lt hx
      rw [unparse_length] at this; omega
    · rw [if_neg hi]; exact ⟨st, [], rfl, same _ (fun _ h => h) (if_neg hi)⟩

theorem step_stepOk {content : Content} {st st' : Life} {op : LifeOp} (hs : st.step content op = some st') :
    ∃ ks, StepOk content st st' op ks := by
  obtain ⟨s, ks, h1, h2⟩ := step_ok content st op
  rw [h1] at hs; cases hs
  exact ⟨ks, h2⟩

theorem step_nothingLost {content : Content} {st st' : Life} {op : LifeOp} (hs : st.step content op = some st')
    (hn : NothingLost st) : NothingLost st' := by
  obtain ⟨ks, h⟩ := step_stepOk hs
  exact nothingLost_iff.2 (h.dropped.lost (h.covers hn))

theorem run_cons {content : Content} {st st' : Life} {op : LifeOp} {ops : List LifeOp}
    (hr : st.run content (op :: ops) = some st') : ∃ s, st.step content op = some s ∧ s.run content ops = some st' := by
  unfold Life.run at hr
  cases hs : st.step content op with
  | none => rw [hs] at hr; cases hr
  | some s => rw [hs] at hr; exact ⟨s, rfl, hr⟩

theorem life_keeps {content : Content} {P : Life → Prop} {Q : LifeOp → Prop}
    (hstep : ∀ st st' op, Q op → P st → st.step content op = some st' → P st') :
    ∀ (ops : List LifeOp) (st st' : Life), (∀ op ∈ ops, Q op) → P st → st.run content ops = some st' → P st'
  | [], st, st', _, hp, hr => by cases hr; exact hp
  | op :: ops, st, st', hq, hp, hr => by
    obtain ⟨s, h1, h2⟩ := run_cons hr
    exact life_keeps hstep ops s st' (fun o ho => hq o (List.mem_cons_of_mem _ ho))
      (hstep _ _ _ (hq op List.mem_cons_self) hp h1) h2

theorem run_some (content : Content) : ∀ (ops : List LifeOp) (st : Life), ∃ st', st.run content ops = some st'
  | [], st => ⟨st, rfl⟩
  | op :: ops, st => by
    obtain ⟨s, _, h1, _⟩ := step_ok content st op
    obtain ⟨t, h2⟩ := run_some content ops s
    exact ⟨t, by unfold Life.run; rw [h1]; exact h2⟩

/-- without circles everything that lives can be reached -/
theorem lives_inReach {st : Life} (hn : NothingLost st) (hc : NoCircle st.heap) {i : Nat} (hi : Lives st.heap i) :
    InReach st.heap st.hold i := by
  obtain ⟨rank, hr⟩ := hc
  have : ∀ m i, rank i = m → Lives st.heap i → InReach st.heap st.hold i := by
    intro m
    induction m using Nat.strongRecOn with
    | _ m ih =>
      intro i hm hi
      rcases hn i hi with h | ⟨p, n, h⟩
      · exact .handle i h
      · have hlt := hr p n i h
        obtain ⟨c, hc, hk⟩ := h
        exact .child p i n (ih _ (by omega) p rfl ⟨c, hc⟩) ⟨c, hc, hk⟩
  exact this _ i rfl hi

theorem inReach_mono {h g : NHeap} {hold : List Nat} (hs : ∀ i c, g.cell i = some c → h.cell i = some c) {i : Nat}
    (hi : InReach g hold i) : InReach h hold i := by
  induction hi with
  | handle i hi => exact .handle i hi
  | child i j n _ hc ih =>
    obtain ⟨c, hc, hk⟩ := hc
    exact .child i j n ih ⟨c, hs i c hc, hk⟩

theorem noCircle_mono {h g : NHeap} (hs : ∀ i c, g.cell i = some c → h.cell i = some c) (hc : NoCircle h) : NoCircle g := by
  obtain ⟨rank, hr⟩ := hc
  exact ⟨rank, fun i n j ⟨c, hc, hk⟩ => hr i n j ⟨c, hs i c hc, hk⟩⟩

/-! ## trees -/

/-- children have greater numbers -/
def Rising (h : NHeap) : Prop := ∀ i n j, ChildOf h i n j → i < j

theorem Rising.noCircle {h : NHeap} (hr : Rising h) : NoCircle h := ⟨id, hr⟩

theorem rising_mono {h g : NHeap} (hs : ∀ i c, g.cell i = some c → h.cell i = some c) (hr : Rising h) : Rising g :=
  fun i n j ⟨c, hc, hk⟩ => hr i n j ⟨c, hs i c hc, hk⟩

theorem cells_later : ∀ (f : Forest) (p b : Nat) (live : Bool) (k : Nat) (c : NCell),
    (f.cells p b live)[k]? = some (some c) → ∀ y ∈ c.kids, b + k < y.2
  | .nil, _, _, _, _, _, h => by cases h
  | .node n kd ks rest, p, b, live, k, c, h => by
    rw [Forest.cells] at h
    cases k with
    | zero =>
      rw [List.getElem?_cons_zero] at h
      have h := Option.some.inj h
      split at h
      · cases h
        intro y hy
        rcases mem_childInsertAll hy with hy | hy
        · cases hy
        · have := roots_range ks _ y hy; omega
      · cases h
    | succ k =>
      rw [List.getElem?_cons_succ, List.getElem?_append] at h
      split at h
      · intro y hy
        have := cells_later ks _ _ _ _ _ h y hy; omega
      · intro y hy
        have := cells_later rest _ _ _ _ _ h y hy
        have hl := cells_length ks b (b + 1) (live && !(rest.names.any (· == n)))
        omega

theorem fresh_rising {h : NHeap} {i : Nat} {c : NCell} {f : Forest} (hr : Rising h) (hc : h.cell i = some c) (k : NKind) :
    Rising (fresh h i { c with kind := k, kids := childInsertAll c.kids (f.roots h.length) } f) := by
  have hi := cell_lt hc
  rintro x n j ⟨d, hd, hk⟩
  by_cases hx : x < h.length
  · rw [fresh_old hi hx] at hd
    by_cases hxi : x = i
    · rw [if_pos hxi] at hd; cases hd
      rcases mem_childInsertAll hk with hk | hk
      · exact hr x n j ⟨c, hxi ▸ hc, hk⟩
      · have := roots_range f _ _ hk
        dsimp only at this; omega
    · rw [if_neg hxi] at hd
      exact hr x n j ⟨d, hd, hk⟩
  · obtain ⟨m, rfl⟩ : ∃ m, x = h.length + m := ⟨x - h.length, by omega⟩
    rw [fresh_new] at hd
    cases hg : (f.cells i h.length true)[m]? with
    | none => rw [hg] at hd; cases hd
    | some o =>
      rw [hg] at hd
      have : o = some d := hd
      subst this
      exact cells_later f _ _ _ _ _ hg _ hk

theorem parse_rising {content : Content} (hl : ∀ s f, content s = .ok f → Spec.Forest.All NoLink f) {h : NHeap} {i : Nat}
    (hr : Rising h) : Rising (h.parse content i).2 := by
  cases hc : h.cell i with
  | none => unfold NHeap.parse; rw [hc]; exact hr
  | some c =>
    rw [parse_eq hc]
    cases hpl : c.kind.plan content with
    | none => exact hr
    | some r =>
      cases r with
      | error e => exact hr
      | ok fk =>
        obtain ⟨f, k⟩ := fk
        have hu : f.uols h.length = [] := by
          refine uols_linkFree f _ ?_
          rcases plan_from hpl with h | ⟨s, h⟩
          · rw [h]; trivial
          · exact hl s f h
        dsimp only
        rw [hu]
        exact fresh_rising hr hc k

theorem unparse_rising {h : NHeap} {i : Nat} (hr : Rising h) : Rising (h.unparse i) := by
  rintro x n j ⟨d, hd, hk⟩
  by_cases hx : x = i
  · subst hx
    unfold NHeap.unparse at hd
    cases hc : h.cell x with
    | none => rw [hc] at hd; dsimp only at hd; rw [hc] at hd; cases hd
    | some c =>
      rw [hc] at hd; dsimp only at hd
      cases hu : c.kind.unparsed with
      | none => rw [hu] at hd; exact hr x n j ⟨d, hd, hk⟩
      | some k =>
        rw [hu] at hd
        dsimp only at hd
        rw [cell_set (cell_lt hc), if_pos rfl] at hd
        cases hd; cases hk
  · rw [unparse_frame hx] at hd
    exact hr x n j ⟨d, hd, hk⟩

theorem step_rising {content : Content} (hl : ∀ s f, content s = .ok f → Spec.Forest.All NoLink f) {st st' : Life}
    {op : LifeOp} (hs : st.step content op = some st') (hr : Rising st.heap) : Rising st'.heap := by
  obtain ⟨ks, h⟩ := step_stepOk hs
  refine rising_mono h.dropped.sub ?_
  cases op with
  | parse i =>
    show Rising (if i ∈ st.hold then (st.heap.parse content i).2 else st.heap)
    split
    · exact parse_rising hl hr
    · exact hr
  | forget i =>
    show Rising (if i ∈ st.hold then st.heap.unparse i else st.heap)
    split
    · exact unparse_rising hr
    · exact hr
  | get i path => exact hr
  | parent i => exact hr
  | drop i => exact hr

/-! ## rings -/

theorem heapAfter_frame {content : Content} {st : Life} {op : LifeOp} {x : Nat} (hx : Lives st.heap x) (hc : ¬ changes op x) :
    (heapAfter content st op).cell x = st.heap.cell x := by
  obtain ⟨c, hx⟩ := hx
  cases op with
  | parse i =>
    show NHeap.cell (if i ∈ st.hold then (st.heap.parse content i).2 else st.heap) x = _
    split
    · exact parse_frame (cell_lt hx) (fun h => hc h.symm)
    · rfl
  | forget i =>
    show NHeap.cell (if i ∈ st.hold then st.heap.unparse i else st.heap) x = _
    split
    · exact unparse_frame (fun h => hc h.symm)
    · rfl
  | get i path => rfl
  | parent i => rfl
  | drop i => rfl

theorem step_ring {content : Content} {st st' : Life} {op : LifeOp} (hs : st.step content op = some st') {R : Nat → Prop}
    (hR : Ring st.heap R) (hc : ∀ i, R i → ¬ changes op i) : Ring st'.heap R := by
  obtain ⟨ks, h⟩ := step_stepOk hs
  refine h.dropped.ring R fun j hj => ?_
  obtain ⟨⟨c, hl⟩, p, n, hp, d, hd, hk⟩ := hR j hj
  exact ⟨⟨c, by rw [heapAfter_frame ⟨c, hl⟩ (hc j hj)]; exact hl⟩, p, n, hp, d,
    by rw [heapAfter_frame ⟨d, hd⟩ (hc p hp)]; exact hd, hk⟩

end Wz
