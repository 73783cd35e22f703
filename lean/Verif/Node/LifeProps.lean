import Verif.Node.LifeLemmas
import Verif.Node.PathProps

/-!
# C81: how long nodes live
-/

set_option autoImplicit false

namespace Wz.Props

open Wz Spec

/-! ## an archive for the examples -/

/-- a file with a folder `Map` and an image `a.img` in it; the image holds a value -/
def content81 : Content := fun s =>
  if s = 0 then .ok (.node "Map".toList (.dir false false 1) .nil .nil)
  else if s = 1 then .ok (.node "a.img".toList (.image false 2) .nil .nil)
  else if s = 2 then .ok (.node "x".toList (.other 5) .nil .nil)
  else .error (.lib "none")

theorem content81_linkFree : ∀ s f, content81 s = .ok f → Spec.Forest.All NoLink f := by
  intro s f h
  unfold content81 at h
  split at h
  · cases h; exact ⟨(by intro t h; cases h), trivial, trivial⟩
  · split at h
    · cases h; exact ⟨(by intro t h; cases h), trivial, trivial⟩
    · split at h
      · cases h; exact ⟨(by intro t h; cases h), trivial, trivial⟩
      · cases h

/-- the archive just opened -/
def opened81 : Life := ⟨[some ⟨"Base".toList, .file false 0, none, []⟩], [0]⟩

/-- all of it parsed; the program has the file (0) and the image (2) -/
def open81 : Life :=
  ⟨[some ⟨"Base".toList, .file true 0, none, [("Map".toList, 1)]⟩,
    some ⟨"Map".toList, .dir true true 1, some 0, [("a.img".toList, 2)]⟩,
    some ⟨"a.img".toList, .image true 2, some 1, [("x".toList, 3)]⟩,
    some ⟨"x".toList, .other 5, some 2, []⟩], [2, 0]⟩

def opening81 : List LifeOp :=
  [.parse 0, .get 0 "Map".toList, .parse 1, .get 1 "a.img".toList, .drop 1, .parse 2]

theorem opening81_run : opened81.run content81 opening81 = some open81 := by decide +kernel

/-! ## the steps -/

/-- Freeing nodes comes to an end: every history has a result. -/
theorem C81_ends (content : Content) (st : Life) (ops : List LifeOp) : ∃ st', st.run content ops = some st' :=
  run_some content ops st

/-- **Handles.**  A path that names a child at every step gives a handle of the node it leads to.  A node whose parent is
still there gives a handle of the parent.  Dropping a handle takes one handle away.  Without a handle nothing happens. -/
theorem C81_handles (content : Content) (st : Life) (i : Nat) :
    (i ∉ st.hold → ∀ op, (∃ path, op = .get i path) ∨ op = .parent i ∨ op = .drop i ∨ op = .parse i ∨ op = .forget i →
      st.step content op = some st) ∧
    (i ∈ st.hold → MapsOk st.heap → ∀ path ns, Pieces path ns →
      (∀ j, Steps st.heap i ns j → st.step content (.get i path) = some ⟨st.heap, j :: st.hold⟩) ∧
      ((∀ j, ¬ Steps st.heap i ns j) → st.step content (.get i path) = some st)) ∧
    (i ∈ st.hold → (∀ p, ParentOf st.heap i p → st.step content (.parent i) = some ⟨st.heap, p :: st.hold⟩) ∧
      ((∀ p, ¬ ParentOf st.heap i p) → st.step content (.parent i) = some st)) ∧
    (∃ g, st.step content (.drop i) = some ⟨g, st.hold.erase i⟩) ∧
    (∃ g, st.step content (.parse i) = some ⟨g, st.hold⟩) ∧
    ∃ g, st.step content (.forget i) = some ⟨g, st.hold⟩ := by
  refine ⟨?_, ?_, ?_, ?_, ?_, ?_⟩
  · rintro hi op (⟨path, rfl⟩ | rfl | rfl | rfl | rfl) <;> exact if_neg hi
  · intro hi hm path ns hp
    have e : st.step content (.get i path) = _ := if_pos hi
    refine ⟨fun j hj => ?_, fun hj => ?_⟩
    · rw [e, (C25_at_path hm i j path).2 ⟨ns, hp, hj⟩]
    · rw [e]
      cases ha : st.heap.atPath i path with
      | none => rfl
      | some j =>
        obtain ⟨ms, h1, h2⟩ := (C25_at_path hm i j path).1 ha
        have : ms = ns := (pieces_iff.1 h1).symm.trans (pieces_iff.1 hp)
        exact absurd (this ▸ h2) (hj j)
  · intro hi
    have e : st.step content (.parent i) = _ := if_pos hi
    refine ⟨fun p hp => ?_, fun hp => ?_⟩
    · rw [e, up_eq_some.2 hp]
    · rw [e, up_eq_none.2 hp]
  · by_cases hi : i ∈ st.hold
    · obtain ⟨g, hg, _⟩ := drops_some { st with hold := st.hold.erase i } [i]
      exact ⟨g, (if_pos hi).trans hg⟩
    · exact ⟨st.heap, by rw [List.erase_of_not_mem hi]; exact if_neg hi⟩
  · by_cases hi : i ∈ st.hold
    · obtain ⟨g, hg, _⟩ := drops_some { st with heap := (st.heap.parse content i).2 }
        (st.heap.kidsOf i ++ List.range' st.heap.length ((st.heap.parse content i).2.length - st.heap.length))
      exact ⟨g, (if_pos hi).trans hg⟩
    · exact ⟨st.heap, if_neg hi⟩
  · by_cases hi : i ∈ st.hold
    · obtain ⟨g, hg, _⟩ := drops_some { st with heap := st.heap.unparse i } (st.heap.kidsOf i)
      exact ⟨g, (if_pos hi).trans hg⟩
    · exact ⟨st.heap, if_neg hi⟩

/-- **What can be reached stays.**  Whatever the step frees: a node the program can still get to going down from one of its
handles is as if nothing had been freed, and can still be reached.  Nodes that are left are not changed. -/
theorem C81_kept {content : Content} {st st' : Life} {op : LifeOp} (hs : st.step content op = some st') :
    (∀ x, InReach (heapAfter content st op) st'.hold x →
      st'.heap.cell x = (heapAfter content st op).cell x ∧ InReach st'.heap st'.hold x) ∧
    ∀ x c, st'.heap.cell x = some c → (heapAfter content st op).cell x = some c := by
  obtain ⟨ks, h⟩ := step_stepOk hs
  exact ⟨h.dropped.keeps, h.dropped.sub⟩

example : ∃ st', open81.step content81 (.drop 0) = some st' ∧ st'.heap.cell 3 = open81.heap.cell 3 := by
  obtain ⟨st', hs⟩ := Option.isSome_iff_exists.1 (show (open81.step content81 (.drop 0)).isSome from by decide +kernel)
  refine ⟨st', hs, ((C81_kept hs).1 3 ?_).1⟩
  obtain ⟨g, hg⟩ := (C81_handles content81 open81 0).2.2.2.1
  rw [hg] at hs; cases hs
  exact .child 2 3 "x".toList (.handle 2 (show 2 ∈ [2, 0].erase 0 from by decide)) ⟨_, rfl, by decide⟩

/-- **A handle that is kept keeps everything below it**, whatever happens to the other handles. -/
theorem C81_held {content : Content} {st st' : Life} {ops : List LifeOp} {i : Nat} (hi : i ∈ st.hold)
    (ho : ∀ op ∈ ops, handlesOnly op = true ∧ op ≠ .drop i) (hr : st.run content ops = some st') :
    i ∈ st'.hold ∧ ∀ x, InReach st.heap [i] x → st'.heap.cell x = st.heap.cell x := by
  refine life_keeps (content := content) (P := fun s => i ∈ s.hold ∧ ∀ x, InReach st.heap [i] x → s.heap.cell x = st.heap.cell x)
    (Q := fun op => handlesOnly op = true ∧ op ≠ .drop i) ?_ ops st st' ho ⟨hi, fun _ _ => rfl⟩ hr
  rintro s s' op ⟨hq1, hq2⟩ ⟨h1, h2⟩ hs
  have hi' : i ∈ s'.hold := by
    cases op with
    | get j path =>
      by_cases hj : j ∈ s.hold
      · rw [show s.step content (.get j path) = _ from if_pos hj] at hs
        split at hs <;> cases hs
        · exact h1
        · exact List.mem_cons_of_mem _ h1
      · rw [show s.step content (.get j path) = _ from if_neg hj] at hs
        cases hs; exact h1
    | parent j =>
      by_cases hj : j ∈ s.hold
      · rw [show s.step content (.parent j) = _ from if_pos hj] at hs
        split at hs <;> cases hs
        · exact h1
        · exact List.mem_cons_of_mem _ h1
      · rw [show s.step content (.parent j) = _ from if_neg hj] at hs
        cases hs; exact h1
    | drop j =>
      obtain ⟨g, hg⟩ := (C81_handles content s j).2.2.2.1
      rw [hg] at hs; cases hs
      exact (List.mem_erase_of_ne (fun he => hq2 (congrArg LifeOp.drop he.symm))).2 h1
    | parse j => cases hq1
    | forget j => cases hq1
  have hh : heapAfter content s op = s.heap := by
    cases op with
    | get j path => rfl
    | parent j => rfl
    | drop j => rfl
    | parse j => cases hq1
    | forget j => cases hq1
  refine ⟨hi', fun x hx => ?_⟩
  have hreach : InReach s.heap s'.hold x := by
    clear hs
    induction hx with
    | handle y hy =>
      rw [List.mem_singleton.1 hy]
      exact .handle i hi'
    | child y z n hy hc ih =>
      obtain ⟨c, hc, hk⟩ := hc
      exact .child y z n ih ⟨c, by rw [h2 y hy]; exact hc, hk⟩
  have := ((C81_kept hs).1 x (by rw [hh]; exact hreach)).1
  rw [hh] at this
  rw [this, h2 x hx]

example (st' : Life) (hr : open81.run content81 [.parent 2, .drop 0, .drop 0, .drop 1] = some st') :
    st'.heap.cell 3 = open81.heap.cell 3 :=
  (C81_held (i := 2) (by decide) (by decide +kernel) hr).2 3
    (.child 2 3 "x".toList (.handle 2 (by decide)) ⟨_, rfl, by decide⟩)

/-! ## what is freed -/

/-- **No node is left over**: in every history, from a state where this is so, every node is held by the program or is a
child of a node. -/
theorem C81_nothing_lost {content : Content} {st st' : Life} {ops : List LifeOp} (hn : NothingLost st)
    (hr : st.run content ops = some st') : NothingLost st' :=
  life_keeps (Q := fun _ => True) (fun _ _ _ _ hp hs => step_nothingLost hs hp) ops st st' (fun _ _ => trivial) hn hr

/-- **Exactly what cannot be reached is freed**, where no way down leads back. -/
theorem C81_exact_partial {content : Content} {st st' : Life} {op : LifeOp} (hn : NothingLost st)
    (hc : NoCircle (heapAfter content st op)) (hs : st.step content op = some st') (x : Nat) :
    Lives st'.heap x ↔ Lives (heapAfter content st op) x ∧ InReach (heapAfter content st op) st'.hold x := by
  obtain ⟨h1, h2⟩ := C81_kept hs
  constructor
  · rintro ⟨c, hx⟩
    exact ⟨⟨c, h2 x c hx⟩,
      inReach_mono h2 (lives_inReach (step_nothingLost hs hn) (noCircle_mono h2 hc) ⟨c, hx⟩)⟩
  · rintro ⟨⟨c, hx⟩, hr⟩
    exact ⟨c, by rw [(h1 x hr).1]; exact hx⟩

/-- **Exactly which nodes are left**, links and circles or not: those in some set of nodes each of which is held by the
program or is a child of one of the set. -/
theorem C81_exact {content : Content} {st st' : Life} {op : LifeOp} (hn : NothingLost st)
    (hs : st.step content op = some st') (x : Nat) :
    Lives st'.heap x ↔ ∃ R : Nat → Prop, R x ∧ Supported (heapAfter content st op) st'.hold R := by
  obtain ⟨ks, h⟩ := step_stepOk hs
  constructor
  · intro hx
    refine ⟨Lives st'.heap, hx, fun j hj => ⟨?_, ?_⟩⟩
    · obtain ⟨c, hc⟩ := hj
      exact ⟨c, h.dropped.sub j c hc⟩
    · rcases step_nothingLost hs hn j hj with h1 | ⟨p, n, c, hc, hk⟩
      · exact .inl h1
      · exact .inr ⟨p, n, ⟨c, hc⟩, c, h.dropped.sub p c hc, hk⟩
  · rintro ⟨R, hx, hR⟩
    exact (h.dropped.supp R hR x hx).1

/-- an archive just opened has lost nothing, and no way leads back -/
theorem opened_ok {st : Life} (h0 : ∀ i c, st.heap.cell i = some c → c.kids = [] ∧ i ∈ st.hold) :
    NothingLost st ∧ Rising st.heap := by
  refine ⟨fun i ⟨c, hc⟩ => .inl (h0 i c hc).2, fun i n j ⟨c, hc, hk⟩ => ?_⟩
  rw [(h0 i c hc).1] at hk; cases hk

theorem opened81_start : ∀ i c, opened81.heap.cell i = some c → c.kids = [] ∧ i ∈ opened81.hold := by
  intro i c hc
  match i with
  | 0 => cases hc; exact ⟨rfl, by decide⟩
  | n + 1 => simp [NHeap.cell, opened81] at hc

example (x : Nat) (st' : Life) (hs : open81.step content81 (.drop 0) = some st') :
    Lives st'.heap x ↔ Lives open81.heap x ∧ InReach open81.heap st'.hold x :=
  C81_exact_partial (content := content81) (st := open81) (op := .drop 0)
    (C81_nothing_lost (opened_ok opened81_start).1 opening81_run)
    (Rising.noCircle (life_keeps (P := fun s => Rising s.heap) (Q := fun _ => True)
      (fun _ _ _ _ hp hs => step_rising content81_linkFree hs hp) opening81 _ _ (fun _ _ => trivial)
      (opened_ok opened81_start).2 opening81_run)) hs x

/-- **Archives without links.**  Start with nodes just opened, each with a handle.  After every history exactly those nodes
are there that can be reached from the handles left, and nothing at all once the last handle is gone. -/
theorem C81_no_links {content : Content} (hl : ∀ s f, content s = .ok f → Spec.Forest.All NoLink f) {st st' : Life}
    {ops : List LifeOp} (h0 : ∀ i c, st.heap.cell i = some c → c.kids = [] ∧ i ∈ st.hold)
    (hr : st.run content ops = some st') :
    (∀ x, Lives st'.heap x → InReach st'.heap st'.hold x) ∧ (st'.hold = [] → ∀ x, ¬ Lives st'.heap x) := by
  have h1 := C81_nothing_lost (opened_ok h0).1 hr
  have h2 : Rising st'.heap := life_keeps (P := fun s => Rising s.heap) (Q := fun _ => True)
    (fun _ _ _ _ hp hs => step_rising hl hs hp) ops st st' (fun _ _ => trivial) (opened_ok h0).2 hr
  have h3 : ∀ x, Lives st'.heap x → InReach st'.heap st'.hold x := fun x hx => lives_inReach h1 h2.noCircle hx
  refine ⟨h3, fun he x hx => ?_⟩
  have := h3 x hx
  rw [he] at this
  have none : ∀ y, ¬ InReach st'.heap [] y := by
    intro y hy
    induction hy with
    | handle _ h => cases h
    | child _ _ _ _ _ ih => exact ih
  exact none x this

example : opened81.run content81 (opening81 ++ [.forget 0]) =
    some ⟨[some ⟨"Base".toList, .file false 0, none, []⟩, none,
      some ⟨"a.img".toList, .image true 2, some 1, [("x".toList, 3)]⟩, some ⟨"x".toList, .other 5, some 2, []⟩], [2, 0]⟩ := by
  decide +kernel

example : opened81.run content81 (opening81 ++ [.drop 2, .drop 0]) = some ⟨[none, none, none, none], []⟩ := by
  decide +kernel

example (st' : Life) (hr : opened81.run content81 (opening81 ++ [.drop 0]) = some st') (x : Nat) (hx : Lives st'.heap x) :
    InReach st'.heap st'.hold x :=
  (C81_no_links content81_linkFree opened81_start hr).1 x hx

/-! ## circles -/

/-- **Nodes in a circle are never freed.**  Nodes each of which is a child of one of them stay, whatever handles are dropped,
until one of them is parsed or forgotten. -/
theorem C81_ring {content : Content} {st st' : Life} {ops : List LifeOp} {R : Nat → Prop} (hR : Ring st.heap R)
    (ho : ∀ op ∈ ops, ∀ i, R i → ¬ changes op i) (hr : st.run content ops = some st') : Ring st'.heap R :=
  life_keeps (P := fun s => Ring s.heap R) (fun _ _ _ hq hp hs => step_ring hs hp hq) ops st st' ho hR hr

/-- **Exactly what leaks.**  Once all handles are dropped, the nodes left are those in or below a circle. -/
theorem C81_left_over {content : Content} {st st' : Life} {ops : List LifeOp} (hn : NothingLost st)
    (ho : ∀ op ∈ ops, handlesOnly op = true) (hr : st.run content ops = some st') (he : st'.hold = []) (x : Nat) :
    Lives st'.heap x ↔ ∃ R : Nat → Prop, R x ∧ Ring st.heap R := by
  have hsub : ∀ i c, st'.heap.cell i = some c → st.heap.cell i = some c := by
    refine life_keeps (content := content) (P := fun s => ∀ i c, s.heap.cell i = some c → st.heap.cell i = some c)
      (Q := fun op => handlesOnly op = true) ?_ ops st st' ho (fun _ _ h => h) hr
    intro s s' op hq hp hs i c hc
    have := (C81_kept hs).2 i c hc
    cases op with
    | get j path => exact hp i c this
    | parent j => exact hp i c this
    | drop j => exact hp i c this
    | parse j => cases hq
    | forget j => cases hq
  constructor
  · intro hx
    refine ⟨Lives st'.heap, hx, fun j hj => ⟨?_, ?_⟩⟩
    · obtain ⟨c, hc⟩ := hj
      exact ⟨c, hsub j c hc⟩
    · rcases C81_nothing_lost hn hr j hj with h1 | ⟨p, n, c, hc, hk⟩
      · rw [he] at h1; cases h1
      · exact ⟨p, n, ⟨c, hc⟩, c, hsub p c hc, hk⟩
  · rintro ⟨R, hx, hR⟩
    refine (C81_ring hR (fun op hop i _ => ?_) hr x hx).1
    cases op with
    | get j path => exact id
    | parent j => exact id
    | drop j => exact id
    | parse j => cases ho _ hop
    | forget j => cases ho _ hop

/-- an image with a folder that holds a link to the image -/
def circle81 : Content := fun _ => .ok (.node "d".toList (.other 1) (.node "l".toList (.uol (some "..".toList)) .nil .nil) .nil)

/-- the image parsed -/
def ring81 : Life :=
  ⟨[some ⟨"i".toList, .image true 7, none, [("d".toList, 1)]⟩, some ⟨"d".toList, .other 1, some 0, [("l".toList, 0)]⟩, none], [0]⟩

theorem ring81_ring : Ring ring81.heap (fun j => j = 0 ∨ j = 1) := by
  rintro j (rfl | rfl)
  · exact ⟨⟨_, rfl⟩, 1, "l".toList, .inr rfl, _, rfl, by decide⟩
  · exact ⟨⟨_, rfl⟩, 0, "d".toList, .inl rfl, _, rfl, by decide⟩

example (st' : Life) (hr : ring81.run circle81 [.get 0 "d".toList, .drop 1, .drop 0] = some st') :
    Ring st'.heap (fun j => j = 0 ∨ j = 1) :=
  C81_ring ring81_ring (by
    intro op ho i _
    simp only [List.mem_cons, List.not_mem_nil, or_false] at ho
    rcases ho with rfl | rfl | rfl <;> exact id) hr

theorem ring81_lost : NothingLost ring81 := by
  rintro i ⟨c, hc⟩
  match i with
  | 0 => exact .inl (by decide)
  | 1 => exact .inr ⟨0, "d".toList, _, rfl, by decide⟩
  | 2 => simp [NHeap.cell, ring81] at hc
  | n + 3 => simp [NHeap.cell, ring81] at hc

example (st' : Life) (hr : ring81.run circle81 [.drop 0] = some st') (he : st'.hold = []) : Lives st'.heap 1 :=
  (C81_left_over ring81_lost (by decide) hr he 1).2 ⟨_, .inr rfl, ring81_ring⟩

example (st' : Life) (hs : ring81.step circle81 (.drop 0) = some st') : Lives st'.heap 1 :=
  (C81_exact (content := circle81) (st := ring81) (op := .drop 0) ring81_lost hs 1).2 ⟨fun j => j = 0 ∨ j = 1, .inr rfl, fun j hj =>
    ⟨(ring81_ring j hj).1, .inr (ring81_ring j hj).2⟩⟩

/-- **A link to a node above leaks.**  An image that holds a link to itself is opened, parsed, and its only handle dropped:
the image and the folder stay in memory, and no handle is left to free them by.  Forgetting first frees all. -/
theorem C81_leak_counterexample :
    (⟨[some ⟨"i".toList, .image false 7, none, []⟩], [0]⟩ : Life).run circle81 [.parse 0] = some ring81 ∧
    ring81.run circle81 [.drop 0] = some ⟨ring81.heap, []⟩ ∧
    (∀ op, (⟨ring81.heap, []⟩ : Life).step circle81 op = some ⟨ring81.heap, []⟩) ∧
    ring81.run circle81 [.forget 0, .drop 0] = some ⟨[none, none, none], []⟩ := by
  refine ⟨by decide +kernel, by decide +kernel, fun op => ?_, by decide +kernel⟩
  cases op with
  | get i path => exact (C81_handles circle81 ⟨ring81.heap, []⟩ i).1 List.not_mem_nil _ (.inl ⟨path, rfl⟩)
  | parent i => exact (C81_handles circle81 ⟨ring81.heap, []⟩ i).1 List.not_mem_nil _ (.inr (.inl rfl))
  | drop i => exact (C81_handles circle81 ⟨ring81.heap, []⟩ i).1 List.not_mem_nil _ (.inr (.inr (.inl rfl)))
  | parse i => exact (C81_handles circle81 ⟨ring81.heap, []⟩ i).1 List.not_mem_nil _ (.inr (.inr (.inr (.inl rfl))))
  | forget i => exact (C81_handles circle81 ⟨ring81.heap, []⟩ i).1 List.not_mem_nil _ (.inr (.inr (.inr (.inr rfl))))

/-! ## paths -/

/-- **The full path stays** as long as all nodes on the way up can be reached from the handles left. -/
theorem C81_path_partial {content : Content} {st st' : Life} {op : LifeOp} (hs : st.step content op = some st') {i fuel : Nat}
    {l : List Nat} {ns : List (List Char)} (hc : Chain (heapAfter content st op) i l)
    (hn : NamesOf (heapAfter content st op) l ns) (hl : ∀ x ∈ l, InReach (heapAfter content st op) st'.hold x)
    (hf : l.length ≤ fuel + 1) : st'.heap.fullPath fuel i = some (slashed ns.reverse) := by
  obtain ⟨h1, h2⟩ := C81_kept hs
  generalize heapAfter content st op = h at *
  have hch : Chain st'.heap i l := by
    clear hn hf
    induction hc with
    | root i hp =>
      exact .root i fun p ⟨c, d, e1, e2, e3⟩ => hp p ⟨c, d, h2 _ _ e1, e2, h2 _ _ e3⟩
    | up i p l hp hc ih =>
      have hpl : p ∈ l := by cases hc <;> exact List.mem_cons_self
      obtain ⟨c, d, e1, e2, e3⟩ := hp
      refine .up i p l ⟨c, d, ?_, e2, ?_⟩ (ih fun x hx => hl x (List.mem_cons_of_mem _ hx))
      · rw [(h1 i (hl i List.mem_cons_self)).1]; exact e1
      · rw [(h1 p (hl p (List.mem_cons_of_mem _ hpl))).1]; exact e3
  have hna : NamesOf st'.heap l ns := by
    clear hc hf hch
    induction hn with
    | nil => exact .nil
    | cons i n l ns hca _ ih =>
      obtain ⟨c, e1, e2⟩ := hca
      exact .cons i n l ns ⟨c, by rw [(h1 i (hl i List.mem_cons_self)).1]; exact e1, e2⟩
        (ih fun x hx => hl x (List.mem_cons_of_mem _ hx))
  exact C25_full_path hch hna hf

example (st' : Life) (hs : open81.step content81 (.drop 2) = some st') :
    st'.heap.fullPath 9 3 = some "Base/Map/a.img/x".toList := by
  have hold : st'.hold = [0] := by
    obtain ⟨g, hg⟩ := (C81_handles content81 open81 2).2.2.2.1
    rw [hg] at hs; cases hs; rfl
  have r0 : InReach open81.heap st'.hold 0 := .handle 0 (by rw [hold]; decide)
  have r1 : InReach open81.heap st'.hold 1 := .child 0 1 "Map".toList r0 ⟨_, rfl, by decide⟩
  have r2 : InReach open81.heap st'.hold 2 := .child 1 2 "a.img".toList r1 ⟨_, rfl, by decide⟩
  have r3 : InReach open81.heap st'.hold 3 := .child 2 3 "x".toList r2 ⟨_, rfl, by decide⟩
  refine (C81_path_partial hs (l := [3, 2, 1, 0]) (ns := ["x".toList, "a.img".toList, "Map".toList, "Base".toList])
    (.up 3 2 _ ⟨_, _, rfl, rfl, rfl⟩ (.up 2 1 _ ⟨_, _, rfl, rfl, rfl⟩ (.up 1 0 _ ⟨_, _, rfl, rfl, rfl⟩ (.root 0 ?_))))
    (.cons _ _ _ _ ⟨_, rfl, rfl⟩ (.cons _ _ _ _ ⟨_, rfl, rfl⟩ (.cons _ _ _ _ ⟨_, rfl, rfl⟩ (.cons _ _ _ _ ⟨_, rfl, rfl⟩ .nil))))
    ?_ (by decide)).trans (by decide +kernel)
  · rintro p ⟨c, d, h1, h2, h3⟩
    cases h1; cases h2
  · intro x hx
    simp only [List.mem_cons, List.not_mem_nil, or_false] at hx
    rcases hx with rfl | rfl | rfl | rfl <;> assumption

/-- **A node does not keep its parents.**  The program has an image and drops the file: file and folder are freed, the full path
of the image is only its own name, and there is no parent to be had. -/
theorem C81_path_counterexample :
    open81.heap.fullPath 9 2 = some "Base/Map/a.img".toList ∧
    ∃ g, open81.run content81 [.drop 0] = some ⟨g, [2]⟩ ∧ g.fullPath 9 2 = some "a.img".toList ∧
      (⟨g, [2]⟩ : Life).step content81 (.parent 2) = some ⟨g, [2]⟩ := by
  refine ⟨by decide +kernel, [none, none, some ⟨"a.img".toList, .image true 2, some 1, [("x".toList, 3)]⟩,
    some ⟨"x".toList, .other 5, some 2, []⟩], by decide +kernel, by decide +kernel, by decide +kernel⟩

end Wz.Props
