import Verif.Node.WalkProps

/-!
# C28: walking whatever the links have made of the tree

Resolved links put a node in the children of a second node, so what is walked need not be a tree.  The walk then
goes along every way down: it gives a node to the callback once for each way that leads to it, and it ends
exactly if no way comes back to where it was.
-/

set_option autoImplicit false

namespace Wz.Spec

/-- some way down from the node goes round in a circle -/
def Circular (h : NHeap) (i : Nat) : Prop :=
  ∃ j ms ns, Steps h i ms j ∧ ns ≠ [] ∧ Steps h j ns j

/-- the same nodes with the same children, listed in another order (the children are in a hash map, which can
list them in any order) -/
structure SameChildren (h g : NHeap) : Prop where
  left : ∀ i c, h.cell i = some c → ∃ d, g.cell i = some d ∧ d.kids.Perm c.kids
  right : ∀ i d, g.cell i = some d → ∃ c, h.cell i = some c

end Wz.Spec

namespace Wz

open Wz.Spec

/-- the visits of the walk with the way to each: loop over the children -/
def waysLoop (rec : Nat → List (List (List Char) × Nat)) :
    List (List Char × Nat) → List (List (List Char) × Nat)
  | [] => []
  | (n, j) :: ks => (rec j).map (fun p => (n :: p.1, p.2)) ++ waysLoop rec ks

def waysOf (h : NHeap) : Nat → Nat → List (List (List Char) × Nat)
  | 0, _ => []
  | fuel + 1, i => ([], i) :: match h.cell i with
    | none => []
    | some c => waysLoop (waysOf h fuel) c.kids

theorem waysLoop_snd {h : NHeap} {fuel : Nat}
    (ih : ∀ i vs, h.walk fuel i = some vs → (waysOf h fuel i).map Prod.snd = vs) :
    ∀ (ks : List (List Char × Nat)) (vs : List Nat), NHeap.walkLoop (h.walk fuel) ks = some vs →
      (waysLoop (waysOf h fuel) ks).map Prod.snd = vs
  | [], vs, hw => by cases hw; rfl
  | (n, j) :: ks, vs, hw => by
    simp only [NHeap.walkLoop] at hw
    cases ha : h.walk fuel j with
    | none => rw [ha] at hw; cases hw
    | some a =>
      rw [ha] at hw
      dsimp only at hw
      cases hb : NHeap.walkLoop (h.walk fuel) ks with
      | none => rw [hb] at hw; cases hw
      | some b =>
        rw [hb] at hw
        cases hw
        simp only [waysLoop, List.map_append, List.map_map, waysLoop_snd ih ks b hb, ← ih j a ha]
        rfl

theorem waysOf_snd {h : NHeap} : ∀ (fuel i : Nat) (vs : List Nat), h.walk fuel i = some vs →
    (waysOf h fuel i).map Prod.snd = vs
  | 0, _, _, hw => by cases hw
  | fuel + 1, i, vs, hw => by
    simp only [NHeap.walk] at hw
    simp only [waysOf]
    cases hc : h.cell i with
    | none => rw [hc] at hw; cases hw; rfl
    | some c =>
      rw [hc] at hw
      dsimp only at hw ⊢
      cases hl : NHeap.walkLoop (h.walk fuel) c.kids with
      | none => rw [hl] at hw; cases hw
      | some ws =>
        rw [hl] at hw
        cases hw
        rw [List.map_cons, waysLoop_snd (waysOf_snd fuel) _ _ hl]

theorem mem_waysLoop {rec : Nat → List (List (List Char) × Nat)} {p : List (List Char) × Nat} :
    ∀ ks : List (List Char × Nat), p ∈ waysLoop rec ks ↔
      ∃ n j ns, (n, j) ∈ ks ∧ (ns, p.2) ∈ rec j ∧ p.1 = n :: ns
  | [] => by simp [waysLoop]
  | (n, j) :: ks => by
    rw [waysLoop, List.mem_append, mem_waysLoop ks]
    constructor
    · rintro (hp | ⟨n', j', ns, h1, h2, h3⟩)
      · obtain ⟨q, hq, rfl⟩ := List.mem_map.1 hp
        exact ⟨n, j, q.1, List.mem_cons_self .., hq, rfl⟩
      · exact ⟨n', j', ns, List.mem_cons_of_mem _ h1, h2, h3⟩
    · rintro ⟨n', j', ns, h1, h2, h3⟩
      rcases List.mem_cons.1 h1 with h1 | h1
      · cases h1
        exact .inl (List.mem_map.2 ⟨_, h2, by rw [← h3]⟩)
      · exact .inr ⟨n', j', ns, h1, h2, h3⟩

theorem mem_waysOf {h : NHeap} : ∀ (fuel i : Nat) (ns : List (List Char)) (x : Nat),
    (ns, x) ∈ waysOf h fuel i ↔ Steps h i ns x ∧ ns.length < fuel
  | 0, i, ns, x => by simp [waysOf]
  | fuel + 1, i, ns, x => by
    rw [waysOf, List.mem_cons]
    constructor
    · rintro (he | he)
      · cases he; exact ⟨.here i, by simp⟩
      · cases hc : h.cell i with
        | none => rw [hc] at he; cases he
        | some c =>
          rw [hc] at he
          obtain ⟨n, j, ms, h1, h2, h3⟩ := (mem_waysLoop _).1 he
          obtain ⟨h4, h5⟩ := (mem_waysOf fuel j ms x).1 h2
          dsimp only at h3
          subst h3
          exact ⟨.step i j x n ms ⟨c, hc, h1⟩ h4, by simpa using h5⟩
    · rintro ⟨hs, hl⟩
      cases hs with
      | here => exact .inl rfl
      | step _ j _ n ns hch hs =>
        obtain ⟨c, hc, hm⟩ := hch
        refine .inr ?_
        rw [hc]
        exact (mem_waysLoop _).2 ⟨n, j, ns, hm, (mem_waysOf fuel j ns x).2 ⟨hs, by simpa using hl⟩, rfl⟩

theorem waysLoop_nodup {rec : Nat → List (List (List Char) × Nat)} (hr : ∀ j, ((rec j).map Prod.fst).Nodup) :
    ∀ ks : List (List Char × Nat), (ks.map Prod.fst).Nodup → ((waysLoop rec ks).map Prod.fst).Nodup
  | [], _ => .nil
  | (n, j) :: ks, hk => by
    rw [List.map_cons, List.nodup_cons] at hk
    rw [waysLoop, List.map_append, List.nodup_append]
    refine ⟨?_, waysLoop_nodup hr ks hk.2, ?_⟩
    · have : ((rec j).map fun p => (n :: p.1, p.2)).map Prod.fst = ((rec j).map Prod.fst).map (n :: ·) := by
        rw [List.map_map, List.map_map]; rfl
      rw [this]
      exact List.Pairwise.map _ (fun a b hab he => hab (List.cons.inj he).2) (hr j)
    · rintro a ha b hb rfl
      obtain ⟨p, hp, rfl⟩ := List.mem_map.1 ha
      obtain ⟨p', hp', rfl⟩ := List.mem_map.1 hp
      obtain ⟨q, hq, he⟩ := List.mem_map.1 hb
      obtain ⟨n', j', ns, h1, _, h3⟩ := (mem_waysLoop ks).1 hq
      rw [h3] at he
      cases (List.cons.inj he).1
      exact hk.1 (List.mem_map.2 ⟨_, h1, rfl⟩)

theorem waysOf_nodup {h : NHeap} (hm : MapsOk h) : ∀ fuel i : Nat, ((waysOf h fuel i).map Prod.fst).Nodup
  | 0, _ => .nil
  | fuel + 1, i => by
    rw [waysOf]
    cases hc : h.cell i with
    | none => exact List.nodup_cons.2 ⟨by simp, .nil⟩
    | some c =>
      rw [List.map_cons, List.nodup_cons]
      refine ⟨fun hn => ?_, waysLoop_nodup (waysOf_nodup hm fuel) _ (hm i c hc)⟩
      obtain ⟨p, hp, he⟩ := List.mem_map.1 hn
      obtain ⟨n, j, ns, _, _, h3⟩ := (mem_waysLoop _).1 hp
      rw [he] at h3
      cases h3

/-- in the list of the ways, every way stands behind its beginnings -/
def PrefixFirst (l : List (List (List Char) × Nat)) : Prop :=
  l.Pairwise fun p q => ¬ ∃ ms, ms ≠ [] ∧ p.1 = q.1 ++ ms

theorem waysLoop_order {rec : Nat → List (List (List Char) × Nat)} (hr : ∀ j, PrefixFirst (rec j)) :
    ∀ ks : List (List Char × Nat), (ks.map Prod.fst).Nodup → PrefixFirst (waysLoop rec ks)
  | [], _ => .nil
  | (n, j) :: ks, hk => by
    rw [List.map_cons, List.nodup_cons] at hk
    refine List.pairwise_append.2 ⟨?_, waysLoop_order hr ks hk.2, ?_⟩
    · refine List.Pairwise.map _ (fun a b hab => ?_) (hr j)
      rintro ⟨ms, h1, h2⟩
      exact hab ⟨ms, h1, (List.cons.inj h2).2⟩
    · rintro a ha b hb ⟨ms, _, h2⟩
      obtain ⟨p', hp', rfl⟩ := List.mem_map.1 ha
      obtain ⟨n', j', ns, h1, _, h3⟩ := (mem_waysLoop ks).1 hb
      rw [h3] at h2
      cases (List.cons.inj h2).1
      exact hk.1 (List.mem_map.2 ⟨_, h1, rfl⟩)

theorem waysOf_order {h : NHeap} (hm : MapsOk h) : ∀ fuel i : Nat, PrefixFirst (waysOf h fuel i)
  | 0, _ => .nil
  | fuel + 1, i => by
    rw [waysOf]
    refine List.pairwise_cons.2 ⟨?_, ?_⟩
    · rintro a _ ⟨ms, h1, h2⟩
      exact h1 (List.append_eq_nil_iff.1 h2.symm).2
    · cases hc : h.cell i with
      | none => exact .nil
      | some c => exact waysLoop_order (waysOf_order hm fuel) _ (hm i c hc)

/-! ### the end of the walk -/

theorem walkLoop_none {rec : Nat → Option (List Nat)} :
    ∀ ks : List (List Char × Nat), NHeap.walkLoop rec ks = none → ∃ p ∈ ks, rec p.2 = none
  | [], h => by cases h
  | (n, j) :: ks, h => by
    simp only [NHeap.walkLoop] at h
    cases ha : rec j with
    | none => exact ⟨_, List.mem_cons_self .., ha⟩
    | some a =>
      rw [ha] at h
      dsimp only at h
      cases hb : NHeap.walkLoop rec ks with
      | none =>
        obtain ⟨p, hp, he⟩ := walkLoop_none ks hb
        exact ⟨p, List.mem_cons_of_mem _ hp, he⟩
      | some b => rw [hb] at h; cases h

theorem walk_none {h : NHeap} : ∀ fuel i : Nat, h.walk fuel i = none → ∃ ns x, Steps h i ns x ∧ ns.length = fuel
  | 0, i, _ => ⟨[], i, .here i, rfl⟩
  | fuel + 1, i, hw => by
    simp only [NHeap.walk] at hw
    cases hc : h.cell i with
    | none => rw [hc] at hw; cases hw
    | some c =>
      rw [hc] at hw
      dsimp only at hw
      cases hl : NHeap.walkLoop (h.walk fuel) c.kids with
      | some ws => rw [hl] at hw; cases hw
      | none =>
        obtain ⟨p, hp, he⟩ := walkLoop_none _ hl
        obtain ⟨ns, x, h1, h2⟩ := walk_none fuel p.2 he
        exact ⟨p.1 :: ns, x, .step i p.2 x p.1 ns ⟨c, hc, hp⟩ h1, by simp [h2]⟩

theorem nodup_below : ∀ (n : Nat) (l : List Nat), l.Nodup → (∀ x ∈ l, x < n) → l.length ≤ n
  | 0, l, _, h => by
    cases l with
    | nil => exact Nat.le_refl _
    | cons a l => exact absurd (h a (List.mem_cons_self ..)) (by omega)
  | n + 1, l, hl, h => by
    have h1 := nodup_below n (l.erase n) (hl.erase n) (fun x hx => by
      have h2 := h x (List.mem_of_mem_erase hx)
      have h3 := (hl.mem_erase_iff.1 hx).1
      omega)
    have := nodup_below.eraseLe l n
    omega
where
  eraseLe (l : List Nat) (n : Nat) : l.length ≤ (l.erase n).length + 1 := by
    by_cases hm : n ∈ l
    · rw [List.length_erase_of_mem hm]; omega
    · rw [List.erase_of_not_mem hm]; omega

theorem Steps_nodes {h : NHeap} {i x : Nat} {ns : List (List Char)} (hs : Steps h i ns x) :
    Circular h i ∨ ∃ l : List Nat, l.Nodup ∧ l.length = ns.length ∧ ∀ y ∈ l, y < h.length ∧ ∃ ms, Steps h i ms y := by
  induction hs with
  | here i => exact .inr ⟨[], .nil, rfl, fun y hy => by cases hy⟩
  | step i j k n ns hch _ ih =>
    rcases ih with ⟨j', ms, ns', h1, h2, h3⟩ | ⟨l, h1, h2, h3⟩
    · exact .inl ⟨j', n :: ms, ns', .step i j j' n ms hch h1, h2, h3⟩
    · by_cases hi : i ∈ l
      · obtain ⟨_, ms, hm⟩ := h3 i hi
        exact .inl ⟨i, [], n :: ms, .here i, by simp, .step i j i n ms hch hm⟩
      · refine .inr ⟨i :: l, List.nodup_cons.2 ⟨hi, h1⟩, by simp [h2], fun y hy => ?_⟩
        rcases List.mem_cons.1 hy with rfl | hy
        · obtain ⟨c, hc, _⟩ := hch
          exact ⟨cell_lt hc, [], .here y⟩
        · obtain ⟨h4, ms, h5⟩ := h3 y hy
          exact ⟨h4, n :: ms, .step i j y n ms hch h5⟩

theorem SameChildren_steps {h g : NHeap} (hg : SameChildren h g) {i x : Nat} {ns : List (List Char)}
    (hs : Steps h i ns x) : Steps g i ns x := by
  induction hs with
  | here i => exact .here i
  | step i j k n ns hch _ ih =>
    obtain ⟨c, hc, hm⟩ := hch
    obtain ⟨d, hd, hp⟩ := hg.left i c hc
    exact .step i j k n ns ⟨d, hd, hp.mem_iff.2 hm⟩ ih

theorem SameChildren_symm {h g : NHeap} (hg : SameChildren h g) : SameChildren g h :=
  ⟨fun i d hd => by
    obtain ⟨c, hc⟩ := hg.right i d hd
    obtain ⟨d', hd', hp⟩ := hg.left i c hc
    rw [hd] at hd'
    cases hd'
    exact ⟨c, hc, hp.symm⟩,
   fun i c hc => by
    obtain ⟨d, hd, _⟩ := hg.left i c hc
    exact ⟨d, hd⟩⟩

end Wz

namespace Wz.Props

open Wz Wz.Spec

/-- Whatever links have done to the tree: a walk that ends has called the callback once for each way down from
the node, with the node that way leads to, and with every way after the ways it goes on from. -/
theorem C28_once_per_way {h : NHeap} (hm : MapsOk h) {fuel i : Nat} {vs : List Nat} (hw : h.walk fuel i = some vs) :
    ∃ ws : List (List (List Char) × Nat), ws.map Prod.snd = vs ∧ (ws.map Prod.fst).Nodup ∧
      (∀ ns x, (ns, x) ∈ ws ↔ Steps h i ns x) ∧
      ∀ ns ms x y, ms ≠ [] → (ns, x) ∈ ws → (ns ++ ms, y) ∈ ws → ∃ a b, ws = a ++ (ns, x) :: b ∧ (ns ++ ms, y) ∈ b := by
  refine ⟨waysOf h fuel i, waysOf_snd _ _ _ hw, waysOf_nodup hm _ _, fun ns x => ?_, ?_⟩
  · rw [mem_waysOf]
    exact ⟨And.left, fun hs => ⟨hs, (walk_mem fuel i vs hw).2 ns x hs⟩⟩
  · intro ns ms x y hne hx hy
    obtain ⟨a, b, e⟩ := List.append_of_mem hx
    refine ⟨a, b, e, ?_⟩
    have ho := waysOf_order hm fuel i
    rw [e] at hy ho
    rcases List.mem_append.1 hy with hy | hy
    · exact absurd ⟨ms, hne, rfl⟩ ((List.pairwise_append.1 ho).2.2 _ hy _ (List.mem_cons_self ..))
    · rcases List.mem_cons.1 hy with hy | hy
      · have := congrArg Prod.fst hy
        exact absurd (List.append_right_eq_self.1 this) hne
      · exact hy

/-- The walk is never deeper than there are nodes, or it does not end at all. -/
theorem C28_depth {h : NHeap} {i : Nat} (hn : ¬ Circular h i) : ∃ vs, h.walk (h.length + 1) i = some vs := by
  cases hw : h.walk (h.length + 1) i with
  | some vs => exact ⟨vs, rfl⟩
  | none =>
    obtain ⟨ns, x, h1, h2⟩ := walk_none _ _ hw
    rcases Steps_nodes h1 with hc | ⟨l, h3, h4, h5⟩
    · exact absurd hc hn
    · have := nodup_below _ l h3 (fun y hy => (h5 y hy).1)
      omega

/-- The walk ends exactly if no way down from the node comes back to where it was. -/
theorem C28_ends_iff {h : NHeap} {i : Nat} : (∃ fuel vs, h.walk fuel i = some vs) ↔ ¬ Circular h i := by
  constructor
  · rintro ⟨fuel, vs, hw⟩ ⟨j, ms, ns, h1, h2, h3⟩
    rw [C28_circle_counterexample h1 h3 h2 fuel] at hw
    cases hw
  · intro hn
    exact ⟨h.length + 1, C28_depth hn⟩

/-- In whatever order the maps list the children, the walk ends or does not end, and it calls the callback
with the same nodes, each as often. -/
theorem C28_any_order {h g : NHeap} (hm : MapsOk h) (hg : SameChildren h g) {fuel i : Nat} {vs : List Nat}
    (hw : h.walk fuel i = some vs) : ∃ ws, g.walk fuel i = some ws ∧ ws.Perm vs := by
  have hmg : MapsOk g := fun j d hd => by
    obtain ⟨c, hc⟩ := hg.right j d hd
    obtain ⟨d', hd', hp⟩ := hg.left j c hc
    rw [hd] at hd'
    cases hd'
    exact (hp.map Prod.fst).nodup_iff.2 (hm j c hc)
  cases hw' : g.walk fuel i with
  | none =>
    obtain ⟨ns, x, h1, h2⟩ := walk_none _ _ hw'
    have := (walk_mem fuel i vs hw).2 ns x (SameChildren_steps (SameChildren_symm hg) h1)
    omega
  | some ws =>
    refine ⟨ws, rfl, ?_⟩
    have hnd : ∀ k : NHeap, MapsOk k → (waysOf k fuel i).Nodup := fun k hk =>
      List.Pairwise.imp (fun hab he => hab (by rw [he])) (List.pairwise_map.1 (waysOf_nodup hk fuel i))
    have := (List.perm_ext_iff_of_nodup (hnd g hmg) (hnd h hm)).2 (fun p => by
      obtain ⟨ns, x⟩ := p
      rw [mem_waysOf, mem_waysOf]
      exact ⟨fun ⟨a, b⟩ => ⟨SameChildren_steps (SameChildren_symm hg) a, b⟩,
        fun ⟨a, b⟩ => ⟨SameChildren_steps hg a, b⟩⟩)
    rw [← waysOf_snd _ _ _ hw, ← waysOf_snd _ _ _ hw']
    exact this.map Prod.snd

/-! ### the cases are met -/

/-- a folder with two names for one node, as a resolved link gives it -/
def twice28 : NHeap :=
  [some ⟨['r'], .other 1, none, [(['a'], 1), (['l'], 1)]⟩, some ⟨['a'], .other 2, some 0, [(['x'], 2)]⟩,
    some ⟨['x'], .other 3, some 1, []⟩]

theorem twice28_walk : twice28.walk 4 0 = some [0, 1, 2, 1, 2] := by decide +kernel

theorem twice28_maps : MapsOk twice28 := by
  intro i c hc
  match i, hc with
  | 0, hc => cases hc; decide +kernel
  | 1, hc => cases hc; decide +kernel
  | 2, hc => cases hc; decide +kernel
  | i + 3, hc => cases hc

example : ¬ Circular twice28 0 := C28_ends_iff.1 ⟨_, _, twice28_walk⟩

example := C28_once_per_way twice28_maps twice28_walk

/-- the same with the two names in the other order -/
def twice28b : NHeap :=
  [some ⟨['r'], .other 1, none, [(['l'], 1), (['a'], 1)]⟩, some ⟨['a'], .other 2, some 0, [(['x'], 2)]⟩,
    some ⟨['x'], .other 3, some 1, []⟩]

example : SameChildren twice28 twice28b where
  left i c hc := by
    match i, hc with
    | 0, hc => cases hc; exact ⟨_, rfl, .swap _ _ _⟩
    | 1, hc => cases hc; exact ⟨_, rfl, .refl _⟩
    | 2, hc => cases hc; exact ⟨_, rfl, .refl _⟩
    | i + 3, hc => cases hc
  right i d hd := by
    match i, hd with
    | 0, _ => exact ⟨_, rfl⟩
    | 1, _ => exact ⟨_, rfl⟩
    | 2, _ => exact ⟨_, rfl⟩
    | i + 3, hd => cases hd

/-- a node that is its own child is in a circle -/
example : Circular [some ⟨['r'], .other 1, none, [(['l'], 0)]⟩] 0 :=
  ⟨0, [], [['l']], .here 0, by simp, .step 0 0 0 ['l'] [] ⟨_, rfl, by simp⟩ (.here 0)⟩

end Wz.Props
