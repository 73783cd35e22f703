import Verif.Node.WalkSpec
import Verif.Node.ParseLemmas

/-!
Lemmas about walks.
-/

set_option autoImplicit false

namespace Wz

open Spec

/-! ## without parsing -/

theorem walkLoop_drawn {h : NHeap} : ∀ (f : IdForest) (fuel : Nat), Drawn h f → f.depth ≤ fuel →
    NHeap.walkLoop (h.walk fuel) f.roots = some f.ids
  | .nil, _, _, _ => rfl
  | .cons n i ks rest, fuel, ⟨⟨c, hc, hk⟩, h1, h2⟩, hd => by
    simp only [IdForest.depth] at hd
    obtain ⟨fuel, rfl⟩ : ∃ q, fuel = q + 1 := ⟨fuel - 1, by omega⟩
    have ih1 := walkLoop_drawn ks fuel h1 (by omega)
    have ih2 := walkLoop_drawn rest (fuel + 1) h2 (by omega)
    have hw : h.walk (fuel + 1) i = some (i :: ks.ids) := by
      simp only [NHeap.walk, hc, hk, ih1]
    simp only [IdForest.roots, NHeap.walkLoop, hw, ih2, IdForest.ids]
    rfl

theorem walkLoop_mem {rec : Nat → Option (List Nat)} : ∀ (ps : List (List Char × Nat)) (vs : List Nat),
    NHeap.walkLoop rec ps = some vs →
    (∀ p ∈ ps, ∃ a, rec p.2 = some a) ∧ ∀ x, x ∈ vs ↔ ∃ p ∈ ps, ∃ a, rec p.2 = some a ∧ x ∈ a
  | [], vs, h => by cases h; simp
  | (n, j) :: ps, vs, h => by
    simp only [NHeap.walkLoop] at h
    cases ha : rec j with
    | none => rw [ha] at h; cases h
    | some a =>
      rw [ha] at h
      dsimp only at h
      cases hb : NHeap.walkLoop rec ps with
      | none => rw [hb] at h; cases h
      | some b =>
        rw [hb] at h
        cases h
        obtain ⟨h1, h2⟩ := walkLoop_mem ps b hb
        refine ⟨?_, ?_⟩
        · intro p hp
          rcases List.mem_cons.1 hp with rfl | hp
          · exact ⟨a, ha⟩
          · exact h1 p hp
        · intro x
          simp only [List.mem_append, List.mem_cons]
          rw [h2 x]
          constructor
          · rintro (hx | ⟨p, hp, hx⟩)
            · exact ⟨(n, j), .inl rfl, a, ha, hx⟩
            · exact ⟨p, .inr hp, hx⟩
          · rintro ⟨p, rfl | hp, a', ha', hx⟩
            · rw [ha] at ha'; cases ha'; exact .inl hx
            · exact .inr ⟨p, hp, a', ha', hx⟩

theorem walk_mem {h : NHeap} : ∀ (fuel i : Nat) (vs : List Nat), h.walk fuel i = some vs →
    (∀ x, x ∈ vs ↔ ∃ ns, Steps h i ns x) ∧ ∀ ns x, Steps h i ns x → ns.length < fuel
  | 0, _, _, h => by cases h
  | fuel + 1, i, vs, hw => by
    simp only [NHeap.walk] at hw
    cases hc : h.cell i with
    | none =>
      rw [hc] at hw
      cases hw
      have hst : ∀ ns x, Steps h i ns x → ns = [] ∧ x = i := by
        intro ns x hs
        cases hs with
        | here => exact ⟨rfl, rfl⟩
        | step _ j _ n ns hch _ =>
          obtain ⟨c, hc', _⟩ := hch
          rw [hc] at hc'; cases hc'
      refine ⟨fun x => ⟨fun hx => ⟨[], ?_⟩, fun ⟨ns, hs⟩ => ?_⟩, fun ns x hs => ?_⟩
      · rw [List.mem_singleton.1 hx]; exact .here i
      · rw [(hst ns x hs).2]; exact List.mem_singleton.2 rfl
      · rw [(hst ns x hs).1]; simp
    | some c =>
      rw [hc] at hw
      dsimp only at hw
      cases hl : NHeap.walkLoop (h.walk fuel) c.kids with
      | none => rw [hl] at hw; cases hw
      | some ws =>
        rw [hl] at hw
        cases hw
        obtain ⟨h1, h2⟩ := walkLoop_mem c.kids ws hl
        refine ⟨fun x => ?_, fun ns x hs => ?_⟩
        · rw [List.mem_cons, h2]
          constructor
          · rintro (rfl | ⟨p, hp, a, ha, hx⟩)
            · exact ⟨[], .here _⟩
            · obtain ⟨ns, hs⟩ := ((walk_mem fuel p.2 a ha).1 x).1 hx
              exact ⟨p.1 :: ns, .step i p.2 x p.1 ns ⟨c, hc, hp⟩ hs⟩
          · rintro ⟨ns, hs⟩
            cases hs with
            | here => exact .inl rfl
            | step _ j _ n ns hch hs =>
              obtain ⟨c', hc', hm⟩ := hch
              rw [hc] at hc'; cases hc'
              obtain ⟨a, ha⟩ := h1 _ hm
              exact .inr ⟨(n, j), hm, a, ha, ((walk_mem fuel j a ha).1 x).2 ⟨ns, hs⟩⟩
        · cases hs with
          | here => simp
          | step _ j _ n ns hch hs =>
            obtain ⟨c', hc', hm⟩ := hch
            rw [hc] at hc'; cases hc'
            obtain ⟨a, ha⟩ := h1 _ hm
            have := (walk_mem fuel j a ha).2 ns x hs
            simp only [List.length_cons]; omega

theorem roots_sub_ids : ∀ (f : IdForest) (p : List Char × Nat), p ∈ f.roots → p.2 ∈ f.ids
  | .nil, p, hp => by cases hp
  | .cons n i ks rest, p, hp => by
    simp only [IdForest.roots, List.mem_cons] at hp
    simp only [IdForest.ids, List.mem_cons, List.mem_append]
    rcases hp with rfl | hp
    · exact .inl rfl
    · exact .inr (.inr (roots_sub_ids rest p hp))

theorem drawn_order {h : NHeap} : ∀ (f : IdForest), Drawn h f → ∀ p n c, p ∈ f.ids → ChildOf h p n c →
    ∃ a b, f.ids = a ++ p :: b ∧ c ∈ b
  | .nil, _, _, _, _, hp, _ => by cases hp
  | .cons m i ks rest, ⟨⟨cc, hc, hk⟩, h1, h2⟩, p, n, c, hp, hch => by
    simp only [IdForest.ids, List.mem_cons, List.mem_append] at hp ⊢
    rcases hp with rfl | hp | hp
    · obtain ⟨c', hc', hm⟩ := hch
      rw [hc] at hc'
      cases hc'
      rw [hk] at hm
      exact ⟨[], ks.ids ++ rest.ids, rfl, List.mem_append_left _ (roots_sub_ids ks _ hm)⟩
    · obtain ⟨a, b, e, hb⟩ := drawn_order ks h1 p n c hp hch
      exact ⟨i :: a, b ++ rest.ids, by rw [e]; simp, List.mem_append_left _ hb⟩
    · obtain ⟨a, b, e, hb⟩ := drawn_order rest h2 p n c hp hch
      exact ⟨i :: (ks.ids ++ a), b, by rw [e]; simp, hb⟩

/-! ## with parsing -/

theorem stands_agree {h g : NHeap} : ∀ (f : Forest) (ps : List (List Char × Nat)) (L : List Nat),
    (∀ x ∈ L, g.cell x = h.cell x) → Stands h f ps L → Stands g f ps L
  | .nil, _, _, _, hs => hs
  | .node n k ks rest, ps, L, ha, ⟨j, ps', c, La, Lb, h1, h2, h3, h4, h5, h6, h7⟩ => by
    subst h2
    refine ⟨j, ps', c, La, Lb, h1, rfl, ?_, h4, h5, stands_agree ks _ La ?_ h6, stands_agree rest _ Lb ?_ h7⟩
    · rw [ha j List.mem_cons_self]; exact h3
    · intro x hx; exact ha x (List.mem_cons_of_mem _ (List.mem_append_left _ hx))
    · intro x hx; exact ha x (List.mem_cons_of_mem _ (List.mem_append_right _ hx))

theorem stands_lt {h : NHeap} : ∀ (f : Forest) (ps : List (List Char × Nat)) (L : List Nat), Stands h f ps L →
    ∀ x ∈ L, x < h.length
  | .nil, _, _, ⟨_, hL⟩, x, hx => by subst hL; cases hx
  | .node n k ks rest, ps, L, ⟨j, ps', c, La, Lb, h1, h2, h3, h4, h5, h6, h7⟩, x, hx => by
    subst h2
    rcases List.mem_cons.1 hx with rfl | hx
    · exact cell_lt h3
    · rcases List.mem_append.1 hx with hx | hx
      · exact stands_lt ks _ La h6 x hx
      · exact stands_lt rest _ Lb h7 x hx

theorem roots_names : ∀ (f : Forest) (b : Nat), (f.roots b).map Prod.fst = f.names
  | .nil, _ => rfl
  | .node n k ks rest, b => by simp only [Forest.roots, List.map_cons, Forest.names, roots_names rest]

theorem names_nodup : ∀ (f : Forest), Spec.Forest.Distinct f → f.names.Nodup
  | .nil, _ => List.nodup_nil
  | .node n k ks rest, ⟨h1, _, h3⟩ => List.nodup_cons.2 ⟨h1, names_nodup rest h3⟩

theorem childInsertAll_distinct {ν : Type} : ∀ (l m : List (List Char × ν)), ((m ++ l).map Prod.fst).Nodup →
    childInsertAll m l = m ++ l
  | [], m, _ => by rw [List.append_nil]; rfl
  | x :: l, m, h => by
    have hx : childInsert m x.1 x.2 = m ++ [x] := by
      unfold childInsert
      rw [if_neg]
      intro e
      obtain ⟨y, hy, e⟩ := List.any_eq_true.1 e
      have e : y.1 = x.1 := by simpa using e
      rw [List.map_append, List.map_cons] at h
      exact (List.nodup_append.1 h).2.2 y.1 (List.mem_map_of_mem hy) x.1 List.mem_cons_self e
    show childInsertAll (childInsert m x.1 x.2) l = _
    rw [hx, childInsertAll_distinct l (m ++ [x]) (by rw [List.append_assoc]; exact h), List.append_assoc]
    rfl

theorem childInsertAll_roots (f : Forest) (b : Nat) (hd : Spec.Forest.Distinct f) :
    childInsertAll [] (f.roots b) = f.roots b := by
  rw [childInsertAll_distinct _ [] (by rw [List.nil_append, roots_names]; exact names_nodup f hd), List.nil_append]

theorem placed_stands {h : NHeap} {p : Nat} : ∀ (f : Forest) (b : Nat), Spec.Forest.Distinct f → Placed h p b f →
    Stands h f (f.roots b) (List.range' b f.size)
  | .nil, b, _, _ => ⟨rfl, rfl⟩
  | .node n k ks rest, b, ⟨h1, h2, h3⟩, hp => by
    have hl : (rest.names.any (· == n)) = false := by
      rw [Bool.eq_false_iff]
      intro e
      obtain ⟨y, hy, e⟩ := List.any_eq_true.1 e
      have : y = n := by simpa using e
      exact h1 (this ▸ hy)
    refine ⟨b, rest.roots (b + 1 + ks.size), ⟨n, k, some p, childInsertAll [] (ks.roots (b + 1))⟩,
      List.range' (b + 1) ks.size, List.range' (b + 1 + ks.size) rest.size, rfl, ?_, ?_, rfl, rfl, ?_, ?_⟩
    · rw [List.range'_append_1]
      simp only [Forest.size]
      rw [show 1 + ks.size + rest.size = (ks.size + rest.size) + 1 by omega, List.range'_succ]
    · have := hp 0 (by simp [Forest.size]; omega)
      rw [Nat.add_zero] at this
      rw [this]
      simp [Forest.cells, hl]
    · rw [childInsertAll_roots ks _ h2]
      refine placed_stands (p := b) ks (b + 1) h2 ?_
      intro q hq
      have := hp (1 + q) (by simp [Forest.size]; omega)
      rw [show b + (1 + q) = b + 1 + q by omega] at this
      rw [this]
      simp only [Forest.cells, hl]
      rw [show 1 + q = q + 1 by omega, List.getElem?_cons_succ, List.getElem?_append_left (by rw [cells_length]; omega)]
      simp
    · refine placed_stands (p := p) rest (b + 1 + ks.size) h3 ?_
      intro q hq
      have := hp (1 + ks.size + q) (by simp [Forest.size]; omega)
      rw [show b + (1 + ks.size + q) = b + 1 + ks.size + q by omega] at this
      rw [this]
      simp only [Forest.cells]
      rw [show 1 + ks.size + q = (ks.size + q) + 1 by omega, List.getElem?_cons_succ,
        List.getElem?_append_right (by rw [cells_length]; omega), cells_length]
      congr 2
      omega

/-- what a walk over the nodes `L` has done -/
structure Walked (h g : NHeap) (L vs : List Nat) : Prop where
  len : h.length ≤ g.length
  frame : ∀ x, x < h.length → x ∉ L → g.cell x = h.cell x
  nodup : vs.Nodup
  sub : ∀ x ∈ vs, x ∈ L ∨ (h.length ≤ x ∧ x < g.length)
  all : ∀ x ∈ L, x ∈ vs
  new : ∀ x, h.length ≤ x → x < g.length → x ∈ vs
  images : ∀ x ∈ vs, ∀ c, g.cell x = some c → ∀ s, c.kind ≠ .image true s

/-- name and kind of what the callback gets -/
def seenAs (vs : List (Nat × Option NCell)) : List (Option (List Char × NKind)) :=
  vs.map fun v => v.2.map fun c => (c.name, c.kind)

/-- these nodes are left, made of old and new ones -/
def LeftOver (h g : NHeap) (F' : Forest) (ps : List (List Char × Nat)) (L : List Nat) : Prop :=
  ∃ L', Stands g F' ps L' ∧ L'.Nodup ∧ ∀ x ∈ L', x ∈ L ∨ (h.length ≤ x ∧ x < g.length)

/-- the walk over the trees of `F`, whatever the heap, sees `obs` and leaves `F'` -/
def WalkSees (content : Content) (F : Forest) (obs : List (List Char × NKind)) (F' : Forest) : Prop :=
  ∀ (h : NHeap) (ps : List (List Char × Nat)) (L held : List Nat), Stands h F ps L → L.Nodup →
    (∀ x ∈ held, x < h.length ∧ x ∉ L) → ∃ N vs g,
      (∀ fuel, N ≤ fuel → NHeap.forceLoop (fun g j => NHeap.walkForce content fuel g held j) h ps = .ok (vs, g)) ∧
      seenAs vs = obs.map some ∧ Walked h g L (vs.map Prod.fst) ∧ LeftOver h g F' ps L

theorem isImage_iff_kind {h : NHeap} {i : Nat} {c : NCell} (hc : h.cell i = some c) :
    h.isImage i = true ↔ ∃ p s, c.kind = .image p s := by
  obtain ⟨n, k, p, ks⟩ := c
  unfold NHeap.isImage
  rw [hc]
  cases k <;> simp

theorem force_node {content : Content} {F1 rest F1' rest' : Forest} {n : List Char} {a b : List (List Char × NKind)}
    {h : NHeap} {j : Nat} {ps' : List (List Char × Nat)} {La Lb L1 held : List Nat} {c1 : NCell}
    (W1 : WalkSees content F1 a F1') (W2 : WalkSees content rest b rest')
    (hnd : (j :: (La ++ Lb)).Nodup) (hheld : ∀ x ∈ held, x < h.length ∧ x ∉ j :: (La ++ Lb))
    (hjl : j < h.length) (hLa : ∀ x ∈ La, x < h.length)
    (hpan : panicOf (h.parse content j).1 = none)
    (hc1 : (h.parse content j).2.cell j = some c1) (hn1 : c1.name = n)
    (hS1 : Stands (h.parse content j).2 F1 c1.kids L1) (hL1 : L1.Nodup)
    (hL1a : ∀ x ∈ L1, x ∈ La ∨ (h.length ≤ x ∧ x < (h.parse content j).2.length))
    (hL1b : ∀ x ∈ La, x ∈ L1)
    (hL1c : ∀ x, h.length ≤ x → x < (h.parse content j).2.length → x ∈ L1)
    (hS2 : Stands h rest ps' Lb) :
    ∃ N vs g,
      (∀ fuel, N ≤ fuel → NHeap.forceLoop (fun g j => NHeap.walkForce content fuel g held j) h ((n, j) :: ps') = .ok (vs, g)) ∧
      seenAs vs = ((n, c1.kind) :: (a ++ b)).map some ∧ Walked h g (j :: (La ++ Lb)) (vs.map Prod.fst) ∧
      LeftOver h g (leftNode n c1.kind F1' rest') ((n, j) :: ps') (j :: (La ++ Lb)) := by
  have hlen1 : h.length ≤ (h.parse content j).2.length := parse_length
  have hfr1 : ∀ x, x < h.length → x ≠ j → (h.parse content j).2.cell x = h.cell x := fun x hx hxj => parse_frame hx hxj
  generalize hh1 : (h.parse content j).2 = h1 at *
  obtain ⟨hj, hab⟩ := List.nodup_cons.1 hnd
  obtain ⟨hLan, hLbn, hdis⟩ := List.nodup_append.1 hab
  have hja : j ∉ La := fun e => hj (List.mem_append_left _ e)
  have hjb : j ∉ Lb := fun e => hj (List.mem_append_right _ e)
  have hLb := stands_lt rest ps' Lb hS2
  have hjL1 : j ∉ L1 := by
    intro e
    rcases hL1a j e with e | e
    · exact hja e
    · omega
  have hjheld : j ∉ held := fun e => (hheld j e).2 List.mem_cons_self
  obtain ⟨N1, v1, g1, hf1, hs1, R1, M1, hM1, hM1n, hM1s⟩ := W1 h1 c1.kids L1 (j :: held) hS1 hL1 (by
    intro x hx
    rcases List.mem_cons.1 hx with rfl | hx
    · exact ⟨by omega, hjL1⟩
    · obtain ⟨h3, h4⟩ := hheld x hx
      refine ⟨by omega, fun e => ?_⟩
      rcases hL1a x e with e | e
      · exact h4 (List.mem_cons_of_mem _ (List.mem_append_left _ e))
      · omega)
  have hg1j : g1.cell j = some c1 := by rw [R1.frame j (by omega) hjL1]; exact hc1
  have hg2 : ∃ g2, g2 = (if g1.isImage j then g1.unparse j else g1) ∧ g2.length = g1.length ∧
      (∀ x, x ≠ j → g2.cell x = g1.cell x) ∧ (∀ c, g2.cell j = some c → ∀ s, c.kind ≠ .image true s) ∧
      ∀ p s, c1.kind = .image p s → g2.cell j = some { c1 with kind := .image false s, kids := [] } := by
    refine ⟨_, rfl, ?_⟩
    by_cases hi : g1.isImage j = true
    · obtain ⟨p, s, hk⟩ := (isImage_iff_kind hg1j).1 hi
      rw [if_pos hi]
      refine ⟨unparse_length, fun x hx => unparse_frame hx, ?_, ?_⟩
      · intro c hc s'
        rw [unparse_cell hg1j (k := .image false s) (by rw [hk]; rfl)] at hc
        cases hc
        exact fun e => by cases e
      · intro p' s' hk'
        exact unparse_cell hg1j (k := .image false s') (by rw [hk']; rfl)
    · rw [if_neg hi]
      refine ⟨rfl, fun _ _ => rfl, ?_, fun p s e => absurd ((isImage_iff_kind hg1j).2 ⟨_, _, e⟩) hi⟩
      intro c hc s' e
      rw [hg1j] at hc
      cases hc
      exact hi ((isImage_iff_kind hg1j).2 ⟨_, _, e⟩)
  obtain ⟨g2, hg2e, hg2l, hg2f, hg2i, hg2u⟩ := hg2
  have hg2n : (∀ p s, c1.kind ≠ .image p s) → g2 = g1 := by
    intro hne
    rw [hg2e, if_neg]
    intro hi
    obtain ⟨p, s, hk⟩ := (isImage_iff_kind hg1j).1 hi
    exact hne p s hk
  have hl1 := R1.len
  have hg2b : ∀ x, x < h.length → x ≠ j → x ∉ La → g2.cell x = h.cell x := by
    intro x hx hxj hxa
    rw [hg2f x hxj, R1.frame x (by omega) (fun e => by
      rcases hL1a x e with e | e
      · exact hxa e
      · omega), hfr1 x hx hxj]
  have hS2' : Stands g2 rest ps' Lb := stands_agree rest ps' Lb (fun x hx =>
    hg2b x (hLb x hx) (fun e => hjb (e ▸ hx)) (fun e => hdis x e x hx rfl)) hS2
  obtain ⟨N2, v2, g3, hf2, hs2, R2, M2, hM2, hM2n, hM2s⟩ := W2 g2 ps' Lb held hS2' hLbn (by
    intro x hx
    obtain ⟨h3, h4⟩ := hheld x hx
    exact ⟨by omega, fun e => h4 (List.mem_cons_of_mem _ (List.mem_append_right _ e))⟩)
  have hl2 := R2.len
  have hv1 : ∀ x ∈ v1.map Prod.fst, x ∈ La ∨ (h.length ≤ x ∧ x < g1.length) := by
    intro x hx
    rcases R1.sub x hx with hx | hx
    · rcases hL1a x hx with hx | hx
      · exact .inl hx
      · exact .inr (by omega)
    · exact .inr (by omega)
  have hM1v : ∀ x ∈ M1, x ∈ La ∨ (h.length ≤ x ∧ x < g1.length) := by
    intro x hx
    rcases hM1s x hx with hx | hx
    · rcases hL1a x hx with hx | hx
      · exact .inl hx
      · exact .inr (by omega)
    · exact .inr (by omega)
  have hjM1 : j ∉ M1 := by
    intro e
    rcases hM1v j e with e | e
    · exact hja e
    · omega
  have hjM2 : j ∉ M2 := by
    intro e
    rcases hM2s j e with e | e
    · exact hjb e
    · omega
  have hM12 : ∀ x ∈ M1, x ∉ M2 ∧ x ∉ Lb := by
    intro x hx
    rcases hM1v x hx with h3 | h3
    · have h4 := hLa x h3
      refine ⟨fun e => ?_, fun e => hdis x h3 x e rfl⟩
      rcases hM2s x e with e | e
      · exact hdis x h3 x e rfl
      · omega
    · refine ⟨fun e => ?_, fun e => ?_⟩
      · rcases hM2s x e with e | e
        · have := hLb x e; omega
        · omega
      · have := hLb x e; omega
  have hj3 : g3.cell j = g2.cell j := R2.frame j (by omega) hjb
  refine ⟨max N1 N2 + 1, (j, some c1) :: v1 ++ v2, g3, ?_, ?_, ?_, ?_⟩
  · intro fuel hfu
    obtain ⟨fuel, rfl⟩ : ∃ q, fuel = q + 1 := ⟨fuel - 1, by omega⟩
    have hw : NHeap.walkForce content (fuel + 1) h held j = .ok ((j, some c1) :: v1, g2) := by
      simp only [NHeap.walkForce]
      rw [if_neg hjheld, hpan]
      dsimp only
      rw [hh1, hc1]
      dsimp only
      rw [hf1 fuel (by omega), hg2e]
    simp only [NHeap.forceLoop]
    rw [hw]
    dsimp only
    rw [hf2 (fuel + 1) (by omega)]
  · simp only [seenAs, List.map_append, List.map_cons, List.cons_append, Option.map_some] at hs1 hs2 ⊢
    rw [hs1, hs2, hn1]
  · refine ⟨by omega, ?_, ?_, ?_, ?_, ?_, ?_⟩
    · intro x hx hxL
      simp only [List.mem_cons, List.mem_append, not_or] at hxL
      rw [R2.frame x (by omega) hxL.2.2, hg2b x hx hxL.1 hxL.2.1]
    · simp only [List.map_append, List.map_cons, List.cons_append]
      refine List.nodup_cons.2 ⟨?_, List.nodup_append.2 ⟨R1.nodup, R2.nodup, ?_⟩⟩
      · intro e
        rcases List.mem_append.1 e with e | e
        · rcases hv1 j e with e | e
          · exact hja e
          · omega
        · rcases R2.sub j e with e | e
          · exact hjb e
          · omega
      · intro x hx y hy exy
        subst exy
        rcases R2.sub x hy with hy | hy
        · rcases hv1 x hx with hx | hx
          · exact hdis x hx x hy rfl
          · have := hLb x hy; omega
        · rcases hv1 x hx with hx | hx
          · have := hLa x hx; omega
          · omega
    · intro x hx
      simp only [List.map_append, List.map_cons, List.cons_append, List.mem_cons, List.mem_append] at hx ⊢
      rcases hx with hx | hx | hx
      · exact .inl (.inl hx)
      · rcases hv1 x hx with hx | hx
        · exact .inl (.inr (.inl hx))
        · exact .inr (by omega)
      · rcases R2.sub x hx with hx | hx
        · exact .inl (.inr (.inr hx))
        · exact .inr (by omega)
    · intro x hx
      simp only [List.map_append, List.map_cons, List.cons_append, List.mem_cons, List.mem_append] at hx ⊢
      rcases hx with hx | hx | hx
      · exact .inl hx
      · exact .inr (.inl (R1.all x (hL1b x hx)))
      · exact .inr (.inr (R2.all x hx))
    · intro x hx1 hx2
      simp only [List.map_append, List.map_cons, List.cons_append, List.mem_cons, List.mem_append]
      right
      by_cases h3 : x < h1.length
      · exact .inl (R1.all x (hL1c x hx1 h3))
      · by_cases h4 : x < g1.length
        · exact .inl (R1.new x (by omega) h4)
        · exact .inr (R2.new x (by omega) hx2)
    · intro x hx c hc s
      simp only [List.map_append, List.map_cons, List.cons_append, List.mem_cons, List.mem_append] at hx
      rcases hx with hx | hx | hx
      · subst hx
        rw [R2.frame x (by omega) hjb] at hc
        exact hg2i c hc s
      · have hxb : x ∉ Lb := by
          intro e
          rcases hv1 x hx with h3 | h3
          · exact hdis x h3 x e rfl
          · have := hLb x e; omega
        have hxj : x ≠ j := by
          intro e
          subst e
          rcases hv1 x hx with h3 | h3
          · exact hja h3
          · omega
        have hxl : x < g2.length := by
          rcases hv1 x hx with h3 | h3
          · have := hLa x h3; omega
          · omega
        rw [R2.frame x hxl hxb, hg2f x hxj] at hc
        exact R1.images x hx c hc s
      · exact R2.images x hx c hc s
  · by_cases hi : ∃ p s, c1.kind = .image p s
    · obtain ⟨p, s, hk⟩ := hi
      refine ⟨j :: ([] ++ M2), ?_, ?_, ?_⟩
      · rw [hk]
        exact ⟨j, ps', { c1 with kind := .image false s, kids := [] }, [], M2, rfl, rfl, by rw [hj3]; exact hg2u p s hk, hn1, rfl, ⟨rfl, rfl⟩, hM2⟩
      · exact List.nodup_cons.2 ⟨hjM2, hM2n⟩
      · intro x hx
        simp only [List.nil_append, List.mem_cons, List.mem_append] at hx ⊢
        rcases hx with hx | hx
        · exact .inl (.inl hx)
        · rcases hM2s x hx with hx | hx
          · exact .inl (.inr (.inr hx))
          · exact .inr (by omega)
    · have hne : ∀ p s, c1.kind ≠ .image p s := fun p s e => hi ⟨p, s, e⟩
      have he := hg2n hne
      have hln : leftNode n c1.kind F1' rest' = .node n c1.kind F1' rest' := by
        unfold leftNode
        split
        · rename_i s hk
          exact absurd hk (hne _ s)
        · rfl
      rw [hln]
      refine ⟨j :: (M1 ++ M2), ⟨j, ps', c1, M1, M2, rfl, rfl, by rw [hj3, he]; exact hg1j, hn1, rfl, ?_, hM2⟩, ?_, ?_⟩
      · refine stands_agree F1' _ M1 (fun x hx => ?_) hM1
        have hlt := stands_lt F1' _ M1 hM1 x hx
        rw [R2.frame x (by omega) (hM12 x hx).2, he]
      · refine List.nodup_cons.2 ⟨?_, List.nodup_append.2 ⟨hM1n, hM2n, ?_⟩⟩
        · intro e
          rcases List.mem_append.1 e with e | e
          · exact hjM1 e
          · exact hjM2 e
        · intro x hx y hy exy
          subst exy
          exact (hM12 x hx).1 hy
      · intro x hx
        simp only [List.mem_cons, List.mem_append] at hx ⊢
        rcases hx with hx | hx | hx
        · exact .inl (.inl hx)
        · rcases hM1v x hx with hx | hx
          · exact .inl (.inr (.inl hx))
          · exact .inr (by omega)
        · rcases hM2s x hx with hx | hx
          · exact .inl (.inr (.inr hx))
          · exact .inr (by omega)

theorem quiet_plan {content : Content} {k : NKind} (hq : Quiet k) : k.plan content = none := by
  cases hq <;> rfl

theorem parsedKind_plan {content : Content} {k : NKind} {s : Nat} {f : Forest} (hk : ReadsFrom k s)
    (hs : content s = .ok f) : k.plan content = some (.ok (f, parsedKind k)) := by
  cases hk <;> simp [NKind.plan, hs, Except.map, parsedKind]

theorem error_plan {content : Content} {k : NKind} {s : Nat} {e : Err} (hk : ReadsFrom k s)
    (hs : content s = .error e) : k.plan content = some (.error e) := by
  cases hk <;> simp [NKind.plan, hs, Except.map]

theorem walkSees_nil {content : Content} : WalkSees content .nil [] .nil := by
  rintro h ps L held ⟨rfl, rfl⟩ _ _
  refine ⟨0, [], h, fun _ _ => rfl, rfl, ⟨Nat.le_refl _, fun _ _ _ => rfl, List.nodup_nil, ?_, ?_, ?_, ?_⟩,
    [], ⟨rfl, rfl⟩, List.nodup_nil, ?_⟩
  · intro x hx; cases hx
  · intro x hx; cases hx
  · intro x h1 h2; omega
  · intro x hx; cases hx
  · intro x hx; cases hx

theorem force_leaves {content : Content} {P : NKind → Prop} {F F' : Forest} {obs : List (List Char × NKind)}
    (hs : Leaves content P F obs F') : WalkSees content F obs F' := by
  induction hs with
  | nil => exact walkSees_nil
  | quiet n k ks rest ks' rest' a b hq _ _ _ ih1 ih2 =>
    rintro h ps L held ⟨j, ps', c, La, Lb, rfl, rfl, hc, hn, hk, hSa, hSb⟩ hnd hheld
    have hpar : h.parse content j = (.ok (), h) := by rw [parse_eq hc, hk, quiet_plan hq]
    have := force_node (held := held) (j := j) (n := n) (L1 := La) (c1 := c) ih1 ih2 hnd hheld (cell_lt hc)
      (stands_lt ks _ La hSa) (by rw [hpar]; rfl) (by rw [hpar]; exact hc) hn (by rw [hpar]; exact hSa)
      (List.nodup_append.1 (List.nodup_cons.1 hnd).2).1 (fun x hx => .inl hx) (fun x hx => hx)
      (fun x h1 h2 => by rw [hpar] at h2; dsimp only at h2; omega) hSb
    rw [hk] at this
    exact this
  | spent n s ks rest ks' rest' a b _ _ ih1 ih2 =>
    rintro h ps L held ⟨j, ps', c, La, Lb, rfl, rfl, hc, hn, hk, hSa, hSb⟩ hnd hheld
    have hi := cell_lt hc
    have hpar : h.parse content j = (.ok (), fresh h j { c with kind := .dir true true s } .nil) := by
      rw [parse_eq hc, hk]
      rfl
    have hcj : (h.parse content j).2.cell j = some { c with kind := .dir true true s } := by
      rw [hpar, fresh_old hi hi, if_pos rfl]
    have hlen : (h.parse content j).2.length = h.length := by rw [hpar, fresh_length]; rfl
    have hS1 : Stands (h.parse content j).2 ks c.kids La := stands_agree ks _ La (fun x hx =>
      parse_frame (stands_lt ks _ La hSa x hx)
        (fun e => (List.nodup_cons.1 hnd).1 (e ▸ List.mem_append_left _ hx))) hSa
    exact force_node (held := held) (j := j) (n := n) (L1 := La) (c1 := { c with kind := .dir true true s }) ih1 ih2
      hnd hheld hi (stands_lt ks _ La hSa) (by rw [hpar]; rfl) hcj hn hS1
      (List.nodup_append.1 (List.nodup_cons.1 hnd).2).1 (fun x hx => .inl hx) (fun x hx => hx)
      (fun x h1 h2 => by omega) hSb
  | read n k s f rest f' rest' a b hr hs hl hd _ _ ih1 ih2 =>
    rintro h ps L held ⟨j, ps', c, La, Lb, rfl, rfl, hc, hn, hk, ⟨hck, rfl⟩, hSb⟩ hnd hheld
    have hi := cell_lt hc
    have hpar : h.parse content j =
        (.ok (), fresh h j { c with kind := parsedKind k, kids := f.roots h.length } f) := by
      rw [parse_eq hc, hk, parsedKind_plan hr hs]
      dsimp only
      rw [uols_linkFree f _ hl, hck, childInsertAll_roots f _ hd]
      rfl
    have hcj : (h.parse content j).2.cell j = some { c with kind := parsedKind k, kids := f.roots h.length } := by
      rw [hpar, fresh_old hi hi, if_pos rfl]
    have hlen : (h.parse content j).2.length = h.length + f.size := by rw [hpar, fresh_length]
    have hS1 : Stands (h.parse content j).2 f (f.roots h.length) (List.range' h.length f.size) := by
      rw [hpar]
      exact placed_stands (p := j) f h.length hd (placed_fresh f)
    exact force_node (held := held) (j := j) (n := n) (L1 := List.range' h.length f.size)
      (c1 := { c with kind := parsedKind k, kids := f.roots h.length }) ih1 ih2
      hnd hheld hi (fun x hx => by cases hx) (by rw [hpar]; rfl) hcj hn hS1
      List.nodup_range' (fun x hx => .inr (by rw [hlen]; simpa using List.mem_range'_1.1 hx)) (fun x hx => by cases hx)
      (fun x h1 h2 => by rw [hlen] at h2; exact List.mem_range'_1.2 ⟨h1, h2⟩) hSb
  | broken n k s e rest rest' b hr hs he _ ih2 =>
    rintro h ps L held ⟨j, ps', c, La, Lb, rfl, rfl, hc, hn, hk, ⟨hck, rfl⟩, hSb⟩ hnd hheld
    have hpar : h.parse content j = (.error e, h) := by rw [parse_eq hc, hk, error_plan hr hs]
    have := force_node (held := held) (j := j) (n := n) (L1 := []) (c1 := c) walkSees_nil ih2 hnd hheld (cell_lt hc)
      (fun x hx => by cases hx) (by rw [hpar]; simp [panicOf, he]) (by rw [hpar]; exact hc) hn
      (by rw [hpar]; exact ⟨hck, rfl⟩) List.nodup_nil (fun x hx => .inl hx) (fun x hx => hx)
      (fun x h1 h2 => by rw [hpar] at h2; dsimp only at h2; omega) hSb
    rw [hk] at this
    exact this

theorem seen_leaves {content : Content} {F : Forest} {obs : List (List Char × NKind)} (hs : Seen content F obs) :
    ∃ F', Leaves content (fun _ => True) F obs F' := by
  induction hs with
  | nil => exact ⟨_, .nil⟩
  | quiet n k ks rest a b hq _ _ ih1 ih2 =>
    obtain ⟨_, h1⟩ := ih1
    obtain ⟨_, h2⟩ := ih2
    exact ⟨_, .quiet n k ks rest _ _ a b hq trivial h1 h2⟩
  | spent n s ks rest a b _ _ ih1 ih2 =>
    obtain ⟨_, h1⟩ := ih1
    obtain ⟨_, h2⟩ := ih2
    exact ⟨_, .spent n s ks rest _ _ a b h1 h2⟩
  | read n k s f rest a b hr hs hl hd _ _ ih1 ih2 =>
    obtain ⟨_, h1⟩ := ih1
    obtain ⟨_, h2⟩ := ih2
    exact ⟨_, .read n k s f rest _ _ a b hr hs hl hd h1 h2⟩
  | broken n k s e rest b hr hs he _ ih2 =>
    obtain ⟨_, h2⟩ := ih2
    exact ⟨_, .broken n k s e rest _ b hr hs he h2⟩

theorem seen_leaves_shut {content : Content} (hc : ReadsShut content) {F : Forest} {obs : List (List Char × NKind)}
    (hs : Seen content F obs) (hF : Spec.Forest.All NotOpen F) : ∃ F', Leaves content NotOpen F obs F' := by
  induction hs with
  | nil => exact ⟨_, .nil⟩
  | quiet n k ks rest a b hq _ _ ih1 ih2 =>
    obtain ⟨_, h1⟩ := ih1 hF.2.1
    obtain ⟨_, h2⟩ := ih2 hF.2.2
    exact ⟨_, .quiet n k ks rest _ _ a b hq hF.1 h1 h2⟩
  | spent n s ks rest a b _ _ ih1 ih2 =>
    obtain ⟨_, h1⟩ := ih1 hF.2.1
    obtain ⟨_, h2⟩ := ih2 hF.2.2
    exact ⟨_, .spent n s ks rest _ _ a b h1 h2⟩
  | read n k s f rest a b hr hs hl hd _ _ ih1 ih2 =>
    obtain ⟨_, h1⟩ := ih1 (hc s f hs)
    obtain ⟨_, h2⟩ := ih2 hF.2.2
    exact ⟨_, .read n k s f rest _ _ a b hr hs hl hd h1 h2⟩
  | broken n k s e rest b hr hs he _ ih2 =>
    obtain ⟨_, h2⟩ := ih2 hF.2.2
    exact ⟨_, .broken n k s e rest _ b hr hs he h2⟩

/-- where no image was open before, a second walk sees the same and leaves the same -/
theorem leaves_again {content : Content} {F F' : Forest} {obs : List (List Char × NKind)}
    (hs : Leaves content (NotOpen) F obs F') :
    Leaves content (NotOpen) F' obs F' := by
  induction hs with
  | nil => exact .nil
  | quiet n k ks rest ks' rest' a b hq hp _ _ ih1 ih2 =>
    have := Leaves.quiet n k ks' rest' ks' rest' a b hq hp ih1 ih2
    cases hq with
    | image s => exact absurd rfl (hp s)
    | _ => exact this
  | spent n s ks rest ks' rest' a b _ _ ih1 ih2 =>
    exact Leaves.quiet n (.dir true true s) ks' rest' ks' rest' a b (.dir true s) (fun _ e => by cases e) ih1 ih2
  | read n k s f rest f' rest' a b hr hs hl hd h1 _ ih1 ih2 =>
    cases hr with
    | dir => exact Leaves.quiet n (.dir true true s) f' rest' f' rest' a b (.dir true s) (fun _ e => by cases e) ih1 ih2
    | file => exact Leaves.quiet n (.file true s) f' rest' f' rest' a b (.file s) (fun _ e => by cases e) ih1 ih2
    | msFile => exact Leaves.quiet n (.msFile true s) f' rest' f' rest' a b (.msFile s) (fun _ e => by cases e) ih1 ih2
    | image => exact Leaves.read n (.image false s) s f rest' f' rest' a b (.image s) hs hl hd h1 ih2
    | msImage => exact Leaves.read n (.image false s) s f rest' f' rest' a b (.image s) hs hl hd h1 ih2
  | broken n k s e rest rest' b hr hs he _ ih2 =>
    have := Leaves.broken n k s e rest' rest' b hr hs he ih2
    cases hr <;> exact this

/-- one call of the loop is one walk -/
theorem walk_of_loop {content : Content} {h g : NHeap} {fuel i : Nat} {name : List Char} {vs : List (Nat × Option NCell)}
    (hl : NHeap.forceLoop (fun g j => NHeap.walkForce content fuel g [] j) h [(name, i)] = .ok (vs, g)) :
    h.walkForce content fuel [] i = .ok (vs, g) := by
  simp only [NHeap.forceLoop] at hl
  cases hw : h.walkForce content fuel [] i with
  | error e => rw [hw] at hl; cases hl
  | ok r =>
    obtain ⟨a, g'⟩ := r
    rw [hw] at hl
    simp only [List.append_nil] at hl
    exact hl

/-- where a walk leaves what it found, any number of walks see the same -/
theorem walks_again {content : Content} {F : Forest} {obs : List (List Char × NKind)} (hl : Leaves content NotOpen F obs F)
    {name : List Char} {i : Nat} : ∀ (n : Nat) (h : NHeap) (L : List Nat), Stands h F [(name, i)] L → L.Nodup →
      ∃ g, WalkedTimes content i (fun vs => vs.map (fun v => v.2.map fun c => (c.name, c.kind)) = obs.map some ∧
          (vs.map Prod.fst).Nodup) n h g ∧
        h.length ≤ g.length ∧ (∀ x, x < h.length → x ∉ L → g.cell x = h.cell x) ∧ LeftOver h g F [(name, i)] L
  | 0, h, L, hS, hn => ⟨h, .none h, Nat.le_refl _, fun _ _ _ => rfl, L, hS, hn, fun _ hx => .inl hx⟩
  | n + 1, h, L, hS, hn => by
    obtain ⟨N, vs, h', h1, h2, R, L', hS', hn', hL'⟩ := force_leaves hl h [(name, i)] L [] hS hn (fun x hx => by cases hx)
    obtain ⟨g, w, hle, hfr, L2, hS2, hn2, hL2⟩ := walks_again hl n h' L' hS' hn'
    have hle0 := R.len
    refine ⟨g, .next n N vs h h' g (fun fuel hf => walk_of_loop (h1 fuel hf)) ⟨h2, R.nodup⟩ w, by omega, ?_, L2, hS2, hn2, ?_⟩
    · intro x hx hxL
      rw [hfr x (by omega) (fun hx' => by
        rcases hL' x hx' with h3 | h3
        · exact hxL h3
        · omega)]
      exact R.frame x hx hxL
    · intro x hx
      rcases hL2 x hx with h3 | h3
      · rcases hL' x h3 with h4 | h4
        · exact .inl h4
        · exact .inr (by omega)
      · exact .inr (by omega)

end Wz
