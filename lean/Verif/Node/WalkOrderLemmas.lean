import Verif.Node.WalkProps
import Verif.Node.WalkOrderSpec

/-!
# Lemmas for walks in any order
-/

set_option autoImplicit false

namespace Wz

open Spec

/-- children in the order of the list: the walk of `NHeap.walkForce` -/
theorem walkForceIn_list (content : Content) : ∀ (fuel : Nat) (h : NHeap) (held : List Nat) (i : Nat),
    h.walkForceIn content (fun _ _ l => l) fuel held i = h.walkForce content fuel held i
  | 0, _, _, _ => rfl
  | fuel + 1, h, held, i => by
    have ih := walkForceIn_list content fuel
    rw [NHeap.walkForceIn, NHeap.walkForce]
    rw [show (fun g j => NHeap.walkForceIn content (fun _ _ l => l) fuel g (i :: held) j) =
      fun g j => NHeap.walkForce content fuel g (i :: held) j from funext fun g => funext fun j => ih g _ j]
    rfl

theorem lift_perm {α β : Type} {f : α → β} {b b' : List β} (hp : b'.Perm b) :
    ∀ l : List α, l.map f = b' → ∃ l2 : List α, l2.Perm l ∧ l2.map f = b := by
  induction hp with
  | nil => exact fun l hl => ⟨l, .refl _, hl⟩
  | cons x _ ih =>
    intro l hl
    cases l with
    | nil => cases hl
    | cons y l =>
      obtain ⟨h1, h2⟩ := List.cons.inj hl
      obtain ⟨l2, p1, p2⟩ := ih l h2
      exact ⟨y :: l2, p1.cons y, by rw [List.map_cons, h1, p2]⟩
  | swap x y r =>
    intro l hl
    match l, hl with
    | a :: c :: l, hl =>
      obtain ⟨h1, h2⟩ := List.cons.inj hl
      obtain ⟨h2, h3⟩ := List.cons.inj h2
      exact ⟨c :: a :: l, .swap _ _ _, by rw [List.map_cons, List.map_cons, h1, h2, h3]⟩
  | trans _ _ ih1 ih2 =>
    intro l hl
    obtain ⟨l1, p1, p2⟩ := ih1 l hl
    obtain ⟨l2, q1, q2⟩ := ih2 l1 p2
    exact ⟨l2, q1.trans p1, q2⟩

theorem parentsFirst_nil : ParentsFirst [] := by
  intro a x c b h
  cases a <;> cases h

theorem parentsFirst_append {u v : List (Nat × Option NCell)} (hu : ParentsFirst u) (hv : ParentsFirst v) : ParentsFirst (u ++ v) := by
  intro a x c b h p hp
  rcases List.append_eq_append_iff.1 h with ⟨a', rfl, h2⟩ | ⟨c', h1, h2⟩
  · exact hv a' x c b h2 p hp
  · cases c' with
    | nil =>
      rw [List.append_nil] at h1
      exact hv [] x c b h2.symm p hp
    | cons y c' =>
      obtain ⟨rfl, hb⟩ := List.cons.inj h2
      have hb : b = c' ++ v := hb
      rw [hb, List.map_append]
      exact List.mem_append_left _ (hu a x c c' h1 p hp)

theorem parentsFirst_cons {j : Nat} {c : NCell} {v : List (Nat × Option NCell)} (hk : ∀ p ∈ c.kids, p.2 ∈ v.map Prod.fst)
    (hv : ParentsFirst v) : ParentsFirst ((j, some c) :: v) := by
  intro a x d b h p hp
  cases a with
  | nil => cases h; exact hk p hp
  | cons y a =>
    exact hv a x d b (List.cons.inj h).2 p hp

theorem walked_append {h g k : NHeap} {L M v w : List Nat} (hL : ∀ x ∈ L, x < h.length) (hM : ∀ x ∈ M, x < h.length)
    (hd : ∀ x ∈ L, x ∉ M) (A : Walked h g L v) (B : Walked g k M w) : Walked h k (L ++ M) (v ++ w) := by
  have a := A.len
  have b := B.len
  refine ⟨by omega, ?_, ?_, ?_, ?_, ?_, ?_⟩
  · intro x hx hn
    rw [List.mem_append, not_or] at hn
    rw [B.frame x (by omega) hn.2, A.frame x hx hn.1]
  · refine List.nodup_append.2 ⟨A.nodup, B.nodup, ?_⟩
    rintro x hx _ hy rfl
    rcases A.sub x hx with h1 | h1 <;> rcases B.sub x hy with h2 | h2
    · exact hd x h1 h2
    · have := hL x h1; omega
    · have := hM x h2; omega
    · omega
  · intro x hx
    rw [List.mem_append] at hx ⊢
    rcases hx with hx | hx
    · rcases A.sub x hx with h1 | h1
      · exact .inl (.inl h1)
      · exact .inr (by omega)
    · rcases B.sub x hx with h1 | h1
      · exact .inl (.inr h1)
      · exact .inr (by omega)
  · intro x hx
    rw [List.mem_append] at hx ⊢
    exact hx.imp (A.all x) (B.all x)
  · intro x h1 h2
    rw [List.mem_append]
    by_cases h3 : x < g.length
    · exact .inl (A.new x h1 h3)
    · exact .inr (B.new x (by omega) h2)
  · intro x hx c hc s
    by_cases hw : x ∈ w
    · exact B.images x hw c hc s
    · rcases List.mem_append.1 hx with hx | hx
      · have hlt : x < g.length := by
          rcases A.sub x hx with h1 | h1
          · have := hL x h1; omega
          · exact h1.2
        rw [B.frame x hlt fun hm => hw (B.all x hm)] at hc
        exact A.images x hx c hc s
      · exact absurd hx hw

/-- a tree with node `j` on top -/
def Stands1 (h : NHeap) (j : Nat) (n : List Char) (k : NKind) (ks : Forest) (La : List Nat) : Prop :=
  ∃ c, h.cell j = some c ∧ c.name = n ∧ c.kind = k ∧ Stands h ks c.kids La

theorem stands1_agree {h g : NHeap} {j : Nat} {n : List Char} {k : NKind} {ks : Forest} {La : List Nat}
    (ha : ∀ x ∈ j :: La, g.cell x = h.cell x) (S : Stands1 h j n k ks La) : Stands1 g j n k ks La := by
  obtain ⟨c, h1, h2, h3, h4⟩ := S
  exact ⟨c, by rw [ha j List.mem_cons_self, h1], h2, h3, stands_agree ks _ La (fun x hx => ha x (List.mem_cons_of_mem _ hx)) h4⟩

theorem stands1_lt {h : NHeap} {j : Nat} {n : List Char} {k : NKind} {ks : Forest} {La : List Nat} (S : Stands1 h j n k ks La) :
    ∀ x ∈ j :: La, x < h.length := by
  obtain ⟨c, h1, h2, h3, h4⟩ := S
  intro x hx
  rcases List.mem_cons.1 hx with rfl | hx
  · exact cell_lt h1
  · exact stands_lt ks _ La h4 x hx

theorem stands_roots {h : NHeap} : ∀ (f : Forest) (ps : List (List Char × Nat)) (L : List Nat), Stands h f ps L → ∀ p ∈ ps, p.2 ∈ L
  | .nil, _, _, ⟨h1, _⟩, p, hp => by rw [h1] at hp; cases hp
  | .node n k ks rest, _, _, ⟨j, ps', c, La, Lb, h1, h2, _, _, _, _, h3⟩, p, hp => by
    subst h1 h2
    rcases List.mem_cons.1 hp with rfl | hp
    · exact List.mem_cons_self
    · exact List.mem_cons_of_mem _ (List.mem_append_right _ (stands_roots rest ps' Lb h3 p hp))

/-- the kind of a node after the walk -/
def leftKind : NKind → NKind
  | .image _ s => .image false s
  | k => k

/-- what is below it after the walk -/
def leftKids : NKind → Forest → Forest
  | .image _ _, _ => .nil
  | _, ks => ks

theorem leftNode_eq (n : List Char) (k : NKind) (ks rest : Forest) : leftNode n k ks rest = .node n (leftKind k) (leftKids k ks) rest := by
  cases k <;> rfl

/-- the tree that is left, made of old and new nodes -/
def Left1 (h g : NHeap) (j : Nat) (n : List Char) (k : NKind) (ks : Forest) (La : List Nat) : Prop :=
  ∃ M, Stands1 g j n k ks M ∧ (j :: M).Nodup ∧ ∀ x ∈ M, x ∈ La ∨ (h.length ≤ x ∧ x < g.length)

/-- the walk over one tree, whatever the heap, sees `a` and leaves a node of the kind `k'` with `ks'` below it -/
def NodeSees (content : Content) (ord : KidOrder) (n : List Char) (k : NKind) (ks : Forest) (a : List (List Char × NKind)) (k' : NKind)
    (ks' : Forest) : Prop :=
  ∀ (h : NHeap) (j : Nat) (La held : List Nat), Stands1 h j n k ks La → (j :: La).Nodup → (∀ x ∈ held, x < h.length ∧ x ∉ j :: La) →
    ∃ N c v u g, (∀ fuel, N ≤ fuel → h.walkForceIn content ord fuel held j = .ok ((j, some c) :: v, g)) ∧ u.Perm v ∧
      seenAs ((j, some c) :: u) = a.map some ∧ Walked h g (j :: La) (j :: v.map Prod.fst) ∧ ParentsFirst ((j, some c) :: v) ∧
      Left1 h g j n k' ks' La

/-- trees next to each other, each of which the walk sees, and the trees it leaves -/
inductive Row (content : Content) (ord : KidOrder) (h : NHeap) :
    List (List Char × Nat) → List Nat → List (List Char × NKind) → Forest → Prop
  | nil : Row content ord h [] [] [] .nil
  | cons (j : Nat) (ps : List (List Char × Nat)) (n : List Char) (k : NKind) (ks : Forest) (k' : NKind) (ks' rest' : Forest) (La Lb : List Nat)
      (a b : List (List Char × NKind)) : Stands1 h j n k ks La → NodeSees content ord n k ks a k' ks' → Row content ord h ps Lb b rest' →
      Row content ord h ((n, j) :: ps) (j :: (La ++ Lb)) (a ++ b) (.node n k' ks' rest')

theorem row_agree {content : Content} {ord : KidOrder} {h g : NHeap} {ps : List (List Char × Nat)} {L : List Nat}
    {obs : List (List Char × NKind)} {F' : Forest} (R : Row content ord h ps L obs F') :
    (∀ x ∈ L, g.cell x = h.cell x) → Row content ord g ps L obs F' := by
  induction R with
  | nil => exact fun _ => .nil
  | cons j ps n k ks k' ks' rest' La Lb a b h1 h2 _ ih =>
    intro ha
    refine .cons j ps n k ks k' ks' rest' La Lb a b (stands1_agree (fun x hx => ha x ?_) h1) h2 (ih fun x hx => ha x ?_)
    · rcases List.mem_cons.1 hx with rfl | hx
      · exact List.mem_cons_self
      · exact List.mem_cons_of_mem _ (List.mem_append_left _ hx)
    · exact List.mem_cons_of_mem _ (List.mem_append_right _ hx)

theorem row_lt {content : Content} {ord : KidOrder} {h : NHeap} {ps : List (List Char × Nat)} {L : List Nat}
    {obs : List (List Char × NKind)} {F' : Forest} (R : Row content ord h ps L obs F') : ∀ x ∈ L, x < h.length := by
  induction R with
  | nil => intro x hx; cases hx
  | cons j ps n k ks k' ks' rest' La Lb a b h1 _ _ ih =>
    intro x hx
    have := stands1_lt h1
    rcases List.mem_cons.1 hx with rfl | hx
    · exact this x List.mem_cons_self
    · rcases List.mem_append.1 hx with hx | hx
      · exact this x (List.mem_cons_of_mem _ hx)
      · exact ih x hx

theorem perm_blocks (i j : Nat) (A B C : List Nat) : (j :: (B ++ (i :: (A ++ C)))).Perm (i :: (A ++ (j :: (B ++ C)))) := by
  rw [List.perm_iff_count]
  intro z
  simp only [List.count_cons, List.count_append]
  omega

/-- trees that stand in one order stand in the other one as well -/
def Back (F' : Forest) (ps : List (List Char × Nat)) (F'' : Forest) (ps' : List (List Char × Nat)) : Prop :=
  ∀ (g : NHeap) (M' : List Nat), Stands g F'' ps' M' → ∃ M, Stands g F' ps M ∧ M.Perm M'

theorem row_perm {content : Content} {ord : KidOrder} {h : NHeap} {ps ps' : List (List Char × Nat)} (hp : ps.Perm ps') :
    ∀ {L : List Nat} {obs : List (List Char × NKind)} {F' : Forest}, Row content ord h ps L obs F' →
    ∃ L' obs' F'', Row content ord h ps' L' obs' F'' ∧ L'.Perm L ∧ obs'.Perm obs ∧ Back F' ps F'' ps' := by
  induction hp with
  | nil => exact fun R => ⟨_, _, _, R, .refl _, .refl _, fun g M' S => ⟨M', S, .refl _⟩⟩
  | cons x _ ih =>
    intro L obs F' R
    cases R with
    | cons j ps n k ks k' ks' rest' La Lb a b h1 h2 h3 =>
      obtain ⟨L', obs', F'', r, p, q, s⟩ := ih h3
      refine ⟨_, _, _, .cons j _ n k ks k' ks' F'' La L' a obs' h1 h2 r, (p.append_left La).cons j, q.append_left a, ?_⟩
      rintro g M' ⟨j', ps2, c, Ma, Mb, e, rfl, s1, s2, s3, s4, s5⟩
      cases e
      obtain ⟨M, m1, m2⟩ := s g Mb s5
      exact ⟨j :: (Ma ++ M), ⟨j, _, c, Ma, M, rfl, rfl, s1, s2, s3, s4, m1⟩, (m2.append_left Ma).cons j⟩
  | swap x y r =>
    intro L obs F' R
    cases R with
    | cons j ps n k ks l ls rest La Lb a b h1 h2 h3 =>
      cases h3 with
      | cons j' _ n' k' ks' l' ls' rest' La' Lb' a' b' h1' h2' h3' =>
        refine ⟨_, _, _, .cons j' _ n' k' ks' l' ls' _ La' _ a' _ h1' h2' (.cons j _ n k ks l ls rest' La Lb' a b' h1 h2 h3'),
          perm_blocks _ _ _ _ _, List.perm_append_comm_assoc a' a b', ?_⟩
        rintro g M' ⟨i1, ps1, c1, Ma, Mb, e, rfl, s1, s2, s3, s4, i2, ps2, c2, Mc, Md, e', rfl, t1, t2, t3, t4, t5⟩
        cases e
        cases e'
        exact ⟨j :: (Mc ++ (j' :: (Ma ++ Md))), ⟨j, _, c2, Mc, _, rfl, rfl, t1, t2, t3, t4, j', _, c1, Ma, Md, rfl, rfl, s1, s2, s3, s4, t5⟩,
          perm_blocks _ _ _ _ _⟩
  | trans _ _ ih1 ih2 =>
    intro L obs F' R
    obtain ⟨L1, o1, F1, r1, p1, q1, s1⟩ := ih1 R
    obtain ⟨L2, o2, F2, r2, p2, q2, s2⟩ := ih2 r1
    refine ⟨L2, o2, F2, r2, p2.trans p1, q2.trans q1, fun g M' S => ?_⟩
    obtain ⟨M1, m1, m2⟩ := s2 g M' S
    obtain ⟨M2, m3, m4⟩ := s1 g M1 m1
    exact ⟨M2, m3, m4.trans m2⟩

/-- what a walk over trees next to each other gives; the trees it leaves stand in the order `qs` -/
def LoopSees (content : Content) (ord : KidOrder) (h : NHeap) (ps : List (List Char × Nat)) (L held : List Nat)
    (obs : List (List Char × NKind)) (F' : Forest) (qs : List (List Char × Nat)) : Prop :=
  ∃ N v u g, (∀ fuel, N ≤ fuel → NHeap.forceLoop (fun g j => NHeap.walkForceIn content ord fuel g held j) h ps = .ok (v, g)) ∧ u.Perm v ∧
    seenAs u = obs.map some ∧ Walked h g L (v.map Prod.fst) ∧ ParentsFirst v ∧ LeftOver h g F' qs L

theorem loop_row {content : Content} {ord : KidOrder} {held : List Nat} : ∀ (ps : List (List Char × Nat)) (h : NHeap) (L : List Nat)
    (obs : List (List Char × NKind)) (F' : Forest), Row content ord h ps L obs F' → L.Nodup → (∀ x ∈ held, x < h.length ∧ x ∉ L) →
    LoopSees content ord h ps L held obs F' ps
  | [], h, _, _, _, .nil, _, _ => by
    refine ⟨0, [], [], h, fun _ _ => rfl, .refl _, rfl, ⟨Nat.le_refl _, fun _ _ _ => rfl, List.nodup_nil, ?_, ?_, ?_, ?_⟩, parentsFirst_nil,
      [], ⟨rfl, rfl⟩, List.nodup_nil, fun x hx => by cases hx⟩
    · intro x hx; cases hx
    · intro x hx; cases hx
    · intro x h1 h2; omega
    · intro x hx; cases hx
  | _ :: _, h, _, _, _, .cons j ps n k ks k' ks' rest' La Lb a b h1 h2 h3, hn, hh => by
    obtain ⟨hj, hab⟩ := List.nodup_cons.1 hn
    obtain ⟨hLa, hLb, hd⟩ := List.nodup_append.1 hab
    have hsub : ∀ x ∈ j :: La, x ∈ j :: (La ++ Lb) := by
      intro x hx
      rcases List.mem_cons.1 hx with rfl | hx
      · exact List.mem_cons_self
      · exact List.mem_cons_of_mem _ (List.mem_append_left _ hx)
    have hdis : ∀ x ∈ j :: La, x ∉ Lb := by
      intro x hx hb
      rcases List.mem_cons.1 hx with rfl | hx
      · exact hj (List.mem_append_right _ hb)
      · exact hd x hx x hb rfl
    have hlt := row_lt h3
    have hlt1 := stands1_lt h1
    obtain ⟨N1, c, v1, u1, g1, f1, p1, s1, W1, P1, M1, S1, D1, I1⟩ := h2 h j La held h1
      (List.nodup_cons.2 ⟨fun e => hj (List.mem_append_left _ e), hLa⟩) fun x hx => ⟨(hh x hx).1, fun e => (hh x hx).2 (hsub x e)⟩
    have hl := W1.len
    obtain ⟨N2, v2, u2, g2, f2, p2, s2, W2, P2, M2, S2, D2, I2⟩ := loop_row ps g1 Lb b rest'
      (row_agree h3 fun x hx => W1.frame x (hlt x hx) fun e => hdis x e hx) hLb
      fun x hx => ⟨by have := (hh x hx).1; omega, fun e => (hh x hx).2 (List.mem_cons_of_mem _ (List.mem_append_right _ e))⟩
    have hl2 := W2.len
    have hM1 : ∀ x ∈ j :: M1, x ∈ j :: La ∨ (h.length ≤ x ∧ x < g1.length) := by
      intro x hx
      rcases List.mem_cons.1 hx with rfl | hx
      · exact .inl List.mem_cons_self
      · exact (I1 x hx).imp (List.mem_cons_of_mem _) id
    have hM1b : ∀ x ∈ j :: M1, x ∉ Lb := by
      intro x hx hb
      rcases hM1 x hx with h4 | h4
      · exact hdis x h4 hb
      · have := hlt x hb; omega
    have hM12 : ∀ x ∈ j :: M1, x ∉ M2 := by
      intro x hx h2
      rcases I2 x h2 with h5 | h5
      · exact hM1b x hx h5
      · rcases hM1 x hx with h4 | h4
        · have := hlt1 x h4; omega
        · omega
    refine ⟨N1 + N2, (j, some c) :: v1 ++ v2, (j, some c) :: u1 ++ u2, g2, ?_, (p1.cons _).append p2, ?_, ?_, parentsFirst_append P1 P2, ?_⟩
    · intro fuel hf
      rw [NHeap.forceLoop]
      rw [f1 fuel (by omega)]
      dsimp only
      rw [f2 fuel (by omega)]
    · have : seenAs ((j, some c) :: u1 ++ u2) = seenAs ((j, some c) :: u1) ++ seenAs u2 := List.map_append ..
      rw [this, s1, s2, List.map_append]
    · have := walked_append hlt1 hlt hdis W1 W2
      rw [List.map_append]
      exact this
    · obtain ⟨d, d1, d2, d3, d4⟩ := stands1_agree (g := g2) (fun x hx => W2.frame x (by
        rcases hM1 x hx with h4 | h4
        · have := hlt1 x h4; omega
        · exact h4.2) (hM1b x hx)) S1
      refine ⟨j :: (M1 ++ M2), ⟨j, ps, d, M1, M2, rfl, rfl, d1, d2, d3, d4, S2⟩, ?_, ?_⟩
      · refine List.nodup_cons.2 ⟨fun e => ?_, List.nodup_append.2 ⟨(List.nodup_cons.1 D1).2, D2, ?_⟩⟩
        · rcases List.mem_append.1 e with e | e
          · exact (List.nodup_cons.1 D1).1 e
          · exact hM12 j List.mem_cons_self e
        · rintro x hx _ hy rfl
          exact hM12 x (List.mem_cons_of_mem _ hx) hy
      · intro x hx
        have hx : x ∈ j :: M1 ∨ x ∈ M2 := by
          rcases List.mem_cons.1 hx with rfl | hx
          · exact .inl List.mem_cons_self
          · exact (List.mem_append.1 hx).imp (List.mem_cons_of_mem _) id
        rcases hx with hx | hx
        · rcases hM1 x hx with h4 | h4
          · exact .inl (hsub x h4)
          · exact .inr (by omega)
        · rcases I2 x hx with h4 | h4
          · exact .inl (List.mem_cons_of_mem _ (List.mem_append_right _ h4))
          · exact .inr (by omega)

/-- each tree of a forest is seen by the walk -/
inductive EachSees (content : Content) (ord : KidOrder) : Forest → List (List Char × NKind) → Forest → Prop
  | nil : EachSees content ord .nil [] .nil
  | node (n : List Char) (k : NKind) (ks rest : Forest) (k' : NKind) (ks' rest' : Forest) (a b : List (List Char × NKind)) :
      NodeSees content ord n k ks a k' ks' → EachSees content ord rest b rest' →
      EachSees content ord (.node n k ks rest) (a ++ b) (.node n k' ks' rest')

theorem each_row {content : Content} {ord : KidOrder} {h : NHeap} {F F' : Forest} {obs : List (List Char × NKind)}
    (E : EachSees content ord F obs F') : ∀ (ps : List (List Char × Nat)) (L : List Nat), Stands h F ps L → Row content ord h ps L obs F' := by
  induction E with
  | nil => rintro ps L ⟨rfl, rfl⟩; exact .nil
  | node n k ks rest k' ks' rest' a b h1 _ ih =>
    rintro ps L ⟨j, ps', c, La, Lb, rfl, rfl, hc, hn, hk, hSa, hSb⟩
    exact .cons j ps' n k ks k' ks' rest' La Lb a b ⟨c, hc, hn, hk, hSa⟩ h1 (ih ps' Lb hSb)

/-- in any order -/
theorem each_any {content : Content} {ord : KidOrder} {h : NHeap} {F F' : Forest} {obs : List (List Char × NKind)}
    (E : EachSees content ord F obs F') {ps ps' : List (List Char × Nat)} {L held : List Nat} (S : Stands h F ps L) (hp : ps'.Perm ps)
    (hn : L.Nodup) (hh : ∀ x ∈ held, x < h.length ∧ x ∉ L) : LoopSees content ord h ps' L held obs F' ps := by
  obtain ⟨L', obs', F'', R, pL, po, B⟩ := row_perm hp.symm (each_row E ps L S)
  obtain ⟨N, v, u, g, f, pu, hs, W, P, M, S', D, I⟩ := loop_row (held := held) ps' h L' obs' F'' R (pL.nodup_iff.2 hn)
    fun x hx => ⟨(hh x hx).1, fun e => (hh x hx).2 (pL.mem_iff.1 e)⟩
  obtain ⟨u2, q1, q2⟩ := lift_perm (po.map some) u hs
  obtain ⟨M2, m1, m2⟩ := B g M S'
  exact ⟨N, v, u2, g, f, q1.trans pu, q2, ⟨W.len, fun x hx e => W.frame x hx fun e' => e (pL.mem_iff.1 e'), W.nodup,
    fun x hx => (W.sub x hx).imp pL.mem_iff.1 id, fun x hx => W.all x (pL.mem_iff.2 hx), W.new, W.images⟩, P,
    M2, m1, m2.nodup_iff.2 D, fun x hx => (I x (m2.mem_iff.1 hx)).imp pL.mem_iff.1 id⟩

/-- from the children to the node -/
theorem node_sees {content : Content} {ord : KidOrder} (ho : ListsKids ord) {F1 F1' : Forest} {n : List Char} {a : List (List Char × NKind)}
    {h : NHeap} {j : Nat} {La L1 held : List Nat} {c1 : NCell} (E : EachSees content ord F1 a F1')
    (hnd : (j :: La).Nodup) (hheld : ∀ x ∈ held, x < h.length ∧ x ∉ j :: La) (hjl : j < h.length) (hLa : ∀ x ∈ La, x < h.length)
    (hpan : panicOf (h.parse content j).1 = none)
    (hc1 : (h.parse content j).2.cell j = some c1) (hn1 : c1.name = n)
    (hS1 : Stands (h.parse content j).2 F1 c1.kids L1) (hL1 : L1.Nodup)
    (hL1a : ∀ x ∈ L1, x ∈ La ∨ (h.length ≤ x ∧ x < (h.parse content j).2.length))
    (hL1b : ∀ x ∈ La, x ∈ L1)
    (hL1c : ∀ x, h.length ≤ x → x < (h.parse content j).2.length → x ∈ L1) :
    ∃ N c v u g, (∀ fuel, N ≤ fuel → h.walkForceIn content ord fuel held j = .ok ((j, some c) :: v, g)) ∧ u.Perm v ∧
      seenAs ((j, some c) :: u) = ((n, c1.kind) :: a).map some ∧ Walked h g (j :: La) (j :: v.map Prod.fst) ∧
      ParentsFirst ((j, some c) :: v) ∧ Left1 h g j n (leftKind c1.kind) (leftKids c1.kind F1') La := by
  have hlen1 : h.length ≤ (h.parse content j).2.length := parse_length
  have hfr1 : ∀ x, x < h.length → x ≠ j → (h.parse content j).2.cell x = h.cell x := fun x hx hxj => parse_frame hx hxj
  generalize hh1 : (h.parse content j).2 = h1 at *
  obtain ⟨hja, hLan⟩ := List.nodup_cons.1 hnd
  have hjL1 : j ∉ L1 := by
    intro e
    rcases hL1a j e with e | e
    · exact hja e
    · omega
  have hjheld : j ∉ held := fun e => (hheld j e).2 List.mem_cons_self
  obtain ⟨N1, v1, u1, g1, hf1, hu1, hs1, R1, P1, M1, hM1, hM1n, hM1s⟩ := each_any (held := j :: held) E hS1 (ho h1 j c1.kids) hL1 (by
    intro x hx
    rcases List.mem_cons.1 hx with rfl | hx
    · exact ⟨by omega, hjL1⟩
    · obtain ⟨h3, h4⟩ := hheld x hx
      refine ⟨by omega, fun e => ?_⟩
      rcases hL1a x e with e | e
      · exact h4 (List.mem_cons_of_mem _ e)
      · omega)
  have hg1j : g1.cell j = some c1 := by rw [R1.frame j (by omega) hjL1]; exact hc1
  have hg2 : ∃ g2, g2 = (if g1.isImage j then g1.unparse j else g1) ∧ g2.length = g1.length ∧
      (∀ x, x ≠ j → g2.cell x = g1.cell x) ∧ (∀ c, g2.cell j = some c → ∀ s, c.kind ≠ .image true s) ∧
      Left1 h g2 j n (leftKind c1.kind) (leftKids c1.kind F1') La := by
    refine ⟨_, rfl, ?_⟩
    by_cases hi : g1.isImage j = true
    · obtain ⟨p, s, hk⟩ := (isImage_iff_kind hg1j).1 hi
      rw [if_pos hi]
      have hu := unparse_cell hg1j (k := .image false s) (by rw [hk]; rfl)
      refine ⟨unparse_length, fun x hx => unparse_frame hx, ?_, ?_⟩
      · intro c hc s'
        rw [hu] at hc
        cases hc
        exact fun e => by cases e
      · rw [hk]
        exact ⟨[], ⟨_, hu, hn1, rfl, rfl, rfl⟩, by simp, fun x hx => by cases hx⟩
    · rw [if_neg hi]
      refine ⟨rfl, fun _ _ => rfl, ?_, ?_⟩
      · intro c hc s' e
        rw [hg1j] at hc
        cases hc
        exact hi ((isImage_iff_kind hg1j).2 ⟨_, _, e⟩)
      · have hne : ∀ p s, c1.kind ≠ .image p s := fun p s e => hi ((isImage_iff_kind hg1j).2 ⟨_, _, e⟩)
        have e1 : leftKind c1.kind = c1.kind := by
          cases hk : c1.kind with
          | image p s => exact absurd hk (hne p s)
          | _ => rfl
        have e2 : leftKids c1.kind F1' = F1' := by
          cases hk : c1.kind with
          | image p s => exact absurd hk (hne p s)
          | _ => rfl
        rw [e1, e2]
        have hl1 := R1.len
        have hM : ∀ x ∈ M1, x ∈ La ∨ (h.length ≤ x ∧ x < g1.length) := by
          intro x hx
          rcases hM1s x hx with hx | hx
          · rcases hL1a x hx with hx | hx
            · exact .inl hx
            · exact .inr (by omega)
          · exact .inr (by omega)
        refine ⟨M1, ⟨c1, hg1j, hn1, rfl, hM1⟩, List.nodup_cons.2 ⟨fun e => ?_, hM1n⟩, hM⟩
        rcases hM j e with e | e
        · exact hja e
        · omega
  obtain ⟨g2, hg2e, hg2l, hg2f, hg2i, hg2L⟩ := hg2
  have hl1 := R1.len
  have hv1 : ∀ x ∈ v1.map Prod.fst, x ∈ La ∨ (h.length ≤ x ∧ x < g1.length) := by
    intro x hx
    rcases R1.sub x hx with hx | hx
    · rcases hL1a x hx with hx | hx
      · exact .inl hx
      · exact .inr (by omega)
    · exact .inr (by omega)
  have hjv : j ∉ v1.map Prod.fst := by
    intro e
    rcases hv1 j e with e | e
    · exact hja e
    · omega
  refine ⟨N1 + 1, c1, v1, u1, g2, ?_, hu1, ?_, ⟨by omega, ?_, List.nodup_cons.2 ⟨hjv, R1.nodup⟩, ?_, ?_, ?_, ?_⟩, parentsFirst_cons ?_ P1, hg2L⟩
  · intro fuel hfu
    obtain ⟨fuel, rfl⟩ : ∃ q, fuel = q + 1 := ⟨fuel - 1, by omega⟩
    rw [NHeap.walkForceIn]
    rw [if_neg hjheld, hpan]
    dsimp only
    rw [hh1, hc1]
    dsimp only
    rw [hf1 fuel (by omega), hg2e]
  · simp only [seenAs, List.map_cons, Option.map_some] at hs1 ⊢
    rw [hs1, hn1]
  · intro x hx hxL
    simp only [List.mem_cons, not_or] at hxL
    rw [hg2f x hxL.1, R1.frame x (by omega) (fun e => by
      rcases hL1a x e with e | e
      · exact hxL.2 e
      · omega), hfr1 x hx hxL.1]
  · intro x hx
    rcases List.mem_cons.1 hx with rfl | hx
    · exact .inl List.mem_cons_self
    · rcases hv1 x hx with h3 | h3
      · exact .inl (List.mem_cons_of_mem _ h3)
      · exact .inr (by omega)
  · intro x hx
    rcases List.mem_cons.1 hx with rfl | hx
    · exact List.mem_cons_self
    · exact List.mem_cons_of_mem _ (R1.all x (hL1b x hx))
  · intro x hx1 hx2
    refine List.mem_cons_of_mem _ ?_
    by_cases h3 : x < h1.length
    · exact R1.all x (hL1c x hx1 h3)
    · exact R1.new x (by omega) (by omega)
  · intro x hx c hc s
    by_cases hxj : x = j
    · subst hxj
      exact hg2i c hc s
    · rw [hg2f x hxj] at hc
      exact R1.images x ((List.mem_cons.1 hx).resolve_left hxj) c hc s
  · intro p hp
    exact R1.all _ (stands_roots F1 _ L1 hS1 p hp)

theorem leaves_each {content : Content} {ord : KidOrder} (ho : ListsKids ord) {P : NKind → Prop} {F F' : Forest}
    {obs : List (List Char × NKind)} (hs : Leaves content P F obs F') : EachSees content ord F obs F' := by
  induction hs with
  | nil => exact .nil
  | quiet n k ks rest ks' rest' a b hq _ _ _ ih1 ih2 =>
    rw [leftNode_eq]
    refine .node n k ks rest _ _ rest' ((n, k) :: a) b ?_ ih2
    rintro h j La held ⟨c, hc, hn, hk, hSa⟩ hnd hheld
    have hpar : h.parse content j = (.ok (), h) := by rw [parse_eq hc, hk, quiet_plan hq]
    have := node_sees ho (held := held) (j := j) (n := n) (L1 := La) (c1 := c) ih1 hnd hheld (cell_lt hc)
      (stands_lt ks _ La hSa) (by rw [hpar]; rfl) (by rw [hpar]; exact hc) hn (by rw [hpar]; exact hSa)
      (List.nodup_cons.1 hnd).2 (fun x hx => .inl hx) (fun x hx => hx)
      (fun x h1 h2 => by rw [hpar] at h2; dsimp only at h2; omega)
    rw [hk] at this
    exact this
  | spent n s ks rest ks' rest' a b _ _ ih1 ih2 =>
    rw [leftNode_eq]
    refine .node n _ ks rest _ _ rest' ((n, .dir true true s) :: a) b ?_ ih2
    rintro h j La held ⟨c, hc, hn, hk, hSa⟩ hnd hheld
    have hi := cell_lt hc
    have hpar : h.parse content j = (.ok (), fresh h j { c with kind := .dir true true s } .nil) := by
      rw [parse_eq hc, hk]
      rfl
    have hcj : (h.parse content j).2.cell j = some { c with kind := .dir true true s } := by
      rw [hpar, fresh_old hi hi, if_pos rfl]
    have hlen : (h.parse content j).2.length = h.length := by rw [hpar, fresh_length]; rfl
    have hS1 : Stands (h.parse content j).2 ks c.kids La := stands_agree ks _ La (fun x hx =>
      parse_frame (stands_lt ks _ La hSa x hx) (fun e => (List.nodup_cons.1 hnd).1 (e ▸ hx))) hSa
    exact node_sees ho (held := held) (j := j) (n := n) (L1 := La) (c1 := { c with kind := .dir true true s }) ih1
      hnd hheld hi (stands_lt ks _ La hSa) (by rw [hpar]; rfl) hcj hn hS1
      (List.nodup_cons.1 hnd).2 (fun x hx => .inl hx) (fun x hx => hx) (fun x h1 h2 => by omega)
  | read n k s f rest f' rest' a b hr hs hl hd _ _ ih1 ih2 =>
    rw [leftNode_eq]
    refine .node n k .nil rest _ _ rest' ((n, parsedKind k) :: a) b ?_ ih2
    rintro h j La held ⟨c, hc, hn, hk, hck, rfl⟩ hnd hheld
    have hi := cell_lt hc
    have hpar : h.parse content j =
        (.ok (), fresh h j { c with kind := parsedKind k, kids := f.roots h.length } f) := by
      rw [parse_eq hc, hk, parsedKind_plan hr hs]
      dsimp only
      rw [uols_linkFree f _ hl, hck, childInsertAll_roots f _ hd]
      rfl
    have hcj : (h.parse content j).2.cell j = some { c with kind := parsedKind k, kids := f.roots h.length } := by
      rw [hpar, fresh_old hi hi, if_pos rfl]
    have hlen : (h.parse content j).2.length = h.length + f.size := by rw [hpar, fresh_length]
    have hS1 : Stands (h.parse content j).2 f (f.roots h.length) (List.range' h.length f.size) := by
      rw [hpar]
      exact placed_stands (p := j) f h.length hd (placed_fresh f)
    exact node_sees ho (held := held) (j := j) (n := n) (L1 := List.range' h.length f.size)
      (c1 := { c with kind := parsedKind k, kids := f.roots h.length }) ih1
      hnd hheld hi (fun x hx => by cases hx) (by rw [hpar]; rfl) hcj hn hS1
      List.nodup_range' (fun x hx => .inr (by rw [hlen]; simpa using List.mem_range'_1.1 hx)) (fun x hx => by cases hx)
      (fun x h1 h2 => by rw [hlen] at h2; exact List.mem_range'_1.2 ⟨h1, h2⟩)
  | broken n k s e rest rest' b hr hs he _ ih2 =>
    rw [leftNode_eq]
    refine .node n k .nil rest _ _ rest' [(n, k)] b ?_ ih2
    rintro h j La held ⟨c, hc, hn, hk, hck, rfl⟩ hnd hheld
    have hpar : h.parse content j = (.error e, h) := by rw [parse_eq hc, hk, error_plan hr hs]
    have := node_sees ho (held := held) (j := j) (n := n) (L1 := []) (c1 := c) .nil hnd hheld (cell_lt hc)
      (fun x hx => by cases hx) (by rw [hpar]; simp [panicOf, he]) (by rw [hpar]; exact hc) hn
      (by rw [hpar]; exact ⟨hck, rfl⟩) List.nodup_nil (fun x hx => .inl hx) (fun x hx => hx)
      (fun x h1 h2 => by rw [hpar] at h2; dsimp only at h2; omega)
    rw [hk] at this
    exact this

theorem sees_one {content : Content} {ord : KidOrder} (ho : ListsKids ord) {P : NKind → Prop} {n : List Char} {k : NKind} {ks F' : Forest}
    {obs : List (List Char × NKind)} (hl : Leaves content P (.node n k ks .nil) obs F') :
    ∃ k' ks', F' = .node n k' ks' .nil ∧ NodeSees content ord n k ks obs k' ks' := by
  have E := leaves_each ho hl
  generalize hF : Forest.node n k ks .nil = F at E
  cases E with
  | nil => cases hF
  | node n k ks rest k' ks' rest' a b h1 h2 =>
    cases hF
    cases h2
    rw [List.append_nil]
    exact ⟨k', ks', rfl, h1⟩

/-- one walk -/
theorem walk_in {content : Content} {ord : KidOrder} (ho : ListsKids ord) {P : NKind → Prop} {F F' : Forest}
    {obs : List (List Char × NKind)} (hl : Leaves content P F obs F') {name : List Char} {i : Nat} {h : NHeap} {L : List Nat}
    (hS : Stands h F [(name, i)] L) (hn : L.Nodup) :
    ∃ N vs g, (∀ fuel, N ≤ fuel → h.walkForceIn content ord fuel [] i = .ok (vs, g)) ∧ AnyOrder i obs vs ∧ h.length ≤ g.length ∧
      (∀ x, x < h.length → x ∉ L → g.cell x = h.cell x) ∧ LeftOver h g F' [(name, i)] L := by
  cases F with
  | nil => cases hS.1
  | node n k ks rest =>
    obtain ⟨j, ps', c, La, Lb, e, rfl, hc, hn1, hk, hSa, hSb⟩ := hS
    cases e
    cases rest with
    | node _ _ _ _ => obtain ⟨_, _, _, _, _, e, _⟩ := hSb; cases e
    | nil =>
      obtain ⟨_, rfl⟩ := hSb
      rw [List.append_nil] at hn ⊢
      obtain ⟨k', ks', rfl, hN⟩ := sees_one ho hl
      obtain ⟨N, d, v, u, g, f, p, s, W, P, M, S, D, I⟩ := hN h i La [] ⟨c, hc, hn1, hk, hSa⟩ hn (fun x hx => by cases hx)
      obtain ⟨d', q1, q2, q3, q4⟩ := S
      refine ⟨N, _, g, f, ⟨d, v, u, rfl, p, s, W.nodup, P⟩, W.len, W.frame, i :: (M ++ []), ⟨i, [], d', M, [], rfl, rfl, q1, q2, q3, q4, rfl, rfl⟩, ?_, ?_⟩
      · rw [List.append_nil]; exact D
      · intro x hx
        rw [List.append_nil] at hx
        rcases List.mem_cons.1 hx with rfl | hx
        · exact .inl List.mem_cons_self
        · exact (I x hx).imp (List.mem_cons_of_mem _) id

/-- where a walk leaves what it found, any number of walks in any orders see the same -/
theorem walks_again_in {content : Content} {F : Forest} {obs : List (List Char × NKind)} (hl : Leaves content NotOpen F obs F)
    {name : List Char} {i : Nat} : ∀ (ords : List KidOrder), (∀ o ∈ ords, ListsKids o) → ∀ (h : NHeap) (L : List Nat),
      Stands h F [(name, i)] L → L.Nodup → ∃ g, WalkedIn content i (AnyOrder i obs) ords h g ∧
        h.length ≤ g.length ∧ (∀ x, x < h.length → x ∉ L → g.cell x = h.cell x)
  | [], _, h, L, _, _ => ⟨h, .none h, Nat.le_refl _, fun _ _ _ => rfl⟩
  | o :: ords, ho, h, L, hS, hn => by
    obtain ⟨N, vs, h', h1, h2, hle0, hfr0, L', hS', hn', hL'⟩ := walk_in (ho o List.mem_cons_self) hl hS hn
    obtain ⟨g, w, hle, hfr⟩ := walks_again_in hl ords (fun o ho' => ho o (List.mem_cons_of_mem _ ho')) h' L' hS' hn'
    refine ⟨g, .next o ords N vs h h' g h1 h2 w, by omega, fun x hx hxL => ?_⟩
    rw [hfr x (by omega) (fun hx' => by
      rcases hL' x hx' with h3 | h3
      · exact hxL h3
      · omega)]
    exact hfr0 x hx hxL

end Wz
