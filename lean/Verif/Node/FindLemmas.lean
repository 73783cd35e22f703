import Verif.Node.FindSpec
import Verif.Node.WalkLemmas
import Verif.Node.PathLemmas

/-!
# Lemmas about looking up a path while parsing
-/

set_option autoImplicit false

namespace Wz

open Spec

/-- nothing to do for `parse` -/
def Settled (content : Content) (h : NHeap) (x : Nat) : Prop :=
  ∃ c, h.cell x = some c ∧ c.kind.plan content = none

theorem plan_after {content : Content} {k k' : NKind} {f : Forest} (h : k.plan content = some (.ok (f, k'))) :
    k'.plan content = none := by
  unfold NKind.plan at h
  split at h
  · split at h
    · cases h
    · split at h
      · cases h; rfl
      · rename_i s _ _
        cases hs : content s <;> rw [hs] at h <;> cases h; rfl
  · split at h
    · cases h
    · rename_i s _
      cases hs : content s <;> rw [hs] at h <;> cases h; rfl
  · split at h
    · cases h
    · rename_i s _
      cases hs : content s <;> rw [hs] at h <;> cases h; rfl
  · split at h
    · cases h
    · rename_i s _
      cases hs : content s <;> rw [hs] at h <;> cases h; rfl
  · rename_i s
    cases hs : content s <;> rw [hs] at h <;> cases h; rfl
  · cases h
  · cases h

theorem parse_settled {content : Content} {h : NHeap} {x : Nat} (hx : Settled content h x) :
    h.parse content x = (.ok (), h) := by
  obtain ⟨c, hc, hp⟩ := hx
  rw [parse_eq hc, hp]

theorem parse_settles {content : Content} {h g : NHeap} {x : Nat} {c : NCell} (hc : h.cell x = some c)
    (hp : h.parse content x = (.ok (), g)) : Settled content g x := by
  cases hpl : c.kind.plan content with
  | none =>
    rw [parse_settled ⟨c, hc, hpl⟩] at hp
    cases hp
    exact ⟨c, hc, hpl⟩
  | some r =>
    cases r with
    | error e => rw [parse_eq hc, hpl] at hp; cases hp
    | ok p =>
      obtain ⟨f, k⟩ := p
      have h1 := parse_top hc hpl
      rw [hp] at h1
      cases hg : g.cell x with
      | none => rw [hg] at h1; cases h1
      | some d =>
        rw [hg] at h1
        have h2 : d.kind = k := by
          simp only [Option.map_some, NCell.head, Option.some.injEq, Prod.mk.injEq] at h1
          exact h1.2.1
        exact ⟨d, hg, by rw [h2]; exact plan_after hpl⟩

/-- a parse leaves settled nodes alone -/
theorem parse_keeps {content : Content} {h : NHeap} {x y : Nat} (hy : Settled content h y) :
    (h.parse content x).2.cell y = h.cell y := by
  by_cases e : y = x
  · subst e; rw [parse_settled hy]
  · obtain ⟨c, hc, _⟩ := hy
    exact parse_frame (cell_lt hc) e

theorem parse_dead {content : Content} {h : NHeap} {x : Nat} (hx : h.cell x = none) :
    h.parse content x = (.ok (), h) := by
  unfold NHeap.parse; rw [hx]

theorem at_cell {h g : NHeap} {x : Nat} (e : g.cell x = h.cell x) (n : List Char) : g.at x n = h.at x n := by
  unfold NHeap.at; rw [e]

/-- the steps of `foldParsed` -/
theorem foldParsed_cons {content : Content} {held : Nat} {h : NHeap} {i : Nat} {x : List Char} {xs : List (List Char)} :
    NHeap.foldParsed content held h i (x :: xs) =
      if i = held then (.error (.lib "deadlock"), h)
      else match h.parse content i with
        | (.error e, h') => (.error e, h')
        | (.ok _, h') => match h'.at i x with
          | none => (.error (.lib "NodeNotFound"), h')
          | some j => NHeap.foldParsed content held h' j xs := rfl

theorem foldParsed_frame {content : Content} {held : Nat} : ∀ (ns : List (List Char)) (h : NHeap) (i : Nat),
    h.length ≤ (NHeap.foldParsed content held h i ns).2.length ∧
    (∀ x, Settled content h x → (NHeap.foldParsed content held h i ns).2.cell x = h.cell x) ∧
    (held < h.length → (NHeap.foldParsed content held h i ns).2.cell held = h.cell held)
  | [], h, i => ⟨Nat.le_refl _, fun _ _ => rfl, fun _ => rfl⟩
  | n :: ns, h, i => by
    rw [foldParsed_cons]
    by_cases he : i = held
    · rw [if_pos he]; exact ⟨Nat.le_refl _, fun _ _ => rfl, fun _ => rfl⟩
    · rw [if_neg he]
      have hl := parse_length (h := h) (content := content) (i := i)
      have hk := fun x (hx : Settled content h x) => parse_keeps (x := i) hx
      have hh := fun (hx : held < h.length) => parse_frame (content := content) hx (fun e => he e.symm)
      cases hp : h.parse content i with
      | mk r h' =>
        rw [hp] at hl hk hh
        cases r with
        | error e => exact ⟨hl, hk, hh⟩
        | ok u =>
          dsimp only
          cases ha : h'.at i n with
          | none => exact ⟨hl, hk, hh⟩
          | some j =>
            dsimp only
            obtain ⟨i1, i2, i3⟩ := foldParsed_frame ns h' j
            refine ⟨Nat.le_trans hl i1, fun x hx => ?_, fun hx => ?_⟩
            · have hx' : Settled content h' x := by
                obtain ⟨c, hc, hp'⟩ := hx
                exact ⟨c, by rw [hk x ⟨c, hc, hp'⟩]; exact hc, hp'⟩
              rw [i2 x hx', hk x hx]
            · rw [i3 (Nat.lt_of_lt_of_le hx hl), hh hx]

/-- after a success the plain lookup finds the node, and a second call finds it and changes nothing -/
theorem foldParsed_ok {content : Content} {held : Nat} : ∀ (ns : List (List Char)) (h : NHeap) (i k : Nat) (g : NHeap),
    NHeap.foldParsed content held h i ns = (.ok k, g) →
    foldPath g.at i ns = some k ∧ NHeap.foldParsed content held g i ns = (.ok k, g)
  | [], h, i, k, g, hf => by
    simp only [NHeap.foldParsed, Prod.mk.injEq, Except.ok.injEq] at hf
    obtain ⟨rfl, rfl⟩ := hf
    exact ⟨rfl, rfl⟩
  | n :: ns, h, i, k, g, hf => by
    rw [foldParsed_cons] at hf
    by_cases he : i = held
    · rw [if_pos he] at hf; cases hf
    · rw [if_neg he] at hf
      cases hp : h.parse content i with
      | mk r h' =>
        rw [hp] at hf
        cases r with
        | error e => cases hf
        | ok u =>
          dsimp only at hf
          cases ha : h'.at i n with
          | none => rw [ha] at hf; cases hf
          | some j =>
            rw [ha] at hf
            dsimp only at hf
            obtain ⟨r1, r2⟩ := foldParsed_ok ns h' j k g hf
            have hs : Settled content h' i := by
              cases hc : h.cell i with
              | none =>
                rw [parse_dead hc] at hp
                cases hp
                unfold NHeap.at at ha
                rw [hc] at ha
                cases ha
              | some c => exact parse_settles hc hp
            have hg : g.cell i = h'.cell i := by
              have := (foldParsed_frame (held := held) ns h' j).2.1 i hs
              rw [hf] at this
              exact this
            have ha' : g.at i n = some j := by rw [at_cell hg]; exact ha
            have hs' : Settled content g i := by
              obtain ⟨c, hc, hp'⟩ := hs
              exact ⟨c, by rw [hg]; exact hc, hp'⟩
            refine ⟨?_, ?_⟩
            · simp only [foldPath, ha']; exact r1
            · rw [foldParsed_cons, if_neg he, parse_settled hs']
              dsimp only
              rw [ha']
              exact r2

/-- only nodes on the way change -/
theorem foldParsed_changes {content : Content} {held : Nat} : ∀ (ns : List (List Char)) (h : NHeap) (i x : Nat),
    x < h.length → (NHeap.foldParsed content held h i ns).2.cell x ≠ h.cell x →
    ∃ ms n rest, ns = ms ++ n :: rest ∧ foldPath (NHeap.foldParsed content held h i ns).2.at i ms = some x
  | [], h, i, x, _, hne => absurd rfl hne
  | n :: ns, h, i, x, hx, hne => by
    by_cases hxi : x = i
    · subst hxi; exact ⟨[], n, ns, rfl, rfl⟩
    · rw [foldParsed_cons] at hne ⊢
      by_cases he : i = held
      · rw [if_pos he] at hne; exact absurd rfl hne
      · rw [if_neg he] at hne ⊢
        have hfr := parse_frame (content := content) hx hxi
        have hl := parse_length (h := h) (content := content) (i := i)
        cases hp : h.parse content i with
        | mk r h' =>
          rw [hp] at hne hfr hl
          cases r with
          | error e => exact absurd hfr hne
          | ok u =>
            dsimp only at hne ⊢
            cases ha : h'.at i n with
            | none => rw [ha] at hne; exact absurd hfr hne
            | some j =>
              rw [ha] at hne
              dsimp only at hne hfr ⊢
              rw [← hfr] at hne
              obtain ⟨ms, m, rest, e1, e2⟩ := foldParsed_changes ns h' j x (Nat.lt_of_lt_of_le hx hl) hne
              have hs : Settled content h' i := by
                cases hc : h.cell i with
                | none =>
                  rw [parse_dead hc] at hp
                  cases hp
                  unfold NHeap.at at ha
                  rw [hc] at ha
                  cases ha
                | some c => exact parse_settles hc hp
              have hg := (foldParsed_frame (held := held) ns h' j).2.1 i hs
              refine ⟨n :: ms, m, rest, by rw [e1]; rfl, ?_⟩
              simp only [foldPath]
              rw [at_cell hg, ha]
              exact e2

/-! ## the tree behind a node -/

theorem follow_eq (h : NHeap) : ∀ (ns : List (List Char)) (i : Nat), Spec.follow h i ns = foldPath h.at i ns
  | [], i => rfl
  | n :: ns, i => by
    simp only [Spec.follow, foldPath]
    cases h.at i n with
    | none => rfl
    | some j => exact follow_eq h ns j

/-- the children of `i` are the trees of a forest -/
def TreeAt (h : NHeap) (i : Nat) (f : Forest) : Prop :=
  ∀ ns, ns ≠ [] →
    (foldPath h.at i ns).map (fun j => (h.cell j).map fun c => (c.name, c.kind)) = (Spec.Forest.showsAt f ns).map some

theorem treeAt_iff {h : NHeap} {i : Nat} {f : Forest} : Spec.HasTrees h i f ↔ TreeAt h i f := by
  unfold Spec.HasTrees TreeAt
  constructor
  · intro H ns hne; rw [← follow_eq]; exact H ns hne
  · intro H ns hne; rw [follow_eq]; exact H ns hne

theorem foldPath_append53 (step : Nat → List Char → Option Nat) : ∀ (a b : List (List Char)) (i : Nat),
    foldPath step i (a ++ b) = (foldPath step i a).bind fun j => foldPath step j b
  | [], b, i => rfl
  | x :: a, b, i => by
    simp only [List.cons_append, foldPath]
    cases step i x with
    | none => rfl
    | some j => exact foldPath_append53 step a b j

theorem treeAt_step {h : NHeap} {i : Nat} {f : Forest} (T : TreeAt h i f) (n : List Char) :
    match Spec.Forest.shows f n with
    | none => h.at i n = none
    | some (k, ks) => ∃ j c, h.at i n = some j ∧ h.cell j = some c ∧ c.name = n ∧ c.kind = k ∧ TreeAt h j ks := by
  have h1 := T [n] (by simp)
  simp only [foldPath, Spec.Forest.showsAt] at h1
  cases hs : Spec.Forest.shows f n with
  | none =>
    rw [hs] at h1
    cases ha : h.at i n with
    | none => rfl
    | some j => rw [ha] at h1; cases h1
  | some x =>
    obtain ⟨k, ks⟩ := x
    rw [hs] at h1
    cases ha : h.at i n with
    | none => rw [ha] at h1; cases h1
    | some j =>
      rw [ha] at h1
      cases hc : h.cell j with
      | none => simp [hc] at h1
      | some c =>
        simp only [hc, Option.map_some, Option.some.injEq, Prod.mk.injEq] at h1
        refine ⟨j, c, rfl, hc, h1.1, h1.2, ?_⟩
        intro ns hne
        cases ns with
        | nil => exact absurd rfl hne
        | cons m ms =>
          have h2 := T (n :: m :: ms) (by simp)
          simp only [Spec.Forest.showsAt, hs] at h2
          rw [← h2]
          simp only [foldPath, ha]

def Forest.deep : Forest → Nat
  | .nil => 0
  | .node _ _ ks rest => max (1 + ks.deep) rest.deep

theorem shows_deep : ∀ (f : Forest) (n : List Char) (k : NKind) (ks : Forest), Spec.Forest.shows f n = some (k, ks) →
    1 + ks.deep ≤ f.deep
  | .nil, n, k, ks, h => by cases h
  | .node m k' ks' rest, n, k, ks, h => by
    simp only [Spec.Forest.shows] at h
    cases hr : Spec.Forest.shows rest n with
    | some x =>
      rw [hr] at h
      cases h
      have := shows_deep rest n k ks hr
      simp only [Forest.deep]; omega
    | none =>
      rw [hr] at h
      dsimp only at h
      split at h
      · cases h; simp only [Forest.deep]; omega
      · cases h

theorem showsAt_deep : ∀ (ns : List (List Char)) (f : Forest), f.deep < ns.length → Spec.Forest.showsAt f ns = none
  | [], f, h => by simp at h
  | [n], f, h => by
    simp only [Spec.Forest.showsAt]
    cases hs : Spec.Forest.shows f n with
    | none => rfl
    | some x =>
      have := shows_deep f n x.1 x.2 hs
      simp only [List.length_cons, List.length_nil] at h
      omega
  | n :: m :: ns, f, h => by
    simp only [Spec.Forest.showsAt]
    cases hs : Spec.Forest.shows f n with
    | none => rfl
    | some x =>
      have := shows_deep f n x.1 x.2 hs
      refine showsAt_deep (m :: ns) x.2 ?_
      simp only [List.length_cons] at h ⊢
      omega

/-- in a finite tree no node is below itself -/
theorem treeAt_acyclic {h : NHeap} {i : Nat} {f : Forest} (T : TreeAt h i f) {ns : List (List Char)} (hne : ns ≠ []) :
    foldPath h.at i ns ≠ some i := by
  intro hc
  have hrep : ∀ k, foldPath h.at i (List.replicate k ns).flatten = some i := by
    intro k
    induction k with
    | zero => rfl
    | succ k ih =>
      rw [List.replicate_succ, List.flatten_cons, foldPath_append53, hc]
      exact ih
  have hlen : ∀ k, k ≤ (List.replicate k ns).flatten.length := by
    intro k
    induction k with
    | zero => exact Nat.zero_le _
    | succ k ih =>
      rw [List.replicate_succ, List.flatten_cons, List.length_append]
      have : 0 < ns.length := List.length_pos_iff.2 hne
      omega
  have hL := hlen (f.deep + 1)
  have h1 := T (List.replicate (f.deep + 1) ns).flatten
    (by intro e; rw [e] at hL; simp at hL)
  rw [hrep, showsAt_deep _ f (by omega)] at h1
  cases h1

/-- the held node is not at or below `j` -/
def Away (h : NHeap) (held j : Nat) : Prop :=
  ∀ ns, foldPath h.at j ns ≠ some held

theorem foldPath_at_congr {h g : NHeap} {x : Nat} (hag : ∀ y, y ≠ x → g.cell y = h.cell y) :
    ∀ (ns : List (List Char)) (j : Nat), (∀ ms rest, ns = ms ++ rest → rest ≠ [] → foldPath h.at j ms ≠ some x) →
    foldPath g.at j ns = foldPath h.at j ns
  | [], j, _ => rfl
  | n :: ns, j, hno => by
    have hj : j ≠ x := by
      intro e
      exact hno [] (n :: ns) rfl (by simp) (by simp [foldPath, e])
    simp only [foldPath]
    rw [at_cell (hag j hj)]
    cases ha : h.at j n with
    | none => rfl
    | some k =>
      dsimp only
      refine foldPath_at_congr hag ns k ?_
      intro ms rest e hr hc
      refine hno (n :: ms) rest (by rw [e]; rfl) hr ?_
      simp only [foldPath, ha]
      exact hc

/-- a parse that reads nothing new keeps the tree -/
theorem treeAt_same {h g : NHeap} {i : Nat} {f : Forest} (T : TreeAt h i f)
    (hag : ∀ y, y ≠ i → g.cell y = h.cell y) (hk : ∀ n, g.at i n = h.at i n) : TreeAt g i f := by
  have hat : ∀ j n, g.at j n = h.at j n := by
    intro j n
    by_cases e : j = i
    · subst e; exact hk n
    · exact at_cell (hag j e) n
  have hfold : ∀ ns j, foldPath g.at j ns = foldPath h.at j ns := by
    intro ns
    induction ns with
    | nil => intro j; rfl
    | cons n ns ih =>
      intro j
      simp only [foldPath, hat]
      cases h.at j n with
      | none => rfl
      | some k => exact ih k
  intro ns hne
  rw [hfold, ← T ns hne]
  cases hc : foldPath h.at i ns with
  | none => rfl
  | some j =>
    have : j ≠ i := by
      intro e
      rw [e] at hc
      exact treeAt_acyclic T hne hc
    simp only [Option.map_some]
    rw [hag j this]

theorem away_congr {h g : NHeap} {held j : Nat} (A : Away h held j) (hat : ∀ y n, g.at y n = h.at y n) :
    Away g held j := by
  have hfold : ∀ ns k, foldPath g.at k ns = foldPath h.at k ns := by
    intro ns
    induction ns with
    | nil => intro k; rfl
    | cons n ns ih =>
      intro k
      simp only [foldPath, hat]
      cases h.at k n with
      | none => rfl
      | some k => exact ih k
  intro ns
  rw [hfold]
  exact A ns

theorem away_step {h : NHeap} {held j k : Nat} {n : List Char} (A : Away h held j)
    (ha : h.at j n = some k) : Away h held k := by
  intro ns hc
  exact A (n :: ns) (by simp only [foldPath, ha]; exact hc)

/-- new nodes lead to new nodes only -/
theorem placed_stays {h : NHeap} {L : Nat} : ∀ (ns : List (List Char)) (i b : Nat) (f : Forest) (j : Nat), ns ≠ [] →
    (∃ c, h.cell i = some c ∧ c.kids = childInsertAll [] (f.roots b)) → L ≤ b → Placed h i b f →
    foldPath h.at i ns = some j → L ≤ j
  | [], _, _, _, _, hne, _, _, _, _ => absurd rfl hne
  | n :: ns, i, b, f, j, _, ⟨c, hc, hk⟩, hL, hp, hf => by
    have h1 := placed_shows f b n hp
    have h2 : h.at i n = lastOf (f.roots b) n := by
      unfold NHeap.at
      rw [hc]
      dsimp only
      rw [hk, kidAt_childInsertAll]
      cases lastOf (f.roots b) n <;> rfl
    cases hs : Spec.Forest.shows f n with
    | none =>
      rw [hs] at h1
      simp only [foldPath, h2, h1] at hf
      cases hf
    | some x =>
      obtain ⟨k, ks⟩ := x
      rw [hs] at h1
      obtain ⟨q, hq, hcq, hpq⟩ := h1
      have hbq : b ≤ q := by
        have hm : (n, q) ∈ f.roots b := by
          have : ∀ (l : List (List Char × Nat)), lastOf l n = some q → (n, q) ∈ l := by
            intro l
            induction l with
            | nil => intro h; cases h
            | cons y l ih =>
              intro h
              simp only [lastOf] at h
              cases hl : lastOf l n with
              | some z =>
                rw [hl] at h
                dsimp only at h
                cases h
                exact List.mem_cons_of_mem _ (ih hl)
              | none =>
                rw [hl] at h
                dsimp only at h
                split at h
                · cases h
                  rename_i e
                  rw [← e]
                  exact List.mem_cons_self
                · cases h
          exact this _ hq
        exact (roots_range f b _ hm).1
      simp only [foldPath, h2, hq] at hf
      cases ns with
      | nil => cases hf; omega
      | cons m ms =>
        exact placed_stays (m :: ms) q (q + 1) ks j (by simp) ⟨_, hcq, rfl⟩ (by omega) hpq hf

/-- reading a node that has no children and holds no links: the tree below it -/
theorem parse_reads_tree {content : Content} {h : NHeap} {i s : Nat} {c : NCell} {f : Forest}
    (hc : h.cell i = some c) (hk : ReadsFrom c.kind s) (hs : content s = .ok f) (hkids : c.kids = [])
    (hl : Spec.Forest.All NoLink f) : ∃ g, h.parse content i = (.ok (), g) ∧ TreeAt g i f := by
  have hpl := parsedKind_plan hk hs
  refine ⟨fresh h i { c with kind := parsedKind c.kind, kids := childInsertAll c.kids (f.roots h.length) } f, ?_, ?_⟩
  · rw [parse_eq hc, hpl]
    dsimp only
    rw [uols_linkFree f _ hl]
    rfl
  · intro ns hne
    have hcell : (fresh h i { c with kind := parsedKind c.kind, kids := childInsertAll c.kids (f.roots h.length) } f).cell i =
        some { c with kind := parsedKind c.kind, kids := childInsertAll c.kids (f.roots h.length) } := by
      rw [fresh_old (cell_lt hc) (cell_lt hc), if_pos rfl]
    exact placed_path ns i h.length f hne ⟨_, hcell, by dsimp only; rw [hkids]⟩ (placed_fresh f)

/-- **reading a node that has no children and holds no links** -/
theorem parse_reads {content : Content} {h : NHeap} {i s : Nat} {c : NCell} {f : Forest}
    (hc : h.cell i = some c) (hk : ReadsFrom c.kind s) (hs : content s = .ok f) (hkids : c.kids = [])
    (hl : Spec.Forest.All NoLink f) {held : Nat} (hh : held < h.length) (hi : i ≠ held) :
    ∃ g, h.parse content i = (.ok (), g) ∧ TreeAt g i f ∧ Away g held i := by
  have hpl := parsedKind_plan hk hs
  refine ⟨fresh h i { c with kind := parsedKind c.kind, kids := childInsertAll c.kids (f.roots h.length) } f, ?_, ?_, ?_⟩
  · rw [parse_eq hc, hpl]
    dsimp only
    rw [uols_linkFree f _ hl]
    rfl
  · intro ns hne
    have hcell : (fresh h i { c with kind := parsedKind c.kind, kids := childInsertAll c.kids (f.roots h.length) } f).cell i =
        some { c with kind := parsedKind c.kind, kids := childInsertAll c.kids (f.roots h.length) } := by
      rw [fresh_old (cell_lt hc) (cell_lt hc), if_pos rfl]
    exact placed_path ns i h.length f hne ⟨_, hcell, by dsimp only; rw [hkids]⟩ (placed_fresh f)
  · intro ns hf
    have hcell : (fresh h i { c with kind := parsedKind c.kind, kids := childInsertAll c.kids (f.roots h.length) } f).cell i =
        some { c with kind := parsedKind c.kind, kids := childInsertAll c.kids (f.roots h.length) } := by
      rw [fresh_old (cell_lt hc) (cell_lt hc), if_pos rfl]
    cases ns with
    | nil => simp only [foldPath, Option.some.injEq] at hf; exact hi hf
    | cons n ns =>
      have := placed_stays (L := h.length) (n :: ns) i h.length f held (by simp) ⟨_, hcell, by dsimp only; rw [hkids]⟩
        (Nat.le_refl _) (placed_fresh f) hf
      omega

/-- no children in the forest, none in the node -/
theorem treeAt_childless {h : NHeap} {i : Nat} {c : NCell} (T : TreeAt h i .nil) (hc : h.cell i = some c) :
    c.kids = [] := by
  cases hk : c.kids with
  | nil => rfl
  | cons p l =>
    have h1 := T [p.1] (by simp)
    simp only [foldPath, NHeap.at, hc, hk, kidAt, List.find?_cons, beq_self_eq_true, Option.map_some, Spec.Forest.showsAt,
      Spec.Forest.shows] at h1
    cases h1

end Wz
