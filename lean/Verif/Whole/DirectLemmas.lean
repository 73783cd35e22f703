import Verif.Whole.DirectSpec
import Verif.Whole.Props
import Verif.Node.HistoryLemmas
import Verif.Node.SplitProps

/-!
# Lemmas for C61
-/

set_option autoImplicit false

namespace Wz

open Spec

/-! ### the children of every node keep different names -/

theorem mapsOk_run {content : Content} {i : Nat} : ∀ (ops : List ArcOp) (h : NHeap), MapsOk h → MapsOk (runArc content i h ops)
  | [], _, hm => hm
  | .find p :: ops, h, hm => mapsOk_run ops _ (mapsOk_atPathParsed hm)
  | .load p :: ops, h, hm => by
    rw [runArc]
    have := mapsOk_atPathParsed (content := content) (i := i) (path := p) hm
    generalize h.atPathParsed content i p = z at this
    obtain ⟨r, g⟩ := z
    cases r with
    | ok j => exact mapsOk_run ops _ (mapsOk_parse this)
    | error x => exact mapsOk_run ops _ this
  | .close p :: ops, h, hm => by
    rw [runArc]
    have := mapsOk_atPathParsed (content := content) (i := i) (path := p) hm
    generalize h.atPathParsed content i p = z at this
    obtain ⟨r, g⟩ := z
    cases r with
    | ok j => exact mapsOk_run ops _ (mapsOk_unparse this j)
    | error x => exact mapsOk_run ops _ this

/-! ### down to the image -/

def ListStands (e : Env) (fuel : Nat) (g : NHeap) (k : Nat) (kids : List (List Char × ATree)) : Prop :=
  ∀ n, match lastNamed kids n with
    | none => g.at k n = none
    | some t => ∃ j, g.at k n = some j ∧ Stands58 e fuel g j n t

theorem stands_list {e : Env} {fuel : Nat} {g : NHeap} {j : Nat} {nm : List Char} {kids : List (List Char × ATree)}
    (h : Stands58 e fuel g j nm (.dir kids)) : ListStands e fuel g j kids ∧ ¬ Image g j := by
  cases h with
  | image _ c _ p o s _ f hc hn hk ht => exact nomatch ht.stored
  | dir _ c _ p src _ ids hc hn hk h1 h2 h3 =>
    refine ⟨fun n => ?_, ?_⟩
    · cases hl : lastNamed kids n with
      | none => exact h1 n hl
      | some t => exact ⟨ids n, h2 n t hl, h3 n t hl⟩
    · rintro ⟨c', p', s', hc', hk'⟩
      rw [hc] at hc'
      cases hc'
      rw [hk] at hk'
      cases hk'

theorem dirs_stand {e : Env} {fuel : Nat} {g : NHeap} : ∀ (dirs : List (List Char)) (k : Nat) (kids kids' : List (List Char × ATree)),
    ListStands e fuel g k kids → dirIn kids dirs = some kids' →
    ∃ j, foldPath g.at k dirs = some j ∧ ListStands e fuel g j kids' ∧
      ∀ a j', a <+: dirs → a ≠ [] → foldPath g.at k a = some j' → ¬ Image g j'
  | [], k, kids, kids', S, h => by
    cases h
    exact ⟨k, rfl, S, fun a j' hp hne => absurd (List.prefix_nil.1 hp) hne⟩
  | n :: dirs, k, kids, kids', S, h => by
    have hn := S n
    rw [dirIn] at h
    cases hl : lastNamed kids n with
    | none => rw [hl] at h; cases h
    | some t =>
      rw [hl] at h hn
      obtain ⟨j, hj, hs⟩ := hn
      cases t with
      | dir ks =>
        obtain ⟨L, hi⟩ := stands_list hs
        obtain ⟨j2, h1, h2, h3⟩ := dirs_stand dirs j ks kids' L h
        refine ⟨j2, by rw [foldPath, hj]; exact h1, h2, fun a j' hp hne hf => ?_⟩
        cases a with
        | nil => exact absurd rfl hne
        | cons x a =>
          obtain ⟨rfl, hp'⟩ := List.cons_prefix_cons.1 hp
          rw [foldPath, hj] at hf
          cases a with
          | nil => cases hf; exact hi
          | cons y a => exact h3 (y :: a) j' hp' (by simp) hf
      | image ps => cases h
      | text d => cases h
      | script d => cases h

theorem stands_image {e : Env} {fuel : Nat} {g : NHeap} {j : Nat} {nm : List Char} {t : ATree} (h : Stands58 e fuel g j nm t)
    (ht : ∀ ks, t ≠ .dir ks) : Image g j := by
  cases h with
  | image _ c _ p o s _ f hc hn hk => exact ⟨c, _, _, hc, hk⟩
  | dir => exact absurd rfl (ht _)

/-- the image is found, with the rest of the path -/
theorem into_image {e : Env} {fuel : Nat} {g : NHeap} {i : Nat} {arch : List (List Char × ATree)} {path : List Char}
    {dirs ns : List (List Char)} {img : List Char} {t : ATree} (hm : MapsOk g) (S : ListStands e fuel g i arch)
    (hp : IntoImage path dirs img ns) (hi : ImageIn arch dirs img t) (ht : ∀ ks, t ≠ .dir ks) :
    ∃ j, g.imageFromPath i path = .ok (some (j, slashed ns)) ∧ Stands58 e fuel g j img t := by
  obtain ⟨kids, h1, h2⟩ := hi
  obtain ⟨d, hd, L, hno⟩ := dirs_stand dirs i arch kids S h1
  have := L img
  rw [h2] at this
  obtain ⟨j, hj, hs⟩ := this
  refine ⟨j, ?_, hs⟩
  cases hp with
  | suffix a rest hf hr ha hn =>
    rw [← hn.text]
    refine Props.C30_usual_partial hm hf hr ha ((foldPath_at hm _ _ _).1 ?_)
    rw [foldPath_append53, hd]
    show foldPath g.at d [img] = some j
    rw [foldPath, hj]
    rfl
  | plain hno' hpp hne =>
    cases ns with
    | nil => exact absurd rfl hne
    | cons y b =>
      exact Props.C30_no_suffix_partial hm hno' hpp ((foldPath_at hm _ _ _).1 hd)
        (fun a' j' h1 h2 h3 => hno a' j' h1 h2 ((foldPath_at hm _ _ _).2 h3)) ((at_eq hm).1 hj) (stands_image hs ht)

/-! ### in an image that has been read -/

theorem foldPath_image58 {e : Env} {g : NHeap} {k : Nat} {t : ATree} {f : Forest} {ns : List (List Char)} (hne : ns ≠ [])
    (T : TreeAt g k f) (hg : GoodImage e t f) (hu : NoUolIn t) :
    match belowImage t ns with
    | none => foldPath g.at k ns = none
    | some v => ∃ q c, foldPath g.at k ns = some q ∧ g.cell q = some c ∧ ns.getLast? = some c.name ∧ KindShows e c.kind v := by
  obtain ⟨r, L, O⟩ := hg.leads (fun _ => .error .read) ns hne hu
  have hr := leads_values L hg.values
  have hT := T ns hne
  cases hs : Spec.Forest.showsAt f ns with
  | none =>
    rw [hs] at hr hT
    dsimp only at hr
    subst hr
    have hf : foldPath g.at k ns = none := by
      cases hf : foldPath g.at k ns with
      | some q => rw [hf] at hT; cases hT
      | none => rfl
    cases hv : belowImage t ns with
    | none => exact hf
    | some v => rw [hv] at O; obtain ⟨_, _, h1, _⟩ := O; cases h1
  | some x =>
    rw [hs] at hr hT
    dsimp only at hr
    subst hr
    cases hf : foldPath g.at k ns with
    | none => rw [hf] at hT; cases hT
    | some q =>
      rw [hf] at hT
      simp only [Option.map_some, Option.some.injEq] at hT
      cases hv : belowImage t ns with
      | none => rw [hv] at O; cases O
      | some v =>
        rw [hv] at O
        obtain ⟨nm', k', h1, h2, h3⟩ := O
        cases h1
        cases hc : g.cell q with
        | none => rw [hc] at hT; cases hT
        | some c =>
          rw [hc] at hT
          simp only [Option.map_some, Option.some.injEq, Prod.mk.injEq] at hT
          exact ⟨q, c, rfl, hc, by rw [h2, hT.1], by rw [hT.2]; exact h3⟩

theorem lastNamed_missing {α : Type} {n : List Char} : ∀ {kids : List (List Char × α)}, n ∉ kids.map Prod.fst → lastNamed kids n = none
  | [], _ => rfl
  | (m, b) :: rest, h => by
    rw [List.map_cons, List.mem_cons, not_or] at h
    rw [lastNamed_cons, lastNamed_missing h.2]
    dsimp only
    rw [if_neg (fun x => h.1 x.symm)]

theorem lastNamed_nodup {α : Type} {n : List Char} {a : α} : ∀ {kids : List (List Char × α)}, (kids.map Prod.fst).Nodup → (n, a) ∈ kids →
    lastNamed kids n = some a
  | (m, b) :: rest, hd, hm => by
    rw [lastNamed_cons]
    rw [List.map_cons, List.nodup_cons] at hd
    rcases List.mem_cons.1 hm with hm | hm
    · cases hm
      have : lastNamed rest n = none := lastNamed_missing hd.1
      rw [this]
      dsimp only
      rw [if_pos rfl]
    · rw [lastNamed_nodup hd.2 hm]

end Wz
