import Verif.Whole.JsonSpec
import Verif.Whole.StateLemmas
import Verif.Whole.DirectLemmas
import Verif.Whole.MediaLemmas
import Verif.Value.JsonHeapProps

/-!
# Lemmas for C83
-/

set_option autoImplicit false

namespace Wz

open Spec

/-! ### the loop over the children -/

theorem jsonLoop_all {rec : Nat → Option (Except Err Json)} {F : List Char → Json} :
    ∀ (ks : List (List Char × Nat)) (m : List (List Char × Json)), (∀ k ∈ ks, rec k.2 = some (.ok (F k.1))) → (m.map Prod.fst).Nodup →
      ∃ m', NHeap.jsonLoop rec ks m = some (.ok m') ∧ (m'.map Prod.fst).Nodup ∧
        ∀ n, entry m' n = if n ∈ ks.map Prod.fst then some (F n) else entry m n
  | [], m, _, hm => ⟨m, rfl, hm, fun n => by simp⟩
  | (x, k) :: ks, m, hr, hm => by
    obtain ⟨m', h1, h2, h3⟩ := jsonLoop_all ks (jsonInsert m x (F x)) (fun k hk => hr k (List.mem_cons_of_mem _ hk)) (insert_nodup m x (F x) hm)
    refine ⟨m', ?_, h2, fun n => ?_⟩
    · rw [NHeap.jsonLoop]
      rw [show rec k = some (.ok (F x)) from hr (x, k) List.mem_cons_self]
      exact h1
    · rw [h3 n, entry_insert]
      by_cases a : n ∈ ks.map Prod.fst
      · rw [if_pos a, if_pos (by rw [List.map_cons]; exact List.mem_cons_of_mem _ a)]
      · rw [if_neg a]
        by_cases b : n = x
        · subst b
          simp
        · rw [if_neg (Ne.symm b), if_neg (by rw [List.map_cons, List.mem_cons]; exact fun h => h.elim b a)]

theorem jsonLoop_congr {r r' : Nat → Option (Except Err Json)} : ∀ (ks : List (List Char × Nat)) (m : List (List Char × Json)),
    (∀ k ∈ ks, r k.2 = r' k.2) → NHeap.jsonLoop r ks m = NHeap.jsonLoop r' ks m
  | [], _, _ => rfl
  | (x, k) :: ks, m, h => by
    rw [NHeap.jsonLoop, NHeap.jsonLoop, h (x, k) List.mem_cons_self]
    cases r' k with
    | none => rfl
    | some a =>
      cases a with
      | error _ => rfl
      | ok j => exact jsonLoop_congr ks _ fun k hk => h k (List.mem_cons_of_mem _ hk)

/-! ### one property -/

theorem lastNamed_size {n : List Char} {v : PVal} {kk : List (List Char × PTree)} : ∀ {kids : List (List Char × PTree)},
    lastNamed kids n = some (.node v kk) → sizeOf kk < sizeOf kids
  | [], h => by cases h
  | (m, t) :: rest, h => by
    rw [lastNamed_cons] at h
    cases hl : lastNamed rest n with
    | some u =>
      rw [hl] at h
      cases h
      have := lastNamed_size hl
      simp only [List.cons.sizeOf_spec]
      omega
    | none =>
      rw [hl] at h
      dsimp only at h
      split at h
      · cases h
        simp only [List.cons.sizeOf_spec, Prod.mk.sizeOf_spec, PTree.node.sizeOf_spec]
        omega
      · cases h

theorem noUol_last83 {n : List Char} {v : PVal} {kk : List (List Char × PTree)} {kids : List (List Char × PTree)} (h : NoUol kids)
    (hl : lastNamed kids n = some (.node v kk)) : (∀ s, v ≠ .uol s) ∧ NoUol kk := by
  induction h with
  | nil => cases hl
  | cons name w ks rest h1 h2 _ _ ih =>
    rw [lastNamed_cons] at hl
    cases hr : lastNamed rest n with
    | some u =>
      rw [hr] at hl
      cases hl
      exact ih hr
    | none =>
      rw [hr] at hl
      dsimp only at hl
      split at hl
      · cases hl
        exact ⟨h1, h2⟩
      · cases hl

theorem lastNamed_some {α : Type} {n : List Char} {x : α} : ∀ {kids : List (List Char × α)}, (n, x) ∈ kids → ∃ t, lastNamed kids n = some t
  | (m, a) :: rest, h => by
    rw [lastNamed_cons]
    cases hr : lastNamed rest n with
    | some u => exact ⟨u, rfl⟩
    | none =>
      rcases List.mem_cons.1 h with h | h
      · cases h
        exact ⟨x, if_pos rfl⟩
      · obtain ⟨t, ht⟩ := lastNamed_some h
        rw [ht] at hr
        cases hr

/-- the node has the value -/
def Carries (o : Obj) (v : PVal) : Prop :=
  (((∀ b, v = .float b → ¬ NotFinite32 b) ∧ ∀ b, v = .double b → ¬ NotFinite64 b) → ∃ j, o.leafJson = .ok j ∧ JsonVal v j) ∧
  ∀ n, entry o.ownEntries n = fieldsOf v n

theorem carries_prop {e : Env} {o : PObj} {v : PVal} (h : ShowsVal e o v) (hu : ∀ s, v ≠ .uol s) : Carries (o.object e) v := by
  cases h with
  | float b =>
    refine ⟨fun hf => ?_, fun n => rfl⟩
    rcases val_json (.float b) with ⟨h, _⟩ | ⟨_, j, h1, h2⟩
    · cases h with
      | float _ h => exact absurd h (hf.1 b rfl)
    · refine ⟨j, h1, ?_⟩
      cases h2 with
      | float _ d hd hv hs => exact .float b d hd hv hs
  | double b =>
    refine ⟨fun hf => ?_, fun n => rfl⟩
    rcases val_json (.double b) with ⟨h, _⟩ | ⟨_, j, h1, h2⟩
    · cases h with
      | double _ h => exact absurd h (hf.2 b rfl)
    · refine ⟨j, h1, ?_⟩
      cases h2 with
      | double _ hd => exact .double b
  | str m s hs =>
    refine ⟨fun _ => ⟨.str s, ?_, .str s⟩, fun n => rfl⟩
    show jsonStr ⟨e, m⟩ = _
    unfold jsonStr StrRef.get
    rw [hs]
  | uol m s hs => exact absurd rfl (hu s)
  | vector x y =>
    refine ⟨fun _ => ?_, fun n => rfl⟩
    rcases val_json (.vector ⟨x, y⟩) with ⟨h, _⟩ | ⟨_, j, h1, h2⟩
    · cases h
    · refine ⟨j, h1, ?_⟩
      cases h2 with
      | vector _ m hk hm => exact .vector x y m hk hm
  | canvas g pages data h1 h2 h3 h4 =>
    have hf : ∀ n, entry (PObj.object e (.canvas g)).ownEntries n = fieldsOf (.canvas g.width g.height g.format1 g.format2 pages data) n :=
      fun n => own_entry _ n
    refine ⟨fun _ => ⟨.obj g.json, rfl, .canvas _ _ _ _ _ _ _ (by simp [Png.json]) fun k => ?_⟩, hf⟩
    exact two_listed "width".toList "height".toList k _ _
  | sound s header data h1 h2 h3 h4 h5 h6 =>
    have hname : s.ty.name = soundKind s.duration header data := by
      unfold soundKind
      cases ht : s.ty with
      | mp3 => rw [if_pos (h5.1 ht)]; rfl
      | binary =>
        obtain ⟨a, b, c⟩ := h6.1 ht
        rw [if_neg (fun h => h a), if_pos ⟨b, c⟩]
        rfl
      | wav =>
        have a : header.length = 70 := by
          refine Classical.byContradiction fun h => ?_
          rw [h5.2 h] at ht
          cases ht
        rw [if_neg (fun h => h a), if_neg]
        · rfl
        · rintro ⟨b, c⟩
          rw [h6.2 ⟨a, b, c⟩] at ht
          cases ht
    have hf : ∀ k, fieldsOf (.sound s.duration header data) k =
        if k = "duration".toList then some (.int s.duration) else if k = "sound_type".toList then some (.str s.ty.name) else none := by
      intro k
      rw [hname]
      rfl
    refine ⟨fun _ => ⟨.obj s.json, rfl, .sound _ _ _ _ (by simp [Sound.json]) fun k => ?_⟩, fun k => ?_⟩
    · rw [hf]
      exact two_listed "duration".toList "sound_type".toList k _ _
    · rw [hf]
      exact two_entries "duration".toList "sound_type".toList k _ _ (by decide)
  | null => exact ⟨fun _ => ⟨_, rfl, .null⟩, fun n => rfl⟩
  | short v => exact ⟨fun _ => ⟨_, rfl, .short v⟩, fun n => rfl⟩
  | int v => exact ⟨fun _ => ⟨_, rfl, .int v⟩, fun n => rfl⟩
  | long v => exact ⟨fun _ => ⟨_, rfl, .long v⟩, fun n => rfl⟩
  | sub => exact ⟨fun _ => ⟨_, rfl, .sub⟩, fun n => rfl⟩
  | convex => exact ⟨fun _ => ⟨_, rfl, .convex⟩, fun n => rfl⟩
  | raw off data h => exact ⟨fun _ => ⟨_, rfl, .raw data⟩, fun n => rfl⟩
  | video off data h => exact ⟨fun _ => ⟨_, rfl, .video data⟩, fun n => rfl⟩

theorem carries_kind {e : Env} {k : NKind} {v : PVal} (hk : KindShows e k (.prop v)) (hu : ∀ s, v ≠ .uol s) : Carries (kindObject e k) v := by
  cases hk with
  | prop w o _ hd hs =>
    have : kindObject e (.other w) = o.object e := by
      unfold kindObject
      dsimp only
      rw [hd]
    rw [this]
    exact carries_prop hs hu

/-! ### everything below a node -/

/-- below node `i` there are these properties -/
def PropsBelow (e : Env) (h : NHeap) (i : Nat) (kids : List (List Char × PTree)) : Prop :=
  ∀ d, d ≠ [] → match propAt kids d with
    | none => foldPath h.at i d = none
    | some v => ∃ q c, foldPath h.at i d = some q ∧ h.cell q = some c ∧ Carries (kindObject e c.kind) v

theorem PropsBelow.none {e : Env} {h : NHeap} {i : Nat} {kids : List (List Char × PTree)} (H : PropsBelow e h i kids) {n : List Char}
    (hl : lastNamed kids n = Option.none) : h.at i n = Option.none := by
  have := H [n] (by simp)
  rw [Spec.propAt_one, hl] at this
  simp only [foldPath] at this
  cases ha : h.at i n with
  | none => rfl
  | some k => rw [ha] at this; cases this

theorem PropsBelow.step {e : Env} {h : NHeap} {i : Nat} {kids : List (List Char × PTree)} (H : PropsBelow e h i kids) {n : List Char}
    {v : PVal} {kk : List (List Char × PTree)} (hl : lastNamed kids n = some (.node v kk)) :
    ∃ q c, h.at i n = some q ∧ h.cell q = some c ∧ Carries (kindObject e c.kind) v ∧ PropsBelow e h q kk := by
  have := H [n] (by simp)
  rw [Spec.propAt_one, hl] at this
  dsimp only at this
  rw [if_pos rfl] at this
  obtain ⟨q, c, h1, h2, h3⟩ := this
  have ha : h.at i n = some q := by
    simp only [foldPath] at h1
    cases ha : h.at i n with
    | none => rw [ha] at h1; cases h1
    | some k => rw [ha] at h1; exact h1
  refine ⟨q, c, ha, h2, h3, fun d hd => ?_⟩
  have := H (n :: d) (by simp)
  rw [Spec.propAt_one, hl] at this
  dsimp only at this
  rw [if_neg hd] at this
  have hf : foldPath h.at i (n :: d) = foldPath h.at q d := by
    simp only [foldPath]
    rw [ha]
  rw [hf] at this
  exact this

/-- the objects of the nodes -/
def objOf (e : Env) (h : NHeap) (k : Nat) : Obj := match h.cell k with
  | none => .value .null
  | some c => kindObject e c.kind

theorem exportJson_eq (e : Env) (h : NHeap) (fuel i : Nat) : h.exportJson e fuel i = NHeap.json (objOf e h) h fuel i := rfl

/-- a node whose children can all be exported -/
theorem export_kids {e : Env} {h : NHeap} (hm : MapsOk h) {τ : Type} {i : Nat} {last : List Char → Option τ} {P : List Char → τ → Json → Prop}
    (hnone : ∀ n, last n = none → h.at i n = none)
    (hsome : ∀ n t, last n = some t → ∃ q j D, h.at i n = some q ∧ (∀ fuel, D ≤ fuel → h.exportJson e fuel q = some (.ok j)) ∧ P n t j) :
    (childrenOf h i = [] ∧ ∀ n, last n = none) ∨
    ((∃ n t, last n = some t) ∧ ∃ m B, ∃ F : List Char → Json, (∀ fuel, B ≤ fuel → h.exportJson e fuel i = some (.ok (.obj m))) ∧ (m.map Prod.fst).Nodup ∧
      (∀ n t, last n = some t → entry m n = some (F n) ∧ P n t (F n)) ∧ ∀ n, last n = none → entry m n = entry (objOf e h i).ownEntries n) := by
  have hkid : ∀ n, ∃ x : Json × Nat, ∀ t, last n = some t → ∃ q, h.at i n = some q ∧
      (∀ fuel, x.2 ≤ fuel → h.exportJson e fuel q = some (.ok x.1)) ∧ P n t x.1 := by
    intro n
    cases hl : last n with
    | none => exact ⟨(.null, 0), fun t ht => by cases ht⟩
    | some t =>
      obtain ⟨q, j, D, h1, h2, h3⟩ := hsome n t hl
      exact ⟨(j, D), fun t ht => by cases ht; exact ⟨q, h1, h2, h3⟩⟩
  obtain ⟨x, hx⟩ := Classical.axiomOfChoice hkid
  have hbound : ∀ l : List (List Char × Nat), ∃ B, ∀ k ∈ l, (x k.1).2 ≤ B := by
    intro l
    induction l with
    | nil => exact ⟨0, fun k hk => by cases hk⟩
    | cons a l ih =>
      obtain ⟨B, hB⟩ := ih
      refine ⟨B + (x a.1).2, fun k hk => ?_⟩
      rcases List.mem_cons.1 hk with rfl | hk
      · omega
      · have := hB k hk
        omega
  obtain ⟨B, hB⟩ := hbound (childrenOf h i)
  have hmem : ∀ k ∈ childrenOf h i, h.at i k.1 = some k.2 ∧ ∃ t, last k.1 = some t := by
    intro k hk
    have ha : h.at i k.1 = some k.2 := (at_eq hm).2 (childOf_mem.2 hk)
    refine ⟨ha, ?_⟩
    cases hl : last k.1 with
    | none => rw [hnone _ hl] at ha; cases ha
    | some t => exact ⟨t, rfl⟩
  have hin : ∀ n, n ∈ (childrenOf h i).map Prod.fst ↔ ∃ t, last n = some t := by
    intro n
    constructor
    · intro hn
      obtain ⟨k, hk, rfl⟩ := List.mem_map.1 hn
      exact (hmem k hk).2
    · rintro ⟨t, ht⟩
      obtain ⟨q, hq, _⟩ := hx n t ht
      exact List.mem_map.2 ⟨(n, q), childOf_mem.1 ((at_eq hm).1 hq), rfl⟩
  cases hch : childrenOf h i with
  | nil =>
    refine .inl ⟨rfl, fun n => ?_⟩
    cases hl : last n with
    | none => rfl
    | some t =>
      have := (hin n).2 ⟨t, hl⟩
      rw [hch] at this
      cases this
  | cons a l =>
    have hloop : ∀ fuel, B ≤ fuel → ∃ m', NHeap.jsonLoop (NHeap.json (objOf e h) h fuel) (childrenOf h i) (objOf e h i).ownEntries = some (.ok m') ∧
        (m'.map Prod.fst).Nodup ∧ ∀ n, entry m' n = if n ∈ (childrenOf h i).map Prod.fst then some (x n).1 else entry (objOf e h i).ownEntries n := by
      intro fuel hf
      refine jsonLoop_all (F := fun n => (x n).1) _ _ (fun k hk => ?_) (own_nodup _)
      obtain ⟨h1, t, ht⟩ := hmem k hk
      obtain ⟨q, h2, h3, _⟩ := hx k.1 t ht
      rw [h1] at h2
      cases h2
      exact h3 fuel (Nat.le_trans (hB k hk) hf)
    obtain ⟨m, m1, m2, m3⟩ := hloop B (Nat.le_refl B)
    refine .inr ⟨⟨a.1, (hmem a (by rw [hch]; exact List.mem_cons_self)).2⟩, m, B + 1, fun n => (x n).1, fun fuel hf => ?_, m2, fun n t ht => ⟨?_, ?_⟩, fun n hn => ?_⟩
    · obtain ⟨fuel, rfl⟩ : ∃ k, fuel = k + 1 := ⟨fuel - 1, by omega⟩
      have hsame : NHeap.jsonLoop (NHeap.json (objOf e h) h fuel) (childrenOf h i) (objOf e h i).ownEntries = some (.ok m) := by
        rw [← m1]
        refine jsonLoop_congr _ _ fun k hk => ?_
        obtain ⟨h1, t, ht⟩ := hmem k hk
        obtain ⟨q, h2, h3, _⟩ := hx k.1 t ht
        rw [h1] at h2
        cases h2
        exact (h3 fuel (by have := hB k hk; omega)).trans (h3 B (hB k hk)).symm
      rw [hch] at hsame
      rw [exportJson_eq, json_eq, hch]
      dsimp only
      rw [hsame]
      rfl
    · rw [m3, if_pos ((hin n).2 ⟨t, ht⟩)]
    · obtain ⟨q, _, _, h3⟩ := hx n t ht
      exact h3
    · rw [m3, if_neg (fun h => by obtain ⟨t, ht⟩ := (hin n).1 h; rw [hn] at ht; cases ht)]

/-- a node without children -/
theorem export_leaf {e : Env} {h : NHeap} {i : Nat} (hch : childrenOf h i = []) {j : Json} (hj : (objOf e h i).leafJson = .ok j) :
    ∀ fuel, 1 ≤ fuel → h.exportJson e fuel i = some (.ok j) := by
  intro fuel hf
  obtain ⟨fuel, rfl⟩ : ∃ k, fuel = k + 1 := ⟨fuel - 1, by omega⟩
  rw [exportJson_eq, json_eq, hch]
  dsimp only
  rw [hj]

theorem export_props {e : Env} {h : NHeap} (hm : MapsOk h) : ∀ (N : Nat) (kids : List (List Char × PTree)), sizeOf kids < N →
    ∀ (i : Nat) (v : PVal), FiniteNumbers kids → PropsBelow e h i kids → Carries (objOf e h i) v →
    ((∀ b, v = .float b → ¬ NotFinite32 b) ∧ ∀ b, v = .double b → ¬ NotFinite64 b) →
    ∃ j D, (∀ fuel, D ≤ fuel → h.exportJson e fuel i = some (.ok j)) ∧ ShowsJson (.node v kids) j
  | 0, _, hN => absurd hN (by omega)
  | N + 1, kids, hN => by
    intro i v hfin H hc hv
    have hk := export_kids (e := e) hm (i := i) (last := lastNamed kids) (P := fun _ t j => ShowsJson t j) (fun n hn => H.none hn) (by
      rintro n ⟨w, kk⟩ hl
      obtain ⟨q, c, h1, h2, h3, h4⟩ := H.step hl
      have hfk : FiniteNumbers kk := by
        intro d x hx
        refine hfin (n :: d) x ?_
        rw [Spec.propAt_one, hl]
        dsimp only
        rw [if_neg (by rintro rfl; cases hx)]
        exact hx
      have hfw := hfin [n] w (by rw [Spec.propAt_one, hl]; exact if_pos rfl)
      obtain ⟨j, D, j1, j2⟩ := export_props hm N kk (by have := lastNamed_size hl; omega) q w hfk h4
        (by unfold objOf; rw [h2]; exact h3) hfw
      exact ⟨q, j, D, h1, j1, j2⟩)
    rcases hk with ⟨hch, hall⟩ | ⟨⟨n, t, ht⟩, m, B, F, h1, h2, h3, h4⟩
    · have hnil : kids = [] := by
        cases kids with
        | nil => rfl
        | cons a rest =>
          obtain ⟨t, ht⟩ := lastNamed_some (n := a.1) (x := a.2) (kids := a :: rest) List.mem_cons_self
          rw [hall] at ht
          cases ht
      subst hnil
      obtain ⟨j, j1, j2⟩ := hc.1 hv
      exact ⟨j, 1, export_leaf hch j1, .leaf v j j2⟩
    · exact ⟨.obj m, B, h1, .node v kids m F (by rintro rfl; cases ht) h2 (fun n t ht => (h3 n t ht).1) (fun n t ht => (h3 n t ht).2)
        fun n hn => by rw [h4 n hn]; exact hc.2 n⟩
termination_by N => N

/-! ### to the image -/

def imageFrom (t : ATree) (ns : List (List Char)) : Option (List (List Char × PTree)) := match t with
  | .dir ks => imageAt ks ns
  | t => if ns = [] then propsOf t else none

theorem imageAt_cons (kids : List (List Char × ATree)) (n : List Char) (ns : List (List Char)) :
    imageAt kids (n :: ns) = match lastNamed kids n with
      | none => none
      | some t => imageFrom t ns := by
  rw [imageAt]
  cases lastNamed kids n with
  | none => rfl
  | some t =>
    cases t with
    | _ => rfl

theorem imageFrom_image {t : ATree} {ns : List (List Char)} {props : List (List Char × PTree)} (ht : ∀ ks, t ≠ .dir ks)
    (h : imageFrom t ns = some props) : ns = [] ∧ propsOf t = some props := by
  cases t with
  | dir ks => exact absurd rfl (ht ks)
  | _ =>
    unfold imageFrom at h
    dsimp only at h
    split at h
    · exact ⟨by assumption, h⟩
    · cases h

theorem fold_image83 {e : Env} {fuel : Nat} {content : Content} {held : Nat} {props : List (List Char × PTree)} :
    ∀ (ns : List (List Char)) (h : NHeap) (k : Nat) (nm : List Char) (t : ATree), (∃ c p s, h.cell held = some c ∧ c.kind = .file p s) →
    Stands58 e fuel h k nm t → imageFrom t ns = some props →
    ∃ j nm' t' g, NHeap.foldParsed content held h k ns = (.ok j, g) ∧ Keeps58 e fuel h g ∧ Stands58 e fuel g j nm' t' ∧ propsOf t' = some props
  | [], h, k, nm, t, _, H, hi => by
    cases t with
    | dir ks => cases hi
    | _ => exact ⟨k, nm, _, h, rfl, .refl, H, (imageFrom_image (by intro ks; simp) hi).2⟩
  | n :: ns, h, k, nm, t, hh, H, hi => by
    obtain ⟨ch, ph, sh, hch, hkh⟩ := hh
    cases H with
    | image _ c _ p o s _ f hc hn hk ht =>
      have := (imageFrom_image (t := t) (by rintro ks rfl; exact nomatch ht.stored) hi).1
      cases this
    | dir _ c _ p src kids ids hc hn hk h1 h2 h3 =>
      have hne : k ≠ held := by
        rintro rfl
        rw [hc] at hch
        cases hch
        rw [hk] at hkh
        cases hkh
      obtain ⟨g, g1, g2, g3⟩ := parse_dir58 (e := e) (fuel := fuel) (content := content) hc hk
      change imageAt kids (n :: ns) = some props at hi
      rw [imageAt_cons] at hi
      cases hl : lastNamed kids n with
      | none => rw [hl] at hi; cases hi
      | some u =>
        rw [hl] at hi
        obtain ⟨j, nm', t', g', r1, r2, r3, r4⟩ := fold_image83 (content := content) ns g (ids n) n u
          ⟨ch, ph, sh, g2.2.1 held ch ph sh hch hkh, hkh⟩ (g2.1 _ _ _ (h3 n u hl)) hi
        refine ⟨j, nm', t', g', ?_, g2.trans r2, r3, r4⟩
        rw [foldParsed_cons, if_neg hne, g1]
        dsimp only
        rw [g3, h2 n u hl]
        exact r1

theorem find_image83 {e : Env} {fuel : Nat} {content : Content} {h : NHeap} {i : Nat} {arch : List (List Char × ATree)}
    (F : FileStands e fuel h i arch) {path : List Char} {ns : List (List Char)} (hp : Pieces path ns) {props : List (List Char × PTree)}
    (hi : imageAt arch ns = some props) :
    ∃ j nm t g, h.atPathParsed content i path = (.ok j, g) ∧ Keeps58 e fuel h g ∧ Stands58 e fuel g j nm t ∧ propsOf t = some props := by
  have hs := pieces_iff.1 hp
  unfold NHeap.atPathParsed
  rw [hs]
  cases ns with
  | nil => exact absurd rfl hp.some
  | cons n ns =>
    dsimp only
    have := F.2 n
    rw [imageAt_cons] at hi
    cases hl : lastNamed arch n with
    | none => rw [hl] at hi; cases hi
    | some t =>
      rw [hl] at this hi
      obtain ⟨k, h1, h2⟩ := this
      rw [h1]
      exact fold_image83 ns h k n t F.1 h2 hi

theorem propAt_single (x : List Char) (v : PVal) (n : List Char) (ns : List (List Char)) :
    propAt [(x, .node v [])] (n :: ns) = if n :: ns = [x] then some v else none := by
  rw [Spec.propAt_one, lastNamed_cons]
  dsimp only [lastNamed]
  by_cases h1 : n = x
  · subst h1
    cases ns with
    | nil => rw [if_pos rfl, if_pos rfl]; rfl
    | cons a l =>
      rw [if_pos rfl, if_neg (show ¬ n :: a :: l = [n] by simp)]
      rfl
  · rw [if_neg (Ne.symm h1), if_neg (by rintro h; exact h1 (List.cons.inj h).1)]

theorem noUol_propAt83 : ∀ (d : List (List Char)) {kids : List (List Char × PTree)} {v : PVal}, NoUol kids → propAt kids d = some v → ∀ s, v ≠ .uol s
  | [], _, _, _, h => by cases h
  | n :: d, kids, v, hu, h => by
    rw [Spec.propAt_one] at h
    cases hl : lastNamed kids n with
    | none => rw [hl] at h; cases h
    | some t =>
      obtain ⟨w, kk⟩ := t
      rw [hl] at h
      dsimp only at h
      obtain ⟨h1, h2⟩ := noUol_last83 hu hl
      split at h
      · cases h; exact h1
      · exact noUol_propAt83 d h2 h

theorem carries_script {e : Env} {k : NKind} {d : Bytes} (hk : KindShows e k (.script d)) : Carries (kindObject e k) (.raw d) := by
  cases hk with
  | script w off _ hd hs =>
    have : kindObject e (.other w) = .value (.lua off d.length) := by
      unfold kindObject
      dsimp only
      rw [hd]
    rw [this]
    exact ⟨fun _ => ⟨_, rfl, .raw d⟩, fun n => rfl⟩

theorem props_below {e : Env} {g : NHeap} {j : Nat} {t : ATree} {f : Forest} {props : List (List Char × PTree)} (T : TreeAt g j f)
    (hg : GoodImage e t f) (hut : NoUolIn t) (hp : propsOf t = some props) : PropsBelow e g j props := by
  intro d hd
  have hs := goodImage_shows T hg hut d hd
  obtain ⟨n, ns, rfl⟩ : ∃ n ns, d = n :: ns := by
    cases d with
    | nil => exact absurd rfl hd
    | cons n ns => exact ⟨n, ns, rfl⟩
  cases t with
  | dir ks => cases hp
  | image ps =>
    obtain rfl : ps = props := Option.some.inj hp
    rw [show belowImage (.image ps) (n :: ns) = (propAt ps (n :: ns)).map .prop from rfl] at hs
    cases hx : propAt ps (n :: ns) with
    | none => rw [hx] at hs; exact hs
    | some v =>
      rw [hx] at hs
      obtain ⟨x, c, _, a1, a2, _, a4⟩ := hs
      exact ⟨x, c, a1, a2, carries_kind a4 (noUol_propAt83 _ hut hx)⟩
  | text b =>
    cases hp
    rw [propAt_single]
    unfold belowImage at hs
    dsimp only at hs
    by_cases hx : n :: ns = ["text.txt".toList]
    · rw [if_pos hx] at hs ⊢
      obtain ⟨x, c, _, a1, a2, _, a4⟩ := hs
      exact ⟨x, c, a1, a2, carries_kind a4 (by simp)⟩
    · rw [if_neg hx] at hs ⊢
      exact hs
  | script b =>
    cases hp
    rw [propAt_single]
    unfold belowImage at hs
    dsimp only at hs
    by_cases hx : n :: ns = ["Script".toList]
    · rw [if_pos hx] at hs ⊢
      obtain ⟨x, c, _, a1, a2, _, a4⟩ := hs
      exact ⟨x, c, a1, a2, carries_script a4⟩
    · rw [if_neg hx] at hs ⊢
      exact hs

theorem export_image {e : Env} {fuel : Nat} {content : Content} {h : NHeap} {j : Nat} {nm : List Char} {t : ATree}
    (hcon : ∀ n o s, content (Encodable.encode (Src58.image n o s)) = readImage e fuel ⟨n, o, s⟩) (hm : MapsOk h)
    (H : Stands58 e fuel h j nm t) {props : List (List Char × PTree)} (hp : propsOf t = some props) (hu : NoUol props) (hf : FiniteNumbers props) :
    ∃ g, h.parse content j = (.ok (), g) ∧ Keeps58 e fuel h g ∧ ExportsAs e g j props := by
  have hut : NoUolIn t := by
    cases t with
    | image ps => cases hp; exact hu
    | _ => trivial
  cases hH : H with
  | dir => cases hp
  | image _ c _ p o s _ f hc hn hk ht hr hg hp1 hp2 =>
    obtain ⟨g, h1, h2, h3⟩ := parse_image58 (hcon nm o s) hc hk hr (hg.free hut) hp1 hp2
    refine ⟨g, h1, h2, ?_⟩
    have hmg : MapsOk g := by
      have := mapsOk_parse (content := content) (i := j) hm
      rw [h1] at this
      exact this
    obtain ⟨c', p', s', hc', hk'⟩ : ∃ c p s, g.cell j = some c ∧ c.kind = .image p s := by
      cases h2.1 _ _ _ H with
      | dir => cases hp
      | image _ c _ p o s _ f hc hn hk => exact ⟨c, p, _, hc, hk⟩
    have hb : PropsBelow e g j props := props_below h3 hg hut hp
    refine export_props hmg _ props (Nat.lt_succ_self _) j .sub hf hb ?_ ⟨fun b hb => (by cases hb), fun b hb => (by cases hb)⟩
    unfold objOf
    rw [hc']
    dsimp only
    rw [hk']
    exact ⟨fun _ => ⟨_, rfl, .sub⟩, fun n => rfl⟩

end Wz
