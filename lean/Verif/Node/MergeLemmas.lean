import Verif.Node.TreeLemmas

set_option autoImplicit false

namespace Wz

open Spec

theorem find_mem {n : List Char} {j : Nat} {kj : IdForest} : ∀ (r : IdForest), r.find n = some (j, kj) →
    j ∈ r.ids ∧ ∀ x ∈ kj.ids, x ∈ r.ids
  | .nil, hr => by cases hr
  | .cons m' l' kl' r', hr => by
    unfold IdForest.find at hr
    simp only [IdForest.ids, List.mem_cons, List.mem_append]
    split at hr
    · obtain ⟨rfl, rfl⟩ := Prod.mk.inj (Option.some.inj hr)
      exact ⟨.inl rfl, fun x hx => .inr (.inl hx)⟩
    · obtain ⟨a, b⟩ := find_mem r' hr
      exact ⟨.inr (.inr a), fun x hx => .inr (.inr (b x hx))⟩

theorem find_nodup {n : List Char} {j : Nat} {kj : IdForest} : ∀ (r : IdForest), r.find n = some (j, kj) →
    r.ids.Nodup → (j :: kj.ids).Nodup
  | .nil, hr, _ => by cases hr
  | .cons m' l' kl' r', hr, hd => by
    unfold IdForest.find at hr
    simp only [IdForest.ids, List.nodup_cons, List.nodup_append, List.mem_append] at hd
    split at hr
    · obtain ⟨rfl, rfl⟩ := Prod.mk.inj (Option.some.inj hr)
      exact List.nodup_cons.2 ⟨fun e => hd.1 (.inl e), hd.2.1⟩
    · exact find_nodup r' hr hd.2.2.1

theorem find_linked {h : NHeap} {n : List Char} {j p : Nat} {kj : IdForest} : ∀ (r : IdForest),
    r.find n = some (j, kj) → Linked h p r → Linked h j kj
  | .nil, hr, _ => by cases hr
  | .cons m' l' kl' r', hr, ⟨_, h2, h3⟩ => by
    unfold IdForest.find at hr
    split at hr
    · obtain ⟨rfl, rfl⟩ := Prod.mk.inj (Option.some.inj hr); exact h2
    · exact find_linked r' hr h3

/-- what a merge of the children `fs` into the node `d` (with the children `fd`) does to the heap -/
structure Merged (h g : NHeap) (d : Nat) (fs fd : IdForest) : Prop where
  below : Below g d (fs.merge fd)
  links : Linked g d (fs.merge fd)
  frame : ∀ x, x ≠ d → x ∉ fs.ids → x ∉ fd.ids → g.cell x = h.cell x
  values : SameValues h g
  keeps : ∀ c, h.cell d = some c → ∃ c', g.cell d = some c' ∧ c'.parent = c.parent

theorem transferLoop_merged : ∀ (fs : IdForest) (fuel : Nat) (h : NHeap) (d s : Nat) (fd : IdForest),
    fs.depth ≤ fuel → Drawn h fs → Linked h s fs → Below h d fd → Linked h d fd →
    (d :: (fs.ids ++ fd.ids)).Nodup →
    ∃ g, NHeap.transferLoop (NHeap.transfer fuel) d h fs.roots = some g ∧ Merged h g d fs fd := by
  intro fs
  induction fs with
  | nil =>
    intro fuel h d s fd _ _ _ hb hl _
    exact ⟨h, rfl, hb, hl, fun _ _ _ _ => rfl, SameValues.refl h, fun c hc => ⟨c, hc, rfl⟩⟩
  | cons n i ks rest ihk ihr =>
    intro fuel h d s fd hdep hdr hls hb hl hnd
    obtain ⟨⟨ci, hci, hki⟩, hdk, hdrest⟩ := hdr
    obtain ⟨⟨ci', hci', hpi⟩, hlk, hlrest⟩ := hls
    simp only [IdForest.ids, IdForest.depth, List.cons_append, List.append_assoc, List.nodup_cons,
      List.mem_cons, List.mem_append, not_or, List.nodup_append] at hnd hdep
    obtain ⟨⟨hdi, hdks, hdrest', hdfd⟩, ⟨hik, hir, hif⟩, hksn, ⟨hrn, hfn, hrf⟩, hkall⟩ := hnd
    have hkr : ∀ x ∈ ks.ids, x ∉ rest.ids := fun x hx e => hkall x hx x (.inl e) rfl
    have hkf : ∀ x ∈ ks.ids, x ∉ fd.ids := fun x hx e => hkall x hx x (.inr e) rfl
    have hrfd : ∀ x ∈ rest.ids, x ∉ fd.ids := fun x hx e => hrf x hx x e rfl
    rw [IdForest.roots, NHeap.transferLoop, at_below hb]
    cases hfind : fd.find n with
    | some jk =>
      obtain ⟨j, kj⟩ := jk
      dsimp only [Option.map_some]
      obtain ⟨hjmem, hkjsub⟩ := find_mem fd hfind
      have hjn := find_nodup fd hfind hfn
      have hbj := find_drawn fd n j kj hb.2 hfind
      have hlj := find_linked fd hfind hl
      have hij : i ≠ j := fun e => hif (e ▸ hjmem)
      have hjd : j ≠ d := fun e => hdfd (e ▸ hjmem)
      -- the recursive call
      obtain ⟨f, rfl⟩ : ∃ f, fuel = f + 1 := ⟨fuel - 1, by omega⟩
      have h0cell : ∀ x, x ≠ i → (h.setKids i []).cell x = h.cell x := by
        intro x hx; rw [setKids_cell, if_neg hx]
      have hjks : j ∉ ks.ids := fun e => hkf j e hjmem
      obtain ⟨g1, hg1, m1⟩ := ihk f (h.setKids i []) j i kj (by omega)
        (drawn_agree ks (fun x hx => h0cell x (fun e => hik (e ▸ hx))) hdk)
        (linked_agree ks i (fun x hx => h0cell x (fun e => hik (e ▸ hx))) hlk)
        (by
          obtain ⟨⟨c, h1, h2⟩, h3⟩ := hbj
          exact ⟨⟨c, by rw [h0cell j (fun e => hij e.symm), h1], h2⟩,
            drawn_agree kj (fun x hx => h0cell x (fun e => hif (e ▸ hkjsub x hx))) h3⟩)
        (linked_agree kj j (fun x hx => h0cell x (fun e => hif (e ▸ hkjsub x hx))) hlj)
        (by
          rw [List.nodup_cons] at hjn ⊢
          rw [List.nodup_append]
          refine ⟨?_, hksn, hjn.2, fun a ha b hb e => hkf a ha (hkjsub a (e ▸ hb))⟩
          intro e
          rcases List.mem_append.1 e with e | e
          · exact hjks e
          · exact hjn.1 e)
      have hstep : NHeap.transfer (f + 1) h i j = some g1 := by
        rw [NHeap.transfer, hci]
        dsimp only
        rw [hki]
        exact hg1
      rw [hstep]
      dsimp only
      -- what stays
      have hg1cell : ∀ x, x ≠ i → x ≠ j → x ∉ ks.ids → x ∉ kj.ids → g1.cell x = h.cell x := by
        intro x h1 h2 h3 h4
        rw [m1.frame x h2 h3 h4, h0cell x h1]
      have hjkj : ∀ x ∈ kj.ids, x ∈ fd.ids := hkjsub
      have hdcell : g1.cell d = h.cell d :=
        hg1cell d hdi (fun e => hjd e.symm) hdks (fun e => hdfd (hjkj d e))
      have hagr : ∀ x ∈ fd.ids, x ≠ j → x ∉ kj.ids → g1.cell x = h.cell x := by
        intro x hx h1 h2
        exact hg1cell x (fun e => hif (e ▸ hx)) h1 (fun e => hkf x e hx) h2
      have hsubids := ids_upd_sub n ks.merge i ks (fun d y hy => ids_merge_sub ks d y hy) fd
      have hupd_sub : ∀ x, x ∈ (fd.upd n ks.merge i ks).ids → x ∈ ks.ids ∨ x ∈ fd.ids := by
        have : ∀ (d : IdForest), d.find n ≠ none → ∀ x, x ∈ (d.upd n ks.merge i ks).ids → x ∈ ks.ids ∨ x ∈ d.ids := by
          intro d
          induction d with
          | nil => intro e; exact absurd rfl e
          | cons m l kl r _ ih =>
            intro e x hx
            unfold IdForest.upd at hx
            simp only [IdForest.ids, List.mem_cons, List.mem_append]
            split at hx
            · simp only [IdForest.ids, List.mem_cons, List.mem_append] at hx
              rcases hx with hx | hx | hx
              · exact .inr (.inl hx)
              · rcases ids_merge_sub ks kl x hx with hx | hx
                · exact .inl hx
                · exact .inr (.inr (.inl hx))
              · exact .inr (.inr (.inr hx))
            · rename_i hm
              simp only [IdForest.ids, List.mem_cons, List.mem_append] at hx
              rcases hx with hx | hx | hx
              · exact .inr (.inl hx)
              · exact .inr (.inr (.inl hx))
              · rcases ih (by simpa [IdForest.find, hm] using e) x hx with hx | hx
                · exact .inl hx
                · exact .inr (.inr (.inr hx))
        exact this fd (by rw [hfind]; simp)
      obtain ⟨g2, hg2, m2⟩ := ihr (f + 1) g1 d s (fd.upd n ks.merge i ks) (by omega)
        (drawn_agree rest (fun x hx => hg1cell x (fun e => hir (e ▸ hx)) (fun e => hrfd x hx (e ▸ hjmem))
          (fun e => hkr x e hx) (fun e => hrfd x hx (hjkj x e))) hdrest)
        (linked_agree rest s (fun x hx => hg1cell x (fun e => hir (e ▸ hx)) (fun e => hrfd x hx (e ▸ hjmem))
          (fun e => hkr x e hx) (fun e => hrfd x hx (hjkj x e))) hlrest)
        (by
          obtain ⟨⟨c, h1, h2⟩, h3⟩ := hb
          refine ⟨⟨c, by rw [hdcell, h1], ?_⟩, ?_⟩
          · rw [roots_upd_some n ks.merge i ks fd (by rw [hfind]; simp), h2]
          · exact drawn_upd_some n ks.merge i ks j kj fd hfind h3 hfn hagr m1.below)
        (linked_upd_some n ks.merge i d ks j kj fd hfind hl hfn hagr
          (fun c hc => m1.keeps c (by rw [h0cell j (fun e => hij e.symm), hc])) m1.links)
        (by
          rw [List.nodup_cons, List.nodup_append]
          refine ⟨?_, hrn, ?_, ?_⟩
          · intro e
            rcases List.mem_append.1 e with e | e
            · exact hdrest' e
            · rcases hupd_sub d e with e | e
              · exact hdks e
              · exact hdfd e
          · refine ids_upd_nodup n ks.merge i ks (fun d y hy => ids_merge_sub ks d y hy)
              (fun d hd => ids_merge_nodup ks d hd) fd ?_
            rw [List.nodup_cons, List.nodup_append]
            refine ⟨?_, hksn, hfn, fun a ha b hb e => hkf a ha (e ▸ hb)⟩
            intro e
            rcases List.mem_append.1 e with e | e
            · exact hik e
            · exact hif e
          · intro a ha b hb' e
            subst e
            rcases hupd_sub a hb' with e | e
            · exact hkr a e ha
            · exact hrfd a ha e)
      refine ⟨g2, hg2, m2.below, m2.links, ?_, ?_, ?_⟩
      · intro x h1 h2 h3
        simp only [IdForest.ids, List.mem_cons, List.mem_append, not_or] at h2
        rw [m2.frame x h1 h2.2.2 (fun e => by
          rcases hupd_sub x e with e | e
          · exact h2.2.1 e
          · exact h3 e)]
        exact hg1cell x h2.1 (fun e => h3 (e ▸ hjmem)) h2.2.1 (fun e => h3 (hjkj x e))
      · exact SameValues.trans (setKids_same h i []) (SameValues.trans m1.values m2.values)
      · intro c hc
        exact m2.keeps c (by rw [hdcell, hc])
    | none =>
      dsimp only [Option.map_none]
      have h1cell : ∀ x, x ≠ i → (h.setParent i d).cell x = h.cell x := by
        intro x hx; rw [setParent_cell, if_neg hx]
      obtain ⟨⟨cd, hcd, hkd⟩, hdrawn⟩ := hb
      rw [h1cell d hdi, hcd]
      dsimp only
      have hins : childInsert cd.kids n i = (fd.upd n ks.merge i ks).roots := by
        rw [roots_upd_none n ks.merge i ks fd hfind, hkd, childInsert, if_neg]
        have := (find_none_iff fd n).1 hfind
        intro e
        obtain ⟨x, hx, hxe⟩ := List.any_eq_true.1 e
        exact this (List.mem_map.2 ⟨x, hx, by simpa using hxe⟩)
      rw [hins]
      generalize hgdef : (h.setParent i d).setKids d (fd.upd n ks.merge i ks).roots = g1
      have hg1cell : ∀ x, x ≠ i → x ≠ d → g1.cell x = h.cell x := by
        intro x h1 h2
        rw [← hgdef, setKids_cell, if_neg h2, h1cell x h1]
      have hg1d : g1.cell d = some { cd with kids := (fd.upd n ks.merge i ks).roots } := by
        rw [← hgdef, setKids_cell, if_pos rfl, h1cell d hdi, hcd]; rfl
      have hg1i : g1.cell i = some { ci with parent := some d } := by
        rw [← hgdef, setKids_cell, if_neg (fun e => hdi e.symm), setParent_cell, if_pos rfl, hci]; rfl
      have hfda : Agree h g1 fd.ids := fun x hx =>
        hg1cell x (fun e => hif (e ▸ hx)) (fun e => hdfd (e ▸ hx))
      have hksa : Agree h g1 ks.ids := fun x hx =>
        hg1cell x (fun e => hik (e ▸ hx)) (fun e => hdks (e ▸ hx))
      have hresta : Agree h g1 rest.ids := fun x hx =>
        hg1cell x (fun e => hir (e ▸ hx)) (fun e => hdrest' (e ▸ hx))
      have hsubids := ids_upd_sub n ks.merge i ks (fun d y hy => ids_merge_sub ks d y hy) fd
      obtain ⟨g2, hg2, m2⟩ := ihr fuel g1 d s (fd.upd n ks.merge i ks) (by omega)
        (drawn_agree rest hresta hdrest) (linked_agree rest s hresta hlrest)
        ⟨⟨_, hg1d, rfl⟩, drawn_upd_none n ks.merge i ks fd hfind (drawn_agree fd hfda hdrawn)
          ⟨⟨_, hg1i, hki⟩, drawn_agree ks hksa hdk⟩⟩
        (linked_upd_none n ks.merge i d ks fd hfind (linked_agree fd d hfda hl) ⟨_, hg1i, rfl⟩
          (linked_agree ks i hksa hlk))
        (by
          rw [List.nodup_cons, List.nodup_append]
          refine ⟨?_, hrn, ?_, ?_⟩
          · intro e
            rcases List.mem_append.1 e with e | e
            · exact hdrest' e
            · rcases hsubids d e with e | e | e
              · exact hdi e
              · exact hdks e
              · exact hdfd e
          · refine ids_upd_nodup n ks.merge i ks (fun d y hy => ids_merge_sub ks d y hy)
              (fun d hd => ids_merge_nodup ks d hd) fd ?_
            rw [List.nodup_cons, List.nodup_append]
            refine ⟨?_, hksn, hfn, fun a ha b hb e => hkf a ha (e ▸ hb)⟩
            intro e
            rcases List.mem_append.1 e with e | e
            · exact hik e
            · exact hif e
          · intro a ha b hb' e
            subst e
            rcases hsubids a hb' with e | e | e
            · exact hir (e ▸ ha)
            · exact hkr a e ha
            · exact hrfd a ha e)
      refine ⟨g2, hg2, m2.below, m2.links, ?_, ?_, ?_⟩
      · intro x h1 h2 h3
        simp only [IdForest.ids, List.mem_cons, List.mem_append, not_or] at h2
        rw [m2.frame x h1 h2.2.2 (fun e => by
          rcases hsubids x e with e | e | e
          · exact h2.1 e
          · exact h2.2.1 e
          · exact h3 e)]
        exact hg1cell x h2.1 h1
      · have := SameValues.trans (setParent_same h i d) (setKids_same (h.setParent i d) d (fd.upd n ks.merge i ks).roots)
        rw [hgdef] at this
        exact SameValues.trans this m2.values
      · intro c hc
        obtain ⟨c', hc', hp'⟩ := m2.keeps _ hg1d
        rw [hcd] at hc; cases hc
        exact ⟨c', hc', hp'⟩

/-! ## the maps stay maps -/

theorem childInsert_nodup {ν : Type} (m : List (List Char × ν)) (k : List Char) (v : ν) (hd : (m.map Prod.fst).Nodup) :
    ((childInsert m k v).map Prod.fst).Nodup := by
  by_cases hk : m.any (fun p => p.1 == k) = true
  · rw [childInsert_fst m k v hk]; exact hd
  · rw [childInsert, if_neg hk, List.map_append, List.nodup_append]
    refine ⟨hd, by simp, ?_⟩
    intro a ha b hb e
    simp only [List.map_cons, List.map_nil, List.mem_singleton] at hb
    subst hb e
    obtain ⟨x, hx, rfl⟩ := List.mem_map.1 ha
    exact hk (List.any_eq_true.2 ⟨x, hx, by simp⟩)

theorem mapsOk_setKids {h : NHeap} (hm : MapsOk h) (i : Nat) (ks : List (List Char × Nat))
    (hd : (ks.map Prod.fst).Nodup) : MapsOk (h.setKids i ks) := by
  intro j c hc
  rw [setKids_cell] at hc
  split at hc
  · cases hci : h.cell i with
    | none => rw [hci] at hc; cases hc
    | some c' => rw [hci] at hc; cases hc; exact hd
  · exact hm j c hc

theorem mapsOk_setParent {h : NHeap} (hm : MapsOk h) (i p : Nat) : MapsOk (h.setParent i p) := by
  intro j c hc
  rw [setParent_cell] at hc
  split at hc
  · cases hci : h.cell i with
    | none => rw [hci] at hc; cases hc
    | some c' => rw [hci] at hc; cases hc; exact hm i c' hci
  · exact hm j c hc

theorem mapsOk_transfer : ∀ (fuel : Nat) (h : NHeap) (s d : Nat) (g : NHeap), MapsOk h →
    NHeap.transfer fuel h s d = some g → MapsOk g
  | 0, h, s, d, g, _, hg => by cases hg
  | fuel + 1, h, s, d, g, hm, hg => by
    have loop : ∀ (l : List (List Char × Nat)) (h g : NHeap), MapsOk h →
        NHeap.transferLoop (NHeap.transfer fuel) d h l = some g → MapsOk g := by
      intro l
      induction l with
      | nil => intro h g hm hg; cases hg; exact hm
      | cons x l ih =>
        obtain ⟨n, c⟩ := x
        intro h g hm hg
        rw [NHeap.transferLoop] at hg
        split at hg
        · rename_i old _
          split at hg
          · cases hg
          · rename_i h' hh'
            exact ih h' g (mapsOk_transfer fuel h c old h' hm hh') hg
        · dsimp only at hg
          split at hg
          · cases hg
          · rename_i cd hcd
            have hm1 := mapsOk_setParent hm c d
            exact ih _ g (mapsOk_setKids hm1 d _ (childInsert_nodup _ _ _ (hm1 d cd hcd))) hg
    rw [NHeap.transfer] at hg
    split at hg
    · cases hg; exact hm
    · exact loop _ _ _ (mapsOk_setKids hm s [] (by simp)) hg

/-! ## repairing the parent links -/

/-- children of every node are as before -/
def SameKids (h g : NHeap) : Prop := ∀ i, (h.cell i).map NCell.kids = (g.cell i).map NCell.kids

theorem setParent_kids (h : NHeap) (i p : Nat) : SameKids h (h.setParent i p) := by
  intro j
  rw [setParent_cell]
  split
  · rename_i e; subst e; cases h.cell j <;> rfl
  · rfl

theorem fixLoop_linked : ∀ (f : IdForest) (fuel : Nat) (h : NHeap) (p : Nat), f.depth ≤ fuel → Drawn h f →
    f.ids.Nodup →
    ∃ g, NHeap.fixLoop (NHeap.fixParents fuel) p h f.roots = some g ∧ Linked g p f ∧ SameValues h g ∧
      SameKids h g ∧ ∀ x, x ∉ f.ids → g.cell x = h.cell x := by
  intro f
  induction f with
  | nil => intro fuel h p _ _ _; exact ⟨h, rfl, trivial, SameValues.refl h, fun _ => rfl, fun _ _ => rfl⟩
  | cons n i ks rest ihk ihr =>
    intro fuel h p hdep ⟨⟨ci, hci, hki⟩, hdk, hdr⟩ hnd
    simp only [IdForest.ids, List.nodup_cons, List.nodup_append, List.mem_append, not_or] at hnd
    obtain ⟨⟨hik, hir⟩, hkn, hrn, hkr⟩ := hnd
    simp only [IdForest.depth] at hdep
    obtain ⟨fu, rfl⟩ : ∃ fu, fuel = fu + 1 := ⟨fuel - 1, by omega⟩
    have h1cell : ∀ x, x ≠ i → (h.setParent i p).cell x = h.cell x := by
      intro x hx; rw [setParent_cell, if_neg hx]
    have h1i : (h.setParent i p).cell i = some { ci with parent := some p } := by
      rw [setParent_cell, if_pos rfl, hci]; rfl
    obtain ⟨g1, hg1, l1, v1, k1, f1⟩ := ihk fu (h.setParent i p) i (by omega)
      (drawn_agree ks (fun x hx => h1cell x (fun e => hik (e ▸ hx))) hdk) hkn
    have hstep : NHeap.fixParents (fu + 1) (h.setParent i p) i = some g1 := by
      rw [NHeap.fixParents, h1i]
      dsimp only
      rw [hki]; exact hg1
    have hg1rest : ∀ x ∈ rest.ids, g1.cell x = h.cell x := fun x hx => by
      rw [f1 x (fun e => hkr x e x hx rfl), h1cell x (fun e => hir (e ▸ hx))]
    obtain ⟨g2, hg2, l2, v2, k2, f2⟩ := ihr (fu + 1) g1 p (by omega) (drawn_agree rest hg1rest hdr) hrn
    refine ⟨g2, ?_, ⟨⟨{ ci with parent := some p }, ?_, rfl⟩, ?_, l2⟩, ?_, ?_, ?_⟩
    · rw [IdForest.roots, NHeap.fixLoop, hstep]
      exact hg2
    · rw [f2 i hir, f1 i hik, h1i]
    · exact linked_agree ks i (fun x hx => f2 x (fun e => hkr x hx x e rfl)) l1
    · exact SameValues.trans (setParent_same h i p) (SameValues.trans v1 v2)
    · intro x; rw [setParent_kids h i p x, k1 x, k2 x]
    · intro x hx
      simp only [IdForest.ids, List.mem_cons, List.mem_append, not_or] at hx
      rw [f2 x hx.2.2, f1 x hx.2.1, h1cell x hx.1]

end Wz
