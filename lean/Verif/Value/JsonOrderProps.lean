import Verif.Value.JsonHeapProps

/-!
# C46: the JSON export does not depend on the order of hash maps
-/

set_option autoImplicit false

namespace Wz.Spec

/-- the same JSON up to the order in which objects list their entries; `serde_json` sorts them by name -/
inductive SameJson : Json → Json → Prop
  | leaf (j : Json) : SameJson j j
  | obj (m m' : List (List Char × Json)) (hn : ∀ n, entry m n = none ↔ entry m' n = none)
      (hs : ∀ n x y, entry m n = some x → entry m' n = some y → SameJson x y) : SameJson (.obj m) (.obj m')

/-- the same nodes, the children of each listed in any order -/
def Reordered (h h' : NHeap) : Prop := ∀ i, (childrenOf h i).Perm (childrenOf h' i)

end Wz.Spec

namespace Wz

open Wz.Spec

theorem jsonLoop_reads {rec : Nat → Option (Except Err Json)} : ∀ (ks : List (List Char × Nat)) (m r : List (List Char × Json)),
    NHeap.jsonLoop rec ks m = some (.ok r) → (ks.map Prod.fst).Nodup →
    (∀ k ∈ ks, ∃ v, rec k.2 = some (.ok v) ∧ entry r k.1 = some v) ∧ ∀ n, n ∉ ks.map Prod.fst → entry r n = entry m n
  | [], m, r, h, _ => by cases h; exact ⟨fun k hk => (by cases hk), fun _ _ => rfl⟩
  | (n, j) :: ks, m, r, h, hd => by
    rw [NHeap.jsonLoop] at h
    rw [List.map_cons, List.nodup_cons] at hd
    rcases hr : rec j with _ | _ | v
    · rw [hr] at h; cases h
    · rw [hr] at h; cases h
    · rw [hr] at h
      obtain ⟨h1, h2⟩ := jsonLoop_reads ks _ r h hd.2
      refine ⟨fun k hk => ?_, fun x hx => ?_⟩
      · rcases List.mem_cons.1 hk with rfl | hk
        · exact ⟨v, hr, by rw [h2 _ hd.1, entry_insert, if_pos rfl]⟩
        · exact h1 k hk
      · rw [List.map_cons, List.mem_cons, not_or] at hx
        rw [h2 x hx.2, entry_insert, if_neg (fun e => hx.1 e.symm)]

theorem jsonLoop_every {rec : Nat → Option (Except Err Json)} : ∀ (ks : List (List Char × Nat)) (m : List (List Char × Json)),
    (∀ k ∈ ks, ∃ v, rec k.2 = some (.ok v)) → ∃ r, NHeap.jsonLoop rec ks m = some (.ok r)
  | [], m, _ => ⟨m, rfl⟩
  | (n, j) :: ks, m, h => by
    obtain ⟨v, hv⟩ := h (n, j) (List.mem_cons_self ..)
    obtain ⟨r, hr⟩ := jsonLoop_every ks (jsonInsert m n v) fun k hk => h k (List.mem_cons_of_mem _ hk)
    exact ⟨r, by rw [NHeap.jsonLoop, hv]; exact hr⟩

theorem childrenOf_nodup {h : NHeap} (hm : MapsOk h) (i : Nat) : ((childrenOf h i).map Prod.fst).Nodup := by
  unfold childrenOf
  cases hc : h.cell i with
  | none => exact .nil
  | some c => exact hm i c hc

end Wz

namespace Wz.Props

open Wz Wz.Spec

/-- **The order of hash maps does not show.**  If the children of nodes are listed in another order, links or not, the export succeeds
in the one order if it does in the other, and gives the same JSON. -/
theorem C46_order (obj : Nat → Obj) {h h' : NHeap} (hm : MapsOk h) (hp : Reordered h h') : ∀ (fuel i : Nat) (j : Json),
    NHeap.json obj h fuel i = some (.ok j) → ∃ j', NHeap.json obj h' fuel i = some (.ok j') ∧ SameJson j j'
  | 0, i, j, hj => by cases hj
  | fuel + 1, i, j, hj => by
    have hd := childrenOf_nodup hm i
    have hperm := hp i
    rw [json_eq] at hj ⊢
    rcases hk : childrenOf h i with _ | ⟨k, ks⟩
    · rw [hk] at hj hperm
      rw [List.nil_perm.1 hperm]
      exact ⟨j, hj, .leaf j⟩
    · rw [hk] at hj hperm hd
      rcases hk' : childrenOf h' i with _ | ⟨k', ks'⟩
      · rw [hk'] at hperm; exact absurd hperm.eq_nil (by simp)
      · rw [hk'] at hperm
        dsimp only at hj ⊢
        rcases hl : NHeap.jsonLoop (NHeap.json obj h fuel) (k :: ks) (obj i).ownEntries with _ | _ | r
        · rw [hl] at hj; cases hj
        · rw [hl] at hj; cases hj
        · rw [hl] at hj
          cases hj
          have hd' : ((k' :: ks').map Prod.fst).Nodup := (hperm.map Prod.fst).nodup hd
          obtain ⟨h1, h2⟩ := jsonLoop_reads _ _ _ hl hd
          obtain ⟨r', hr'⟩ := jsonLoop_every (rec := NHeap.json obj h' fuel) (k' :: ks') (obj i).ownEntries fun x hx => by
            obtain ⟨v, hv, _⟩ := h1 x (hperm.mem_iff.2 hx)
            obtain ⟨v', hv', _⟩ := C46_order obj hm hp fuel x.2 v hv
            exact ⟨v', hv'⟩
          obtain ⟨g1, g2⟩ := jsonLoop_reads _ _ _ hr' hd'
          have hmem : ∀ n, n ∈ (k :: ks).map Prod.fst ↔ n ∈ (k' :: ks').map Prod.fst := fun n => (hperm.map Prod.fst).mem_iff
          refine ⟨.obj r', by rw [hr']; rfl, .obj r r' (fun n => ?_) fun n x y hx hy => ?_⟩
          · by_cases hn : n ∈ (k :: ks).map Prod.fst
            · obtain ⟨e, he, rfl⟩ := List.mem_map.1 hn
              obtain ⟨v, _, a⟩ := h1 e he
              obtain ⟨v', _, b⟩ := g1 e (hperm.mem_iff.1 he)
              rw [a, b]; simp
            · rw [h2 n hn, g2 n (fun c => hn ((hmem n).2 c))]
          · by_cases hn : n ∈ (k :: ks).map Prod.fst
            · obtain ⟨e, he, rfl⟩ := List.mem_map.1 hn
              obtain ⟨v, hv, a⟩ := h1 e he
              obtain ⟨v', hv', b⟩ := g1 e (hperm.mem_iff.1 he)
              obtain ⟨w, hw, hs⟩ := C46_order obj hm hp fuel e.2 v hv
              rw [a] at hx; rw [b] at hy
              rw [hw] at hv'
              cases hx; cases hy; cases hv'
              exact hs
            · rw [h2 n hn] at hx
              rw [g2 n (fun c => hn ((hmem n).2 c)), hx] at hy
              cases hy
              exact .leaf x

/-- Read in either order, the same value stands under the same names. -/
theorem C46_same_at {j j' : Json} (h : SameJson j j') (m : List (List Char × Json)) (n : List Char) (x : Json)
    (hj : j = .obj m) (hx : entry m n = some x) : ∃ m' y, j' = .obj m' ∧ entry m' n = some y ∧ SameJson x y := by
  cases h with
  | leaf => exact ⟨m, x, hj, hx, .leaf x⟩
  | obj a b hn hs =>
    cases hj
    rcases hb : entry b n with _ | y
    · rw [(hn n).2 hb] at hx; cases hx
    · exact ⟨b, y, rfl, hb, hs n x y hx hb⟩

/-! ### the cases are met -/

/-- `twice28` with the children of its root the other way round -/
def twice46 : NHeap := twice28.set 0 ((twice28.cell 0).map fun c => { c with kids := c.kids.reverse })

theorem reordered46 : Reordered twice28 twice46 := by
  intro i
  match i with
  | 0 => exact (List.reverse_perm _).symm
  | i + 1 =>
    have : childrenOf twice46 (i + 1) = childrenOf twice28 (i + 1) := by
      unfold childrenOf
      rw [show twice46.cell (i + 1) = twice28.cell (i + 1) from rfl]
    rw [this]

example : NHeap.json obj46 twice46 4 0 =
    some (.ok (.obj [(['l'], .obj [(['x'], .int 7)]), (['a'], .obj [(['x'], .int 7)])])) := rfl

example : ∃ j j', NHeap.json obj46 twice28 4 0 = some (.ok j) ∧ NHeap.json obj46 twice46 4 0 = some (.ok j') ∧ j ≠ j' ∧ SameJson j j' ∧
    ∃ m' y, j' = .obj m' ∧ entry m' ['a'] = some y ∧ SameJson (.obj [(['x'], .int 7)]) y := by
  obtain ⟨j', h1, h2⟩ := C46_order obj46 twice28_maps reordered46 4 0 _ rfl
  refine ⟨_, j', rfl, h1, fun e => ?_, h2, C46_same_at h2 _ ['a'] _ rfl rfl⟩
  rw [← e] at h1
  injection h1 with h1
  injection h1 with h1
  injection h1 with h1
  injection h1 with h1 h3
  injection h1 with h1 h3
  injection h1 with h1 h3
  revert h1
  decide

end Wz.Props
