import Verif.Node.WalkOrderLemmas

/-!
# C28: walks with parsing, in whatever order the maps list the children
-/

set_option autoImplicit false

namespace Wz.Props

open Wz Wz.Spec

/-- The walk of the other theorems is the one that takes the children in the order of the list. -/
theorem C28_list_order (content : Content) (h : NHeap) (fuel i : Nat) :
    h.walkForceIn content (fun _ _ l => l) fuel [] i = h.walkForce content fuel [] i := walkForceIn_list content fuel h [] i

/-- As `C28_force_partial`, in whatever order the maps list the children: the callback gets every node once, parents first, each node parsed by
then; every node that was there and every node that was read on the way is among them.  At the end no image is parsed, and no other node has
changed.  `_partial`: for content without links and double names. -/
theorem C28_force_any_order_partial {content : Content} {ord : KidOrder} (ho : ListsKids ord) {h : NHeap} {i : Nat} {L : List Nat}
    {name : List Char} {k : NKind} {ks : Forest} {obs : List (List Char × NKind)}
    (hs : Seen content (.node name k ks .nil) obs) (ht : Stands h (.node name k ks .nil) [(name, i)] L) (hn : L.Nodup) :
    ∃ N vs g, (∀ fuel, N ≤ fuel → h.walkForceIn content ord fuel [] i = .ok (vs, g)) ∧ AnyOrder i obs vs ∧
      (∀ x, x ∈ vs.map Prod.fst ↔ x ∈ L ∨ (h.length ≤ x ∧ x < g.length)) ∧
      (∀ x ∈ vs.map Prod.fst, ∀ s c, g.cell x = some c → c.kind ≠ .image true s) ∧
      ∀ x, x < h.length → x ∉ L → g.cell x = h.cell x := by
  obtain ⟨F', hl⟩ := seen_leaves hs
  obtain ⟨k', ks', rfl, hN⟩ := sees_one ho hl
  obtain ⟨j, ps', c, La, Lb, e, rfl, hc, hn1, hk, hSa, _, rfl⟩ := ht
  cases e
  rw [List.append_nil] at hn ⊢
  obtain ⟨N, d, v, u, g, f, p, s, W, P, _⟩ := hN h i La [] ⟨c, hc, hn1, hk, hSa⟩ hn (fun x hx => by cases hx)
  refine ⟨N, _, g, f, ⟨d, v, u, rfl, p, s, W.nodup, P⟩, fun x => ⟨W.sub x, ?_⟩, fun x hx s c hc => W.images x hx c hc s, W.frame⟩
  rintro (hx | ⟨h3, h4⟩)
  · exact W.all x hx
  · exact W.new x h3 h4

theorem reverse_lists : ListsKids fun _ _ l => l.reverse := fun _ _ l => List.reverse_perm l

/-- `tree28` with the children in reverse order -/
example : ∃ N vs g, (∀ fuel, N ≤ fuel → tree28.walkForceIn content28c (fun _ _ l => l.reverse) fuel [] 0 = .ok (vs, g)) ∧ vs.length = 5 := by
  obtain ⟨N, vs, g, h1, ⟨c, v, u, rfl, h2, h3, _⟩, _⟩ := C28_force_any_order_partial reverse_lists (h := tree28) (i := 0) (L := [0]) seen28
    ⟨0, [], _, [], [], rfl, rfl, rfl, rfl, rfl, ⟨rfl, rfl⟩, ⟨rfl, rfl⟩⟩ (by simp)
  refine ⟨N, _, g, h1, ?_⟩
  have := congrArg List.length h3
  have hl := h2.length_eq
  simp only [List.length_map, List.length_cons, List.length_nil] at this ⊢
  omega

example : (NHeap.walkForceIn content28c (fun _ _ l => l.reverse) 9 tree28 [] 0).map (fun r => r.1.map fun v => v.2.map NCell.name) =
    .ok [some ['f'], some ['b'], some ['a'], some ['x'], some ['y']] := by decide +kernel

/-- Walking again, each time in another order: where no image was parsed before, each walk gives the same nodes by name and state, every node
once, parents first.  `_partial`: for content without links and double names. -/
theorem C28_again_any_order_partial {content : Content} {h : NHeap} {i : Nat} {L : List Nat} {name : List Char} {k : NKind}
    {ks : Forest} {obs : List (List Char × NKind)} (hc : ReadsShut content)
    (hs : Seen content (.node name k ks .nil) obs) (ho : Spec.Forest.All NotOpen (.node name k ks .nil))
    (ht : Stands h (.node name k ks .nil) [(name, i)] L) (hn : L.Nodup) (ords : List KidOrder) (hords : ∀ o ∈ ords, ListsKids o) :
    ∃ g, WalkedIn content i (AnyOrder i obs) ords h g ∧ ∀ x, x < h.length → x ∉ L → g.cell x = h.cell x := by
  obtain ⟨F', hl⟩ := seen_leaves_shut hc hs ho
  cases ords with
  | nil => exact ⟨h, .none h, fun _ _ _ => rfl⟩
  | cons o ords =>
    obtain ⟨N, vs, h', h1, h2, hle0, hfr0, L', hS', hn', hL'⟩ := walk_in (hords o List.mem_cons_self) hl ht hn
    obtain ⟨g, w, _, hfr⟩ := walks_again_in (leaves_again hl) ords (fun o ho' => hords o (List.mem_cons_of_mem _ ho')) h' L' hS' hn'
    refine ⟨g, .next o ords N vs h h' g h1 h2 w, fun x hx hxL => ?_⟩
    rw [hfr x (by omega) (fun hx' => by
      rcases hL' x hx' with h3 | h3
      · exact hxL h3
      · omega)]
    exact hfr0 x hx hxL

/-- three walks over `tree28`, the second one with the children in reverse order -/
example : ∃ g, WalkedIn content28c 0 (AnyOrder 0 [(['f'], .file true 1), (['a'], .image true 2), (['x'], .other 5), (['y'], .other 6),
    (['b'], .image false 3)]) [fun _ _ l => l, fun _ _ l => l.reverse, fun _ _ l => l] tree28 g := by
  obtain ⟨g, h, _⟩ := C28_again_any_order_partial (h := tree28) (i := 0) (L := [0]) shut28 seen28
    ⟨(fun t e => by cases e), trivial, trivial⟩
    ⟨0, [], _, [], [], rfl, rfl, rfl, rfl, rfl, ⟨rfl, rfl⟩, ⟨rfl, rfl⟩⟩ (by simp) [fun _ _ l => l, fun _ _ l => l.reverse, fun _ _ l => l] (by
      intro o ho
      simp only [List.mem_cons, List.not_mem_nil, or_false] at ho
      rcases ho with rfl | rfl | rfl
      · exact fun _ _ l => .refl l
      · exact reverse_lists
      · exact fun _ _ l => .refl l)
  exact ⟨g, h⟩

end Wz.Props
