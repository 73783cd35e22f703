import Verif.Whole.LinkProps
import Verif.Whole.Examples

/-!
# A concrete archive for C70
-/

set_option autoImplicit false

namespace Wz.Props

open Wz Wz.Spec

/-- an image with the number 5 under `n`, the link `l` to it, and `d` with three links: `m` to the number, `u` to the image, `x` to nothing -/
def img70 : Bytes := sblk "Property".toList ++ [0#8, 0#8] ++ [3#8] ++
  (sblk ['n'] ++ [3#8, 5#8]) ++
  (sblk ['l'] ++ (9#8 :: toLE 4 9) ++ sblk "UOL".toList ++ [0#8] ++ sblk ['n']) ++
  (sblk ['d'] ++ (9#8 :: toLE 4 68) ++ sblk "Property".toList ++ [0#8, 0#8] ++ [3#8] ++
    (sblk ['m'] ++ (9#8 :: toLE 4 12) ++ sblk "UOL".toList ++ [0#8] ++ sblk "../n".toList) ++
    (sblk ['u'] ++ (9#8 :: toLE 4 10) ++ sblk "UOL".toList ++ [0#8] ++ sblk "..".toList) ++
    (sblk ['x'] ++ (9#8 :: toLE 4 9) ++ sblk "UOL".toList ++ [0#8] ++ sblk ['y']))

/-- what is in it -/
def props70 : List (List Char × PTree) :=
  [(['n'], .node (.int 5) []), (['l'], .node (.uol ['n']) []),
   (['d'], .node .sub [(['m'], .node (.uol "../n".toList) []), (['u'], .node (.uol "..".toList) []), (['x'], .node (.uol ['y']) [])])]

theorem img70_stored {e : Env} {name : List Char} {o s : Nat} (hks : e.ks = fun _ => 0#8) (hn : ¬ NameEnds name ".txt".toList)
    (h : Holds e.buf o img70) : StoredImage e name o s (.image props70) := by
  have sub : ∀ k bs, (img70.drop k).take bs.length = bs → k + bs.length ≤ img70.length → Holds e.buf (o + k) bs := by
    intro k bs h1 h2
    have e1 : img70 = img70.take k ++ (bs ++ (img70.drop k).drop bs.length) := by
      rw [← h1, List.length_take, List.length_drop, Nat.min_eq_left (by omega), List.take_append_drop, List.take_append_drop]
    rw [e1] at h
    have := h.right.left
    rwa [List.length_take, Nat.min_eq_left (by omega)] at this
  have w3 : IsWzInt 4 ((3 : Nat) : Int) [3#8] := .short (by decide) (by decide)
  have blk : ∀ k t, (∀ c ∈ t, c.toNat < 128) ∧ 1 ≤ t.length ∧ t.length ≤ 127 → (img70.drop k).take (sblk t).length = sblk t →
      k + (sblk t).length ≤ img70.length → StrBlock e o (o + k) t (o + k + (t.length + 2)) :=
    fun k t h1 h2 h3 => sblk_at _ _ _ t hks h1 (sub k _ h2 h3)
  refine .props _ (o + 111) hn ⟨(sblk "Property".toList).tail, sblk_string e _ hks (by decide), by decide, ?_, ?_⟩
  · exact sub 0 _ (by decide +kernel) (by decide +kernel)
  refine ⟨[3#8], w3, sub 12 _ (by decide +kernel) (by decide +kernel), ?_⟩
  refine .plain (o + 13) (o + 16) (o + 111) _ 3#8 (.int 5) [5#8] _ (blk 13 _ (by decide) (by decide +kernel) (by decide +kernel))
      (.int _ _ _ (.inl rfl) (.short (by decide) (by decide))) (sub 16 _ (by decide +kernel) (by decide +kernel)) ?_
  refine .block (o + 18) (o + 21) (o + 35) (o + 111) 9 _ _ _ (blk 18 _ (by decide) (by decide +kernel) (by decide +kernel)) (by decide)
    (sub 21 _ (by decide +kernel) (by decide +kernel)) ?_ ?_
  · exact .uol (o + 26) (o + 31) (o + 35) _ _ (blk 26 _ (by decide) (by decide +kernel) (by decide +kernel))
      (blk 32 _ (by decide) (by decide +kernel) (by decide +kernel))
  refine .block (o + 35) (o + 38) (o + 111) (o + 111) 68 _ _ _ (blk 35 _ (by decide) (by decide +kernel) (by decide +kernel)) (by decide)
    (sub 38 _ (by decide +kernel) (by decide +kernel)) ?_ (.nil _)
  refine .property (o + 43) (o + 53) (o + 111) _ [3#8] _ (blk 43 _ (by decide) (by decide +kernel) (by decide +kernel)) w3
    (sub 55 _ (by decide +kernel) (by decide +kernel)) (by decide) ?_
  refine .block (o + 56) (o + 59) (o + 76) (o + 111) 12 _ _ _ (blk 56 _ (by decide) (by decide +kernel) (by decide +kernel)) (by decide)
    (sub 59 _ (by decide +kernel) (by decide +kernel)) ?_ ?_
  · exact .uol (o + 64) (o + 69) (o + 76) _ _ (blk 64 _ (by decide) (by decide +kernel) (by decide +kernel))
      (blk 70 _ (by decide) (by decide +kernel) (by decide +kernel))
  refine .block (o + 76) (o + 79) (o + 94) (o + 111) 10 _ _ _ (blk 76 _ (by decide) (by decide +kernel) (by decide +kernel)) (by decide)
    (sub 79 _ (by decide +kernel) (by decide +kernel)) ?_ ?_
  · exact .uol (o + 84) (o + 89) (o + 94) _ _ (blk 84 _ (by decide) (by decide +kernel) (by decide +kernel))
      (blk 90 _ (by decide) (by decide +kernel) (by decide +kernel))
  refine .block (o + 94) (o + 97) (o + 111) (o + 111) 9 _ _ _ (blk 94 _ (by decide) (by decide +kernel) (by decide +kernel)) (by decide)
    (sub 97 _ (by decide +kernel) (by decide +kernel)) ?_ (.nil _)
  exact .uol (o + 102) (o + 107) (o + 111) _ _ (blk 102 _ (by decide) (by decide +kernel) (by decide +kernel))
      (blk 108 _ (by decide) (by decide +kernel) (by decide +kernel))

mutual

/-- the links in a property and below it -/
def treeLinks : PTree → List (List (List Char) × List Char)
  | .node v ks => (match v with
      | .uol s => [([], s)]
      | _ => []) ++ kidLinks ks

def kidLinks : List (List Char × PTree) → List (List (List Char) × List Char)
  | [] => []
  | (n, t) :: rest => (treeLinks t).map (fun x => (n :: x.1, x.2)) ++ kidLinks rest

end

theorem last_links {n : List Char} {t : PTree} : ∀ {ps : List (List Char × PTree)}, lastNamed ps n = some t →
    ∀ x ∈ treeLinks t, (n :: x.1, x.2) ∈ kidLinks ps
  | [], h => by cases h
  | (m, u) :: rest, h => by
    rw [lastNamed_cons] at h
    intro x hx
    rw [kidLinks]
    cases hr : lastNamed rest n with
    | some y =>
      rw [hr] at h
      cases h
      exact List.mem_append_right _ (last_links hr x hx)
    | none =>
      rw [hr] at h
      dsimp only at h
      split at h
      · rename_i e
        subst e
        cases h
        exact List.mem_append_left _ (List.mem_map.2 ⟨x, hx, rfl⟩)
      · cases h

theorem propAt_links : ∀ (d : List (List Char)) (ps : List (List Char × PTree)) (s : List Char), propAt ps d = some (.uol s) →
    (d, s) ∈ kidLinks ps
  | [], _, _, h => by cases h
  | n :: d, ps, s, h => by
    rw [propAt_one] at h
    cases hl : lastNamed ps n with
    | none => rw [hl] at h; cases h
    | some t =>
      obtain ⟨v, ks⟩ := t
      rw [hl] at h
      dsimp only at h
      refine last_links hl (d, s) ?_
      unfold treeLinks
      split at h
      · rename_i e
        subst e
        cases h
        exact List.mem_append_left _ (List.mem_cons_self ..)
      · exact List.mem_append_right _ (propAt_links d ks s h)

theorem links70 {d : List (List Char)} {n s : List Char} {us : List (List Char)} (hl : linkPlaces props70 (d ++ [n]) = some (some s))
    (hp : Pieces s us) : (d = [] ∧ us = [['n']]) ∨ (d = [['d']] ∧ (us = ["..".toList, ['n']] ∨ us = ["..".toList] ∨ us = [['y']])) := by
  have hm := propAt_links _ _ _ (linkPlaces_uol hl)
  simp only [kidLinks, treeLinks, props70, List.map_nil, List.nil_append, List.append_nil, List.map_cons, List.cons_append, List.mem_cons,
    List.not_mem_nil, or_false, Prod.mk.injEq] at hm
  have hus := pieces_iff.1 hp
  rcases hm with ⟨h1, rfl⟩ | ⟨h1, rfl⟩ | ⟨h1, rfl⟩ | ⟨h1, rfl⟩
  · obtain ⟨rfl, h2⟩ := List.append_inj' (s₂ := []) h1 rfl
    exact .inl ⟨rfl, by rw [← hus]; decide⟩
  all_goals
    obtain ⟨rfl, h2⟩ := List.append_inj' (s₂ := [['d']]) h1 rfl
    refine .inr ⟨rfl, ?_⟩
  · exact .inl (by rw [← hus]; decide)
  · exact .inr (.inl (by rw [← hus]; decide))
  · exact .inr (.inr (by rw [← hus]; decide))

theorem way_up70 : LinkWay (linkPlaces props70) [['d']] ["..".toList] (some []) := .up [] _ _ _ (.done _)

theorem way_n70 : LinkWay (linkPlaces props70) [] [['n']] (some [['n']]) := .down [] _ _ _ (fun _ => rfl) (by decide) (.done _)

theorem direct70 : DirectLinks (linkPlaces props70) := by
  intro d n s us hl hp
  rcases links70 hl hp with ⟨rfl, rfl⟩ | ⟨rfl, rfl | rfl | rfl⟩
  · exact ⟨_, way_n70⟩
  · exact ⟨_, .up [] _ _ _ way_n70⟩
  · exact ⟨_, way_up70⟩
  · exact ⟨_, .missing [['d']] _ _ (by decide) (by decide)⟩

theorem distinct70 : DistinctProps props70 := by
  refine .cons _ _ _ _ (by simp) .nil (.cons _ _ _ _ (by simp) .nil (.cons _ _ _ _ (by simp) ?_ .nil))
  exact .cons _ _ _ _ (by simp) .nil (.cons _ _ _ _ (by simp) .nil (.cons _ _ _ _ (by simp) .nil .nil))

/-- root at 62: the image `a` at 72 -/
def file70 : Bytes := List.replicate 62 0#8 ++ [1#8] ++ ([4#8, 0xFF#8, 0xCB#8, 18#8, 0#8] ++ st1 68 72) ++ img70

def wfile70 : WFile := { env := (ctx1 .checked file70).env, hdr := hdr1, keys2 := false, verified := true }

theorem file70_holds : HoldsDir (Block1 (ctx1 .checked file70) 1876#64) 62 [(['a'], .image 72 18)] := by
  have one : IsWzInt 4 ((1 : Nat) : Int) [1#8] := .short (by decide) (by decide)
  have zero : IsWzInt 4 0 [0#8] := .short (by decide) (by decide)
  refine .mk _ _ ⟨1, [1#8], 72, by decide, one, holds_slice 62 (by decide +kernel), ?_⟩ ?_ ?_ ?_
  · refine .cons 0 63 72 72 _ _ ?_ (.nil _)
    exact .direct 63 4#8 ['a'] (.image 72 18) 72 18 0 [0xFF#8, 0xCB#8] [18#8] [0#8] (.image _ _)
        ⟨by decide +kernel, 0x73#8, holds_slice 72 (by decide +kernel), .inl rfl⟩ (by decide)
        (ascii1 'a' _ (by decide) (by decide)) (.short (by decide) (by decide)) zero (holds_slice 63 (by decide +kernel))
  · intro name o kids hm; simp at hm
  · intro name o s kids hm; simp at hm
  · intro name o s kids hm; simp at hm

theorem not_txt70 : ¬ NameEnds ['a'] ".txt".toList := fun h => absurd (endsWith_iff.mpr h) (by decide)

theorem stored70 : StoredImage wfile70.env ['a'] 72 18 (.image props70) := img70_stored rfl not_txt70 (holds_slice 72 (by decide +kernel))

theorem seen70 : SeenAt (linkPlaces props70) [] [['d'], ['u'], ['l']] (some ([] ++ [['n']])) :=
  .plain [] _ _ _ (by decide) (.link [['d']] ['u'] [['l']] "..".toList ["..".toList] [] _ (by decide) (pieces_iff.2 (by decide)) way_up70
    (.link [] ['l'] [] ['n'] [['n']] [['n']] _ (by decide) (pieces_iff.2 (by decide)) way_n70 (.here _)))

theorem dead70 : SeenAt (linkPlaces props70) [] [['d'], ['x']] (some ([['d']] ++ [['x']])) :=
  .plain [] _ _ _ (by decide) (.dead [['d']] ['x'] [] ['y'] [['y']] _ (by decide) (pieces_iff.2 (by decide))
    (.missing [['d']] _ _ (by decide) (by decide)) (.here _))

/-- All hypotheses of `C70_pkg1` are met.  The image is read and forgotten, a path over two links is looked up; then that path, over
`d/u` to the image and over `l` to `n`, shows the number, `d/x` shows the link, and below the number there is nothing. -/
example : ∃ (F : Fuel) (n fuel : Nat) (g k : NHeap), heap58.parse (arcContent F n fuel [] wfile70) 0 = (.ok (), g) ∧
    k = runArc (arcContent F n fuel [] wfile70) 0 g [.load "a".toList, .close "a".toList, .find "a/d/u/l".toList] ∧
    (∃ j g' c o, k.atPathParsed (arcContent F n fuel [] wfile70) 0 "a/d/u/l".toList = (.ok j, g') ∧ g'.cell j = some c ∧ c.name = ['n'] ∧
      c.kind = .other o ∧ Encodable.decode o = some (Leaf58.prop (.int 5))) ∧
    (∃ j g' c, k.atPathParsed (arcContent F n fuel [] wfile70) 0 "a/d/x".toList = (.ok j, g') ∧ g'.cell j = some c ∧ c.kind = .uol (some ['y'])) ∧
    (k.atPathParsed (arcContent F n fuel [] wfile70) 0 "a/l/n".toList).1 = .error (.lib "NodeNotFound") := by
  have h83 : verHash 83 = 1876 := by simp [verHash]
  obtain ⟨N, hN⟩ := C70_pkg1 wfile70 83 _ [(['a'], .image props70)] [] rfl (by decide) (by decide +kernel) (by decide +kernel)
    (by intro ev h; cases h; decide) rfl ⟨by omega, by omega, .inr (by rw [h83]; decide)⟩ (by rw [h83]; exact file70_holds)
    (.image _ _ _ _ _ _ (by decide) stored70 .nil)
  have R := hN ⟨N, N⟩ (Nat.le_refl _) (Nat.le_refl _) 2001 N (by omega) (Nat.le_refl _) fun u h hu => absurd hu (no_earlier u h)
  obtain ⟨g, hg, H⟩ := R heap58 0 ⟨_, rfl, rfl, rfl⟩
  have hon : ∀ ns, LinksOn [(['a'], .image props70)] (['a'] :: ns) := fun ns => .inr (.inr ⟨distinct70, direct70⟩)
  have H := H [.load "a".toList, .close "a".toList, .find "a/d/u/l".toList] (by
    intro op ho
    simp only [List.mem_cons, List.not_mem_nil, or_false] at ho
    rcases ho with rfl | rfl | rfl
    · exact ⟨[['a']], pieces_iff.2 (by decide), hon _⟩
    · refine ⟨[['a']], pieces_iff.2 (by decide), hon _, ?_⟩
      rintro n (⟨_, h⟩ | ⟨_, h⟩ | ⟨_, _, _, _, _, h⟩) <;> cases h
    · exact ⟨[['a'], ['d'], ['u'], ['l']], pieces_iff.2 (by decide), hon _⟩)
  refine ⟨⟨N, N⟩, 2001, N, g, _, hg, rfl, ?_, ?_, ?_⟩
  · obtain ⟨j, g', c, h1, h2, h3, h4⟩ := H "a/d/u/l".toList [['a'], ['d'], ['u'], ['l']] (some (['n'], .prop (.int 5))) (pieces_iff.2 (by decide)) (hon _)
      (.inr (.inr ⟨_, _, _, seen70, rfl, rfl⟩))
    cases hk : c.kind with
    | other o =>
      rw [hk] at h4
      cases h4 with
      | other _ _ _ h4 => cases h4 with
        | prop _ p _ h5 h6 => cases h6; exact ⟨j, g', c, o, h1, h2, h3, hk, h5⟩
    | _ => rw [hk] at h4; cases h4 with
      | other _ _ _ h4 => cases h4
  · obtain ⟨j, g', c, h1, h2, h3, h4⟩ := H "a/d/x".toList [['a'], ['d'], ['x']] (some (['x'], .prop (.uol ['y']))) (pieces_iff.2 (by decide)) (hon _)
      (.inr (.inr ⟨_, _, _, dead70, rfl, rfl⟩))
    refine ⟨j, g', c, h1, h2, ?_⟩
    generalize c.kind = k at h4
    cases h4 with
    | uol => rfl
    | other _ _ h _ => exact absurd rfl (h _)
  · exact H "a/l/n".toList [['a'], ['l'], ['n']] none (pieces_iff.2 (by decide)) (hon _)
      (.inl ⟨.link [] ['l'] [['n']] ['n'] [['n']] [['n']] _ (by decide) (pieces_iff.2 (by decide)) way_n70 (.missing _ _ _ (by decide)), rfl⟩)

/-- the node of the image alone -/
def alone70 : NHeap := [some ⟨['a'], .image false (Encodable.encode (Src58.image ['a'] 72 18)), none, []⟩]

/-- the hypotheses of `C70_image` are met -/
example : ∃ fuel g j c, alone70.parse (imgContent wfile70.env fuel) 0 = (.ok (), g) ∧ g.atPath 0 "d/u/l".toList = some j ∧
    g.cell j = some c ∧ c.name = ['n'] ∧ LinkShows wfile70.env c.kind (.prop (.int 5)) := by
  obtain ⟨N, hN⟩ := C70_image wfile70.env ['a'] 72 18 _ (by decide +kernel) (by decide) stored70
    (fun _ h => by cases h; exact .inr ⟨distinct70, direct70⟩)
  obtain ⟨g, hg, H⟩ := hN N (Nat.le_refl _) alone70 0 _ rfl rfl rfl rfl
  obtain ⟨j, c, h⟩ := H "d/u/l".toList [['d'], ['u'], ['l']] (some (['n'], .prop (.int 5))) (pieces_iff.2 (by decide))
    (.inr (.inr ⟨_, _, _, seen70, rfl, rfl⟩))
  exact ⟨N, g, j, c, hg, h⟩

/-- **A link back to the image.**  In the stored image `d/u` leads back to the image itself.  `at_path` finds the number under `d/u/n`,
`at_path_parsed` called on the image hangs. -/
theorem C70_way_back_counterexample : ∃ fuel g j c, alone70.parse (imgContent wfile70.env fuel) 0 = (.ok (), g) ∧
    g.atPath 0 "d/u/n".toList = some j ∧ g.cell j = some c ∧ LinkShows wfile70.env c.kind (.prop (.int 5)) ∧
    (g.atPathParsed (imgContent wfile70.env fuel) 0 "d/u/n".toList).1 = .error (.lib "deadlock") := by
  obtain ⟨N, hN⟩ := C70_image wfile70.env ['a'] 72 18 _ (by decide +kernel) (by decide) stored70
    (fun _ h => by cases h; exact .inr ⟨distinct70, direct70⟩)
  obtain ⟨M, hM⟩ := C70_hangs wfile70.env ['a'] 72 18 _ (by decide +kernel) (by decide) stored70 ⟨distinct70, direct70⟩
  obtain ⟨g, hg, H⟩ := hN (N + M) (by omega) alone70 0 _ rfl rfl rfl rfl
  obtain ⟨g', hg', H'⟩ := hM (N + M) (by omega) alone70 0 _ rfl rfl rfl rfl
  have : g' = g := by rw [hg] at hg'; exact (congrArg Prod.snd hg').symm
  subst this
  have back : SeenAt (linkPlaces props70) [] [['d'], ['u']] (some []) :=
    .plain [] _ _ _ (by decide) (.link [['d']] ['u'] [] "..".toList ["..".toList] [] _ (by decide) (pieces_iff.2 (by decide)) way_up70 (.here _))
  obtain ⟨j, c, h1, h2, h3, h4⟩ := H "d/u/n".toList [['d'], ['u'], ['n']] (some (['n'], .prop (.int 5))) (pieces_iff.2 (by decide))
    (.inr (.inr ⟨[], ['n'], .int 5, .plain [] _ _ _ (by decide) (.link [['d']] ['u'] [['n']] "..".toList ["..".toList] [] _ (by decide)
      (pieces_iff.2 (by decide)) way_up70 (.plain [] _ _ _ (by decide) (.here _))), rfl, rfl⟩))
  exact ⟨N + M, _, j, c, hg, h1, h2, h4, H' "d/u/n".toList [['d'], ['u']] ['n'] (pieces_iff.2 (by decide)) (by simp) back⟩

/-! without the link back `at_path_parsed` works, too -/

/-- an image with the number 5 under `n` and the link `l` to it -/
def img70b : Bytes := sblk "Property".toList ++ [0#8, 0#8] ++ [2#8] ++ (sblk ['n'] ++ [3#8, 5#8]) ++
  (sblk ['l'] ++ (9#8 :: toLE 4 9) ++ sblk "UOL".toList ++ [0#8] ++ sblk ['n'])

def props70b : List (List Char × PTree) := [(['n'], .node (.int 5) []), (['l'], .node (.uol ['n']) [])]

def env70b : Env := ⟨.checked, img70b, fun _ => 0#8, fun _ => 0#8⟩

theorem stored70b : StoredImage env70b ['a'] 0 35 (.image props70b) := by
  have blk : ∀ k t, (∀ c ∈ t, c.toNat < 128) ∧ 1 ≤ t.length ∧ t.length ≤ 127 → Holds img70b k (sblk t) →
      StrBlock env70b 0 k t (k + (t.length + 2)) := fun k t h1 h2 => sblk_at _ _ _ t rfl h1 h2
  refine .props _ 35 not_txt70 ⟨(sblk "Property".toList).tail, sblk_string env70b _ rfl (by decide), by decide, holds_slice 0 (by decide +kernel), ?_⟩
  refine ⟨[2#8], .short (by decide) (by decide), holds_slice 12 (by decide +kernel), ?_⟩
  refine .plain 13 16 35 _ 3#8 (.int 5) [5#8] _ (blk 13 _ (by decide) (holds_slice 13 (by decide +kernel)))
      (.int _ _ _ (.inl rfl) (.short (by decide) (by decide))) (holds_slice 16 (by decide +kernel)) ?_
  refine .block 18 21 35 35 9 _ _ _ (blk 18 _ (by decide) (holds_slice 18 (by decide +kernel))) (by decide)
    (holds_slice 21 (by decide +kernel)) ?_ (.nil _)
  exact .uol 26 31 35 _ _ (blk 26 _ (by decide) (holds_slice 26 (by decide +kernel))) (blk 32 _ (by decide) (holds_slice 32 (by decide +kernel)))

theorem links70b {d : List (List Char)} {n s : List Char} {us : List (List Char)} (hl : linkPlaces props70b (d ++ [n]) = some (some s))
    (hp : Pieces s us) : d = [] ∧ us = [['n']] := by
  have hm := propAt_links _ _ _ (linkPlaces_uol hl)
  simp only [kidLinks, treeLinks, props70b, List.map_nil, List.nil_append, List.append_nil, List.map_cons, List.mem_cons,
    List.not_mem_nil, or_false, Prod.mk.injEq] at hm
  obtain ⟨h1, rfl⟩ := hm
  obtain ⟨rfl, h2⟩ := List.append_inj' (s₂ := []) h1 rfl
  exact ⟨rfl, by rw [← pieces_iff.1 hp]; decide⟩

theorem way_n70b : LinkWay (linkPlaces props70b) [] [['n']] (some [['n']]) := .down [] _ _ _ (fun _ => rfl) (by decide) (.done _)

/-- the hypotheses of `C70_image_parsed_partial` are met -/
example : ∃ fuel g j c, NHeap.parse [some ⟨['a'], .image false (Encodable.encode (Src58.image ['a'] 0 35)), none, []⟩] (imgContent env70b fuel) 0 = (.ok (), g) ∧
    g.atPathParsed (imgContent env70b fuel) 0 ['l'] = (.ok j, g) ∧ g.cell j = some c ∧ c.name = ['n'] ∧ LinkShows env70b c.kind (.prop (.int 5)) := by
  obtain ⟨N, hN⟩ := C70_image_parsed_partial env70b ['a'] 0 35 _ (by decide +kernel) (by decide) stored70b
    (fun _ h => by
      cases h
      refine .inr ⟨.cons _ _ _ _ (by simp) .nil (.cons _ _ _ _ (by simp) .nil .nil), fun d n s us hl hp => ?_⟩
      obtain ⟨rfl, rfl⟩ := links70b hl hp
      exact ⟨_, way_n70b⟩)
    (fun _ h => by
      cases h
      intro d n s us hl hp W
      obtain ⟨rfl, rfl⟩ := links70b hl hp
      have := linkWay_unique W way_n70b
      cases this)
  obtain ⟨g, hg, H⟩ := hN N (Nat.le_refl _) [some ⟨['a'], .image false (Encodable.encode (Src58.image ['a'] 0 35)), none, []⟩] 0 _ rfl rfl rfl rfl
  obtain ⟨j, c, h⟩ := H ['l'] [['l']] (some (['n'], .prop (.int 5))) (pieces_iff.2 (by decide))
    (.inr (.inr ⟨[], ['n'], .int 5, .link [] ['l'] [] ['n'] [['n']] [['n']] _ (by decide) (pieces_iff.2 (by decide)) way_n70b (.here _), rfl, rfl⟩))
  exact ⟨N, g, j, c, hg, h⟩

end Wz.Props
