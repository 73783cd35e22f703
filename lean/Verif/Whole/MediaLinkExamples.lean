import Verif.Whole.MediaLinkProps
import Verif.Whole.MediaExamples
import Verif.Whole.LinkExamples

/-!
# A concrete archive for C69 behind links
-/

set_option autoImplicit false

namespace Wz.Props

open Wz Wz.Spec

/-- an image with the picture `b`, the text `s`, the link `l` to the picture, the link `t` to the text and the link `x` to nothing -/
def img69l : Bytes := sblk "Property".toList ++ [0#8, 0#8] ++ [5#8] ++
  (sblk ['b'] ++ (9#8 :: toLE 4 29) ++ sblk "Canvas".toList ++ [0#8, 0#8] ++
    [1#8, 1#8, 2#8, 0#8, 0#8, 0#8, 0#8, 0#8] ++ toLE 4 7 ++ [0#8, 0x78#8, 0x9C#8, 10#8, 20#8, 30#8, 255#8]) ++
  (sblk ['s'] ++ [8#8] ++ sblk ['h', 'i']) ++
  (sblk ['l'] ++ (9#8 :: toLE 4 9) ++ sblk "UOL".toList ++ [0#8] ++ sblk ['b']) ++
  (sblk ['t'] ++ (9#8 :: toLE 4 9) ++ sblk "UOL".toList ++ [0#8] ++ sblk ['s']) ++
  (sblk ['x'] ++ (9#8 :: toLE 4 9) ++ sblk "UOL".toList ++ [0#8] ++ sblk ['y'])

/-- what is in it -/
def props69l : List (List Char × PTree) :=
  [(['b'], .node (.canvas 1 1 2 0 0 [0x78#8, 0x9C#8, 10#8, 20#8, 30#8, 255#8]) []), (['s'], .node (.str ['h', 'i']) []),
   (['l'], .node (.uol ['b']) []), (['t'], .node (.uol ['s']) []), (['x'], .node (.uol ['y']) [])]

theorem img69l_stored {e : Env} {name : List Char} {o s : Nat} (hks : e.ks = fun _ => 0#8) (hn : ¬ NameEnds name ".txt".toList)
    (h : Holds e.buf o img69l) : StoredImage e name o s (.image props69l) := by
  have sub : ∀ k bs, (img69l.drop k).take bs.length = bs → k + bs.length ≤ img69l.length → Holds e.buf (o + k) bs := by
    intro k bs h1 h2
    have e1 : img69l = img69l.take k ++ (bs ++ (img69l.drop k).drop bs.length) := by
      rw [← h1, List.length_take, List.length_drop, Nat.min_eq_left (by omega), List.take_append_drop, List.take_append_drop]
    rw [e1] at h
    have := h.right.left
    rwa [List.length_take, Nat.min_eq_left (by omega)] at this
  have w0 : IsWzInt 4 0 [0#8] := .short (by decide) (by decide)
  have w1 : IsWzInt 4 ((1 : Nat) : Int) [1#8] := .short (by decide) (by decide)
  have w2 : IsWzInt 4 ((2 : Nat) : Int) [2#8] := .short (by decide) (by decide)
  have blk : ∀ k t, (∀ c ∈ t, c.toNat < 128) ∧ 1 ≤ t.length ∧ t.length ≤ 127 → (img69l.drop k).take (sblk t).length = sblk t →
      k + (sblk t).length ≤ img69l.length → StrBlock e o (o + k) t (o + k + (t.length + 2)) :=
    fun k t h1 h2 h3 => sblk_at _ _ _ t hks h1 (sub k _ h2 h3)
  refine .props _ (o + 109) hn ⟨(sblk "Property".toList).tail, sblk_string e _ hks (by decide), by decide, ?_, ?_⟩
  · exact sub 0 _ (by decide +kernel) (by decide +kernel)
  refine ⟨[5#8], .short (by decide) (by decide), sub 12 _ (by decide +kernel) (by decide +kernel), ?_⟩
  refine .block (o + 13) (o + 16) (o + 46) (o + 109) 29 _ _ _ (blk 13 _ (by decide) (by decide +kernel) (by decide +kernel)) (by decide)
    (sub 16 _ (by decide +kernel) (by decide +kernel)) ?_ ?_
  · refine .canvas (o + 21) (o + 29) (o + 46) _ 1 1 2 0 0#8 0#8 0 _ (blk 21 _ (by decide) (by decide +kernel) (by decide +kernel))
      (sub 29 _ (by decide +kernel) (by decide +kernel)) (by decide) ?_
    exact ⟨[1#8], [1#8], [2#8], [0#8], [0#8], 0, 0#8, 0#8, 0#8, w1, w1, w2, by decide, w0, w0, by decide, by decide,
        sub 31 _ (by decide +kernel) (by decide +kernel), rfl⟩
  refine .str (o + 50) (o + 53) (o + 58) (o + 109) _ _ _ (blk 50 _ (by decide) (by decide +kernel) (by decide +kernel))
        (sub 53 _ (by decide +kernel) (by decide +kernel)) (blk 54 _ (by decide) (by decide +kernel) (by decide +kernel)) ?_
  refine .block (o + 58) (o + 61) (o + 75) (o + 109) 9 _ _ _ (blk 58 _ (by decide) (by decide +kernel) (by decide +kernel)) (by decide)
    (sub 61 _ (by decide +kernel) (by decide +kernel)) ?_ ?_
  · exact .uol (o + 66) (o + 71) (o + 75) _ _ (blk 66 _ (by decide) (by decide +kernel) (by decide +kernel))
      (blk 72 _ (by decide) (by decide +kernel) (by decide +kernel))
  refine .block (o + 75) (o + 78) (o + 92) (o + 109) 9 _ _ _ (blk 75 _ (by decide) (by decide +kernel) (by decide +kernel)) (by decide)
    (sub 78 _ (by decide +kernel) (by decide +kernel)) ?_ ?_
  · exact .uol (o + 83) (o + 88) (o + 92) _ _ (blk 83 _ (by decide) (by decide +kernel) (by decide +kernel))
      (blk 89 _ (by decide) (by decide +kernel) (by decide +kernel))
  refine .block (o + 92) (o + 95) (o + 109) (o + 109) 9 _ _ _ (blk 92 _ (by decide) (by decide +kernel) (by decide +kernel)) (by decide)
    (sub 95 _ (by decide +kernel) (by decide +kernel)) ?_ (.nil _)
  exact .uol (o + 100) (o + 105) (o + 109) _ _ (blk 100 _ (by decide) (by decide +kernel) (by decide +kernel))
      (blk 106 _ (by decide) (by decide +kernel) (by decide +kernel))

theorem links69l {d : List (List Char)} {n s : List Char} {us : List (List Char)} (hl : linkPlaces props69l (d ++ [n]) = some (some s))
    (hp : Pieces s us) : d = [] ∧ (us = [['b']] ∨ us = [['s']] ∨ us = [['y']]) := by
  have hm := propAt_links _ _ _ (linkPlaces_uol hl)
  simp only [kidLinks, treeLinks, props69l, List.map_nil, List.nil_append, List.append_nil, List.map_cons, List.cons_append, List.mem_cons,
    List.not_mem_nil, or_false, Prod.mk.injEq] at hm
  have hus := pieces_iff.1 hp
  rcases hm with ⟨h1, rfl⟩ | ⟨h1, rfl⟩ | ⟨h1, rfl⟩
  all_goals
    obtain ⟨rfl, h2⟩ := List.append_inj' (s₂ := []) h1 rfl
    refine ⟨rfl, ?_⟩
  · exact .inl (by rw [← hus]; decide)
  · exact .inr (.inl (by rw [← hus]; decide))
  · exact .inr (.inr (by rw [← hus]; decide))

theorem way_b69l : LinkWay (linkPlaces props69l) [] [['b']] (some [['b']]) := .down [] _ _ _ (fun _ => rfl) (by decide) (.done _)

theorem way_s69l : LinkWay (linkPlaces props69l) [] [['s']] (some [['s']]) := .down [] _ _ _ (fun _ => rfl) (by decide) (.done _)

theorem works69l : ∀ ps, ATree.image props69l = .image ps → NoUol ps ∨ (DistinctProps ps ∧ DirectLinks (linkPlaces ps)) := by
  intro ps h
  cases h
  refine .inr ⟨?_, fun d n s us hl hp => ?_⟩
  · exact .cons _ _ _ _ (by simp) .nil (.cons _ _ _ _ (by simp) .nil (.cons _ _ _ _ (by simp) .nil (.cons _ _ _ _ (by simp) .nil
      (.cons _ _ _ _ (by simp) .nil .nil))))
  · obtain ⟨rfl, rfl | rfl | rfl⟩ := links69l hl hp
    · exact ⟨_, way_b69l⟩
    · exact ⟨_, way_s69l⟩
    · exact ⟨_, .missing [] _ _ (by decide) (by decide)⟩

/-- root at 62: the image `a` at 72 -/
def file69l : Bytes := List.replicate 62 0#8 ++ [1#8] ++ ([4#8, 0xFF#8, 0xCB#8, 18#8, 0#8] ++ st1 68 72) ++ img69l

def wfile69l : WFile := { env := (ctx1 .checked file69l).env, hdr := hdr1, keys2 := false, verified := true }

theorem file69l_holds : HoldsDir (Block1 (ctx1 .checked file69l) 1876#64) 62 [(['a'], .image 72 18)] := by
  have one : IsWzInt 4 ((1 : Nat) : Int) [1#8] := .short (by decide) (by decide)
  have zero : IsWzInt 4 0 [0#8] := .short (by decide) (by decide)
  refine .mk _ _ ⟨1, [1#8], 72, by decide, one, holds_slice 62 (by decide +kernel), ?_⟩ ?_ ?_ ?_
  · refine .cons 0 63 72 72 _ _ ?_ (.nil _)
    exact .direct 63 4#8 ['a'] (.image 72 18) 72 18 0 [0xFF#8, 0xCB#8] [18#8] [0#8] (.image _ _)
        ⟨by decide +kernel, 0x73#8, holds_slice 72 (by decide +kernel), .inl rfl⟩ (by decide)
        (ascii1 'a' _ (by decide) (by decide)) (.short (by decide) (by decide)) zero (holds_slice 63 (by decide +kernel))
  · intro name o kids hm; simp at hm
  · intro name o s kids hm; simp at hm
  · intro name o s kids hm; simp at hm

theorem stored69l : StoredImage wfile69l.env ['a'] 72 18 (.image props69l) :=
  img69l_stored rfl not_txt70 (holds_slice 72 (by decide +kernel))

/-- behind the link `l` is the picture -/
theorem seen69l : ArcSees [(['a'], .image props69l)] [['a'], ['l']]
    (some (['b'], .prop (.canvas 1 1 2 0 0 [0x78#8, 0x9C#8, 10#8, 20#8, 30#8, 255#8]))) :=
  .inr (.inr ⟨[], ['b'], _, .link [] ['l'] [] ['b'] [['b']] [['b']] _ (by decide) (pieces_iff.2 (by decide)) way_b69l (.here _), rfl, rfl⟩)

/-- and there is nothing below it -/
theorem noText69l {x : List Char} (hx : linkPlaces props69l [['b'], x] = none) :
    NoTextSeen [(['a'], .image props69l)] [['a'], ['l']] x := by
  have h : ArcSees [(['a'], .image props69l)] [['a'], ['l'], x] none :=
    .inl ⟨.link [] ['l'] [x] ['b'] [['b']] [['b']] _ (by decide) (pieces_iff.2 (by decide)) way_b69l (.missing _ _ _ hx), rfl⟩
  intro m s
  constructor <;> exact fun h' => by cases arcSees_unique _ _ _ _ h h'

theorem text69l : ArcSees [(['a'], .image props69l)] [['a'], ['t']] (some (['s'], .prop (.str ['h', 'i']))) :=
  .inr (.inr ⟨[], ['s'], _, .link [] ['t'] [] ['s'] [['s']] [['s']] _ (by decide) (pieces_iff.2 (by decide)) way_s69l (.here _), rfl, rfl⟩)

theorem dead69l : ArcSees [(['a'], .image props69l)] [['a'], ['x']] (some (['x'], .prop (.uol ['y']))) :=
  .inr (.inr ⟨[], ['x'], _, .dead [] ['x'] [] ['y'] [['y']] _ (by decide) (pieces_iff.2 (by decide)) (.missing [] _ _ (by decide) (by decide))
    (.here _), rfl, rfl⟩)

/-- the picture behind `l`, whatever the tree -/
theorem pixel69l {content : Content} {bc7 : Bc7} {e : Env} {g : NHeap} {j : Nat} (hks : e.ks = fun _ => 0#8)
    (P : GivesSeen content inflate69 bc7 aes69 e g j [(['a'], .image props69l)] [['a'], ['l']]
      (.prop (.canvas 1 1 2 0 0 [0x78#8, 0x9C#8, 10#8, 20#8, 30#8, 255#8]))) :
    ∃ rows keys, PlainImage 4 Is8888 [10#8, 20#8, 30#8, 255#8] 1 1 rows ∧
      g.picture content inflate69 bc7 aes69 e (Ecb.new [0#8, 0#8, 0#8, 0#8] []) 1 j = (.ok (.rgba rows, keys), g) := by
  obtain ⟨img, keys, hD, hM⟩ := P.picture 1 1 2 0 0 [0x78#8, 0x9C#8, 10#8, 20#8, 30#8, 255#8] [10#8, 20#8, 30#8, 255#8] [0#8, 0#8, 0#8, 0#8] [] [] rfl
    (noText69l (by decide)) (noText69l (by decide)) (fun _ b h => h) rfl (by rw [hks]; rfl)
    ⟨by decide, by decide, by decide, by decide, by intro c h; simp [byteCount] at h; subst h; rfl, .plain _ _ (by decide) rfl⟩
  cases img with
  | rgba rows =>
    refine ⟨rows, keys, ?_, hM 0⟩
    rcases hD with ⟨h, _⟩ | ⟨_, h⟩ | ⟨h, _⟩ | ⟨h, _⟩ | ⟨h, _⟩ | ⟨h, _⟩
    · cases h
    · exact h
    all_goals cases h
  | rgb rows => rcases hD with ⟨h, _⟩ | ⟨h, _⟩ <;> cases h
  | rgba16 rows => cases hD.1

/-- All hypotheses of `C69_links_pkg1` are met.  The image is read and forgotten; then the pixel is given out behind the link `l`, the text behind
`t`, and for `x`, which leads nowhere, the text of the link. -/
example (bc7 : Bc7) : ∃ (F : Fuel) (n fuel : Nat) (g k : NHeap), heap58.parse (arcContent F n fuel [] wfile69l) 0 = (.ok (), g) ∧
    k = runArc (arcContent F n fuel [] wfile69l) 0 g [.load "a".toList, .close "a".toList] ∧
    (∃ j g' rows keys, k.atPathParsed (arcContent F n fuel [] wfile69l) 0 "a/l".toList = (.ok j, g') ∧
      PlainImage 4 Is8888 [10#8, 20#8, 30#8, 255#8] 1 1 rows ∧
      g'.picture (arcContent F n fuel [] wfile69l) inflate69 bc7 aes69 wfile69l.env (Ecb.new [0#8, 0#8, 0#8, 0#8] []) 1 j = (.ok (.rgba rows, keys), g')) ∧
    (∃ j g', k.atPathParsed (arcContent F n fuel [] wfile69l) 0 "a/t".toList = (.ok j, g') ∧ g'.nodeText wfile69l.env j = .ok ['h', 'i'] ∧
      g'.picture (arcContent F n fuel [] wfile69l) inflate69 bc7 aes69 wfile69l.env (Ecb.new [0#8, 0#8, 0#8, 0#8] []) 1 j = (.error (.lib "NotPngProperty"), g')) ∧
    (∃ j g', k.atPathParsed (arcContent F n fuel [] wfile69l) 0 "a/x".toList = (.ok j, g') ∧ g'.nodeText wfile69l.env j = .ok ['y']) := by
  have h83 : verHash 83 = 1876 := by simp [verHash]
  obtain ⟨N, hN⟩ := C69_links_pkg1 inflate69 bc7 aes69 wfile69l 83 _ [(['a'], .image props69l)] [] rfl (by decide) (by decide +kernel) (by decide +kernel)
    (by intro ev h; cases h; decide) rfl ⟨by omega, by omega, .inr (by rw [h83]; decide)⟩ (by rw [h83]; exact file69l_holds)
    (.image _ _ _ _ _ _ (by decide) stored69l .nil)
  have R := hN ⟨N, N⟩ (Nat.le_refl _) (Nat.le_refl _) 2001 N (by omega) (Nat.le_refl _) fun u h hu => absurd hu (no_earlier u h)
  obtain ⟨g, hg, H⟩ := R heap58 0 ⟨_, rfl, rfl, rfl⟩
  have hon : ∀ ns, LinksOn [(['a'], .image props69l)] (['a'] :: ns) := fun ns => .inr (works69l _ rfl)
  have H := H [.load "a".toList, .close "a".toList] (by
    intro op ho
    simp only [List.mem_cons, List.not_mem_nil, or_false] at ho
    rcases ho with rfl | rfl
    · exact ⟨[['a']], pieces_iff.2 (by decide), hon _⟩
    · refine ⟨[['a']], pieces_iff.2 (by decide), hon _, ?_⟩
      rintro n (⟨_, h⟩ | ⟨_, h⟩ | ⟨_, _, _, _, _, h⟩) <;> cases h)
  refine ⟨⟨N, N⟩, 2001, N, g, _, hg, rfl, ?_, ?_, ?_⟩
  · obtain ⟨j, g', h1, P⟩ := H "a/l".toList _ _ _ (pieces_iff.2 (by decide)) (hon _) seen69l
    obtain ⟨rows, keys, h2, h3⟩ := pixel69l rfl P
    exact ⟨j, g', rows, keys, h1, h2, h3⟩
  · obtain ⟨j, g', h1, P⟩ := H "a/t".toList _ _ _ (pieces_iff.2 (by decide)) (hon _) text69l
    exact ⟨j, g', h1, (P.payload (fun s h => by cases h)).text.1 _ rfl, P.other (fun _ _ _ _ _ _ h => by cases h) _ 0⟩
  · obtain ⟨j, g', h1, P⟩ := H "a/x".toList _ _ _ (pieces_iff.2 (by decide)) (hon _) dead69l
    exact ⟨j, g', h1, P.dead _ rfl⟩

/-- all hypotheses of `C69_links_image` are met -/
example (bc7 : Bc7) : ∃ fuel g j rows keys, alone70.parse (imgContent wfile69l.env fuel) 0 = (.ok (), g) ∧ g.atPath 0 ['l'] = some j ∧
    PlainImage 4 Is8888 [10#8, 20#8, 30#8, 255#8] 1 1 rows ∧
    g.picture (imgContent wfile69l.env fuel) inflate69 bc7 aes69 wfile69l.env (Ecb.new [0#8, 0#8, 0#8, 0#8] []) 1 j = (.ok (.rgba rows, keys), g) := by
  obtain ⟨N, hN⟩ := C69_links_image inflate69 bc7 aes69 wfile69l.env ['a'] 72 18 _ (by decide +kernel) (by decide) stored69l works69l
  obtain ⟨g, hg, H⟩ := hN N (Nat.le_refl _) alone70 0 _ rfl rfl rfl rfl
  obtain ⟨j, h1, P⟩ := H ['l'] [['l']] _ _ (pieces_iff.2 (by decide)) seen69l
  obtain ⟨rows, keys, h2, h3⟩ := pixel69l rfl P
  exact ⟨N, g, j, rows, keys, hg, h1, h2, h3⟩

end Wz.Props
