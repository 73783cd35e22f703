import Verif.Whole.MediaProps
import Verif.Whole.Examples

/-!
# A concrete archive for C69
-/

set_option autoImplicit false

namespace Wz.Props

open Wz Wz.Spec

/-- an image with the pictures `a`, which has an `_inlink` to `b`, and `b`, the text `s` and the sound `m` -/
def img69 : Bytes := sblk "Property".toList ++ [0#8, 0#8] ++ [4#8] ++
  (sblk ['a'] ++ (9#8 :: toLE 4 42) ++ sblk "Canvas".toList ++ [0#8, 1#8, 0#8, 0#8, 1#8] ++ sblk "_inlink".toList ++ [8#8] ++ sblk ['b'] ++
    [1#8, 1#8, 2#8, 0#8, 0#8, 0#8, 0#8, 0#8] ++ toLE 4 4 ++ [0#8, 0x78#8, 0x9C#8, 1#8]) ++
  (sblk ['b'] ++ (9#8 :: toLE 4 29) ++ sblk "Canvas".toList ++ [0#8, 0#8] ++
    [1#8, 1#8, 2#8, 0#8, 0#8, 0#8, 0#8, 0#8] ++ toLE 4 7 ++ [0#8, 0x78#8, 0x9C#8, 10#8, 20#8, 30#8, 255#8]) ++
  (sblk ['s'] ++ [8#8] ++ sblk ['h', 'i']) ++
  (sblk ['m'] ++ (9#8 :: toLE 4 19) ++ sblk "Sound_DX8".toList ++ [0#8, 3#8, 7#8, 1#8, 2#8, 5#8, 6#8, 7#8])

/-- what is in it -/
def props69 : List (List Char × PTree) :=
  [(['a'], .node (.canvas 1 1 2 0 0 [0x78#8, 0x9C#8, 1#8]) [("_inlink".toList, .node (.str ['b']) [])]),
   (['b'], .node (.canvas 1 1 2 0 0 [0x78#8, 0x9C#8, 10#8, 20#8, 30#8, 255#8]) []),
   (['s'], .node (.str ['h', 'i']) []),
   (['m'], .node (.sound 7 [1#8, 2#8] [5#8, 6#8, 7#8]) [])]

theorem img69_stored {e : Env} {name : List Char} {o s : Nat} (hks : e.ks = fun _ => 0#8) (hn : ¬ NameEnds name ".txt".toList)
    (h : Holds e.buf o img69) : StoredImage e name o s (.image props69) := by
  have sub : ∀ k bs, (img69.drop k).take bs.length = bs → k + bs.length ≤ img69.length → Holds e.buf (o + k) bs := by
    intro k bs h1 h2
    have e1 : img69 = img69.take k ++ (bs ++ (img69.drop k).drop bs.length) := by
      rw [← h1, List.length_take, List.length_drop, Nat.min_eq_left (by omega), List.take_append_drop, List.take_append_drop]
    rw [e1] at h
    have := h.right.left
    rwa [List.length_take, Nat.min_eq_left (by omega)] at this
  have w0 : IsWzInt 4 0 [0#8] := .short (by decide) (by decide)
  have w1 : IsWzInt 4 ((1 : Nat) : Int) [1#8] := .short (by decide) (by decide)
  have w2 : IsWzInt 4 ((2 : Nat) : Int) [2#8] := .short (by decide) (by decide)
  have blk : ∀ k t, (∀ c ∈ t, c.toNat < 128) ∧ 1 ≤ t.length ∧ t.length ≤ 127 → (img69.drop k).take (sblk t).length = sblk t →
      k + (sblk t).length ≤ img69.length → StrBlock e o (o + k) t (o + k + (t.length + 2)) :=
    fun k t h1 h2 h3 => sblk_at _ _ _ t hks h1 (sub k _ h2 h3)
  refine .props _ (o + 135) hn ⟨(sblk "Property".toList).tail, sblk_string e _ hks (by decide), by decide, ?_, ?_⟩
  · exact sub 0 _ (by decide +kernel) (by decide +kernel)
  refine ⟨[4#8], .short (by decide) (by decide), sub 12 _ (by decide +kernel) (by decide +kernel), ?_⟩
  refine .block (o + 13) (o + 16) (o + 62) (o + 135) 42 _ _ _ (blk 13 _ (by decide) (by decide +kernel) (by decide +kernel)) (by decide)
    (sub 16 _ (by decide +kernel) (by decide +kernel)) ?_ ?_
  · refine .canvasKids (o + 21) (o + 29) (o + 47) (o + 62) _ 1 1 2 0 0#8 [1#8] _ 0 _ (blk 21 _ (by decide) (by decide +kernel) (by decide +kernel))
      (sub 29 _ (by decide +kernel) (by decide +kernel)) w1 (sub 33 _ (by decide +kernel) (by decide +kernel)) (by decide) ?_ ?_
    · exact .str (o + 34) (o + 43) (o + 47) (o + 47) _ _ _ (blk 34 _ (by decide) (by decide +kernel) (by decide +kernel))
        (sub 43 _ (by decide +kernel) (by decide +kernel)) (blk 44 _ (by decide) (by decide +kernel) (by decide +kernel)) (.nil _)
    · exact ⟨[1#8], [1#8], [2#8], [0#8], [0#8], 0, 0#8, 0#8, 0#8, w1, w1, w2, by decide, w0, w0, by decide, by decide,
        sub 47 _ (by decide +kernel) (by decide +kernel), rfl⟩
  refine .block (o + 63) (o + 66) (o + 96) (o + 135) 29 _ _ _ (blk 63 _ (by decide) (by decide +kernel) (by decide +kernel)) (by decide)
    (sub 66 _ (by decide +kernel) (by decide +kernel)) ?_ ?_
  · refine .canvas (o + 71) (o + 79) (o + 96) _ 1 1 2 0 0#8 0#8 0 _ (blk 71 _ (by decide) (by decide +kernel) (by decide +kernel))
      (sub 79 _ (by decide +kernel) (by decide +kernel)) (by decide) ?_
    exact ⟨[1#8], [1#8], [2#8], [0#8], [0#8], 0, 0#8, 0#8, 0#8, w1, w1, w2, by decide, w0, w0, by decide, by decide,
        sub 81 _ (by decide +kernel) (by decide +kernel), rfl⟩
  refine .str (o + 100) (o + 103) (o + 108) (o + 135) _ _ _ (blk 100 _ (by decide) (by decide +kernel) (by decide +kernel))
        (sub 103 _ (by decide +kernel) (by decide +kernel)) (blk 104 _ (by decide) (by decide +kernel) (by decide +kernel)) ?_
  refine .block (o + 108) (o + 111) (o + 130) (o + 135) 19 _ _ _ (blk 108 _ (by decide) (by decide +kernel) (by decide +kernel)) (by decide)
    (sub 111 _ (by decide +kernel) (by decide +kernel)) ?_ (.nil _)
  exact .sound (o + 116) (o + 127) _ 7 0#8 [3#8] [7#8] [1#8, 2#8] [5#8, 6#8, 7#8] (blk 116 _ (by decide) (by decide +kernel) (by decide +kernel))
    (.short (by decide) (by decide)) (.short (by decide) (by decide)) (sub 127 _ (by decide +kernel) (by decide +kernel)) rfl

/-- root at 62: the image `a` at 72 -/
def file69 : Bytes := List.replicate 62 0#8 ++ [1#8] ++ ([4#8, 0xFF#8, 0xCB#8, 18#8, 0#8] ++ st1 68 72) ++ img69

def wfile69 : WFile := { env := (ctx1 .checked file69).env, hdr := hdr1, keys2 := false, verified := true }

theorem file69_holds : HoldsDir (Block1 (ctx1 .checked file69) 1876#64) 62 [(['a'], .image 72 18)] := by
  have one : IsWzInt 4 ((1 : Nat) : Int) [1#8] := .short (by decide) (by decide)
  have zero : IsWzInt 4 0 [0#8] := .short (by decide) (by decide)
  refine .mk _ _ ⟨1, [1#8], 72, by decide, one, holds_slice 62 (by decide +kernel), ?_⟩ ?_ ?_ ?_
  · refine .cons 0 63 72 72 _ _ ?_ (.nil _)
    exact .direct 63 4#8 ['a'] (.image 72 18) 72 18 0 [0xFF#8, 0xCB#8] [18#8] [0#8] (.image _ _)
        ⟨by decide +kernel, 0x73#8, holds_slice 72 (by decide +kernel), .inl rfl⟩ (by decide)
        (ascii1 'a' _ (by decide) (by decide)) (.short (by decide) (by decide)) zero (holds_slice 63 (by decide +kernel))
  · intro name o kids hm; simp at hm
  · intro name o s kids hm; simp at hm
  · intro name o s kids hm; simp at hm

/-- a decompressor that leaves out the first two bytes -/
def inflate69 : Inflate := fun _ d n => .ok ((d.drop 2).take n)

def aes69 : Aes := fun _ b => b

theorem noUol69 : NoUol props69 := by
  refine .cons _ _ _ _ (by simp) (.cons _ _ _ _ (by simp) .nil .nil) (.cons _ _ _ _ (by simp) .nil (.cons _ _ _ _ (by simp) .nil (.cons _ _ _ _ (by simp) .nil .nil)))

/-- all hypotheses of `C69_pkg1` are met; before it is asked for the payloads the image is read and forgotten -/
theorem wfile69_payloads (bc7 : Bc7) : ∃ (F : Fuel) (n fuel : Nat) (g : NHeap), heap58.parse (arcContent F n fuel [] wfile69) 0 = (.ok (), g) ∧
    FindsPayloads (arcContent F n fuel [] wfile69) inflate69 bc7 aes69 wfile69.env (OnItsOwn heap58 0)
      (runArc (arcContent F n fuel [] wfile69) 0 g [.load "a".toList, .close "a".toList]) 0 [(['a'], .image props69)] := by
  have h83 : verHash 83 = 1876 := by simp [verHash]
  obtain ⟨N, hN⟩ := C69_pkg1 inflate69 bc7 aes69 wfile69 83 _ [(['a'], .image props69)] [] rfl (by decide) (by decide +kernel) (by decide +kernel)
    (by intro ev h; cases h; decide) rfl ⟨by omega, by omega, .inr (by rw [h83]; decide)⟩ (by rw [h83]; exact file69_holds)
    (.image _ _ _ _ _ _ (by decide) (img69_stored rfl (fun h => absurd (endsWith_iff.mpr h) (by decide)) (holds_slice 72 (by decide +kernel))) .nil)
  have R := hN ⟨N, N⟩ (Nat.le_refl _) (Nat.le_refl _) 2001 N (by omega) (Nat.le_refl _) fun u h hu => absurd hu (no_earlier u h)
  have K : Consistent heap58 := by
    refine ⟨fun i c hc => ?_, fun i n j ⟨c, hc, hm⟩ => ?_⟩
    all_goals
      match i, hc with
      | 0, hc => cases hc; simp [heap58] at *
      | i + 1, hc => simp [NHeap.cell, heap58] at hc
  obtain ⟨g, hg, H⟩ := R heap58 0 ⟨_, rfl, rfl, rfl⟩ K
  refine ⟨⟨N, N⟩, 2001, N, g, hg, H _ ?_⟩
  intro op ho
  simp only [List.mem_cons, List.not_mem_nil, or_false] at ho
  rcases ho with rfl | rfl
  · exact ⟨[['a']], pieces_iff.2 (by decide), .inr noUol69⟩
  · exact ⟨[['a']], pieces_iff.2 (by decide), .inl rfl, fun h => by cases h⟩

/-- The picture `a` is linked to `b`: what is given is the one pixel of `b`.  The text and the sound are given as they are, and the text is no
picture. -/
example (bc7 : Bc7) : ∃ (F : Fuel) (n fuel : Nat) (g : NHeap),
    (∃ j g' rows keys' N, g.atPathParsed (arcContent F n fuel [] wfile69) 0 "a/a".toList = (.ok j, g') ∧
      PlainImage 4 Is8888 [10#8, 20#8, 30#8, 255#8] 1 1 rows ∧
      ∀ k, N ≤ k → g'.picture (arcContent F n fuel [] wfile69) inflate69 bc7 aes69 wfile69.env (Ecb.new [0#8, 0#8, 0#8, 0#8] []) k j = (.ok (.rgba rows, keys'), g')) ∧
    (∃ j g', g.atPathParsed (arcContent F n fuel [] wfile69) 0 "a/s".toList = (.ok j, g') ∧ g'.nodeText wfile69.env j = .ok ['h', 'i'] ∧
      g'.soundFile wfile69.env j = none ∧ ∃ N, ∀ k, N ≤ k →
      g'.picture (arcContent F n fuel [] wfile69) inflate69 bc7 aes69 wfile69.env (Ecb.new [0#8, 0#8, 0#8, 0#8] []) k j = (.error (.lib "NotPngProperty"), g')) ∧
    (∃ j g', g.atPathParsed (arcContent F n fuel [] wfile69) 0 "a/m".toList = (.ok j, g') ∧ g'.soundFile wfile69.env j = some (.ok [5#8, 6#8, 7#8])) := by
  obtain ⟨F, n, fuel, g, hg, H⟩ := wfile69_payloads bc7
  refine ⟨F, n, fuel, runArc (arcContent F n fuel [] wfile69) 0 g [.load "a".toList, .close "a".toList], ?_, ?_, ?_⟩
  · obtain ⟨j, g', h1, _, h3⟩ := H "a/a".toList [['a'], ['a']] _ (pieces_iff.2 (by decide)) (.inr noUol69) rfl
    have P := (h3 [['a']] [['a']] rfl (by simp) rfl).picture [['b']] 1 1 2 0 0 [0x78#8, 0x9C#8, 10#8, 20#8, 30#8, 255#8] [10#8, 20#8, 30#8, 255#8]
      [0#8, 0#8, 0#8, 0#8] [] [] (.next _ [['b']] _ ⟨_, _, _, _, _, _, rfl⟩ ⟨['b'], rfl, pieces_iff.2 (by decide), fun h => by cases h⟩ (.here _)) rfl
      (by rintro ms ⟨s, hs, _⟩; cases hs) (.inr fun t ht => by cases ht) (fun _ b h => h) rfl ?_ ?_
    · obtain ⟨img, keys', M, hD, hM⟩ := P
      cases img with
      | rgba rows =>
        refine ⟨j, g', rows, keys', M, h1, ?_, hM⟩
        rcases hD with ⟨h, _⟩ | ⟨_, h⟩ | ⟨h, _⟩ | ⟨h, _⟩ | ⟨h, _⟩ | ⟨h, _⟩
        · cases h
        · exact h
        all_goals cases h
      | rgb rows => rcases hD with ⟨h, _⟩ | ⟨h, _⟩ <;> cases h
      | rgba16 rows => cases hD.1
    · rfl
    · exact ⟨by decide, by decide, by decide, by decide, by intro c h; simp [byteCount] at h; subst h; rfl, .plain _ _ (by decide) rfl⟩
  · obtain ⟨j, g', h1, h2, h3⟩ := H "a/s".toList [['a'], ['s']] _ (pieces_iff.2 (by decide)) (.inr noUol69) rfl
    refine ⟨j, g', h1, h2.text.1 _ rfl, h2.sound.2 (by rintro d hd data h; cases h), ?_⟩
    exact (h3 [['a']] [['s']] rfl (by simp) rfl).other [['s']] _ (.here _) (fun h => by cases h)
      (by rintro ⟨_, _, _, _, _, _, h⟩; cases h)
  · obtain ⟨j, g', h1, h2, _⟩ := H "a/m".toList [['a'], ['m']] _ (pieces_iff.2 (by decide)) (.inr noUol69) rfl
    obtain ⟨f, hf, _, hb⟩ := h2.sound.1 _ _ _ rfl (by decide)
    rw [hb (fun h => absurd h.1 (by decide))] at hf
    exact ⟨j, g', h1, hf⟩

/-- all hypotheses of `C69_image` are met: the text in an image that is a file of its own -/
example (bc7 : Bc7) : ∃ fuel g j, heap58i.parse (imgContent ⟨.checked, img69, fun _ => 0#8, fun _ => 0#8⟩ fuel) 0 = (.ok (), g) ∧
    g.atPathParsed (imgContent ⟨.checked, img69, fun _ => 0#8, fun _ => 0#8⟩ fuel) 0 "a/_inlink".toList = (.ok j, g) ∧
    g.nodeText ⟨.checked, img69, fun _ => 0#8, fun _ => 0#8⟩ j = .ok ['b'] := by
  obtain ⟨N, hN⟩ := C69_image inflate69 bc7 aes69 ⟨.checked, img69, fun _ => 0#8, fun _ => 0#8⟩ "a.img".toList 0 18 _ (by decide +kernel) (by decide)
    (img69_stored rfl (fun h => absurd (endsWith_iff.mpr h) (by decide)) (holds_slice 0 (by decide +kernel)))
    (by intro ps h; cases h; exact noUol69)
  have K : Consistent heap58i := by
    refine ⟨fun i c hc => ?_, fun i n j ⟨c, hc, hm⟩ => ?_⟩
    all_goals
      match i, hc with
      | 0, hc => cases hc; simp [heap58i] at *
      | i + 1, hc => simp [NHeap.cell, heap58i] at hc
  obtain ⟨g, hg, H⟩ := hN N (Nat.le_refl _) heap58i 0 _ K rfl rfl rfl
  obtain ⟨j, h1, h2, _⟩ := H "a/_inlink".toList [['a'], "_inlink".toList] _ (pieces_iff.2 (by decide)) rfl
  exact ⟨N, g, j, hg, h1, h2.text.1 _ rfl⟩

end Wz.Props
