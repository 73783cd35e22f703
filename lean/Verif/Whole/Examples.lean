import Verif.Whole.Props
import Verif.File.CacheProps
import Verif.Image.Props

/-!
# Concrete archives for C58
-/

set_option autoImplicit false

namespace Wz.Props

open Wz Wz.Spec

/-- an image with the number 5 under `n` -/
def propImg58 : Bytes := sblk "Property".toList ++ [0#8, 0#8] ++ [1#8] ++ sblk ['n'] ++ [3#8, 5#8]

/-- root at 62: image `a`, directory `b`; directory at 81: the text `c.txt`; image at 95, text at 113 -/
def file58 : Bytes := List.replicate 62 0#8 ++ [2#8] ++
  ([4#8, 0xFF#8, 0xCB#8, 18#8, 0#8] ++ st1 68 95) ++
  ([3#8, 0xFF#8, 0xC8#8, 14#8, 0#8] ++ st1 77 81) ++
  ([1#8] ++ [4#8] ++ (sblk "c.txt".toList).tail ++ [3#8, 0#8] ++ st1 91 113) ++
  propImg58 ++ [0x73#8, 0x61#8, 0x79#8]

def wfile58 : WFile := { env := (ctx1 .checked file58).env, hdr := hdr1, keys2 := false, verified := true }

def items58 : List (List Char × DNode) := [(['a'], .image 95 18), (['b'], .dir 81 14 [("c.txt".toList, .image 113 3)])]

/-- what is in it -/
def arch58 : List (List Char × ATree) :=
  [(['a'], .image [(['n'], .node (.int 5) [])]), (['b'], .dir [("c.txt".toList, .text [0x73#8, 0x61#8, 0x79#8])])]

theorem file58_holds : HoldsDir (Block1 (ctx1 .checked file58) 1876#64) 62 items58 := by
  have one : IsWzInt 4 ((1 : Nat) : Int) [1#8] := .short (by decide) (by decide)
  have zero : IsWzInt 4 0 [0#8] := .short (by decide) (by decide)
  refine .mk _ _ ⟨2, [2#8], 81, by decide, .short (by decide) (by decide), holds_slice 62 (by decide +kernel), ?_⟩ ?_ ?_ ?_
  · refine .cons 1 63 72 81 _ _ ?_ ?_
    · exact .direct 63 4#8 ['a'] (.image 95 18) 95 18 0 [0xFF#8, 0xCB#8] [18#8] [0#8] (.image _ _)
        ⟨by decide +kernel, 0x73#8, holds_slice 95 (by decide +kernel), .inl rfl⟩ (by decide)
        (ascii1 'a' _ (by decide) (by decide)) (.short (by decide) (by decide)) zero (holds_slice 63 (by decide +kernel))
    · refine .cons 0 72 81 81 _ _ ?_ (.nil _)
      exact .direct 72 3#8 ['b'] (.dir 81 14 _) 81 14 0 [0xFF#8, 0xC8#8] [14#8] [0#8] (.dir _ _ _)
        ⟨by decide +kernel, 1, [1#8], by decide, holds_slice 81 (by decide +kernel), .short (by decide) (by decide)⟩ (by decide)
        (ascii1 'b' _ (by decide) (by decide)) (.short (by decide) (by decide)) zero (holds_slice 72 (by decide +kernel))
  · intro name o kids hm; simp [items58] at hm
  · intro name o s kids hm
    simp [items58] at hm
    obtain ⟨_, _, _, rfl⟩ := hm
    simp
  · intro name o s kids hm _
    simp [items58] at hm
    obtain ⟨_, rfl, rfl, rfl⟩ := hm
    refine .mk _ _ ⟨1, [1#8], 95, by decide, one, holds_slice 81 (by decide +kernel), ?_⟩ ?_ ?_ ?_
    · refine .cons 0 82 95 95 _ _ ?_ (.nil _)
      exact .direct 82 4#8 "c.txt".toList (.image 113 3) 113 3 0 (sblk "c.txt".toList).tail [3#8] [0#8] (.image _ _)
        ⟨by decide +kernel, 0x73#8, holds_slice 113 (by decide +kernel), .inl rfl⟩ (by decide)
        (sblk_string (ctx1 .checked file58).env _ rfl (by decide)) (.short (by decide) (by decide)) zero (holds_slice 82 (by decide +kernel))
    · intro name o kids hm; simp at hm
    · intro name o s kids hm; simp at hm
    · intro name o s kids hm; simp at hm

theorem propImg_stored {e : Env} {name : List Char} {o s : Nat} (hks : e.ks = fun _ => 0#8) (hn : ¬ NameEnds name ".txt".toList)
    (h : Holds e.buf o propImg58) : StoredImage e name o s (.image [(['n'], .node (.int 5) [])]) := by
  have one : IsWzInt 4 ((1 : Nat) : Int) [1#8] := .short (by decide) (by decide)
  have sub : ∀ k bs, (propImg58.drop k).take bs.length = bs → k + bs.length ≤ propImg58.length → Holds e.buf (o + k) bs := by
    intro k bs h1 h2
    have e1 : propImg58 = propImg58.take k ++ (bs ++ (propImg58.drop k).drop bs.length) := by
      rw [← h1, List.length_take, List.length_drop, Nat.min_eq_left (by omega), List.take_append_drop, List.take_append_drop]
    rw [e1] at h
    have := h.right.left
    rwa [List.length_take, Nat.min_eq_left (by omega)] at this
  refine .props _ (o + 18) hn ⟨(sblk "Property".toList).tail, sblk_string e _ hks (by decide), by decide, ?_, ?_⟩
  · exact sub 0 _ (by decide +kernel) (by decide +kernel)
  · refine ⟨[1#8], .short (by decide) (by decide), sub 12 _ (by decide +kernel) (by decide +kernel), ?_⟩
    exact .plain (o + 13) (o + 16) (o + 18) _ 3#8 (.int 5) [5#8] _ (sblk_at _ _ (o + 13) ['n'] hks (by decide) (sub 13 _ (by decide +kernel) (by decide +kernel)))
      (.int _ _ _ (.inl rfl) (.short (by decide) (by decide))) (sub 16 _ (by decide +kernel) (by decide +kernel)) (.nil _)

theorem arch58_stored : HoldsArchive wfile58.env items58 arch58 := by
  refine .image _ _ _ _ _ _ (by decide) (propImg_stored rfl (fun h => absurd (endsWith_iff.mpr h) (by decide)) (holds_slice 95 (by decide +kernel))) ?_
  refine .dir _ _ _ _ _ _ _ ?_ .nil
  exact .image _ _ _ _ _ _ (by decide) (.text _ ⟨['c'], rfl⟩ (by decide) rfl (holds_slice 113 (by decide +kernel))) .nil

/-- all hypotheses of `C58_pkg1` are met -/
theorem wfile58_reads : ∃ N, ∀ F : Fuel, N ≤ F.loop → N ≤ F.nest → ∀ n fuel, 2000 < n → N ≤ fuel →
    ReadsBack (arcContent F n fuel [] wfile58) wfile58.env arch58 := by
  have h83 : verHash 83 = 1876 := by simp [verHash]
  obtain ⟨N, hN⟩ := C58_pkg1 wfile58 83 items58 arch58 [] rfl (by decide) (by decide +kernel) (by decide +kernel)
    (by intro ev h; cases h; decide) rfl ⟨by omega, by omega, .inr (by rw [h83]; decide)⟩ (by rw [h83]; exact file58_holds) arch58_stored
  exact ⟨N, fun F h1 h2 n fuel h3 h4 => hN F h1 h2 n fuel h3 h4 fun u h hu => absurd hu (no_earlier u h)⟩

/-- the node of the file alone -/
def heap58 : NHeap := [some ⟨['r'], .file false (Encodable.encode Src58.file), none, []⟩]

/-- Something is looked up that is not there, the image `a` is read and forgotten; after that the number in it, the
directory, the text and nothing else are found. -/
example : ∃ (F : Fuel) (n fuel : Nat) (g : NHeap), heap58.parse (arcContent F n fuel [] wfile58) 0 = (.ok (), g) ∧
    (∃ j g' c o, (runArc (arcContent F n fuel [] wfile58) 0 g [.find "x/y".toList, .load "a".toList, .close "a".toList]).atPathParsed
        (arcContent F n fuel [] wfile58) 0 "a/n".toList = (.ok j, g') ∧ g'.cell j = some c ∧ c.name = ['n'] ∧
        c.kind = .other o ∧ Encodable.decode o = some (Leaf58.prop (.int 5))) ∧
    (∃ j g' c, (runArc (arcContent F n fuel [] wfile58) 0 g []).atPathParsed
        (arcContent F n fuel [] wfile58) 0 "b/c.txt/text.txt".toList = (.ok j, g') ∧ g'.cell j = some c ∧
        KindShows wfile58.env c.kind (.prop (.raw [0x73#8, 0x61#8, 0x79#8]))) ∧
    (g.atPathParsed (arcContent F n fuel [] wfile58) 0 "b/n".toList).1 = .error (.lib "NodeNotFound") := by
  obtain ⟨N, hN⟩ := wfile58_reads
  have R := hN ⟨N, N⟩ (Nat.le_refl _) (Nat.le_refl _) 2001 N (by omega) (Nat.le_refl _)
  obtain ⟨g, hg, H⟩ := R heap58 0 ⟨_, rfl, rfl, rfl⟩
  have hu : NoUol [(['n'], .node (.int 5) [])] := .cons _ _ _ _ (by simp) .nil .nil
  refine ⟨⟨N, N⟩, 2001, N, g, hg, ?_, ?_, ?_⟩
  · have := H [.find "x/y".toList, .load "a".toList, .close "a".toList] (by
      intro op ho
      simp only [List.mem_cons, List.not_mem_nil, or_false] at ho
      rcases ho with rfl | rfl | rfl
      · exact ⟨[['x'], ['y']], pieces_iff.2 (by decide), trivial⟩
      · exact ⟨[['a']], pieces_iff.2 (by decide), .inr hu⟩
      · exact ⟨[['a']], pieces_iff.2 (by decide), .inl rfl, fun h => by cases h⟩)
      "a/n".toList [['a'], ['n']] (pieces_iff.2 (by decide)) (.inr hu)
    obtain ⟨j, g', c, h1, h2, h3, h4⟩ := this
    cases hk : c.kind with
    | other o =>
      rw [hk] at h4
      cases h4 with
      | prop _ p _ h5 h6 => cases h6; exact ⟨j, g', c, o, h1, h2, by simpa using h3.symm, hk, h5⟩
    | _ => rw [hk] at h4; cases h4
  · obtain ⟨j, g', c, h1, h2, h3, h4⟩ := H [] (by simp) "b/c.txt/text.txt".toList [['b'], "c.txt".toList, "text.txt".toList]
      (pieces_iff.2 (by decide)) trivial
    exact ⟨j, g', c, h1, h2, h4⟩
  · exact H [] (by simp) "b/n".toList [['b'], ['n']] (pieces_iff.2 (by decide)) trivial

/-! ### a PKG2 file -/

/-- root at 4 with stored count -9: image `a`, script `b.lua`; data at 29 and 47 -/
def file58b : Bytes := [0#8, 0#8, 0#8, 0#8] ++ [0xF7#8] ++ [4#8, 0xFF#8, 0x61#8, 0#8, 18#8, 0#8] ++
  ([4#8] ++ (sblk "b.lua".toList).tail ++ [4#8, 0#8]) ++ [0xF7#8] ++ st2 21 29 ++ st2 25 47 ++ propImg58 ++ [1#8, 2#8, 0x41#8, 0x42#8]

def wfile58b : WFile :=
  { env := ⟨.checked, file58b, fun _ => 0#8, fun _ => 0#8⟩,
    hdr := { hdr2 with hash2 := BitVec.ofNat 64 (~~~word4 0x12345678#32 77#32).toNat }, keys2 := true, verified := true }

def items58b : List (List Char × DNode) := [(['a'], .image 29 18), ("b.lua".toList, .image 47 4)]

def arch58b : List (List Char × ATree) :=
  [(['a'], .image [(['n'], .node (.int 5) [])]), ("b.lua".toList, .script [0x41#8, 0x42#8])]

theorem file58b_holds : HoldsDir (Block2 (reading wfile58b ⟨row1201, 77#64⟩) .pkg2V3 77#64) 4 items58b := by
  have zero : IsWzInt 4 0 [0#8] := .short (by decide) (by decide)
  have m9 : IsWzInt 4 (-9) [0xF7#8] := .short (by decide) (by decide)
  refine .mk _ _ ⟨-9, [0xF7#8], [0xF7#8], 20, m9, holds_slice 4 (by decide +kernel), by simp [items58b], ?_, m9,
    holds_slice 20 (by decide +kernel), ⟨0xF7#8, [], rfl, by decide⟩, ?_⟩ ?_ ?_ ?_
  · refine .cons true 5 20 4#8 ['a'] (.image 29 18) 29 18 0 [0xFF#8, 0x61#8, 0#8] [18#8] [0#8] _ (.image _ _)
      ⟨by decide +kernel, 0x73#8, holds_slice 29 (by decide +kernel), .inl rfl⟩ (by decide) ?_ (.short (by decide) (by decide)) zero
      (holds_slice 5 (by decide +kernel)) ?_
    · exact ⟨by decide +kernel, by decide +kernel, by decide +kernel⟩
    · exact .cons false 11 20 4#8 "b.lua".toList (.image 47 4) 47 4 0 (sblk "b.lua".toList).tail [4#8] [0#8] _ (.image _ _)
        ⟨by decide +kernel, 0x01#8, holds_slice 47 (by decide +kernel), .inr (.inl rfl)⟩ (by decide)
        (sblk_string wfile58b.env _ rfl (by decide)) (.short (by decide) (by decide)) zero (holds_slice 11 (by decide +kernel)) (.nil _ _)
  · exact .cons 21 _ _ (holds_slice 21 (by decide +kernel)) (.cons 25 _ _ (holds_slice 25 (by decide +kernel)) (.nil _))
  · intro name o kids hm; simp [items58b] at hm
  · intro name o s kids hm; simp [items58b] at hm
  · intro name o s kids hm; simp [items58b] at hm

/-- all hypotheses of `C58_pkg2` are met, with the profile in the cache -/
theorem wfile58b_reads : ∃ (F : Fuel) (n fuel : Nat), F.nest ≠ 0 ∧ ReadsBack (arcContent F n fuel [⟨row1201, 77#64⟩] wfile58b) wfile58b.env arch58b := by
  have ha : HoldsArchive (reading wfile58b ⟨row1201, 77#64⟩).env items58b arch58b := by
    refine .image _ _ _ _ _ _ (by decide) (propImg_stored rfl (fun h => absurd (endsWith_iff.mpr h) (by decide)) (holds_slice 29 (by decide +kernel))) ?_
    exact .image _ _ _ _ _ _ (by decide) (.script [2#8] _ ⟨['b'], rfl⟩ (.short (by decide) (by decide)) (holds_slice 47 (by decide +kernel))) .nil
  obtain ⟨N, hN⟩ := C58_pkg2 wfile58b ⟨row1201, 77#64⟩ items58b arch58b rfl (by decide) (by decide) (by decide +kernel)
    (by decide +kernel) (by decide) file58b_holds ha
  obtain ⟨cands, ⟨lists, h1, h2⟩, h3⟩ := hN ⟨N + 1, N + 1⟩ (Nat.le_succ _) (Nat.le_succ _) 0 N (Nat.le_refl _) [⟨row1201, 77#64⟩] (by
    intro c hc
    rw [List.mem_singleton] at hc
    subst hc
    exact .inr (by decide))
  have hfit : Fits wfile58b.hdr ⟨row1201, 77#64⟩ := by
    refine ⟨by decide, ?_⟩
    show Equation .v4 wfile58b.hdr.hash1 wfile58b.hdr.hash2 77#64
    unfold Equation Solves4 lo32 wfile58b hdr2 word4 mixed mixKmst1199
    decide +kernel
  rw [List.filter_cons, if_pos (by simpa using hfit), List.filter_nil, List.singleton_append] at h2
  exact ⟨⟨N + 1, N + 1⟩, 0, N, by simp, h3 [] _ h2 (by simp)⟩

/-! ### a 64-bit PKG2 file -/

/-- the 64-bit file of C19 with a real image -/
def wfile58w : WFile := { wfile64 with env := { wfile64.env with buf := file64.take 24 ++ propImg58 } }

theorem wfile58w_holds : HoldsDir (Block64 (reading wfile58w ⟨row1202, 77#64⟩) 77#64) 4 [(['a'], .image 24 1)] := by
  have one : IsWzInt 4 ((1 : Nat) : Int) [1#8] := .short (by decide) (by decide)
  have zero : IsWzInt 4 0 [0#8] := .short (by decide) (by decide)
  have hc : IsWzInt 8 (storedCount 0x12345678#64 77#64 1 0xBEEF#16).toInt count64 := by
    have := IsWzInt.long (w := 8) (v := (storedCount 0x12345678#64 77#64 1 0xBEEF#16).toInt)
      (by decide +kernel) (by decide +kernel)
    have e : unsign (8 * 8) (storedCount 0x12345678#64 77#64 1 0xBEEF#16).toInt =
      (storedCount 0x12345678#64 77#64 1 0xBEEF#16).toNat := by decide +kernel
    rw [e] at this
    exact this
  refine .mk _ _ ⟨0xBEEF#16, count64, 20, by decide, hc, holds_slice 4 (by decide +kernel), ?_, ?_⟩ ?_ ?_ ?_
  · refine .cons true 13 20 4#8 ['a'] (.image 24 1) 24 1 0 [0xFF#8, 0xFF#8, 0x61#8, 0#8] [1#8] [0#8] _ (.image _ _)
      ⟨by decide +kernel, 0x73#8, holds_slice 24 (by decide +kernel), .inl rfl⟩ (by decide) ?_ one zero
      (holds_slice 13 (by decide +kernel)) (.nil _ _)
    exact ⟨by decide +kernel, by decide +kernel, by decide +kernel⟩
  · exact .cons 20 _ _ (holds_slice 20 (by decide +kernel)) (.nil _)
  · intro name o kids hm; simp at hm
  · intro name o s kids hm; simp at hm
  · intro name o s kids hm; simp at hm

/-- all hypotheses of `C58_pkg2_64_partial` are met -/
example : ∃ (F : Fuel) (n fuel : Nat), ReadsBack (arcContent F n fuel [] wfile58w) wfile58w.env
    [(['a'], .image [(['n'], .node (.int 5) [])])] := by
  obtain ⟨N, hN⟩ := C58_pkg2_64_partial wfile58w 77#64 _ _ rfl (by decide) (by decide) (by decide +kernel) (by decide +kernel)
    (by unfold Solves6; decide +kernel) (by decide) wfile58w_holds
    (.image _ _ _ _ _ _ (by decide) (propImg_stored rfl (fun h => absurd (endsWith_iff.mpr h) (by decide)) (holds_slice 24 (by decide +kernel))) .nil)
  exact ⟨⟨N, N⟩, 0, N, hN ⟨N, N⟩ (Nat.le_refl _) (Nat.le_refl _) 0 N (Nat.le_refl _) [] (by simp)⟩

/-! ### an image by itself -/

/-- the node of an image alone -/
def heap58i : NHeap := [some ⟨"a.img".toList, .image false (Encodable.encode (Src58.image "a.img".toList 0 18)), none, []⟩]

/-- all hypotheses of `C58_image` are met -/
example : ∃ fuel g, heap58i.parse
      (imgContent ⟨.checked, propImg58, fun _ => 0#8, fun _ => 0#8⟩ fuel) 0 = (.ok (), g) ∧
    (∃ j g' c, g.atPathParsed (imgContent ⟨.checked, propImg58, fun _ => 0#8, fun _ => 0#8⟩ fuel) 0 ['n'] = (.ok j, g') ∧
      g'.cell j = some c ∧ c.name = ['n'] ∧ KindShows ⟨.checked, propImg58, fun _ => 0#8, fun _ => 0#8⟩ c.kind (.prop (.int 5))) := by
  obtain ⟨N, hN⟩ := C58_image ⟨.checked, propImg58, fun _ => 0#8, fun _ => 0#8⟩ "a.img".toList 0 18 _ (by decide +kernel) (by decide)
    (propImg_stored rfl (fun h => absurd (endsWith_iff.mpr h) (by decide)) (holds_slice 0 (by decide +kernel)))
    (by intro ps h; cases h; exact .cons _ _ _ _ (by simp) .nil .nil)
  obtain ⟨g, hg, H⟩ := hN N (Nat.le_refl _) heap58i 0 _ rfl rfl rfl
  refine ⟨N, g, hg, ?_⟩
  obtain ⟨j, g', c, h1, h2, h3, h4⟩ := H ['n'] [['n']] (pieces_iff.2 (by decide))
  exact ⟨j, g', c, h1, h2, by simpa using h3.symm, h4⟩

end Wz.Props
