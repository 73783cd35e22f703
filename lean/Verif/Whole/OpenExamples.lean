import Verif.Whole.OpenProps
import Verif.Whole.Examples

/-!
# Concrete files for C66
-/

set_option autoImplicit false

namespace Wz.Props

open Wz Wz.Spec

/-- the archive of C58 with a real header: its contents begin at 60, with the checksum 172 of version 83 -/
def file66 : Bytes :=
  asciiBytes "PKG1" ++ toLE 8 56 ++ toLE 4 60 ++ List.replicate 44 0#8 ++ toLE 2 172 ++ file58.drop 62

def ctx66 : DirCtx :=
  ⟨⟨.checked, file66, fun _ => 0#8, fun _ => 0#8⟩, pkg1Fields 56 60 (some 172), false⟩

theorem file66_holds : HoldsDir (Block1 ctx66 1876#64) 62 items58 := by
  have one : IsWzInt 4 ((1 : Nat) : Int) [1#8] := .short (by decide) (by decide)
  have zero : IsWzInt 4 0 [0#8] := .short (by decide) (by decide)
  refine .mk _ _ ⟨2, [2#8], 81, by decide, .short (by decide) (by decide), holds_slice 62 (by decide +kernel), ?_⟩ ?_ ?_ ?_
  · refine .cons 1 63 72 81 _ _ ?_ ?_
    · exact .direct 63 4#8 ['a'] (.image 95 18) 95 18 0 [0xFF#8, 0xCB#8] [18#8] [0#8] (.image _ _)
        ⟨by decide +kernel, 0x73#8, holds_slice 95 (by decide +kernel), .inl rfl⟩ (by decide)
        (ascii1 'a' _ (by decide) (by decide)) (.short (by decide) (by decide)) zero (holds_slice 63 (by decide +kernel))
    · refine .cons 0 72 81 81 _ _ ?_ (.nil _)
      exact .direct 72 3#8 ['b'] (.dir 81 14 _) 81 14 0 [0xFF#8, 0xC8#8] [14#8] [0#8] (.dir _ _ _)
        ⟨by decide +kernel, 1, [1#8], by decide, holds_slice 81 (by decide +kernel), .short (by decide) (by decide)⟩ (by decide)
        (ascii1 'b' _ (by decide) (by decide)) (.short (by decide) (by decide)) zero (holds_slice 72 (by decide +kernel))
  · intro name o kids hm; simp [items58] at hm
  · intro name o s kids hm
    simp [items58] at hm
    obtain ⟨_, _, _, rfl⟩ := hm
    simp
  · intro name o s kids hm _
    simp [items58] at hm
    obtain ⟨_, rfl, rfl, rfl⟩ := hm
    refine .mk _ _ ⟨1, [1#8], 95, by decide, one, holds_slice 81 (by decide +kernel), ?_⟩ ?_ ?_ ?_
    · refine .cons 0 82 95 95 _ _ ?_ (.nil _)
      exact .direct 82 4#8 "c.txt".toList (.image 113 3) 113 3 0 (sblk "c.txt".toList).tail [3#8] [0#8] (.image _ _)
        ⟨by decide +kernel, 0x73#8, holds_slice 113 (by decide +kernel), .inl rfl⟩ (by decide)
        (sblk_string ctx66.env _ rfl (by decide)) (.short (by decide) (by decide)) zero (holds_slice 82 (by decide +kernel))
    · intro name o kids hm; simp at hm
    · intro name o s kids hm; simp at hm
    · intro name o s kids hm; simp at hm

theorem file66_head : Pkg1Head file66 56 60 (some 172) :=
  ⟨⟨holds_slice 0 (by decide +kernel), by decide, by decide⟩, holds_slice 60 (by decide +kernel), by decide, by decide, fun h => absurd h (by decide)⟩

theorem arch66_stored : HoldsArchive ctx66.env items58 arch58 := by
  refine .image _ _ _ _ _ _ (by decide) (propImg_stored rfl (fun h => absurd (endsWith_iff.mpr h) (by decide)) (holds_slice 95 (by decide +kernel))) ?_
  refine .dir _ _ _ _ _ _ _ ?_ .nil
  exact .image _ _ _ _ _ _ (by decide) (.text _ ⟨['c'], rfl⟩ (by decide) rfl (holds_slice 113 (by decide +kernel))) .nil

theorem first66 : FirstEntry file66 62 65 1 .narrow :=
  ⟨2, 4#8, ⟨[2#8], [0xFF#8], .short (by decide) (by decide), .narrow (.short (by decide) (by decide)), holds_slice 62 (by decide +kernel), rfl⟩,
    .inr rfl, by decide, by decide⟩

theorem name66 (st : Bytes → Nat → Byte) : NameAt file66 65 1 .narrow (plainKey st .bms) :=
  show NameAt file66 65 1 .narrow (fun _ => 0#8) from
    ⟨['a'], by simp, rfl, holds_slice (buf := file66) (bs := nameBytes (fun _ => 0#8) ['a'] .narrow) 65 (by decide +kernel)⟩

theorem stem66 : StemOf "Base.wz".toList "Base".toList := .dotted "Base".toList ['w', 'z'] (by decide) (by decide)

/-- all hypotheses of `C66_wz_told` are met -/
example (st : Bytes → Nat → Byte) : ∃ (F : Fuel) (k fuel : Nat),
    OpensAs (openWz .checked st (some "Base.wz".toList) file66 (some .bms) (some 83) none none) "Base".toList none (arcContent F k fuel [])
      ctx66.env arch58 := by
  have h83 : verHash 83 = 1876 := by simp [verHash]
  obtain ⟨N, hN⟩ := C66_wz_told .checked st "Base.wz".toList "Base".toList file66 56 60 (some 172) .bms 83 65 1 .narrow items58 arch58 none []
    stem66 (by decide) (by decide +kernel) file66_head first66 (name66 st) (by decide) (.inr (by rw [h83]; decide))
    (by rw [h83]; exact file66_holds) arch66_stored
  exact ⟨⟨N, N⟩, 0, N, hN ⟨N, N⟩ (Nat.le_refl _) (Nat.le_refl _) 0 N (Nat.le_refl _)⟩

/-- all hypotheses of `C66_wz_found` are met: the archive is opened with nothing but its path -/
theorem opens66 (st : Bytes → Nat → Byte) : ∃ (F : Fuel) (k fuel : Nat),
    OpensAs (openWzPlain .checked st (some "Base.wz".toList) file66 none) "Base".toList none (arcContent F k fuel [])
      ctx66.env arch58 := by
  have h83 : verHash 83 = 1876 := by simp [verHash]
  obtain ⟨N, hN⟩ := C66_wz_found .checked st "Base.wz".toList "Base".toList file66 56 60 (some 172) .bms 83 65 1 .narrow items58 arch58 none []
    stem66 (by decide) (by decide +kernel) file66_head first66 (.hit _ _ (name66 st)) ⟨by omega, by omega, .inr (by rw [h83]; decide)⟩
    (by rw [h83]; exact file66_holds) arch66_stored
  exact ⟨⟨N, N⟩, 2001, N, hN ⟨N, N⟩ (Nat.le_refl _) (Nat.le_refl _) 2001 N (by decide) (Nat.le_refl _) fun u h hu => absurd hu (no_earlier u h)⟩

/-- so the number in it is found: the node made from the path, the only node there is, is parsed and asked for `a/n` -/
example (st : Bytes → Nat → Byte) : ∃ (F : Fuel) (k fuel : Nat) (c : NCell) (f : WFile),
    openWzPlain .checked st (some "Base.wz".toList) file66 none = .ok (c, f) ∧ c.name = "Base".toList ∧
    ∃ g j g' d, NHeap.parse [some c] (arcContent F k fuel [] f) 0 = (.ok (), g) ∧
      g.atPathParsed (arcContent F k fuel [] f) 0 "a/n".toList = (.ok j, g') ∧ g'.cell j = some d ∧ d.name = ['n'] ∧
      KindShows ctx66.env d.kind (.prop (.int 5)) := by
  obtain ⟨F, k, fuel, c, f, h1, h2, -, h3⟩ := opens66 st
  obtain ⟨g, h4, h5⟩ := h3 [some c] 0 rfl
  obtain ⟨j, g', d, h6, h7, h8, h9⟩ := h5 [] (by simp) "a/n".toList [['a'], ['n']] (pieces_iff.2 (by decide))
    (.inr (.cons _ _ _ _ (by simp) .nil .nil))
  exact ⟨F, k, fuel, c, f, h1, h2, g, j, g', d, h4, h6, h7, by simpa using h8.symm, h9⟩

/-- a first entry by which the key is recognised -/
example : Block1 ctx66 1876#64 62 items58 := by
  obtain ⟨_, _, h, _, _, _⟩ := file66_holds
  exact h

/-- the version of EMS is not right for the name `a` if its key changes the top bit of the first character -/
example (st : Bytes → Nat → Byte) (h : st [0xB9#8, 0x7D#8, 0x63#8, 0xE9#8] 0 = 0x80#8) :
    openWz .checked st (some "Base.wz".toList) file66 (some .ems) none none none = openWzPlain .checked st (some "Base.wz".toList) file66 none := by
  refine C66_wz_wrong .checked st _ file66 56 60 (some 172) .ems none none 65 1 .narrow (by decide +kernel) file66_head first66 ?_
  intro hn
  have := (narrow_of_narrow (buf := file66) (p := 65) (ks := fun _ => 0#8) (ks' := plainKey st .ems) (s := ['a']) (by simp)
    (holds_slice (buf := file66) (bs := [0xCB#8]) 65 (by decide +kernel))).1 hn 0 (by decide)
  rw [show plainKey st .ems 0 = 0x80#8 from h] at this
  exact absurd this (by decide)

/-- all hypotheses of `C66_img_told` are met -/
example (st : Bytes → Nat → Byte) : ∃ fuel,
    OpensImage (openImg .wrap st (some "a.img".toList) propImg58 (some [0#8, 0#8, 0#8, 0#8]) none) "a.img".toList none fuel [(['n'], .node (.int 5) [])] := by
  have hh : Holds propImg58 0 propImg58 := holds_slice 0 (by decide +kernel)
  have hs := propImg_stored (e := ⟨.wrap, propImg58, streamOfIv st [0#8, 0#8, 0#8, 0#8], fun _ => 0#8⟩) (name := "a.img".toList) (o := 0) (s := 18)
    rfl (fun h => absurd (endsWith_iff.mpr h) (by decide)) hh
  cases hs with
  | props kids q hn hp =>
    obtain ⟨N, hN⟩ := C66_img_told .wrap st "a.img".toList propImg58 [0#8, 0#8, 0#8, 0#8] none _ q (by decide +kernel) hn hp (.cons _ _ _ _ (by simp) .nil .nil)
    exact ⟨N, hN N (Nat.le_refl _)⟩

/-! ### a PKG2 file -/

def st66 (pos real : Nat) : Bytes := toLE 4 (storedOffset .pkg2V3 pos 16 77 0x12345678 real)

/-- a header of 16 bytes, two numbers of which the second fits the hash 77, the root at 24 with stored count -9: image `a`, script `b.lua` -/
def file66b : Bytes :=
  asciiBytes "PKG2" ++ toLE 8 54 ++ toLE 4 16 ++ (toLE 4 0x12345678 ++ toLE 4 (~~~word4 0x12345678#32 77#32).toNat) ++
    [0xF7#8] ++ [4#8, 0xFF#8, 0xCB#8, 18#8, 0#8] ++ ([4#8] ++ (sblk "b.lua".toList).tail ++ [4#8, 0#8]) ++ [0xF7#8] ++ st66 40 48 ++ st66 44 66 ++
    propImg58 ++ [1#8, 2#8, 0x41#8, 0x42#8]

def hdr66b : Header :=
  ⟨.v2, 54, 16, 16 + 8, none, BitVec.ofNat 64 0x12345678, BitVec.ofNat 64 (~~~word4 0x12345678#32 77#32).toNat, ⟨0#8⟩⟩

def ctx66b : DirCtx := ⟨⟨.checked, file66b, fun _ => 0#8, fun _ => 0#8⟩, hdr66b, false⟩

def items66b : List (List Char × DNode) := [(['a'], .image 48 18), ("b.lua".toList, .image 66 4)]

theorem head66b : Pkg2Head file66b hdr66b :=
  .plain 54 16 0x12345678 (~~~word4 0x12345678#32 77#32).toNat ⟨holds_slice 0 (by decide +kernel), by decide, by decide⟩
    (holds_slice 16 (by decide +kernel)) (by decide) (BitVec.isLt _)

theorem file66b_holds : HoldsDir (Block2 ctx66b .pkg2V3 77#64) 24 items66b := by
  have zero : IsWzInt 4 0 [0#8] := .short (by decide) (by decide)
  have m9 : IsWzInt 4 (-9) [0xF7#8] := .short (by decide) (by decide)
  refine .mk _ _ ⟨-9, [0xF7#8], [0xF7#8], 39, m9, holds_slice 24 (by decide +kernel), by simp [items66b], ?_, m9,
    holds_slice 39 (by decide +kernel), ⟨0xF7#8, [], rfl, by decide⟩, ?_⟩ ?_ ?_ ?_
  · refine .cons true 25 39 4#8 ['a'] (.image 48 18) 48 18 0 [0xFF#8, 0xCB#8] [18#8] [0#8] _ (.image _ _)
      ⟨by decide +kernel, 0x73#8, holds_slice 48 (by decide +kernel), .inl rfl⟩ (by decide) ?_ (.short (by decide) (by decide)) zero
      (holds_slice 25 (by decide +kernel)) ?_
    · exact ascii1 'a' _ (by decide) (by decide)
    · exact .cons false 30 39 4#8 "b.lua".toList (.image 66 4) 66 4 0 (sblk "b.lua".toList).tail [4#8] [0#8] _ (.image _ _)
        ⟨by decide +kernel, 0x01#8, holds_slice 66 (by decide +kernel), .inr (.inl rfl)⟩ (by decide)
        (sblk_string ctx66b.env _ rfl (by decide)) (.short (by decide) (by decide)) zero (holds_slice 30 (by decide +kernel)) (.nil _ _)
  · exact .cons 40 _ _ (holds_slice 40 (by decide +kernel)) (.cons 44 _ _ (holds_slice 44 (by decide +kernel)) (.nil _))
  · intro name o kids hm; simp [items66b] at hm
  · intro name o s kids hm; simp [items66b] at hm
  · intro name o s kids hm; simp [items66b] at hm

theorem name66b (st : Bytes → Nat → Byte) : ReadsAs st file66b 27 1 .narrow .bms :=
  show NameAt file66b 27 1 .narrow (fun _ => 0#8) from
    ⟨['a'], by simp, rfl, holds_slice (buf := file66b) (bs := nameBytes (fun _ => 0#8) ['a'] .narrow) 27 (by decide +kernel)⟩

/-- all hypotheses of `C66_pkg2_found` are met, with the profile in the cache -/
example (st : Bytes → Nat → Byte) : ∃ (F : Fuel) (k fuel : Nat),
    OpensAs (openWzPlain .checked st (some "Base.wz".toList) file66b none) "Base".toList none (arcContent F k fuel [⟨row1201, 77#64⟩])
      ctx66b.env arch58b := by
  have ha : HoldsArchive ctx66b.env items66b arch58b := by
    refine .image _ _ _ _ _ _ (by decide) (propImg_stored rfl (fun h => absurd (endsWith_iff.mpr h) (by decide)) (holds_slice 48 (by decide +kernel))) ?_
    exact .image _ _ _ _ _ _ (by decide) (.script [2#8] _ ⟨['b'], rfl⟩ (.short (by decide) (by decide)) (holds_slice 66 (by decide +kernel))) .nil
  obtain ⟨N, hN⟩ := C66_pkg2_found .checked st "Base.wz".toList "Base".toList file66b hdr66b (some .bms) (-9) 4#8 1 27 ⟨row1201, 77#64⟩ items66b arch58b
    none stem66 (by decide) (by decide +kernel) head66b (by decide)
    ⟨[0xF7#8], .short (by decide) (by decide), by decide, by decide, holds_slice 24 (by decide +kernel), rfl⟩ (.inr rfl) (.hit _ _ (name66b st)) (by decide)
    file66b_holds ha
  obtain ⟨cands, ⟨lists, h1, h2⟩, h3⟩ := hN ⟨N, N⟩ (Nat.le_refl _) (Nat.le_refl _) 0 N (Nat.le_refl _) [⟨row1201, 77#64⟩] (by
    intro c hc
    rw [List.mem_singleton] at hc
    subst hc
    exact .inr (by decide))
  have hfit : Fits hdr66b ⟨row1201, 77#64⟩ := by
    refine ⟨by decide, ?_⟩
    show Equation .v4 hdr66b.hash1 hdr66b.hash2 77#64
    unfold Equation Solves4 lo32 hdr66b word4 mixed mixKmst1199
    decide +kernel
  rw [List.filter_cons, if_pos (by simpa using hfit), List.filter_nil, List.singleton_append] at h2
  exact ⟨⟨N, N⟩, 0, N, h3 [] _ h2 (by simp)⟩

/-! ### a 64-bit PKG2 file -/

def key66 : Nat → Byte := dirKey (kmst1202Key 0x12345678#64 77#64)

/-- a scrambled header of 150 bytes, the count of the entries, the image `a`, its offset, its data -/
def file66w : Bytes :=
  scatter (List.replicate 150 0#8) (pos64hash1 ++ pos64hash2 ++ pos64size)
      (toLE 8 0x12345678 ++ toLE 8 (0x12345678#64 ^^^ 77#64 ^^^ 0xABCDEF0123456789#64).toNat ++ toLE 4 38) ++
    (count64 ++ [4#8, 0xFF#8, 0xFF#8, 0x61#8 ^^^ key66 0, 0#8 ^^^ key66 1, 18#8, 0#8] ++
      toLE 4 (storedOffset .pkg2_64V1 166 150 77 0x12345678 170) ++ propImg58)

def hdr66w : Header :=
  ⟨.v2, 38, 150, 150, none, 0x12345678#64, 0x12345678#64 ^^^ 77#64 ^^^ 0xABCDEF0123456789#64, ⟨4#8⟩⟩

def ctx66w : DirCtx := ⟨⟨.checked, file66w, fun _ => 0#8, key66⟩, hdr66w, true⟩

theorem length66w : file66w.length = 188 := by decide +kernel

theorem head66w : Pkg2Head file66w hdr66w := by
  have h := Pkg2Head.random64 (buf := file66w) 0x12345678#64 (0x12345678#64 ^^^ 77#64 ^^^ 0xABCDEF0123456789#64) (by decide +kernel) (by decide +kernel)
    (by decide +kernel) (by decide +kernel) (by unfold Scattered; decide +kernel) (by unfold Scattered; decide +kernel)
    (by unfold Scattered; decide +kernel)
  rw [length66w] at h
  exact h

theorem file66w_holds : HoldsDir (Block64 ctx66w 77#64) 150 [(['a'], .image 170 18)] := by
  have zero : IsWzInt 4 0 [0#8] := .short (by decide) (by decide)
  have hc : IsWzInt 8 (storedCount 0x12345678#64 77#64 1 0xBEEF#16).toInt count64 := by
    have := IsWzInt.long (w := 8) (v := (storedCount 0x12345678#64 77#64 1 0xBEEF#16).toInt)
      (by decide +kernel) (by decide +kernel)
    have e : unsign (8 * 8) (storedCount 0x12345678#64 77#64 1 0xBEEF#16).toInt =
      (storedCount 0x12345678#64 77#64 1 0xBEEF#16).toNat := by decide +kernel
    rw [e] at this
    exact this
  refine .mk _ _ ⟨0xBEEF#16, count64, 166, by decide, hc, holds_slice 150 (by decide +kernel), ?_, ?_⟩ ?_ ?_ ?_
  · refine .cons true 159 166 4#8 ['a'] (.image 170 18) 170 18 0 [0xFF#8, 0xFF#8, 0x61#8 ^^^ key66 0, 0#8 ^^^ key66 1] [18#8] [0#8] _ (.image _ _)
      ⟨by decide +kernel, 0x73#8, holds_slice 170 (by decide +kernel), .inl rfl⟩ (by decide) ?_ (.short (by decide) (by decide)) zero
      (holds_slice 159 (by decide +kernel)) (.nil _ _)
    exact ⟨by decide +kernel, by decide +kernel, by decide +kernel⟩
  · exact .cons 166 _ _ (holds_slice 166 (by decide +kernel)) (.nil _)
  · intro name o kids hm; simp at hm
  · intro name o s kids hm; simp at hm
  · intro name o s kids hm; simp at hm

/-- all hypotheses of `C66_pkg2_64_partial` are met -/
example : ∃ (F : Fuel) (k fuel : Nat),
    OpensAs (openWzPlain .checked (fun _ _ => 0#8) (some "Base.wz".toList) file66w none) "Base".toList none (arcContent F k fuel [])
      ctx66w.env [(['a'], .image [(['n'], .node (.int 5) [])])] := by
  have ha : HoldsArchive ctx66w.env [(['a'], .image 170 18)] [(['a'], .image [(['n'], .node (.int 5) [])])] :=
    .image _ _ _ _ _ _ (by decide) (propImg_stored rfl (fun h => absurd (endsWith_iff.mpr h) (by decide)) (holds_slice 170 (by decide +kernel))) .nil
  obtain ⟨N, hN⟩ := C66_pkg2_64_partial .checked (fun _ _ => 0#8) "Base.wz".toList "Base".toList file66w hdr66w none 77#64 _ _ none stem66
    (by decide) (by decide +kernel) head66w rfl (by decide +kernel) (by unfold Solves6; decide +kernel) (by decide) file66w_holds ha
  exact ⟨⟨N, N⟩, 0, N, hN ⟨N, N⟩ (Nat.le_refl _) (Nat.le_refl _) 0 N (Nat.le_refl _) [] (by simp)⟩

/-! ### an MS archive, and an image by its path alone -/

/-- all hypotheses of `C66_ms` are met, by the archive of C65 -/
example : ∃ M : Spec.Snow.Maps, ∀ C : ChaCha, ∃ c f, openMs .wrap C (some ['h', 'h', 'h']) (msBytes M) none = .ok (c, f) ∧ c.name = ['h', 'h', 'h'] := by
  obtain ⟨M, hM⟩ := msBytes_reads
  refine ⟨M, fun C => ?_⟩
  obtain ⟨f, h1, fuel, hR⟩ := hM C noKeys
  obtain ⟨c, h2, h3, _⟩ := C66_ms .wrap C ['h', 'h', 'h'] ['h', 'h', 'h'] _ f none _ _ _ (.plain _ (by decide)) (by decide) h1 hR
  exact ⟨c, f, h2, h3⟩

/-- all hypotheses of `C66_img_found` are met -/
example : ∃ fuel,
    OpensImage (openImgVersion .checked (fun _ _ => 0#8) (some "a.img".toList) propImg58 none none) "a.img".toList none fuel
      [(['n'], .node (.int 5) [])] := by
  have hh : Holds propImg58 0 propImg58 := holds_slice 0 (by decide +kernel)
  have hs := propImg_stored (e := ⟨.checked, propImg58, streamOfIv (fun _ _ => 0#8) [0x4D#8, 0x23#8, 0xC7#8, 0x2B#8], fun _ => 0#8⟩) (name := "a.img".toList) (o := 0) (s := 18)
    (by rfl) (fun h => absurd (endsWith_iff.mpr h) (by decide)) hh
  cases hs with
  | props kids q hn hp =>
    obtain ⟨N, hN⟩ := C66_img_found .checked (fun _ _ => 0#8) "a.img".toList propImg58 [0x4D#8, 0x23#8, 0xC7#8, 0x2B#8] none _ q (by decide +kernel) hn
      ⟨[], _, rfl, (image_of hp).1, by simp⟩ hp (.cons _ _ _ _ (by simp) .nil .nil)
    exact ⟨N, hN N (Nat.le_refl _)⟩

end Wz.Props
