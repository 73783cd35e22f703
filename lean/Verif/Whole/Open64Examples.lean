import Verif.Whole.Open64Props
import Verif.Whole.OpenExamples
import Verif.Reader.ShownLemmas

/-!
# Concrete 64-bit PKG2 files for C66
-/

set_option autoImplicit false

namespace Wz.Props

open Wz Wz.Spec

/-! ### a file for which no key is found -/

/-- the sixth byte of the count stands for a name of 60 characters, which the file is too short for -/
theorem file66w_passes : ¬PassesFor1198 file66w 0xDD#8 0xC4#8 157 := by
  rintro ⟨-, n, h1, h2, h3, s, hs, hl, hh⟩
  have hn : n = 60 := by
    have : (0xC4#8).toNat = (byteOf (-(n : Int))).toNat := by rw [← h3]
    unfold byteOf at this
    rw [BitVec.toNat_ofInt] at this
    have e : (0xC4#8 : Byte).toNat = 196 := rfl
    omega
  have := hh.le
  rw [length66w] at this
  have hlen : n ≤ (nameBytes key1198 s .dir).length := by
    have h4 := utf16EncStr_len_ascii hs
    have h5 := length_cipherPkg2' key1198 (utf16EncStr s)
    show n ≤ (cipherPkg2 key1198 (utf16EncStr s)).length
    omega
  omega

/-- all hypotheses of `C66_pkg2_64` are met -/
example : ∃ (F : Fuel) (k fuel : Nat),
    OpensAs (openWzPlain .checked (fun _ _ => 0#8) (some "Base.wz".toList) file66w none) "Base".toList none (arcContent F k fuel [])
      ctx66w.env [(['a'], .image [(['n'], .node (.int 5) [])])] := by
  have ha : HoldsArchive ctx66w.env [(['a'], .image 170 18)] [(['a'], .image [(['n'], .node (.int 5) [])])] :=
    .image _ _ _ _ _ _ (by decide) (propImg_stored rfl (fun h => absurd (endsWith_iff.mpr h) (by decide)) (holds_slice 170 (by decide +kernel))) .nil
  obtain ⟨N, hN⟩ := C66_pkg2_64 .checked (fun _ _ => 0#8) "Base.wz".toList "Base".toList file66w hdr66w 0x36#8 0x80#8 0xF1#8 0x10#8 0xDD#8 0xC4#8 0x0E#8
    0x55#8 4#8 77#64 _ _ none stem66 (by decide) (by decide +kernel) head66w rfl (holds_slice 150 (by decide +kernel))
    (by unfold PlainType; decide) (.inl (by decide)) file66w_passes (by unfold Solves6; decide +kernel) (by decide) file66w_holds ha
  exact ⟨⟨N, N⟩, 0, N, hN ⟨N, N⟩ (Nat.le_refl _) (Nat.le_refl _) 0 N (Nat.le_refl _) [] (by simp)⟩

/-! ### files that are not read -/

/-- the file above with another first word `a` in its header, and the count that goes with it -/
def file66v (a : BitVec 64) : Bytes :=
  scatter (List.replicate 150 0#8) (pos64hash1 ++ pos64hash2 ++ pos64size)
      (toLE 8 a.toNat ++ toLE 8 (a ^^^ 77#64 ^^^ 0xABCDEF0123456789#64).toNat ++ toLE 4 38) ++
    (0x80#8 :: toLE 8 (storedCount a 77#64 1 0xBEEF#16).toNat ++ [4#8, 0xFF#8, 0xFF#8, 0x61#8 ^^^ key66 0, 0#8 ^^^ key66 1, 18#8, 0#8] ++
      toLE 4 (storedOffset .pkg2_64V1 166 150 77 0x12345678 170) ++ propImg58)

def hdr66v (a : BitVec 64) : Header := ⟨.v2, 38, 150, 150, none, a, a ^^^ 77#64 ^^^ 0xABCDEF0123456789#64, ⟨4#8⟩⟩

/-- with this word the bytes 16, 255, 142, 190 of the count pass for an entry with a name of one character -/
def word66x : BitVec 64 := 0xEB803BCD12345678#64

theorem length66x : (file66v word66x).length = 188 := by decide +kernel

theorem head66x : Pkg2Head (file66v word66x) (hdr66v word66x) := by
  have h := Pkg2Head.random64 (buf := file66v word66x) word66x (word66x ^^^ 77#64 ^^^ 0xABCDEF0123456789#64) (by decide +kernel) (by decide +kernel)
    (by decide +kernel) (by decide +kernel) (by unfold Scattered; decide +kernel) (by unfold Scattered; decide +kernel)
    (by unfold Scattered; decide +kernel)
  rw [length66x] at h
  exact h

theorem count66x : IsWzInt 8 (storedCount word66x 77#64 1 0xBEEF#16).toInt (0x80#8 :: toLE 8 (storedCount word66x 77#64 1 0xBEEF#16).toNat) := by
  have := IsWzInt.long (w := 8) (v := (storedCount word66x 77#64 1 0xBEEF#16).toInt) (by decide +kernel) (by decide +kernel)
  have e : unsign (8 * 8) (storedCount word66x 77#64 1 0xBEEF#16).toInt = (storedCount word66x 77#64 1 0xBEEF#16).toNat := by decide +kernel
  rw [e] at this
  exact this

theorem file66x_holds {ks2 : Nat → Byte} {c : Char}
    (hn : IsName2 ⟨⟨.checked, file66v word66x, fun _ => 0#8, ks2⟩, hdr66v word66x, true⟩ true [c] [0xFF#8, 0xFF#8, 0x61#8 ^^^ key66 0, 0#8 ^^^ key66 1]) :
    HoldsDir (Block64 ⟨⟨.checked, file66v word66x, fun _ => 0#8, ks2⟩, hdr66v word66x, true⟩ 77#64) 150 [([c], .image 170 18)] := by
  have zero : IsWzInt 4 0 [0#8] := .short (by decide) (by decide)
  have h1 : Holds (file66v word66x) 150 (0x80#8 :: toLE 8 (storedCount word66x 77#64 1 0xBEEF#16).toNat) := holds_slice 150 (by decide +kernel)
  have h2 : Holds (file66v word66x) 159 ([4#8] ++ [0xFF#8, 0xFF#8, 0x61#8 ^^^ key66 0, 0#8 ^^^ key66 1] ++ [18#8] ++ [0#8]) :=
    holds_slice 159 (by decide +kernel)
  have h3 : Holds (file66v word66x) 166 (offsetBytes ⟨⟨.checked, file66v word66x, fun _ => 0#8, fun _ => 0#8⟩, hdr66v word66x, true⟩ .pkg2_64V1 77#64 166
    170) := holds_slice 166 (by decide +kernel)
  have h4 : Holds (file66v word66x) 170 [0x73#8] := holds_slice 170 (by decide +kernel)
  have h5 : 170 + 18 ≤ (file66v word66x).length := by rw [length66x]
  refine .mk _ _ ⟨0xBEEF#16, _, 166, by simp, count66x, h1, ?_, ?_⟩ ?_ ?_ ?_
  · exact .cons true 159 166 4#8 [c] (.image 170 18) 170 18 0 [0xFF#8, 0xFF#8, 0x61#8 ^^^ key66 0, 0#8 ^^^ key66 1] [18#8] [0#8] _ (.image _ _)
      ⟨h5, 0x73#8, h4, .inl rfl⟩ (by decide) hn (.short (by decide) (by decide)) zero h2 (.nil _ _)
  · exact .cons 166 _ _ h3 (.nil _)
  · intro name o kids hm; simp at hm
  · intro name o s kids hm; simp at hm
  · intro name o s kids hm; simp at hm

theorem file66x_archive {ks2 : Nat → Byte} {c : Char} :
    HoldsArchive ⟨.checked, file66v word66x, fun _ => 0#8, ks2⟩ [([c], .image 170 18)] [([c], .image [(['n'], .node (.int 5) [])])] := by
  have h1 : Holds (file66v word66x) 170 propImg58 := holds_slice 170 (by decide +kernel)
  refine .image _ _ _ _ _ _ (by simp) (propImg_stored rfl (fun h => ?_) h1) .nil
  obtain ⟨r, hr⟩ := h
  have := congrArg List.length hr
  simp at this

/-- the bytes in the count pass for the name `a` -/
theorem file66x_passes : PassesFor1198 (file66v word66x) 0x10#8 0xFF#8 157 :=
  ⟨by decide, 1, by decide, by decide, by decide, ['a'], by decide, rfl, holds_slice 157 (by decide +kernel)⟩

/-- C66 does not hold for 64-bit PKG2 files in general: with the first word of this header the count of the one entry passes for a name under
the key of KMST1198.  So that key is taken and the image `a` is shown under another name. -/
theorem C66_pkg2_64_counterexample (st : Bytes → Nat → Byte) :
    ∃ (buf : Bytes) (h : Header) (t : BitVec 64) (items : List (List Char × DNode)) (kids : List (List Char × PTree)) (c : Char),
      Pkg2Head buf h ∧ h.flags.bits = 4#8 ∧ Solves6 h.hash1 h.hash2 t ∧
      HoldsDir (Block64 ⟨⟨.checked, buf, fun _ => 0#8, dirKey (kmst1202Key h.hash1 t)⟩, h, true⟩ t) h.dataStart items ∧
      HoldsArchive ⟨.checked, buf, fun _ => 0#8, dirKey (kmst1202Key h.hash1 t)⟩ items [(['a'], .image kids)] ∧ c ≠ 'a' ∧
      ∃ N, ∀ F : Fuel, N ≤ F.loop → N ≤ F.nest → ∀ k fuel, N ≤ fuel →
        OpensAs (openWzPlain .checked st (some "Base.wz".toList) buf none) "Base".toList none (arcContent F k fuel [])
          ⟨.checked, buf, fun _ => 0#8, key1198⟩ [([c], .image kids)] := by
  have hb : (file66v word66x).length < 2 ^ 63 := by rw [length66x]; decide
  have hs : Solves6 (hdr66v word66x).hash1 (hdr66v word66x).hash2 77#64 := by unfold Solves6; decide +kernel
  have hg := (C66_pkg2_64_guess .checked st (file66v word66x) (hdr66v word66x) 0x36#8 0x80#8 0xF1#8 0x10#8 0x10#8 0xFF#8 0x8E#8 0xBE#8 4#8 hb head66x
    (holds_slice 150 (by decide +kernel)) (by unfold PlainType; decide) (.inl (by decide))).1 file66x_passes
  obtain ⟨N, hN⟩ := C66_pkg2_64_partial .checked st "Base.wz".toList "Base".toList (file66v word66x) (hdr66v word66x) (some .kmst1198) 77#64 _ _ none stem66
    (by decide) hb head66x rfl hg hs (by decide)
    (file66x_holds (ks2 := key1198) (c := Char.ofNat 0x3B64) ⟨by decide +kernel, by decide +kernel, by decide +kernel⟩) file66x_archive
  exact ⟨file66v word66x, hdr66v word66x, 77#64, [(['a'], .image 170 18)], _, Char.ofNat 0x3B64, head66x, rfl, hs,
    file66x_holds ⟨by decide +kernel, by decide +kernel, by decide +kernel⟩, file66x_archive, by decide,
    N, fun F h1 h2 k fuel h3 => hN F h1 h2 k fuel h3 [] (by simp)⟩

/-- with this word the sixth byte of the count is 128 -/
def word66p : BitVec 64 := 0x550E44CD12345678#64

/-- all hypotheses of `C66_pkg2_64_panics` are met -/
example (st : Bytes → Nat → Byte) : (openWzPlain .checked st (some "Base.wz".toList) (file66v word66p) none) = .error .panicOverflow := by
  have hl : (file66v word66p).length = 188 := by decide +kernel
  have h := Pkg2Head.random64 (buf := file66v word66p) word66p (word66p ^^^ 77#64 ^^^ 0xABCDEF0123456789#64) (by decide +kernel) (by decide +kernel)
    (by decide +kernel) (by decide +kernel) (by unfold Scattered; decide +kernel) (by unfold Scattered; decide +kernel)
    (by unfold Scattered; decide +kernel)
  exact C66_pkg2_64_panics st _ _ _ 0x36#8 0x80#8 0xF1#8 0x10#8 0x10#8 0#8 0#8 none (by rw [hl]; decide) h (holds_slice 150 (by decide +kernel))
    (by unfold PlainType; decide) (by decide)

end Wz.Props
