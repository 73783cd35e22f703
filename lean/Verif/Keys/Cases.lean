import Verif.Keys.FormulaProps
import Verif.Reader.FreeProps
import Verif.Offset.Props
import Verif.Version.Pkg1Props
import Verif.Version.Pkg2Props
import Verif.Header.Props

/-!
# Concrete cases of the theorems about keys, versions and headers (C07–C17, C60)

Each `example` applies a theorem to given values, so that its hypotheses are seen to be met.
-/

set_option autoImplicit false

namespace Wz.Props

open Wz Wz.Spec

theorem toyAes_sized : toyAes.Sized := by simp [Aes.Sized, toyAes]

example := C07_at_after_history toyAes toyAes_sized gmsIv [] rfl [] 40

example := C07_prefix_stable toyAes toyAes_sized gmsIv [1#8] rfl [] []

example := C07_encrypt_after_history toyAes toyAes_sized gmsIv [1#8] rfl [] ['a', 'é'] .unicode

example := C07_concurrent toyAes toyAes_sized gmsIv [1#8] rfl [] [[1#8], [2#8, 3#8]] [0, 1, 1, 0] 0 [1#8] rfl (by decide)

example := C08_ecb_involution toyAes toyAes_sized gmsIv [1#8] rfl [] [] [5#8, 6#8] _
  (C07_decrypt_after_history toyAes toyAes_sized gmsIv [1#8] rfl [] [5#8, 6#8])

example := C08_zero_iv toyAes toyAes_sized [1#8] [] [5#8, 6#8]

example := C08_bytewise (fun _ => 5#8) [1#8, 2#8] [3#8, 2#8, 4#8] 1 rfl

example := C09_set_iv_partial gmsIv [] 0xE9637DB9 .unknown (by decide)

example := C15_kmst1199_formula 0x12345678#32 0x9ABC#32

example := C15_kmst1202_formula 0x0102030405060708#64 0xFF#64 3 (by decide)

example := C60_int .checked 4 [7#8, 0x80#8, 0x00#8, 0x01#8, 0x00#8] 1 0 (by decide)

example := C60_wz_int .checked [7#8, 0x80#8, 0x00#8, 0x01#8, 0x00#8, 0x00#8] (some 1) 0 (by decide)

example := C60_by_len .checked [0x61#8, 0x62#8, 0x63#8] 2 (some 1) (by decide) (by decide)

example := C60_by_len_panics .checked [0x61#8, 0x62#8, 0x63#8] 3 (some 1) (by decide) (by decide)

example := C60_text_errors .checked cutText 0 .panicUnwrap (by decide)

example := C60_block_inline .checked (0x73#8 :: twoTexts) 9 0x73#8 ⟨[], _, rfl, rfl⟩ (.inr rfl)

example := C60_block_offset .checked ([0x1B#8, 3#8, 0#8, 0#8, 0#8] ++ twoTexts) 5 0x1B#8 3 (by decide) (by decide)
  ⟨[], twoTexts, rfl, rfl⟩ (.inr rfl)

example := C10_count_too_big { hash1 := 0x1111222233334444#64 } 0xABCDEF#64 (2 ^ 31) 0xBEEF#16 (by decide) (by decide)

example := C10_count_negative { hash1 := 0x1111222233334444#64 } 0xABCDEF#64 (2 ^ 47) 0xBEEF#16 (by decide) (by decide)

example := C11_parse_with_version .checked 172 (by decide)

example := C14_any_partial [[1#32], [2#32, 3#32]] (by decide) 3 (by decide)

example := C16_too_short (asciiBytes "PKG1" ++ [1#8]) "PKG1" (.inl rfl) ⟨[1#8], rfl⟩ (by decide +kernel)

example := C16_header_slice_short (asciiBytes "PKG1") (by decide +kernel)

theorem scattered_map {buf : Bytes} {ps : List Nat} {bs : Bytes} (h : Scattered buf ps bs) :
    ps.filterMap (fun p => buf[p]?) = bs := by
  unfold Scattered at h
  induction ps generalizing bs with
  | nil => cases bs with
    | nil => rfl
    | cons b bs => cases h
  | cons p ps ih => cases bs with
    | nil => cases h
    | cons b bs =>
      rw [List.map_cons, List.map_cons, List.cons.injEq] at h
      rw [List.filterMap_cons, h.1]
      dsimp only
      rw [ih h.2]

/-- in a hundred bytes 0xEE no size that fits stands in either place -/
example : ∃ x, Header.readFromBuf (List.replicate 100 0xEE#8) = .error x :=
  C17_rejected _ (by decide +kernel)
    (fun bs hb => by rw [← scattered_map hb]; decide +kernel)
    (fun bs hb => by rw [← scattered_map hb]; decide +kernel)

/-- the same bytes with a short header written over them -/
example := C17_storable32 (List.replicate 100 0xEE#8) 0x11112222#32 0xABCDEF01#32 (by decide) (by decide) _ rfl
  (by decide +kernel) (fun bs hb => by rw [← scattered_map hb]; decide +kernel)

example := C17_storable64 (List.replicate 160 0xEE#8) 0x1111222233334444#64 0xABCDEF0123456789#64 (by decide +kernel) (by decide +kernel)
  _ rfl (by decide +kernel)

end Wz.Props
