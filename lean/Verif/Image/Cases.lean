import Verif.Image.Props
import Verif.Directory.Props
import Verif.Pixel.DxtPlace
import Verif.Pixel.PlainProps
import Verif.Png.Props
import Verif.Media.SoundProps
import Verif.Media.LuaProps

/-!
# Concrete cases of the theorems about what is in a file (C18, C20, C23, C24, C32–C37, C50, C51)

Each `example` applies a theorem to given bytes, so that its hypotheses are seen to be met.
-/

set_option autoImplicit false

namespace Wz.Props

open Wz Wz.Spec

theorem not_txt : ¬ NameEnds "a.img".toList ".txt".toList := fun h => absurd (endsWith_iff.mpr h) (by decide)

theorem not_lua : ¬ NameEnds "a.img".toList ".lua".toList := fun h => absurd (endsWith_iff.mpr h) (by decide)

example := C51_lua_without_name (envOf .wrap [1#8, 2#8]) ⟨"a.img".toList, 0, 9⟩ 0 (by decide) not_lua not_txt
  ⟨[], [2#8], rfl, rfl⟩ ⟨0, 0⟩

example := C51_packed_truncated_panics (envOf .wrap (packedHead.take 8)) ⟨"a.img".toList, 0, 9⟩ 0 (by decide) not_txt
  ⟨[], (packedHead.take 8).drop 1, rfl, rfl⟩ (by decide) ⟨0, 0⟩

example := C51_packed_short_block (envOf .checked packedHead) ⟨"a.img".toList, 0, 8⟩ 0 (by decide) not_txt
  ⟨[], [], rfl, rfl⟩ (by decide) ⟨0, 0⟩

example := C51_other_first_byte (envOf .checked [0x1B#8]) ⟨"a.img".toList, 0, 8⟩ 0 ['x'] 0x1B#8 (by decide) not_txt
  ⟨[], [], rfl, rfl⟩ ⟨0, 0⟩

example := C23_image_partial (envOf .checked [0x73#8, 0#8]) ⟨"a.img".toList, 0, 2⟩ ['x'] 4 ⟨0, 0⟩ rfl (by decide)

example := C18_bad_count_rejected (ctx1 .checked [0xFE#8]) 0 { offset := 0, blockSize := 1 } (-2) [0xFE#8] rfl rfl
  (by decide) (.short (by decide) (by decide)) ⟨[], [], rfl, rfl⟩ (.inl (by decide))

example := C20_entry_loop_reached 9 { ident := .v2 } rfl rfl .pkg2V3 77#64

example := C50_wrong_scheme_panics ctx64 9 { offset := 4, blockSize := 21, ver := .pkg1 } rfl rfl rfl (by decide)

example := C32_default_any_width (List.replicate 64 7#8) 7 7 (by decide)

example := C32_default_wrong 6 5 (by decide) (by decide)

example := C32_sequential_partial .checked (List.replicate 32 7#8) 8 4 (by decide) (by decide) (by decide) (by decide)

example := C32_same .checked (List.replicate 32 7#8) 8 4 (by decide) (by decide) (by decide) (by decide)

example := C32_once 8 4 (by decide) (by decide)

example := C32_sequential_short blockAlpha3 .checked (List.replicate 31 7#8) 8 4 (by decide) (by decide)

example := C32_default_short blockAlpha3 (List.replicate 16 7#8) 8 4 (by decide) (by decide)

example := C32_plain_short .checked [0#8, 0xF8#8, 0x1F#8] 2 1 (by decide)

example := C33_block_dxt3 (List.replicate 16 7#8) rfl

example := C33_block_dxt5 (List.replicate 16 7#8) rfl

example := C35_unknown .checked
  { offset := 0, size := 0, format1 := 7, format2 := 0, header := 0, pages := 0, width := 8, height := 6 } (by decide) (by decide)

example := C35_bc7_too_small .checked
  { offset := 0, size := 0, format1 := 4096, format2 := 2, header := 0, pages := 0, width := 8, height := 6 } rfl
  (by decide) (by decide) (by decide) (by decide)

example := C35_overflow
  { offset := 0, size := 0, format1 := 2, format2 := 0, header := 0, pages := 0, width := 32768, height := 32768 } rfl
  (by decide) (by decide)

example := C37_ascii_border ['a', 'b'] (by decide)

example := C36_bad_ranges .checked (List.replicate 80 7#8)
  { offset := 70, length := 20, headerOffset := 0, headerSize := 20, duration := 1, ty := .wav } (by decide) (by decide) (by decide)

end Wz.Props
