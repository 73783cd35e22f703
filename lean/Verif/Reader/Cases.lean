import Verif.Reader.Props

/-!
# Concrete cases of the theorems about the reader (C02–C06)

Each `example` applies a theorem to given bytes, so that its hypotheses are seen to be met.
-/

set_option autoImplicit false

namespace Wz.Props

open Wz Wz.Spec

/-- the bytes of 515 behind one other byte -/
example := C02_read_written (exEnv [9#8, 3#8, 2#8, 0#8, 0#8, 7#8]) ⟨1, 0⟩ 4 515 (by decide)
  ⟨[9#8], [7#8], rfl, rfl⟩ (by decide)

example := C03_storable (fun _ => 5#8) ['é', 'b'] (by decide)

/-- two units behind one byte -/
example := C03_unicode_units .checked ([1#8] ++ cipherUnicode (fun _ => 5#8) [0xE9#16, 0x62#16] ++ [2#8]) (fun _ => 5#8)
  [0xE9#16, 0x62#16] 1 ⟨[1#8], [2#8], rfl, rfl⟩ (by decide)

example := C03_ascii_bytes .wrap ([1#8] ++ cipherAscii (fun i => BitVec.ofNat 8 (7 * i)) [0x61#8, 0x62#8] ++ [2#8])
  (fun i => BitVec.ofNat 8 (7 * i)) [0x61#8, 0x62#8] 1 ⟨[1#8], [2#8], rfl, rfl⟩ (by decide)

/-- the name "é" in a directory of a PKG2 file -/
example := C03_pkg2_dir
  ⟨.checked, [3#8] ++ (byteOf (-1) :: cipherPkg2 (fun _ => 6#8) [0xE9#16]), fun _ => 5#8, fun _ => 6#8⟩ ⟨1, 0⟩ ['é']
  (by decide) (by decide) ⟨[3#8], [], rfl, rfl⟩ (by decide)

example := C03_pkg2_dir_min_panics ⟨.checked, [3#8, 0x80#8, 4#8], fun _ => 5#8, fun _ => 6#8⟩ ⟨1, 0⟩ rfl
  ⟨[3#8], [4#8], rfl, rfl⟩ (by decide)

/-- the text "if" -/
example := C04_lazy_eager (exEnv [0xFE#8, 0xC0#8, 0xC7#8]) ⟨0, 0⟩ ⟨3, 0⟩ ['i', 'f'] ⟨1, 2, .ascii⟩ (by decide) rfl rfl

example := C04_meta_in_bounds (exEnv [0xFE#8, 0xC0#8, 0xC7#8]) ⟨0, 0⟩ ⟨3, 0⟩ ['i', 'f'] (by decide) rfl

example := C04_strict_lossy (exEnv [0xFE#8, 0xC0#8, 0xC7#8]) .ascii 1 2 ['i', 'f'] rfl

example := C05_offset_cursor (exEnv ([0x1B#8] ++ toLE 4 3 ++ [byteOf (-1), 0xC8#8])) ⟨0, 0⟩ 2 0x1B#8 (toLE 4 3)
  (.inr rfl) rfl ⟨[], [byteOf (-1), 0xC8#8], rfl, rfl⟩ (by decide)

/-- a text written in place -/
example : ∃ m, (Rd.readWzStringBlockMeta 2).run (exEnv [0x73#8, 0xFE#8, 0xC0#8, 0xC7#8]) ⟨0, 0⟩ = (.ok m, ⟨4, 0⟩) ∧
    resolveMeta (exEnv [0x73#8, 0xFE#8, 0xC0#8, 0xC7#8]) m.ty m.offset m.length = .ok ['i', 'f'] :=
  (C05_block_eager_lazy _ ⟨0, 0⟩ ⟨4, 0⟩ 2 ['i', 'f'] (by decide)).1 rfl

example := C06_from_str_partial .checked (fun _ => 5#8) (fun _ => 6#8) ['測', '試', 'a'] (by decide) (by decide)

example := C06_from_str_pkg2_partial .checked (fun _ => 5#8) (fun _ => 6#8) ['測', '試', 'a'] (by decide) (by decide)

end Wz.Props
