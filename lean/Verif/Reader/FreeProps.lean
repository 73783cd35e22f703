import Verif.Reader.FreeLemmas
import Verif.Reader.Props

/-!
# C60: the stand-alone reading functions against the reader with a cursor
-/

set_option autoImplicit false

namespace Wz.Props

open Wz Wz.Spec

/-- a plain environment without a key -/
def plainEnv (m : Mode) (buf : Bytes) : Env := { mode := m, buf := buf, ks := fun _ => 0#8, ks2 := fun _ => 0#8 }

/-- "if" in the short ASCII form without a key, followed by "né" in the UTF-16 form -/
def twoTexts : Bytes := [0xFE#8, 0xC3#8, 0xCD#8, 0x02#8, 0xC4#8, 0xAA#8, 0x42#8, 0xAA#8]

/-- a text of three characters of which one is left -/
def cutText : Bytes := [0xFD#8, 0xC3#8]

/-- the length -1 in the long ASCII form -/
def negText : Bytes := [0x80#8, 0xFF#8, 0xFF#8, 0xFF#8, 0xFF#8]

/-! ### numbers -/

/-- C60: unsigned numbers of any width: the same result as the reader at this position, errors included. -/
theorem C60_nat (m : Mode) (w : Nat) (buf : Bytes) (p s : Nat) (h : p + w < 2 ^ 64) :
    freeNat w buf p = ((Rd.readLE w).run (plainEnv m buf) ⟨p, s⟩).1 := by
  unfold freeNat
  rw [Rd.readLE_def]
  dsimp only
  rw [addU_ok h]
  rfl

/-- C60: signed numbers of any width. -/
theorem C60_int (m : Mode) (w : Nat) (buf : Bytes) (p s : Nat) (h : p + w < 2 ^ 64) :
    freeInt w buf p = ((Rd.readInt w).run (plainEnv m buf) ⟨p, s⟩).1 := by
  unfold freeInt Rd.readInt
  rw [show readAt buf w p = freeNat w buf p from rfl, C60_nat m w buf p s h, Rd.bind_run]
  cases hr : (Rd.readLE w).run (plainEnv m buf) ⟨p, s⟩ with
  | mk r c => cases r <;> rfl

/-- C60: the compressed 32-bit and 64-bit numbers; without a position they are read at the start. -/
theorem C60_wz_int (m : Mode) (buf : Bytes) (off : Option Nat) (s : Nat) (h : off.getD 0 + 9 < 2 ^ 64) :
    freeWzInt m 4 buf off = (Rd.readWzInt.run (plainEnv m buf) ⟨off.getD 0, s⟩).1 ∧
    freeWzInt m 8 buf off = (Rd.readWzInt64.run (plainEnv m buf) ⟨off.getD 0, s⟩).1 :=
  ⟨freeWzInt_run (w := 4) (plainEnv m buf) off s (by omega), freeWzInt_run (w := 8) (plainEnv m buf) off s (by omega)⟩

example : freeWzInt .checked 4 [7#8, 0x80#8, 0x00#8, 0x01#8, 0x00#8, 0x00#8] (some 1) = .ok 256 := by decide +kernel
example : freeWzInt .checked 8 [7#8, 0x80#8, 0x00#8, 0x01#8, 0x00#8, 0x00#8] (some 1) = .error .read := by decide +kernel
example : freeWzInt .checked 8 [7#8, 0x80#8, 0x00#8, 0x01#8, 0x00#8, 0x00#8] none = .ok 7 := by decide +kernel

/-- C60: `len` bytes of text from a position, as UTF-8 with U+FFFD for ill-formed pieces. -/
theorem C60_by_len (m : Mode) (buf : Bytes) (len : Nat) (off : Option Nat) (hb : buf.length < 2 ^ 63)
    (h : off.getD 0 + len ≤ buf.length) :
    freeStringByLen m buf len off = .ok (utf8Lossy ((buf.drop (off.getD 0)).take len)) := by
  unfold freeStringByLen
  rw [freeBytes_ok (by omega) (by omega)]
  rfl

/-- C60: `read_string_by_len` panics if the bytes are not all there, and gives nothing for no bytes wherever it is asked. -/
theorem C60_by_len_panics (m : Mode) (buf : Bytes) (len : Nat) (off : Option Nat) (hs : off.getD 0 + len < 2 ^ 64)
    (h : buf.length < off.getD 0 + len) :
    freeStringByLen m buf len off = if len = 0 then .ok [] else .error .panicIndex := by
  unfold freeStringByLen
  split
  · rename_i h0; subst h0; rfl
  · rw [freeBytes_cut (by omega) (by omega) (by omega)]
    rfl

example : freeStringByLen .checked [0x61#8, 0x62#8, 0x63#8] 2 (some 1) = .ok ['b', 'c'] := by decide +kernel
example : freeStringByLen .checked [0x61#8, 0x62#8, 0x63#8] 3 (some 1) = .error .panicIndex := by decide +kernel
example : freeStringByLen .checked [0x61#8, 0x62#8, 0x63#8] 3 none = .ok ['a', 'b', 'c'] := by decide +kernel

/-! ### texts -/

/-- C60: which text is given: the text that is stored at the place, or nothing if the length is negative. -/
theorem C60_text_iff (m : Mode) (buf : Bytes) (p : Nat) (t : List Char) (hb : buf.length < 2 ^ 31) :
    freeWzString m (buf.drop p) = .ok t ↔ PlainTextAt buf p t ∨ (NegativeAt buf p ∧ t = []) := by
  constructor
  · intro h
    rcases text_cases buf p with hc | ⟨t', hc⟩ | hc | hc
    · rw [free_cut hc] at h; cases h
    · rw [free_text hb hc] at h; cases h; exact .inl hc
    · rw [free_negative hc] at h; cases h; exact .inr ⟨hc, rfl⟩
    · rw [free_text_cut hb hc] at h; cases h
  · rintro (h | ⟨h, rfl⟩)
    · exact free_text hb h
    · exact free_negative h

example : freeWzString .checked (twoTexts.drop 0) = .ok ['i', 'f'] := by decide +kernel
example : freeWzString .checked (twoTexts.drop 3) = .ok ['n', 'é'] := by decide +kernel
example : freeWzString .checked (negText.drop 0) = .ok [] := by decide +kernel

/-- C60: all errors: a read error exactly if the length is cut off, and a panic exactly if the text is cut off. -/
theorem C60_text_errors (m : Mode) (buf : Bytes) (p : Nat) (x : Err) (hb : buf.length < 2 ^ 31) :
    freeWzString m (buf.drop p) = .error x ↔ (HeadCut buf p ∧ x = .read) ∨ (CutAt buf p ∧ x = .panicUnwrap) := by
  constructor
  · intro h
    rcases text_cases buf p with hc | ⟨t', hc⟩ | hc | hc
    · rw [free_cut hc] at h; cases h; exact .inl ⟨hc, rfl⟩
    · rw [free_text hb hc] at h; cases h
    · rw [free_negative hc] at h; cases h
    · rw [free_text_cut hb hc] at h; cases h; exact .inr ⟨hc, rfl⟩
  · rintro (⟨h, rfl⟩ | ⟨h, rfl⟩)
    · exact free_cut h
    · exact free_text_cut hb h

example : freeWzString .checked (cutText.drop 0) = .error .panicUnwrap := by decide +kernel
example : freeWzString .checked (negText.drop 5) = .error .read := by decide +kernel

/-- C60: what the reader with a cursor gives with overflow checks and without a key: exactly the text that is stored there. -/
theorem C60_reader_iff (buf : Bytes) (p s : Nat) (t : List Char) (hb : buf.length < 2 ^ 31) :
    (Rd.readWzString.run (plainEnv .checked buf) ⟨p, s⟩).1 = .ok t ↔ PlainTextAt buf p t := by
  constructor
  · intro h
    cases hr : Rd.readWzString.run (plainEnv .checked buf) ⟨p, s⟩ with
    | mk r c =>
      rw [hr] at h
      dsimp only at h
      subst h
      exact reader_only (e := plainEnv .checked buf) rfl hb rfl hr
  · exact fun h => reader_text (e := plainEnv .checked buf) (c := ⟨p, s⟩) rfl hb h

example : (Rd.readWzString.run (plainEnv .checked twoTexts) ⟨3, 0⟩).1 = .ok ['n', 'é'] := by decide +kernel

/-- C60: what the reader reads, the stand-alone function reads. -/
theorem C60_reader_free (m : Mode) (buf : Bytes) (p s : Nat) (t : List Char) (hb : buf.length < 2 ^ 31)
    (h : (Rd.readWzString.run (plainEnv .checked buf) ⟨p, s⟩).1 = .ok t) : freeWzString m (buf.drop p) = .ok t :=
  free_text hb ((C60_reader_iff buf p s t hb).1 h)

example : freeWzString .wrap (twoTexts.drop 3) = .ok ['n', 'é'] :=
  C60_reader_free _ _ _ 0 _ (by decide) (by decide +kernel)

/-- C60: what the stand-alone function reads, the reader reads, except for negative lengths. -/
theorem C60_free_reader_partial (m m' : Mode) (buf : Bytes) (p s : Nat) (t : List Char) (hb : buf.length < 2 ^ 31)
    (hn : ¬ NegativeAt buf p) (h : freeWzString m (buf.drop p) = .ok t) :
    (Rd.readWzString.run (plainEnv m' buf) ⟨p, s⟩).1 = .ok t := by
  rcases (C60_text_iff m buf p t hb).1 h with h | ⟨h, _⟩
  · exact reader_text (e := plainEnv m' buf) (c := ⟨p, s⟩) rfl hb h
  · exact absurd h hn

example : (Rd.readWzString.run (plainEnv .wrap twoTexts) ⟨0, 7⟩).1 = .ok ['i', 'f'] := by
  refine C60_free_reader_partial .checked _ _ _ _ _ (by decide) ?_ (by decide +kernel)
  rintro ⟨wide, n, start, h, hn⟩
  cases h with
  | unicode v _ h1 h2 => omega
  | longUnicode v h _ _ => have := h.head.slice; revert this; decide
  | ascii v _ h1 h2 => omega
  | longAscii v h _ _ => have := h.head.slice; revert this; decide

/-- C60: a stored text without a key is read back. -/
theorem C60_read_back (m : Mode) (buf bs : Bytes) (p : Nat) (t : List Char) (hb : buf.length < 2 ^ 31)
    (h : IsWzString (fun _ => 0#8) t bs) (hh : Holds buf p bs) : freeWzString m (buf.drop p) = .ok t := by
  refine C60_reader_free m buf p 0 t hb ?_
  rw [C03_read_string (plainEnv .checked buf) ⟨p, 0⟩ t bs h hh (show buf.length < 2 ^ 63 by omega)]

example : freeWzString .wrap (twoTexts.drop 0) = .ok ['i', 'f'] :=
  C60_read_back _ _ [0xFE#8, 0xC3#8, 0xCD#8] 0 _ (by decide)
    (IsWzString.ascii [0xFE#8] (by decide) (IsAsciiLen.short (by decide) (by decide)))
    ⟨[], _, rfl, rfl⟩

/-- C60: a text that is cut off: the reader returns an error, the stand-alone function panics. -/
theorem C60_cut_counterexample :
    (Rd.readWzString.run (plainEnv .checked cutText) ⟨0, 0⟩).1 = .error (.outOfBounds 4 2) ∧
    freeWzString .checked cutText = .error .panicUnwrap := by decide +kernel

/-- C60: a negative length: the reader panics or returns an error, the stand-alone function gives an empty text. -/
theorem C60_negative_counterexample :
    NegativeAt negText 0 ∧
    (Rd.readWzString.run (plainEnv .checked negText) ⟨0, 0⟩).1 = .error .panicOverflow ∧
    (Rd.readWzString.run (plainEnv .wrap negText) ⟨0, 0⟩).1 = .error (.outOfBounds 4 5) ∧
    freeWzString .checked negText = .ok [] ∧ freeWzString .wrap negText = .ok [] := by
  refine ⟨⟨false, -1, 5, TextHead.longAscii (-1) ⟨[], [], rfl, rfl⟩ (by decide) (by decide), by decide⟩, ?_, ?_, ?_, ?_⟩ <;>
    decide +kernel

/-! ### string blocks -/

/-- C60: a block with the text in place. -/
theorem C60_block_inline (m : Mode) (buf : Bytes) (offset : Nat) (b : Byte) (h : Holds buf 0 [b])
    (hb : b = 0x00#8 ∨ b = 0x73#8) : freeWzStringBlock m buf offset = freeWzString m (buf.drop 1) := by
  unfold freeWzStringBlock
  rw [freeNat_byte h]
  rcases hb with rfl | rfl <;> rfl

example : freeWzStringBlock .checked (0x73#8 :: twoTexts) 9 = .ok ['i', 'f'] := by decide +kernel

/-- C60: a block with the place of the text: the number after the type byte and the offset are added; a place behind the end
is a panic. -/
theorem C60_block_offset (m : Mode) (buf : Bytes) (offset : Nat) (b : Byte) (a : Nat) (ha : a < 2 ^ 31) (ho : offset < 2 ^ 63)
    (h : Holds buf 0 (b :: toLE 4 a)) (hb : b = 0x01#8 ∨ b = 0x1B#8) :
    freeWzStringBlock m buf offset =
      if a + offset ≤ buf.length then freeWzString m (buf.drop (a + offset)) else .error .panicIndex := by
  have hi : freeInt 4 buf 1 = .ok (a : Int) := by
    refine freeInt_four ?_ (by omega) (by omega)
    rw [show unsign 32 (a : Int) = a by unfold unsign; omega]
    exact h.tail
  have hu : asUsize (a : Int) = a := by rw [asUsize_nonneg (by omega) (by omega)]; omega
  unfold freeWzStringBlock
  rw [freeNat_byte h.head]
  rcases hb with rfl | rfl <;>
  · simp only [bind, Except.bind, pure, Except.pure]
    rw [if_neg (by decide), if_pos (by decide), hi]
    dsimp only
    rw [hu, addU_ok (by omega)]

example : freeWzStringBlock .checked ([0x1B#8, 3#8, 0#8, 0#8, 0#8] ++ twoTexts) 5 = .ok ['n', 'é'] := by decide +kernel
example : freeWzStringBlock .checked ([0x1B#8, 3#8, 0#8, 0#8, 0#8] ++ twoTexts) 11 = .error .panicIndex := by decide +kernel
example : freeWzStringBlock .checked ([0x1B#8, 3#8, 0#8, 0#8, 0#8] ++ twoTexts) 10 = .error .read := by decide +kernel

/-- C60: a block of any other type is an empty text; a block that is cut off is an error. -/
theorem C60_block_other (m : Mode) (buf : Bytes) (offset : Nat) :
    (∀ b, Holds buf 0 [b] → b ∉ [0x00#8, 0x73#8, 0x01#8, 0x1B#8] → freeWzStringBlock m buf offset = .ok []) ∧
    (buf = [] → freeWzStringBlock m buf offset = .error .read) ∧
    (∀ b, Holds buf 0 [b] → b = 0x01#8 ∨ b = 0x1B#8 → buf.length < 5 → freeWzStringBlock m buf offset = .error .read) := by
  refine ⟨fun b h hb => ?_, ?_, fun b h hb hl => ?_⟩
  · unfold freeWzStringBlock
    rw [freeNat_byte h]
    have e : ∀ k : Nat, k < 256 → b ≠ BitVec.ofNat 8 k → b.toNat ≠ k := by
      intro k hk hne he
      apply hne
      apply BitVec.eq_of_toNat_eq
      rw [BitVec.toNat_ofNat, he]
      omega
    simp only [List.mem_cons, List.not_mem_nil, or_false, not_or] at hb
    obtain ⟨h0, h1, h2, h3⟩ := hb
    have e0 := e 0 (by omega) h0
    have e1 := e 0x73 (by omega) h1
    have e2 := e 1 (by omega) h2
    have e3 := e 0x1B (by omega) h3
    simp only [bind, Except.bind, pure, Except.pure]
    rw [if_neg (by omega), if_neg (by omega)]
  · rintro rfl
    rfl
  · unfold freeWzStringBlock
    rw [freeNat_byte h]
    rcases hb with rfl | rfl <;>
    · simp only [bind, Except.bind, pure, Except.pure]
      rw [if_neg (by decide), if_pos (by decide), freeInt_short (by omega)]

example : freeWzStringBlock .checked [2#8, 3#8] 5 = .ok [] := by decide +kernel
example : freeWzStringBlock .checked [1#8, 3#8] 5 = .error .read := by decide +kernel

/-- C60: the block at the start of a buffer that the reader reads, the stand-alone function reads. -/
theorem C60_block_reader (buf : Bytes) (offset s : Nat) (t : List Char) (hb : buf.length < 2 ^ 31)
    (h : ((Rd.readWzStringBlock offset).run (plainEnv .checked buf) ⟨0, s⟩).1 = .ok t) :
    freeWzStringBlock .checked buf offset = .ok t := by
  unfold Rd.readWzStringBlock at h
  have h1 : Rd.readU8.run (plainEnv .checked buf) ⟨0, s⟩ = (freeNat 1 buf 0, ⟨1, s⟩) := by
    unfold Rd.readU8
    rw [Rd.readLE_def, addU_ok (by dsimp only; omega)]
    rfl
  rw [Rd.bind_run, h1] at h
  unfold freeWzStringBlock
  cases hn : freeNat 1 buf 0 with
  | error x => rw [hn] at h; cases h
  | ok k =>
    rw [hn] at h
    simp only [bind, Except.bind, pure, Except.pure]
    dsimp only at h
    by_cases hk : k = 0 ∨ k = 0x73
    · rw [if_pos hk] at h ⊢
      exact C60_reader_free _ _ _ _ _ hb h
    rw [if_neg hk] at h ⊢
    by_cases hk : k = 1 ∨ k = 0x1B
    · rw [if_pos hk] at h ⊢
      rw [show Rd.readI32 = Rd.readInt 4 from rfl, Rd.bind_run, freeInt_run _ _ (by dsimp only; omega)] at h
      dsimp only at h
      rw [show (plainEnv .checked buf).buf = buf from rfl] at h
      cases hi : freeInt 4 buf 1 with
      | error x => rw [hi] at h; cases h
      | ok a =>
        rw [hi] at h
        dsimp only at h ⊢
        rw [Rd.bind_ok (Rd.getEnv_run _ _), Rd.bind_run, Rd.lift_run] at h
        rw [show addU (plainEnv .checked buf).mode offset (asUsize a) = addU .checked (asUsize a) offset by
          unfold addU; rw [Nat.add_comm]; rfl] at h
        cases ha : addU .checked (asUsize a) offset with
        | error x => rw [ha] at h; cases h
        | ok p =>
          rw [ha] at h
          dsimp only at h ⊢
          have ht := (C60_reader_iff buf p 5 t hb).1 h
          rw [if_pos (Nat.le_of_lt (textAt_lt ht)), free_text hb ht]
    · rw [if_neg hk] at h ⊢
      exact h

example : freeWzStringBlock .checked ([0x1B#8, 3#8, 0#8, 0#8, 0#8] ++ twoTexts) 5 = .ok ['n', 'é'] :=
  C60_block_reader _ _ 0 _ (by decide) (by decide +kernel)

end Wz.Props
