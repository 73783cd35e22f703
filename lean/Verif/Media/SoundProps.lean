import Verif.Media.SoundModel
import Verif.Property.Spec
/-!
# C36: sounds are given out as well-formed files
-/

set_option autoImplicit false

namespace Wz.Spec

/-- the bytes `a .. b` of a file -/
def part (f : Bytes) (a b : Nat) : Bytes := (f.drop a).take (b - a)

/-- A RIFF/WAVE file with one `fmt ` chunk of 16 bytes and one `data` chunk, as the format describes it: both size fields
are the sizes that really follow. -/
structure IsWav (f fmt payload : Bytes) : Prop where
  riff : part f 0 4 = [0x52#8, 0x49#8, 0x46#8, 0x46#8]
  riffSize : leNat (part f 4 8) + 8 = f.length
  wave : part f 8 12 = [0x57#8, 0x41#8, 0x56#8, 0x45#8]
  fmtId : part f 12 16 = [0x66#8, 0x6d#8, 0x74#8, 0x20#8]
  fmtSize : leNat (part f 16 20) = 16
  fmtLen : fmt.length = 16
  fmtData : part f 20 36 = fmt
  dataId : part f 36 40 = [0x64#8, 0x61#8, 0x74#8, 0x61#8]
  dataSize : leNat (part f 40 44) = payload.length
  data : part f 44 f.length = payload

end Wz.Spec

namespace Wz.Props
open Spec

theorem sliceIdx_holds {buf bs : Bytes} {p : Nat} (h : Holds buf p bs) : sliceIdx buf p (p + bs.length) = .ok bs := by
  obtain ⟨pre, post, rfl, rfl⟩ := h
  unfold sliceIdx
  rw [if_pos ⟨by omega, by simp⟩, List.append_assoc, List.drop_left' rfl, Nat.add_sub_cancel_left, List.take_left' rfl]

theorem list4 {l : Bytes} (h : l.length = 4) : ∃ a b c d, l = [a, b, c, d] := by
  match l, h with
  | [a, b, c, d], _ => exact ⟨a, b, c, d, rfl⟩

theorem list16 {l : Bytes} (h : l.length = 16) : ∃ x0 x1 x2 x3 x4 x5 x6 x7 x8 x9 x10 x11 x12 x13 x14 x15,
    l = [x0, x1, x2, x3, x4, x5, x6, x7, x8, x9, x10, x11, x12, x13, x14, x15] := by
  match l, h with
  | [x0, x1, x2, x3, x4, x5, x6, x7, x8, x9, x10, x11, x12, x13, x14, x15], _ =>
    exact ⟨x0, x1, x2, x3, x4, x5, x6, x7, x8, x9, x10, x11, x12, x13, x14, x15, rfl⟩

/-- the three writes into the template -/
theorem copies {c fmt d : Bytes} (hc : c.length = 4) (hf : fmt.length = 16) (hd : d.length = 4) :
    (copyInto wavHeader0 4 8 c >>= fun h => copyInto h 20 36 fmt >>= fun h => copyInto h 40 44 d) =
      .ok ([0x52#8, 0x49#8, 0x46#8, 0x46#8] ++ c ++ [0x57#8, 0x41#8, 0x56#8, 0x45#8, 0x66#8, 0x6d#8, 0x74#8, 0x20#8, 0x10#8, 0#8, 0#8, 0#8] ++ fmt ++
        [0x64#8, 0x61#8, 0x74#8, 0x61#8] ++ d) := by
  obtain ⟨c0, c1, c2, c3, rfl⟩ := list4 hc
  obtain ⟨d0, d1, d2, d3, rfl⟩ := list4 hd
  obtain ⟨x0, x1, x2, x3, x4, x5, x6, x7, x8, x9, x10, x11, x12, x13, x14, x15, rfl⟩ := list16 hf
  rfl

/-- the file that is put together, whatever the first size field `n` is -/
theorem wav_bytes {m : Mode} {buf header data : Bytes} {s : Sound} {n : Nat} (hb : buf.length < 2 ^ 63) (ht : s.ty = .wav) (hs : s.headerSize = header.length)
    (hh : Holds buf s.headerOffset header) (hl : s.length = data.length) (hd : Holds buf s.offset data) (h68 : 68 ≤ header.length)
    (hn : addU32 m s.length 36 = .ok n) :
    s.getBuffer m buf = .ok ([0x52#8, 0x49#8, 0x46#8, 0x46#8] ++ toLE 4 n ++ [0x57#8, 0x41#8, 0x56#8, 0x45#8, 0x66#8, 0x6d#8, 0x74#8, 0x20#8, 0x10#8, 0#8, 0#8, 0#8] ++
      part header 52 68 ++ [0x64#8, 0x61#8, 0x74#8, 0x61#8] ++ toLE 4 data.length ++ data) := by
  have hh2 : s.headerOffset + header.length ≤ buf.length := by
    obtain ⟨pre, post, rfl, h⟩ := hh
    simp; omega
  have hd2 : s.offset + data.length ≤ buf.length := by
    obtain ⟨pre, post, rfl, h⟩ := hd
    simp; omega
  have a1 : addU m s.offset s.length = .ok (s.offset + data.length) := by rw [hl]; exact addU_ok (by omega)
  have a2 : addU m s.headerOffset s.headerSize = .ok (s.headerOffset + header.length) := by rw [hs]; exact addU_ok (by omega)
  have hf : sliceIdx header 0x34 (0x34 + 16) = .ok (part header 52 68) := if_pos ⟨by omega, by omega⟩
  have hc := copies (c := toLE 4 n) (fmt := part header 52 68) (d := toLE 4 s.length) (length_toLE _ _)
    (by unfold part; rw [List.length_take, List.length_drop]; omega) (length_toLE _ _)
  unfold Sound.getBuffer
  rw [a1]
  show (sliceIdx buf s.offset (s.offset + data.length) >>= _) = _
  rw [sliceIdx_holds hd]
  show (match s.ty with
    | .wav => (s.wavHeader m buf >>= fun h => (pure (h ++ data) : Except Err Bytes))
    | _ => pure data) = _
  rw [ht]
  show (s.wavHeader m buf >>= _) = _
  have hw : s.wavHeader m buf = .ok ([0x52#8, 0x49#8, 0x46#8, 0x46#8] ++ toLE 4 n ++ [0x57#8, 0x41#8, 0x56#8, 0x45#8, 0x66#8, 0x6d#8, 0x74#8, 0x20#8, 0x10#8, 0#8, 0#8, 0#8] ++
      part header 52 68 ++ [0x64#8, 0x61#8, 0x74#8, 0x61#8] ++ toLE 4 data.length) := by
    unfold Sound.wavHeader
    rw [a2]
    show (sliceIdx buf s.headerOffset (s.headerOffset + header.length) >>= _) = _
    rw [sliceIdx_holds hh]
    show (addU32 m s.length 36 >>= _) = _
    rw [hn]
    show (sliceIdx header 0x34 (0x34 + 16) >>= _) = _
    rw [hf, ← hl]
    exact hc
  rw [hw]
  rfl

/-- C36: a PCM sound whose header and data lie in the buffer is given out as a RIFF/WAVE file with its format and its data. -/
theorem C36_wav_partial (m : Mode) (buf header data : Bytes) (s : Sound) (hb : buf.length < 2 ^ 63) (ht : s.ty = .wav) (hs : s.headerSize = header.length)
    (hh : Holds buf s.headerOffset header) (hl : s.length = data.length) (hd : Holds buf s.offset data) (h68 : 68 ≤ header.length)
    (hn : data.length + 36 < 2 ^ 32) :
    ∃ f, s.getBuffer m buf = .ok f ∧ IsWav f (part header 52 68) data := by
  refine ⟨_, wav_bytes hb ht hs hh hl hd h68 (n := data.length + 36) (by rw [hl]; exact if_pos hn), ?_⟩
  have hf : (part header 52 68).length = 16 := by unfold part; rw [List.length_take, List.length_drop]; omega
  generalize part header 52 68 = fmt at hf
  have e1 : leNat (toLE 4 (data.length + 36)) = data.length + 36 := (leNat_toLE 4 _).trans (Nat.mod_eq_of_lt (by omega))
  have e2 : leNat (toLE 4 data.length) = data.length := (leNat_toLE 4 _).trans (Nat.mod_eq_of_lt (by omega))
  have l1 := length_toLE 4 (data.length + 36)
  have l2 := length_toLE 4 data.length
  generalize toLE 4 (data.length + 36) = c at e1 l1
  generalize toLE 4 data.length = d at e2 l2
  obtain ⟨c0, c1, c2, c3, rfl⟩ := list4 l1
  obtain ⟨d0, d1, d2, d3, rfl⟩ := list4 l2
  obtain ⟨x0, x1, x2, x3, x4, x5, x6, x7, x8, x9, x10, x11, x12, x13, x14, x15, rfl⟩ := list16 hf
  exact {
    riff := rfl
    riffSize := by
      show leNat [c0, c1, c2, c3] + 8 = _
      rw [e1]
      simp
    wave := rfl
    fmtId := rfl
    fmtSize := rfl
    fmtLen := rfl
    fmtData := rfl
    dataId := rfl
    dataSize := e2
    data := by
      unfold part
      show data.take _ = _
      exact List.take_of_length_le (by simp) }

/-- C36: every stored sound, as the parser gives it (C21): PCM sounds become RIFF/WAVE files; all other sounds are given out
unchanged. -/
theorem C36_stored_partial (e : Env) (s : Sound) (header data : Bytes) (hb : e.buf.length < 2 ^ 63) (hn : data.length + 36 < 2 ^ 32)
    (h : ShowsVal e (.sound s) (.sound s.duration header data)) :
    ∃ f, s.getBuffer e.mode e.buf = .ok f ∧
      (header.length = 70 ∧ ¬ (leNat (part header 56 60) = data.length ∧ s.duration = 1000) → IsWav f (part header 52 68) data) ∧
      (¬ (header.length = 70 ∧ ¬ (leNat (part header 56 60) = data.length ∧ s.duration = 1000)) → f = data) := by
  cases h with
  | sound _ _ _ h1 h2 h3 h4 h5 h6 =>
    cases ht : s.ty with
    | wav =>
      have h70 : header.length = 70 := Classical.not_not.mp fun hne => by have := h5.mpr hne; rw [ht] at this; cases this
      obtain ⟨f, hf, hw⟩ := C36_wav_partial e.mode e.buf header data s hb ht h1 h2 h3 h4 (by omega) hn
      refine ⟨f, hf, fun _ => hw, fun hno => absurd ⟨h70, fun hx => ?_⟩ hno⟩
      have := h6.mpr ⟨h70, hx⟩
      rw [ht] at this
      cases this
    | mp3 =>
      have h70 := h5.mp ht
      have hd2 : s.offset + data.length ≤ e.buf.length := by
        obtain ⟨pre, post, hbuf, h⟩ := h4
        rw [hbuf]; simp; omega
      have a1 : addU e.mode s.offset s.length = .ok (s.offset + data.length) := by rw [h3]; exact addU_ok (by omega)
      refine ⟨data, ?_, fun hx => absurd hx.1 h70, fun _ => rfl⟩
      unfold Sound.getBuffer
      rw [a1]
      show (sliceIdx e.buf s.offset (s.offset + data.length) >>= _) = _
      rw [sliceIdx_holds h4, ht]
      rfl
    | binary =>
      have h70 := h6.mp ht
      have hd2 : s.offset + data.length ≤ e.buf.length := by
        obtain ⟨pre, post, hbuf, h⟩ := h4
        rw [hbuf]; simp; omega
      have a1 : addU e.mode s.offset s.length = .ok (s.offset + data.length) := by rw [h3]; exact addU_ok (by omega)
      refine ⟨data, ?_, fun hx => absurd h70.2 hx.2, fun _ => rfl⟩
      unfold Sound.getBuffer
      rw [a1]
      show (sliceIdx e.buf s.offset (s.offset + data.length) >>= _) = _
      rw [sliceIdx_holds h4, ht]
      rfl

/-- C36: what is written to a writer is what `get_buffer` gives. -/
theorem C36_written (m : Mode) (buf out : Bytes) (s : Sound) :
    s.writeTo (fun w b => .ok (w ++ b)) m buf out = (s.getBuffer m buf).map (out ++ ·) := by
  unfold Sound.writeTo Sound.getBuffer
  cases addU m s.offset s.length with
  | error e => rfl
  | ok last =>
    show (sliceIdx buf s.offset last >>= _) = Except.map _ (sliceIdx buf s.offset last >>= _)
    cases sliceIdx buf s.offset last with
    | error e => rfl
    | ok data =>
      cases ht : s.ty with
      | wav =>
        show (s.wavHeader m buf >>= _) = Except.map _ (s.wavHeader m buf >>= _)
        cases s.wavHeader m buf with
        | error e => rfl
        | ok h => exact congrArg Except.ok (List.append_assoc out h data)
      | mp3 => rfl
      | binary => rfl

/-- C36 fails for data of nearly 4 GiB: a checked build panics, and the file an unchecked build makes has a wrong size field. -/
theorem C36_too_long (buf header data : Bytes) (s : Sound) (hb : buf.length < 2 ^ 63) (ht : s.ty = .wav) (hs : s.headerSize = header.length)
    (hh : Holds buf s.headerOffset header) (hl : s.length = data.length) (hd : Holds buf s.offset data) (h68 : 68 ≤ header.length)
    (hlt : data.length < 2 ^ 32) (hn : 2 ^ 32 ≤ data.length + 36) :
    s.getBuffer .checked buf = .error .panicOverflow ∧
      ∃ f, s.getBuffer .wrap buf = .ok f ∧ leNat (part f 4 8) + 2 ^ 32 + 8 = f.length := by
  have hh2 : s.headerOffset + header.length ≤ buf.length := by
    obtain ⟨pre, post, rfl, h⟩ := hh
    simp; omega
  have hd2 : s.offset + data.length ≤ buf.length := by
    obtain ⟨pre, post, rfl, h⟩ := hd
    simp; omega
  constructor
  · have a1 : addU .checked s.offset s.length = .ok (s.offset + data.length) := by rw [hl]; exact addU_ok (by omega)
    have a2 : addU .checked s.headerOffset s.headerSize = .ok (s.headerOffset + header.length) := by rw [hs]; exact addU_ok (by omega)
    have a3 : addU32 .checked s.length 36 = .error .panicOverflow := if_neg (by omega)
    unfold Sound.getBuffer
    rw [a1]
    show (sliceIdx buf s.offset (s.offset + data.length) >>= _) = _
    rw [sliceIdx_holds hd, ht]
    show (s.wavHeader .checked buf >>= _) = _
    have : s.wavHeader .checked buf = .error .panicOverflow := by
      unfold Sound.wavHeader
      rw [a2]
      show (sliceIdx buf s.headerOffset (s.headerOffset + header.length) >>= _) = _
      rw [sliceIdx_holds hh]
      show (addU32 .checked s.length 36 >>= _) = _
      rw [a3]
      rfl
    rw [this]
    rfl
  · have a3 : addU32 .wrap s.length 36 = .ok (data.length + 36 - 2 ^ 32) := by
      rw [hl]
      have : (data.length + 36) % 2 ^ 32 = data.length + 36 - 2 ^ 32 := by omega
      rw [← this]
      exact if_neg (by omega)
    refine ⟨_, wav_bytes hb ht hs hh hl hd h68 a3, ?_⟩
    have hf : (part header 52 68).length = 16 := by unfold part; rw [List.length_take, List.length_drop]; omega
    have e1 : leNat (toLE 4 (data.length + 36 - 2 ^ 32)) = data.length + 36 - 2 ^ 32 := (leNat_toLE 4 _).trans (Nat.mod_eq_of_lt (by omega))
    have l1 := length_toLE 4 (data.length + 36 - 2 ^ 32)
    have l2 := length_toLE 4 data.length
    generalize toLE 4 (data.length + 36 - 2 ^ 32) = c at e1 l1
    generalize toLE 4 data.length = d at l2
    generalize part header 52 68 = fmt at hf
    obtain ⟨c0, c1, c2, c3, rfl⟩ := list4 l1
    show leNat [c0, c1, c2, c3] + 2 ^ 32 + 8 = _
    rw [e1]
    simp only [List.length_append, List.length_cons, List.length_nil, hf, l2]
    omega

example : ∃ (buf header data : Bytes) (s : Sound), buf.length < 2 ^ 63 ∧ s.ty = .wav ∧ s.headerSize = header.length ∧ Holds buf s.headerOffset header ∧
    s.length = data.length ∧ Holds buf s.offset data ∧ 68 ≤ header.length ∧ data.length < 2 ^ 32 ∧ 2 ^ 32 ≤ data.length + 36 := by
  refine ⟨List.replicate 70 1#8 ++ List.replicate 4294967290 2#8, List.replicate 70 1#8, List.replicate 4294967290 2#8,
    { offset := 70, length := 4294967290, headerOffset := 0, headerSize := 70, duration := 5, ty := .wav }, ?_, rfl, ?_, ⟨[], _, rfl, rfl⟩, ?_, ⟨List.replicate 70 1#8, [], ?_, ?_⟩, ?_, ?_, ?_⟩ <;>
    simp only [List.length_append, List.length_replicate, List.append_nil] <;> first | omega | trivial

/-- C36: a PCM sound made by hand with a header shorter than 68 bytes makes the program panic; so does any sound whose data
is not in the buffer, for example because the file was cut off. -/
theorem C36_bad_ranges (m : Mode) (buf : Bytes) (s : Sound) (hb : buf.length < 2 ^ 63) (hl : s.length < 2 ^ 32) (ho : s.offset < 2 ^ 63) :
    (buf.length < s.offset + s.length → s.getBuffer m buf = .error .panicIndex) ∧
    (s.ty = .wav → s.offset + s.length ≤ buf.length → s.length + 36 < 2 ^ 32 → s.headerOffset + s.headerSize ≤ buf.length → s.headerSize < 68 →
      s.getBuffer m buf = .error .panicIndex) := by
  have a1 : addU m s.offset s.length = .ok (s.offset + s.length) := addU_ok (by omega)
  constructor
  · intro h
    have : sliceIdx buf s.offset (s.offset + s.length) = .error .panicIndex := if_neg (by omega)
    unfold Sound.getBuffer
    rw [a1]
    show (sliceIdx buf s.offset (s.offset + s.length) >>= _) = _
    rw [this]
    rfl
  · intro ht h1 h2 h3 h4
    have a2 : addU m s.headerOffset s.headerSize = .ok (s.headerOffset + s.headerSize) := addU_ok (by omega)
    have a3 : addU32 m s.length 36 = .ok (s.length + 36) := if_pos h2
    have s1 : sliceIdx buf s.offset (s.offset + s.length) = .ok ((buf.drop s.offset).take (s.offset + s.length - s.offset)) := if_pos ⟨by omega, h1⟩
    have s2 : sliceIdx buf s.headerOffset (s.headerOffset + s.headerSize) =
        .ok ((buf.drop s.headerOffset).take (s.headerOffset + s.headerSize - s.headerOffset)) := if_pos ⟨by omega, h3⟩
    have s3 : sliceIdx ((buf.drop s.headerOffset).take (s.headerOffset + s.headerSize - s.headerOffset)) 0x34 (0x34 + 16) = .error .panicIndex :=
      if_neg (by rw [List.length_take]; omega)
    have hw : s.wavHeader m buf = .error .panicIndex := by
      unfold Sound.wavHeader
      rw [a2]
      show (sliceIdx buf s.headerOffset (s.headerOffset + s.headerSize) >>= _) = _
      rw [s2]
      show (addU32 m s.length 36 >>= _) = _
      rw [a3]
      show (sliceIdx _ 0x34 (0x34 + 16) >>= _) = _
      rw [s3]
      rfl
    unfold Sound.getBuffer
    rw [a1]
    show (sliceIdx buf s.offset (s.offset + s.length) >>= _) = _
    rw [s1, ht]
    show (s.wavHeader m buf >>= _) = _
    rw [hw]
    rfl

/-- a sound of three bytes with a header of 70 bytes -/
example : IsWav (((({ offset := 70, length := 3, headerOffset := 0, headerSize := 70, duration := 5, ty := .wav } : Sound).getBuffer .checked
    (List.replicate 70 1#8 ++ [7#8, 8#8, 9#8])).toOption).getD []) (List.replicate 16 1#8) [7#8, 8#8, 9#8] := by
  constructor <;> decide +kernel

end Wz.Props
