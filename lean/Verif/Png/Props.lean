import Verif.Png.Model
import Verif.Pixel.PlainProps
import Verif.Keys.Props
/-!
# Properties C35 (buffer sizes) and C34 (decryption of picture data)
-/

set_option autoImplicit false

namespace Wz.Spec

/-- format codes and the number of bytes the pixels take -/
def byteCount : List (Nat × (Nat → Nat → Nat)) := [
  (1, fun w h => 2 * w * h),
  (2, fun w h => 4 * w * h),
  (257, fun w h => 2 * w * h),
  (513, fun w h => 2 * w * h),
  (769, fun w h => 2 * w * h),
  (2562, fun w h => 4 * w * h),
  (1026, fun w h => 16 * ((w + 3) / 4) * ((h + 3) / 4)),
  (2050, fun w h => 16 * ((w + 3) / 4) * ((h + 3) / 4)),
  (2304, fun w h => w * h),
  (4100, fun w h => 16 * w * h)]

/-- picture data as it is stored encrypted: every chunk with its length before it, and encrypted from the beginning of the key stream -/
def chunked (ks : Nat → Byte) (chunks : List Bytes) : Bytes :=
  (chunks.map fun c => toLE 4 c.length ++ xorStream ks c).flatten

end Wz.Spec

namespace Wz.Props
open Spec

/-! ## C35 Decoded buffer sizes match the format -/

theorem mul3_ok {m : Mode} {a b c : Nat} (h : a * b * c < 2 ^ 32) (hc : 0 < c) : mul3 m a b c = .ok (a * b * c) := by
  have h1 : a * b ≤ a * b * c := Nat.le_mul_of_pos_right _ hc
  have e1 : mulU32 m a b = .ok (a * b) := if_pos (by omega)
  have e2 : mulU32 m (a * b) c = .ok (a * b * c) := if_pos h
  unfold mul3
  rw [e1]
  exact e2

theorem format_ok {m : Mode} {p : Png} (h : p.format1 + p.format2 < 2 ^ 32) : p.format m = .ok (fmtOf (p.format1 + p.format2)) := by
  have : addU32 m p.format1 p.format2 = .ok (p.format1 + p.format2) := if_pos h
  unfold Png.format
  rw [this]
  rfl

theorem buffSize_eq {m : Mode} {p : Png} (h : p.format1 + p.format2 < 2 ^ 32) {f : Fmt} (hf : fmtOf (p.format1 + p.format2) = f) :
    p.buffSize m = f.buffSize m p.width p.height := by
  unfold Png.buffSize
  rw [format_ok h, hf]
  rfl

/-- C35: for the formats of the table the buffer has exactly the bytes the pixels (blocks) take, as long as that number fits 32 bits. -/
theorem C35_sizes (m : Mode) (p : Png) (code : Nat) (count : Nat → Nat → Nat) (ht : (code, count) ∈ byteCount)
    (hc : p.format1 + p.format2 = code) (hb : count p.width p.height < 2 ^ 32) : p.buffSize m = .ok (count p.width p.height) := by
  have hlt : p.format1 + p.format2 < 2 ^ 32 := by
    have : ∀ e ∈ byteCount, e.1 < 2 ^ 32 := by
      intro e he
      simp only [byteCount, List.mem_cons, List.not_mem_nil, or_false] at he
      rcases he with rfl | rfl | rfl | rfl | rfl | rfl | rfl | rfl | rfl | rfl <;> dsimp only <;> decide
    have := this _ ht
    dsimp only at this
    omega
  have mulc : ∀ a b c : Nat, c * a * b = a * b * c := fun a b c => by rw [Nat.mul_assoc, Nat.mul_comm]
  simp only [byteCount, List.mem_cons, Prod.mk.injEq, List.not_mem_nil, or_false] at ht
  rcases ht with ⟨h, rfl⟩ | ⟨h, rfl⟩ | ⟨h, rfl⟩ | ⟨h, rfl⟩ | ⟨h, rfl⟩ | ⟨h, rfl⟩ | ⟨h, rfl⟩ | ⟨h, rfl⟩ | ⟨h, rfl⟩ | ⟨h, rfl⟩
  all_goals
    rw [h] at hc
    dsimp only at hb ⊢
    rw [buffSize_eq hlt rfl, hc]
    first
    | (rw [mulc] at hb ⊢; exact mul3_ok hb (by decide))
    | exact if_pos hb

/-- C35: the other codes: format 3 takes four bytes for each pixel although it is decoded as DXT3; 517 two bytes for each square
of 16 × 16; 4098 (BC7) one byte for each pixel, with the height rounded down to a multiple of 4. -/
theorem C35_other_sizes (m : Mode) (p : Png) (hb : p.width * p.height * 4 < 2 ^ 32) :
    (p.format1 + p.format2 = 3 → p.buffSize m = .ok (4 * (p.width * p.height))) ∧
    (p.format1 + p.format2 = 517 → p.buffSize m = .ok (p.width * p.height / 128)) ∧
    (p.format1 + p.format2 = 4098 → p.buffSize m = .ok (p.width * (p.height - p.height % 4))) := by
  refine ⟨fun h => ?_, fun h => ?_, fun h => ?_⟩
  · rw [buffSize_eq (by omega) rfl, h]
    rw [Nat.mul_comm 4]
    exact mul3_ok hb (by decide)
  · rw [buffSize_eq (by omega) rfl, h]
    have : mulU32 m p.width p.height = .ok (p.width * p.height) := if_pos (by omega)
    show (mulU32 m p.width p.height >>= _) = _
    rw [this]
    rfl
  · rw [buffSize_eq (by omega) rfl, h]
    have : p.width * (p.height - p.height % 4) ≤ p.width * p.height := Nat.mul_le_mul_left _ (by omega)
    exact if_pos (by omega)

/-- C35: all other codes (4097, DXT1, among them) are refused. -/
theorem C35_unknown (m : Mode) (p : Png) (h : p.format1 + p.format2 < 2 ^ 32)
    (hn : p.format1 + p.format2 ∉ [1, 2, 3, 257, 513, 517, 769, 1026, 2050, 2304, 2562, 4098, 4100]) : p.buffSize m = .error unknownFormat := by
  have hf : fmtOf (p.format1 + p.format2) = .unknown ∨ fmtOf (p.format1 + p.format2) = .dxt1 := by
    generalize p.format1 + p.format2 = c at hn
    simp only [List.mem_cons, List.not_mem_nil, or_false, not_or] at hn
    unfold fmtOf
    split <;> first | exact .inl rfl | exact .inr rfl | omega
  rcases hf with hf | hf
  · rw [buffSize_eq h hf]; rfl
  · rw [buffSize_eq h hf]; rfl

/-- the picture a format describes -/
def Decoded (code : Nat) (px : Bytes) (w h : Nat) : Img8 → Prop
  | .rgba rows => (code = 1 ∧ PlainImage 2 Is4444 px w h rows) ∨ (code = 2 ∧ PlainImage 4 Is8888 px w h rows) ∨
      (code = 257 ∧ PlainImage 2 Is1555 px w h rows) ∨ (code = 2562 ∧ PlainImage 4 Is1010102 px w h rows) ∨
      (code = 1026 ∧ DxtImage Alpha3 px w h rows) ∨ (code = 2050 ∧ DxtImage Alpha5 px w h rows)
  | .rgb rows => (code = 513 ∧ PlainImage 2 Is565 px w h rows) ∨ (code = 517 ∧ SquareImage px w h rows)
  | .rgba16 rows => code = 769 ∧ PlainImage 2 IsR16 px w h rows

theorem quarters (a b : Nat) : a / 4 * (b / 4) * 16 ≤ a * b := by
  have h : a / 4 * 4 * (b / 4 * 4) ≤ a * b := Nat.mul_le_mul (by omega) (by omega)
  rw [Nat.mul_mul_mul_comm] at h
  exact h

/-- C35: a buffer of this size is enough for the decoder of the format: it makes the picture the bytes describe.  For DXT3 and
DXT5 the width must be a multiple of 4, for 517 width and height multiples of 16 (see C32). -/
theorem C35_enough_partial (bc7 : Bc7) (m : Mode) (p : Png) (px : Bytes) (hc : p.format1 + p.format2 ∈ [1, 2, 257, 513, 517, 769, 1026, 2050, 2562])
    (hs : p.buffSize m = .ok px.length) (hb : (p.width + 3) * (p.height + 3) * 4 < 2 ^ 32)
    (h4 : p.format1 + p.format2 ∈ [1026, 2050] → p.width % 4 = 0)
    (h16 : p.format1 + p.format2 = 517 → 0 < p.width ∧ p.width % 16 = 0 ∧ p.height % 16 = 0) :
    ∃ img, decodePixels bc7 m (fmtOf (p.format1 + p.format2)) px p.width p.height = .ok img ∧ Decoded (p.format1 + p.format2) px p.width p.height img := by
  have hmem := hc
  simp only [List.mem_cons, List.not_mem_nil, or_false] at hmem
  have hwh : p.width * p.height ≤ (p.width + 3) * (p.height + 3) := Nat.mul_le_mul (by omega) (by omega)
  have hq := quarters (p.width + 3) (p.height + 3)
  have hp := C32_plain m px p.width p.height (by omega)
  rw [buffSize_eq (by omega) rfl] at hs
  have size3 : ∀ {a b c : Nat}, mul3 m a b c = .ok px.length → 0 < c → a * b * c < 2 ^ 32 → a * b * c = px.length := by
    intro a b c h hc hb
    rw [mul3_ok hb hc] at h
    exact Except.ok.inj h
  rcases hmem with h | h | h | h | h | h | h | h | h <;> rw [h] at hs ⊢
  · have hl := size3 (c := 2) hs (by decide) (by omega)
    obtain ⟨img, e, hi⟩ := (hp.1 (by omega)).1
    refine ⟨.rgba img, ?_, .inl ⟨rfl, hi⟩⟩
    show (imageBgra4444 m px p.width p.height).map Img8.rgba = _
    rw [e]; rfl
  · have hl := size3 (c := 4) hs (by decide) (by omega)
    obtain ⟨img, e, hi⟩ := (hp.2 (by omega)).1
    refine ⟨.rgba img, ?_, .inr (.inl ⟨rfl, hi⟩)⟩
    show (imageBgra8888 m px p.width p.height).map Img8.rgba = _
    rw [e]; rfl
  · have hl := size3 (c := 2) hs (by decide) (by omega)
    obtain ⟨img, e, hi⟩ := (hp.1 (by omega)).2.2.1
    refine ⟨.rgba img, ?_, .inr (.inr (.inl ⟨rfl, hi⟩))⟩
    show (imageArgb1555 m px p.width p.height).map Img8.rgba = _
    rw [e]; rfl
  · have hl := size3 (c := 2) hs (by decide) (by omega)
    obtain ⟨img, e, hi⟩ := (hp.1 (by omega)).2.1
    refine ⟨.rgb img, ?_, .inl ⟨rfl, hi⟩⟩
    show (imageRgb565 m px p.width p.height).map Img8.rgb = _
    rw [e]; rfl
  · obtain ⟨g1, g2, g3⟩ := h16 h
    have hl : p.width * p.height / 128 = px.length := by
      have hm : mulU32 m p.width p.height = .ok (p.width * p.height) := if_pos (by omega)
      replace hs : (mulU32 m p.width p.height >>= fun x => (pure (x / 128) : Except Err Nat)) = .ok px.length := hs
      rw [hm] at hs
      exact Except.ok.inj hs
    obtain ⟨d, img, e1, e2, hi⟩ := C32_squares m px p.width p.height g1 g2 g3 (by omega) (by omega)
    refine ⟨.rgb img, ?_, .inr ⟨rfl, hi⟩⟩
    show (pixels517 m px p.width p.height >>= fun d => (imageRgb565 m d p.width p.height).map Img8.rgb) = _
    rw [e1]
    show (imageRgb565 m d p.width p.height).map Img8.rgb = _
    rw [e2]; rfl
  · have hl := size3 (c := 2) hs (by decide) (by omega)
    obtain ⟨img, e, hi⟩ := (hp.1 (by omega)).2.2.2
    refine ⟨.rgba16 img, ?_, ⟨rfl, hi⟩⟩
    show (imageR16 m px p.width p.height).map Img8.rgba16 = _
    rw [e]; rfl
  · have hl := size3 (c := 16) hs (by decide) (by omega)
    obtain ⟨img, e, hi⟩ := (C32_default_partial px p.width p.height (h4 (by rw [h]; decide)) hl.symm).1
    refine ⟨.rgba img, ?_, .inr (.inr (.inr (.inr (.inl ⟨rfl, hi⟩))))⟩
    show (dxtImagePar blockAlpha3 px p.width p.height).map Img8.rgba = _
    rw [e]; rfl
  · have hl := size3 (c := 16) hs (by decide) (by omega)
    obtain ⟨img, e, hi⟩ := (C32_default_partial px p.width p.height (h4 (by rw [h]; decide)) hl.symm).2
    refine ⟨.rgba img, ?_, .inr (.inr (.inr (.inr (.inr ⟨rfl, hi⟩))))⟩
    show (dxtImagePar blockAlpha5 px p.width p.height).map Img8.rgba = _
    rw [e]; rfl
  · have hl := size3 (c := 4) hs (by decide) (by omega)
    obtain ⟨img, e, hi⟩ := (hp.2 (by omega)).2
    refine ⟨.rgba img, ?_, .inr (.inr (.inr (.inl ⟨rfl, hi⟩)))⟩
    show (imageRgba1010102 m px p.width p.height).map Img8.rgba = _
    rw [e]; rfl

/-- C35 fails for BC7: unless width and height are multiples of 4 the buffer is smaller than the blocks of 16 bytes. -/
theorem C35_bc7_too_small (m : Mode) (p : Png) (hc : p.format1 + p.format2 = 4098) (hw : 0 < p.width) (hh : 0 < p.height)
    (hn : p.width % 4 ≠ 0 ∨ p.height % 4 ≠ 0) (hb : p.width * p.height * 4 < 2 ^ 32) :
    ∃ n, p.buffSize m = .ok n ∧ n < (p.width + 3) / 4 * ((p.height + 3) / 4) * 16 := by
  refine ⟨_, (C35_other_sizes m p hb).2.2 hc, ?_⟩
  have e : (p.width + 3) / 4 * ((p.height + 3) / 4) * 16 = (p.width + 3) / 4 * 4 * ((p.height + 3) / 4 * 4) := by rw [Nat.mul_mul_mul_comm]
  rw [e]
  have h2 : p.height - p.height % 4 ≤ (p.height + 3) / 4 * 4 := by omega
  by_cases hw4 : p.width % 4 = 0
  · have h3 : p.height - p.height % 4 < (p.height + 3) / 4 * 4 := by omega
    have e2 : (p.width + 3) / 4 * 4 = p.width := by omega
    rw [e2]
    exact Nat.mul_lt_mul_of_pos_left h3 hw
  · have h3 : p.width < (p.width + 3) / 4 * 4 := by omega
    exact Nat.lt_of_le_of_lt (Nat.mul_le_mul_left _ h2) (Nat.mul_lt_mul_of_pos_right h3 (by omega))

/-- C35: what happens to a size above 32 bits: with overflow checks a panic, without them a wrong, smaller size. -/
theorem C35_overflow (p : Png) (hc : p.format1 + p.format2 = 2) (hb : 2 ^ 32 ≤ p.width * p.height * 4) (h1 : p.width * p.height < 2 ^ 32) :
    p.buffSize .checked = .error .panicOverflow ∧ p.buffSize .wrap = .ok (p.width * p.height * 4 % 2 ^ 32) := by
  rw [buffSize_eq (by omega) rfl, buffSize_eq (by omega) rfl, hc]
  have e1 : ∀ m, mulU32 m p.width p.height = .ok (p.width * p.height) := fun m => if_pos h1
  have e2 : mulU32 .checked (p.width * p.height) 4 = .error .panicOverflow := if_neg (by omega)
  have e3 : mulU32 .wrap (p.width * p.height) 4 = .ok (p.width * p.height * 4 % 2 ^ 32) := if_neg (by omega)
  constructor
  · show (mulU32 .checked p.width p.height >>= fun x => mulU32 .checked x 4) = _
    rw [e1]
    exact e2
  · show (mulU32 .wrap p.width p.height >>= fun x => mulU32 .wrap x 4) = _
    rw [e1]
    exact e3

example : ({ offset := 0, size := 0, format1 := 1024, format2 := 2, header := 0, pages := 0, width := 8, height := 6 } : Png).buffSize .checked = .ok 64 := rfl
example : ({ offset := 0, size := 0, format1 := 4096, format2 := 2, header := 0, pages := 0, width := 8, height := 6 } : Png).buffSize .checked = .ok 32 := rfl
example : ({ offset := 0, size := 0, format1 := 2, format2 := 0, header := 0, pages := 0, width := 32768, height := 32768 } : Png).buffSize .wrap = .ok 0 := rfl

/-! ## C34 Image data decrypts chunk by chunk -/

theorem xorStream_twice (ks : Nat → Byte) (data : Bytes) : xorStream ks (xorStream ks data) = data := by
  unfold xorStream
  refine List.ext_getElem (by simp) fun i h1 h2 => ?_
  simp only [List.getElem_mapIdx, BitVec.xor_assoc, BitVec.xor_self, BitVec.xor_zero]

theorem length_xorStream (ks : Nat → Byte) (data : Bytes) : (xorStream ks data).length = data.length := by simp [xorStream]

theorem rawChunks_ok {aes : Aes} (ha : aes.Sized) {m : Mode} {post : Bytes} {iv key : Bytes} (chunks : List Bytes) :
    ∀ {pre acc : Bytes} {keys : Ecb} {n : Nat}, keys.Good aes → keys.iv = iv → keys.aesKey = key → chunks.length ≤ n →
    (∀ c ∈ chunks, c.length < 2 ^ 31) → pre.length + (chunked (keyByte aes key iv) chunks).length < 2 ^ 64 →
    ∃ keys', rawChunks aes m (pre ++ chunked (keyByte aes key iv) chunks ++ post) (pre.length + (chunked (keyByte aes key iv) chunks).length) n pre.length acc keys =
      .ok (acc ++ chunks.flatten, keys') ∧ keys'.Good aes ∧ keys'.iv = iv ∧ keys'.aesKey = key := by
  induction chunks with
  | nil =>
    intro pre acc keys n hg hi hk _ _ _
    refine ⟨keys, ?_, hg, hi, hk⟩
    unfold rawChunks
    rw [if_neg (by show ¬ pre.length < pre.length + 0; omega)]
    rw [List.flatten_nil, List.append_nil]
  | cons c cs ih =>
    intro pre acc keys n hg hi hk hn hc hlt
    have hc0 := hc c (.head _)
    have hcons : chunked (keyByte aes key iv) (c :: cs) = toLE 4 c.length ++ xorStream (keyByte aes key iv) c ++ chunked (keyByte aes key iv) cs := by
      unfold chunked
      rw [List.map_cons, List.flatten_cons]
    rw [hcons] at hlt ⊢
    simp only [List.length_append, length_toLE, length_xorStream] at hlt ⊢
    obtain ⟨n, rfl⟩ : ∃ k, n = k + 1 := ⟨n - 1, by rw [List.length_cons] at hn; omega⟩
    have hbuf : pre ++ (toLE 4 c.length ++ xorStream (keyByte aes key iv) c ++ chunked (keyByte aes key iv) cs) ++ post =
        pre ++ toLE 4 c.length ++ xorStream (keyByte aes key iv) c ++ chunked (keyByte aes key iv) cs ++ post := by simp only [List.append_assoc]
    have hread : readAt (pre ++ (toLE 4 c.length ++ xorStream (keyByte aes key iv) c ++ chunked (keyByte aes key iv) cs) ++ post) 4 pre.length = .ok c.length := by
      unfold readAt
      rw [if_pos (by simp only [List.length_append, length_toLE]; omega), List.append_assoc, List.drop_left' rfl, List.append_assoc, List.append_assoc,
        List.take_left' (length_toLE _ _), leNat_toLE]
      rw [Nat.mod_eq_of_lt (by omega)]
    have hsize : asUsize (signed 32 c.length) = c.length := by
      unfold signed
      rw [BitVec.toInt_ofNat', asUsize_nonneg]
      · rw [Int.bmod_eq_of_le (by omega) (by omega)]; omega
      · rw [Int.bmod_eq_of_le (by omega) (by omega)]; omega
      · rw [Int.bmod_eq_of_le (by omega) (by omega)]; omega
    have hadd : addU m (pre.length + 4) c.length = .ok (pre.length + 4 + c.length) := if_pos (by omega)
    have hslice : sliceIdx (pre ++ (toLE 4 c.length ++ xorStream (keyByte aes key iv) c ++ chunked (keyByte aes key iv) cs) ++ post) (pre.length + 4) (pre.length + 4 + c.length) =
        .ok (xorStream (keyByte aes key iv) c) := by
      unfold sliceIdx
      rw [if_pos ⟨by omega, by simp only [List.length_append, length_toLE, length_xorStream]; omega⟩, hbuf]
      congr 1
      rw [show pre.length + 4 + c.length - (pre.length + 4) = c.length by omega, List.append_assoc, List.append_assoc,
        List.drop_left' (by rw [List.length_append, length_toLE]), List.take_left' (length_xorStream _ _)]
    obtain ⟨hg', hi', hk', hw', _, hsz⟩ := Ecb.ensure_good ha hg (Ecb.ensure_run ha hg c.length)
    have hens := Ecb.ensure_run ha hg c.length
    generalize hkeys : (if keys.withoutDecrypt = true ∨ c.length ≤ keys.keys.length then keys
      else { keys with keys := streamPrefix aes keys.aesKey keys.iv (Ecb.roundUp c.length) }) = keys1 at hens hg' hi' hk' hw' hsz
    have hdec : keys1.decrypt (xorStream (keyByte aes key iv) c) = .ok c := by
      rw [Ecb.decrypt_run hg' _ (by
        rw [length_xorStream]
        cases hw : keys1.withoutDecrypt with
        | true => exact .inl rfl
        | false => exact .inr (hsz (by rw [← hw', hw]))), hk', hi', hk, hi, xorStream_twice]
    obtain ⟨keys2, e2, g2, i2, k2⟩ := ih (pre := pre ++ toLE 4 c.length ++ xorStream (keyByte aes key iv) c) (acc := acc ++ c) (n := n) hg' (hi'.trans hi) (hk'.trans hk)
      (by rw [List.length_cons] at hn; omega) (fun c hc' => hc c (.tail _ hc')) (by simp only [List.length_append, length_toLE, length_xorStream]; omega)
    refine ⟨keys2, ?_, g2, i2, k2⟩
    unfold rawChunks
    rw [if_pos (by omega)]
    dsimp only
    rw [hread]
    dsimp only
    rw [hsize, hadd]
    dsimp only
    rw [hslice]
    dsimp only
    rw [length_xorStream, hens]
    dsimp only
    rw [hdec]
    dsimp only
    rw [hbuf, List.flatten_cons, ← List.append_assoc acc]
    simp only [List.length_append, length_toLE, length_xorStream] at e2
    rw [show pre.length + (4 + c.length + (chunked (keyByte aes key iv) cs).length) = pre.length + 4 + c.length + (chunked (keyByte aes key iv) cs).length by omega]
    exact e2

theorem chunks_le (ks : Nat → Byte) (chunks : List Bytes) : chunks.length ≤ (chunked ks chunks).length := by
  induction chunks with
  | nil => exact Nat.le_refl _
  | cons c cs ih =>
    have : (chunked ks (c :: cs)).length = 4 + c.length + (chunked ks cs).length := by
      unfold chunked
      rw [List.map_cons, List.flatten_cons, List.length_append, List.length_append, length_toLE, length_xorStream]
    rw [List.length_cons]
    omega

/-- C34: whatever the chunks and the key stream, what is decompressed is the plain data (without its first two bytes): the data of the chunks put together. -/
theorem C34_encrypted (inflate : Inflate) (aes : Aes) (ha : aes.Sized) (iv key : Bytes) (hiv : iv.length = 4) (ops : List KeyOp) (m : Mode)
    (p : Png) (capacity : Nat) (hcap : p.buffSize m = .ok capacity) (pre post : Bytes) (chunks : List Bytes) (head z : Bytes)
    (hplain : chunks.flatten = head ++ z) (hhead : head.length = 2) (hsmall : ∀ c ∈ chunks, c.length < 2 ^ 31)
    (ho : p.offset = pre.length) (hs : p.size = (chunked (keyByte aes key iv) chunks).length) (hlen : p.offset + p.size < 2 ^ 64)
    (hno : p.hasZlibHeader = false ∨ ∃ e, inflate true (chunked (keyByte aes key iv) chunks) capacity = .error e) :
    (p.rawData inflate aes m (pre ++ chunked (keyByte aes key iv) chunks ++ post) (chunked (keyByte aes key iv) chunks)
      (ops.foldl (KeyOp.after aes) (Ecb.new iv key))).map Prod.fst = inflate false z capacity := by
  obtain ⟨hg, h1, h2, _⟩ := history_good ha (Ecb.good_new aes iv key hiv) ops
  obtain ⟨keys', e, _⟩ := rawChunks_ok ha (iv := iv) (key := key) (m := m) (post := post) (n := p.size) (acc := []) chunks hg h1 h2 (by rw [hs]; exact chunks_le _ _) hsmall (by
    rw [← ho, ← hs]; exact hlen) (pre := pre)
  unfold Png.rawData
  rw [hcap]
  have hfirst : (if p.hasZlibHeader then inflate true (chunked (keyByte aes key iv) chunks) capacity else .error (.lib "UnsupportedHeader")) =
      .error (match p.hasZlibHeader with
        | true => (match inflate true (chunked (keyByte aes key iv) chunks) capacity with
          | .error e => e
          | .ok _ => .read)
        | false => (.lib "UnsupportedHeader")) := by
    rcases hno with h | ⟨e, h⟩
    · rw [h]; rfl
    · cases hz : p.hasZlibHeader
      · rfl
      · rw [if_pos rfl, h]
  have hadd : addU m p.offset p.size = .ok (p.offset + p.size) := if_pos hlen
  show Except.map Prod.fst (match (if p.hasZlibHeader then inflate true (chunked (keyByte aes key iv) chunks) capacity else .error (.lib "UnsupportedHeader")) with
    | .ok r => _
    | .error _ => _) = _
  rw [hfirst]
  show Except.map Prod.fst (addU m p.offset p.size >>= _) = _
  rw [hadd]
  show Except.map Prod.fst (rawChunks aes m _ (p.offset + p.size) (p.offset + p.size - p.offset) p.offset [] _ >>= _) = _
  rw [show p.offset + p.size - p.offset = p.size by omega]
  rw [ho, hs]
  rw [hs] at e
  rw [e]
  show Except.map Prod.fst (sliceIdx ([] ++ chunks.flatten) 2 ([] ++ chunks.flatten).length >>= _) = _
  have hsl : sliceIdx ([] ++ chunks.flatten) 2 ([] ++ chunks.flatten).length = .ok z := by
    unfold sliceIdx
    rw [List.nil_append, hplain, if_pos ⟨by rw [List.length_append]; omega, Nat.le_refl _⟩, List.drop_left' hhead, List.length_append, hhead, Nat.add_sub_cancel_left,
      List.take_length]
  rw [hsl]
  show Except.map Prod.fst (inflate false z capacity >>= fun r => pure (r, keys')) = _
  cases inflate false z capacity <;> rfl

/-- two chunks behind one other byte, for any key of four bytes -/
example (inflate : Inflate) (aes : Aes) (ha : aes.Sized) (key : Bytes) (a b c d : Byte) (m : Mode) :
    (({ offset := 1, size := 11, format1 := 1, format2 := 0, header := 0, pages := 0, width := 1, height := 1 } : Png).rawData inflate aes m
      ([7#8] ++ chunked (keyByte aes key [a, b, c, d]) [[0x78#8], [0x9C#8, 9#8]] ++ [8#8]) (chunked (keyByte aes key [a, b, c, d]) [[0x78#8], [0x9C#8, 9#8]])
      ([KeyOp.ensure 5].foldl (KeyOp.after aes) (Ecb.new [a, b, c, d] key))).map Prod.fst = inflate false [9#8] 2 :=
  C34_encrypted inflate aes ha [a, b, c, d] key rfl _ m _ 2 (by cases m <;> rfl) [7#8] [8#8] [[0x78#8], [0x9C#8, 9#8]] [0x78#8, 0x9C#8] [9#8] rfl rfl (by decide) rfl
    (by rfl) (by decide) (.inl rfl)

/-- C34: two ways to cut the same data into chunks give the same result. -/
theorem C34_chunking (inflate : Inflate) (aes : Aes) (ha : aes.Sized) (iv key : Bytes) (hiv : iv.length = 4) (ops ops' : List KeyOp) (m : Mode)
    (p q : Png) (hpq : q.buffSize m = p.buffSize m) (capacity : Nat) (hcap : p.buffSize m = .ok capacity) (hz : p.hasZlibHeader = false) (hz' : q.hasZlibHeader = false)
    (pre post pre' post' : Bytes) (chunks chunks' : List Bytes)
    (hsame : chunks.flatten = chunks'.flatten) (h2 : 2 ≤ chunks.flatten.length) (hsmall : ∀ c ∈ chunks ++ chunks', c.length < 2 ^ 31)
    (ho : p.offset = pre.length) (hs : p.size = (chunked (keyByte aes key iv) chunks).length) (hlen : p.offset + p.size < 2 ^ 64)
    (ho' : q.offset = pre'.length) (hs' : q.size = (chunked (keyByte aes key iv) chunks').length) (hlen' : q.offset + q.size < 2 ^ 64) :
    (p.rawData inflate aes m (pre ++ chunked (keyByte aes key iv) chunks ++ post) (chunked (keyByte aes key iv) chunks)
      (ops.foldl (KeyOp.after aes) (Ecb.new iv key))).map Prod.fst =
    (q.rawData inflate aes m (pre' ++ chunked (keyByte aes key iv) chunks' ++ post') (chunked (keyByte aes key iv) chunks')
      (ops'.foldl (KeyOp.after aes) (Ecb.new iv key))).map Prod.fst := by
  have hsplit : chunks.flatten = chunks.flatten.take 2 ++ chunks.flatten.drop 2 := (List.take_append_drop 2 _).symm
  have hl : (chunks.flatten.take 2).length = 2 := by rw [List.length_take]; omega
  rw [C34_encrypted inflate aes ha iv key hiv ops m p capacity hcap pre post chunks _ _ hsplit hl (fun c hc => hsmall c (List.mem_append_left _ hc)) ho hs hlen (.inl hz),
    C34_encrypted inflate aes ha iv key hiv ops' m q capacity (hpq.trans hcap) pre' post' chunks' _ _ (hsame.symm.trans hsplit) hl
      (fun c hc => hsmall c (List.mem_append_right _ hc)) ho' hs' hlen' (.inl hz')]

example (inflate : Inflate) (aes : Aes) (ha : aes.Sized) (key : Bytes) (a b c d : Byte) (m : Mode) :
    (({ offset := 1, size := 11, format1 := 1, format2 := 0, header := 0, pages := 0, width := 1, height := 1 } : Png).rawData inflate aes m
      ([7#8] ++ chunked (keyByte aes key [a, b, c, d]) [[0x78#8], [0x9C#8, 9#8]] ++ [8#8]) (chunked (keyByte aes key [a, b, c, d]) [[0x78#8], [0x9C#8, 9#8]])
      ([KeyOp.ensure 5].foldl (KeyOp.after aes) (Ecb.new [a, b, c, d] key))).map Prod.fst =
    (({ offset := 0, size := 7, format1 := 1, format2 := 0, header := 0, pages := 0, width := 1, height := 1 } : Png).rawData inflate aes m
      ([] ++ chunked (keyByte aes key [a, b, c, d]) [[0x78#8, 0x9C#8, 9#8]] ++ []) (chunked (keyByte aes key [a, b, c, d]) [[0x78#8, 0x9C#8, 9#8]])
      ([KeyOp.ensure 5].foldl (KeyOp.after aes) (Ecb.new [a, b, c, d] key))).map Prod.fst :=
  C34_chunking inflate aes ha [a, b, c, d] key rfl [.ensure 5] [.ensure 5] m
    { offset := 1, size := 11, format1 := 1, format2 := 0, header := 0, pages := 0, width := 1, height := 1 }
    { offset := 0, size := 7, format1 := 1, format2 := 0, header := 0, pages := 0, width := 1, height := 1 } (by cases m <;> rfl) 2 (by cases m <;> rfl) rfl rfl [7#8] [8#8] [] [] [[0x78#8], [0x9C#8, 9#8]] [[0x78#8, 0x9C#8, 9#8]] rfl
    (by decide) (by decide) rfl (by rfl) (by decide) rfl (by rfl) (by decide)

/-- C34: data that starts like a zlib stream and can be decompressed is taken as it is; the keys are not touched. -/
theorem C34_plain (inflate : Inflate) (aes : Aes) (m : Mode) (buf : Bytes) (p : Png) (data r : Bytes) (keys : Ecb) (capacity : Nat)
    (hcap : p.buffSize m = .ok capacity) (hz : p.header ∈ [0x9C78, 0xDA78, 0x0178, 0x5E78]) (hi : inflate true data capacity = .ok r) :
    p.rawData inflate aes m buf data keys = .ok (r, keys) := by
  have hz : p.hasZlibHeader = true := by
    unfold Png.hasZlibHeader
    simp only [List.mem_cons, List.not_mem_nil, or_false] at hz
    rcases hz with h | h | h | h <;> rw [h] <;> rfl
  unfold Png.rawData
  rw [hcap]
  show (match (if p.hasZlibHeader then inflate true data capacity else .error (.lib "UnsupportedHeader")) with
    | .ok r => _
    | .error _ => _) = _
  rw [hz, if_pos rfl, hi]
  rfl

/-- the loop without its fuel: it ends, or fails for a reason of the program -/
theorem rawChunks_fuel {aes : Aes} (ha : aes.Sized) {m : Mode} {buf : Bytes} {stop : Nat} (n : Nat) : ∀ {offset : Nat} {acc : Bytes} {keys : Ecb}, keys.Good aes →
    stop ≤ offset + 4 * n → rawChunks aes m buf stop n offset acc keys ≠ .error .fuel := by
  induction n with
  | zero =>
    intro offset acc keys _ h
    unfold rawChunks
    rw [if_neg (by omega)]
    exact fun h => by cases h
  | succ n ih =>
    intro offset acc keys hg h
    unfold rawChunks
    by_cases hlt : offset < stop
    · rw [if_pos hlt]
      dsimp only
      cases hr : readAt buf 4 offset with
      | error e => exact fun h => by cases h
      | ok v =>
        dsimp only
        cases hA : addU m (offset + 4) (asUsize (signed 32 v)) with
        | error e =>
          dsimp only
          intro h
          cases h
          unfold addU at hA
          split at hA
          · cases hA
          · cases m <;> cases hA
        | ok last =>
          dsimp only
          unfold sliceIdx
          by_cases hs : offset + 4 ≤ last ∧ last ≤ buf.length
          · rw [if_pos hs]
            dsimp only
            obtain ⟨hg', hi', hk', hw', _, hsz⟩ := Ecb.ensure_good ha hg (Ecb.ensure_run ha hg ((buf.drop (offset + 4)).take (last - (offset + 4))).length)
            rw [Ecb.ensure_run ha hg]
            dsimp only
            rw [Ecb.decrypt_run hg' _ (by
              by_cases hw : keys.withoutDecrypt = true
              · exact .inl (hw'.trans hw)
              · exact .inr (hsz (Bool.eq_false_iff.mpr hw)))]
            exact ih hg' (by omega)
          · rw [if_neg hs]
            exact fun h => by cases h
    · rw [if_neg hlt]
      exact fun h => by cases h

/-- C34: reading picture data always ends (the bound on the number of chunks is never reached). -/
theorem C34_ends (inflate : Inflate) (hinf : ∀ b d c, inflate b d c ≠ .error .fuel) (aes : Aes) (ha : aes.Sized) (iv key : Bytes) (hiv : iv.length = 4) (ops : List KeyOp)
    (m : Mode) (buf data : Bytes) (p : Png) :
    p.rawData inflate aes m buf data (ops.foldl (KeyOp.after aes) (Ecb.new iv key)) ≠ .error .fuel := by
  obtain ⟨hg, h1, h2, _⟩ := history_good ha (Ecb.good_new aes iv key hiv) ops
  generalize ops.foldl (KeyOp.after aes) (Ecb.new iv key) = keys at hg
  have hmul : ∀ m a b, mulU32 m a b ≠ .error .fuel := by
    intro m a b h
    unfold mulU32 at h
    split at h
    · cases h
    · cases m <;> cases h
  have hmul3 : ∀ m a b c, mul3 m a b c ≠ .error .fuel := by
    intro m a b c h
    unfold mul3 at h
    cases h1 : mulU32 m a b with
    | error e => rw [h1] at h; cases h; exact hmul _ _ _ h1
    | ok x => rw [h1] at h; exact hmul _ _ _ h
  have hbs : ∀ f : Fmt, ∀ w h, f.buffSize m w h ≠ .error .fuel := by
    intro f w h he
    cases f <;> first
      | exact hmul3 _ _ _ _ he
      | exact hmul _ _ _ he
      | (change (Except.error unknownFormat : Except Err Nat) = _ at he; cases he)
      | skip
    change (mulU32 m w h >>= fun x => (pure (x / 128) : Except Err Nat)) = _ at he
    cases h1 : mulU32 m w h with
    | error e => rw [h1] at he; cases he; exact hmul _ _ _ h1
    | ok x => rw [h1] at he; cases he
  unfold Png.rawData
  cases hb : p.buffSize m with
  | error e =>
    intro h
    cases h
    unfold Png.buffSize Png.format at hb
    cases hf : addU32 m p.format1 p.format2 with
    | error e =>
      rw [hf] at hb
      cases hb
      unfold addU32 at hf
      split at hf
      · cases hf
      · cases m <;> cases hf
    | ok v =>
      rw [hf] at hb
      exact hbs _ _ _ hb
  | ok capacity =>
    show (match (if p.hasZlibHeader then inflate true data capacity else .error (.lib "UnsupportedHeader")) with
      | .ok r => pure (r, keys)
      | .error _ => _) ≠ _
    cases (if p.hasZlibHeader then inflate true data capacity else .error (.lib "UnsupportedHeader")) with
    | ok r => exact fun h => by cases h
    | error _ =>
      show (addU m p.offset p.size >>= _) ≠ _
      cases hA : addU m p.offset p.size with
      | error e =>
        intro h
        cases h
        unfold addU at hA
        split at hA
        · cases hA
        · cases m <;> cases hA
      | ok stop =>
        show (rawChunks aes m buf stop (stop - p.offset) p.offset [] keys >>= _) ≠ _
        have hf := rawChunks_fuel ha (m := m) (buf := buf) (stop := stop) (stop - p.offset) (offset := p.offset) (acc := []) hg (by omega)
        cases hr : rawChunks aes m buf stop (stop - p.offset) p.offset [] keys with
        | error e => intro h; cases h; exact hf hr
        | ok r =>
          obtain ⟨plain, keys'⟩ := r
          show (sliceIdx plain 2 plain.length >>= _) ≠ _
          unfold sliceIdx
          split
          · show (inflate false _ capacity >>= _) ≠ _
            cases hi : inflate false ((plain.drop 2).take (plain.length - 2)) capacity with
            | error e => intro h; cases h; exact hinf _ _ _ hi
            | ok r => exact fun h => by cases h
          · exact fun h => by cases h

/-- what is done when the data is not a plain zlib stream -/
theorem rawData_fallback {inflate : Inflate} {aes : Aes} {m : Mode} {buf data : Bytes} {p : Png} {keys : Ecb} {capacity : Nat} (hcap : p.buffSize m = .ok capacity)
    (hz : p.hasZlibHeader = false) (hlen : p.offset + p.size < 2 ^ 64) :
    p.rawData inflate aes m buf data keys = (rawChunks aes m buf (p.offset + p.size) p.size p.offset [] keys >>= fun r => do
      let z ← sliceIdx r.1 2 r.1.length
      let x ← inflate false z capacity
      return (x, r.2)) := by
  unfold Png.rawData
  rw [hcap]
  have hadd : addU m p.offset p.size = .ok (p.offset + p.size) := if_pos hlen
  show (match (if p.hasZlibHeader then inflate true data capacity else .error (.lib "UnsupportedHeader")) with
    | .ok r => _
    | .error _ => _) = _
  rw [hz, if_neg (by decide)]
  show (addU m p.offset p.size >>= _) = _
  rw [hadd]
  show (rawChunks aes m _ (p.offset + p.size) (p.offset + p.size - p.offset) p.offset [] _ >>= _) = _
  rw [show p.offset + p.size - p.offset = p.size by omega]

/-- C34: an unknown header is never reported: the data is taken for encrypted chunks.  Empty data, or chunks with fewer than
two bytes in all, then make the program panic. -/
theorem C34_short_panics (inflate : Inflate) (aes : Aes) (ha : aes.Sized) (iv key : Bytes) (hiv : iv.length = 4) (ops : List KeyOp) (m : Mode)
    (p : Png) (capacity : Nat) (hcap : p.buffSize m = .ok capacity) (hz : p.hasZlibHeader = false) (pre post : Bytes) (chunks : List Bytes)
    (hshort : chunks.flatten.length < 2) (ho : p.offset = pre.length) (hs : p.size = (chunked (keyByte aes key iv) chunks).length) (hlen : p.offset + p.size < 2 ^ 64) :
    p.rawData inflate aes m (pre ++ chunked (keyByte aes key iv) chunks ++ post) (chunked (keyByte aes key iv) chunks)
      (ops.foldl (KeyOp.after aes) (Ecb.new iv key)) = .error .panicIndex := by
  obtain ⟨hg, h1, h2, _⟩ := history_good ha (Ecb.good_new aes iv key hiv) ops
  have hsmall : ∀ c ∈ chunks, c.length < 2 ^ 31 := by
    intro c hc
    have := (List.sublist_flatten_of_mem hc).length_le
    omega
  obtain ⟨keys', e, _⟩ := rawChunks_ok ha (iv := iv) (key := key) (m := m) (post := post) (n := p.size) (acc := []) chunks hg h1 h2 (by rw [hs]; exact chunks_le _ _) hsmall (by
    rw [← ho, ← hs]; exact hlen) (pre := pre)
  rw [rawData_fallback hcap hz hlen, ho, hs]
  rw [hs] at e
  rw [e]
  show (sliceIdx ([] ++ chunks.flatten) 2 ([] ++ chunks.flatten).length >>= _) = _
  have : sliceIdx ([] ++ chunks.flatten) 2 ([] ++ chunks.flatten).length = .error .panicIndex := if_neg (by rw [List.nil_append]; omega)
  rw [this]
  rfl

example (inflate : Inflate) (aes : Aes) (ha : aes.Sized) (key : Bytes) (a b c d : Byte) (m : Mode) :
    ({ offset := 1, size := 5, format1 := 1, format2 := 0, header := 0, pages := 0, width := 1, height := 1 } : Png).rawData inflate aes m
      ([7#8] ++ chunked (keyByte aes key [a, b, c, d]) [[0x78#8]] ++ [8#8]) (chunked (keyByte aes key [a, b, c, d]) [[0x78#8]]) ([KeyOp.ensure 5].foldl (KeyOp.after aes) (Ecb.new [a, b, c, d] key)) =
      .error .panicIndex :=
  C34_short_panics inflate aes ha [a, b, c, d] key rfl [.ensure 5] m _ 2 (by cases m <;> rfl) rfl [7#8] [8#8] [[0x78#8]] (by decide) rfl (by rfl) (by decide)

/-- C34: if fewer than four bytes are left in the buffer where a length should be, or a length is negative, the program panics. -/
theorem C34_bad_length_panics (inflate : Inflate) (aes : Aes) (m : Mode) (buf data : Bytes) (p : Png) (keys : Ecb) (capacity : Nat)
    (hcap : p.buffSize m = .ok capacity) (hz : p.hasZlibHeader = false) (hlen : p.offset + p.size < 2 ^ 64) (hpos : 0 < p.size) (hbuf : buf.length < 2 ^ 63) :
    (buf.length < p.offset + 4 → p.rawData inflate aes m buf data keys = .error .panicUnwrap) ∧
    (∀ v, readAt buf 4 p.offset = .ok v → signed 32 v < 0 → ∃ e, e.isPanic = true ∧ p.rawData inflate aes m buf data keys = .error e) := by
  obtain ⟨n, hn⟩ : ∃ n, p.size = n + 1 := ⟨p.size - 1, by omega⟩
  constructor
  · intro hl
    rw [rawData_fallback hcap hz hlen]
    have hr : readAt buf 4 p.offset = .error .read := if_neg (by omega)
    rw [hn]
    unfold rawChunks
    rw [if_pos (by omega)]
    dsimp only
    rw [hr]
    rfl
  · intro v hv hneg
    rw [rawData_fallback hcap hz hlen, hn]
    have hb : -2 ^ 31 ≤ signed 32 v := by
      unfold signed
      have := BitVec.le_toInt (BitVec.ofNat 32 v)
      simpa using this
    have hp : p.offset + 4 ≤ buf.length := by
      unfold readAt at hv
      split at hv
      · assumption
      · cases hv
    have hsz : asUsize (signed 32 v) = (2 ^ 64 + signed 32 v).toNat := by
      unfold asUsize
      congr 1
      omega
    unfold rawChunks
    rw [if_pos (by omega)]
    dsimp only
    rw [hv]
    dsimp only
    by_cases hov : p.offset + 4 + asUsize (signed 32 v) < 2 ^ 64
    · have hadd : addU m (p.offset + 4) (asUsize (signed 32 v)) = .ok (p.offset + 4 + asUsize (signed 32 v)) := if_pos hov
      have hsl : sliceIdx buf (p.offset + 4) (p.offset + 4 + asUsize (signed 32 v)) = .error .panicIndex := if_neg (by omega)
      rw [hadd]
      dsimp only
      rw [hsl]
      exact ⟨_, rfl, rfl⟩
    · cases m with
      | checked =>
        have hadd : addU .checked (p.offset + 4) (asUsize (signed 32 v)) = .error .panicOverflow := if_neg hov
        rw [hadd]
        exact ⟨_, rfl, rfl⟩
      | wrap =>
        have hadd : addU .wrap (p.offset + 4) (asUsize (signed 32 v)) = .ok ((p.offset + 4 + asUsize (signed 32 v)) % 2 ^ 64) := if_neg hov
        have hsl : sliceIdx buf (p.offset + 4) ((p.offset + 4 + asUsize (signed 32 v)) % 2 ^ 64) = .error .panicIndex := if_neg (by omega)
        rw [hadd]
        dsimp only
        rw [hsl]
        exact ⟨_, rfl, rfl⟩

example (inflate : Inflate) (aes : Aes) (m : Mode) (keys : Ecb) : ∃ e, e.isPanic = true ∧
    ({ offset := 0, size := 5, format1 := 1, format2 := 0, header := 0, pages := 0, width := 1, height := 1 } : Png).rawData inflate aes m
      [0xFF#8, 0xFF#8, 0xFF#8, 0xFF#8, 1#8] [0xFF#8, 0xFF#8, 0xFF#8, 0xFF#8, 1#8] keys = .error e :=
  (C34_bad_length_panics inflate aes m _ _ _ keys 2 (by cases m <;> rfl) rfl (by decide) (by decide) (by decide)).2 0xFFFFFFFF (by decide) (by decide)

/-- C34 is not kept to its own block: a length that leads outside the block of the picture is followed all the same; here the
block has four bytes and its chunk is taken from what comes behind. -/
theorem C34_reads_behind : ∃ (buf : Bytes) (p : Png), p.offset + p.size = 4 ∧ ∀ (aes : Aes) (m : Mode) (inflate : Inflate),
    (p.rawData inflate aes m buf (buf.take 4) (Ecb.new ivZero [])).map Prod.fst = inflate false [7#8] 2 := by
  refine ⟨[3#8, 0#8, 0#8, 0#8, 0x78#8, 0x9C#8, 7#8], { offset := 0, size := 4, format1 := 1, format2 := 0, header := 0, pages := 0, width := 1, height := 1 }, rfl, ?_⟩
  intro aes m inflate
  rw [rawData_fallback (capacity := 2) (by cases m <;> rfl) rfl (by decide)]
  have hk : ∀ n, (Ecb.new ivZero []).ensure aes n = .ok (Ecb.new ivZero []) := by
    intro n
    unfold Ecb.ensure
    rw [if_pos (by
      have : (Ecb.new ivZero []).withoutDecrypt = true := by decide
      rw [this, Bool.or_true])]
  have e : rawChunks aes m [3#8, 0#8, 0#8, 0#8, 0x78#8, 0x9C#8, 7#8] (0 + 4) 4 0 [] (Ecb.new ivZero []) = .ok ([0x78#8, 0x9C#8, 7#8], Ecb.new ivZero []) := by
    have hr : readAt [3#8, 0#8, 0#8, 0#8, 0x78#8, 0x9C#8, 7#8] 4 0 = .ok 3 := rfl
    have ha : addU m (0 + 4) (asUsize (signed 32 3)) = .ok 7 := by cases m <;> rfl
    have hs : sliceIdx [3#8, 0#8, 0#8, 0#8, 0x78#8, 0x9C#8, 7#8] (0 + 4) 7 = .ok [0x78#8, 0x9C#8, 7#8] := rfl
    have hd : (Ecb.new ivZero []).decrypt [0x78#8, 0x9C#8, 7#8] = .ok [0x78#8, 0x9C#8, 7#8] := by decide
    unfold rawChunks
    rw [if_pos (by decide)]
    dsimp only
    rw [hr]
    dsimp only
    rw [ha]
    dsimp only
    rw [hs]
    dsimp only
    rw [hk]
    dsimp only
    rw [hd]
    dsimp only
    unfold rawChunks
    rw [if_neg (by decide)]
    rfl
  rw [show ({ offset := 0, size := 4, format1 := 1, format2 := 0, header := 0, pages := 0, width := 1, height := 1 } : Png).offset = 0 from rfl]
  rw [show ({ offset := 0, size := 4, format1 := 1, format2 := 0, header := 0, pages := 0, width := 1, height := 1 } : Png).size = 4 from rfl]
  rw [e]
  show Except.map Prod.fst (inflate false [7#8] 2 >>= fun r => pure (r, Ecb.new ivZero [])) = _
  cases inflate false [7#8] 2 <;> rfl

/-- C34 and C35 together: a picture stored encrypted in chunks, whose compressed data decompresses to as many bytes as its format
takes, is decoded to the picture those bytes describe. -/
theorem C34_picture_partial (inflate : Inflate) (bc7 : Bc7) (aes : Aes) (ha : aes.Sized) (iv key : Bytes) (hiv : iv.length = 4) (ops : List KeyOp) (m : Mode)
    (p : Png) (pre post : Bytes) (chunks : List Bytes) (head z px : Bytes)
    (hplain : chunks.flatten = head ++ z) (hhead : head.length = 2) (hsmall : ∀ c ∈ chunks, c.length < 2 ^ 31)
    (ho : p.offset = pre.length) (hs : p.size = (chunked (keyByte aes key iv) chunks).length) (hlen : p.offset + p.size < 2 ^ 64)
    (hcap : p.buffSize m = .ok px.length) (hpx : inflate false z px.length = .ok px)
    (hno : p.hasZlibHeader = false ∨ ∃ e, inflate true (chunked (keyByte aes key iv) chunks) px.length = .error e)
    (hc : p.format1 + p.format2 ∈ [1, 2, 257, 513, 517, 769, 1026, 2050, 2562])
    (hb : (p.width + 3) * (p.height + 3) * 4 < 2 ^ 32) (h4 : p.format1 + p.format2 ∈ [1026, 2050] → p.width % 4 = 0)
    (h16 : p.format1 + p.format2 = 517 → 0 < p.width ∧ p.width % 16 = 0 ∧ p.height % 16 = 0) :
    ∃ img, (p.extract inflate bc7 aes m (pre ++ chunked (keyByte aes key iv) chunks ++ post) (ops.foldl (KeyOp.after aes) (Ecb.new iv key))).map Prod.fst = .ok img ∧
      Decoded (p.format1 + p.format2) px p.width p.height img := by
  have hraw := C34_encrypted inflate aes ha iv key hiv ops m p px.length hcap pre post chunks head z hplain hhead hsmall ho hs hlen hno
  obtain ⟨img, e1, e2⟩ := C35_enough_partial bc7 m p px hc hcap hb h4 h16
  refine ⟨img, ?_, e2⟩
  rw [hpx] at hraw
  have hadd : addU m p.offset p.size = .ok (p.offset + p.size) := if_pos hlen
  have hsl : sliceIdx (pre ++ chunked (keyByte aes key iv) chunks ++ post) p.offset (p.offset + p.size) = .ok (chunked (keyByte aes key iv) chunks) := by
    unfold sliceIdx
    rw [if_pos ⟨by omega, by rw [List.length_append, List.length_append]; omega⟩, List.append_assoc, ho, List.drop_left' rfl, Nat.add_sub_cancel_left, hs, List.take_left' rfl]
  unfold Png.extract
  rw [hadd]
  show Except.map Prod.fst (sliceIdx _ p.offset (p.offset + p.size) >>= _) = _
  rw [hsl]
  show Except.map Prod.fst (p.rawData inflate aes m _ _ _ >>= _) = _
  cases hr : p.rawData inflate aes m (pre ++ chunked (keyByte aes key iv) chunks ++ post) (chunked (keyByte aes key iv) chunks)
      (ops.foldl (KeyOp.after aes) (Ecb.new iv key)) with
  | error e => rw [hr] at hraw; cases hraw
  | ok r =>
    obtain ⟨r1, r2⟩ := r
    rw [hr] at hraw
    have hr1 : r1 = px := Except.ok.inj hraw
    subst hr1
    have hcode : p.format1 + p.format2 < 2 ^ 32 := by
      simp only [List.mem_cons, List.not_mem_nil, or_false] at hc
      omega
    show Except.map Prod.fst (p.format m >>= _) = _
    rw [format_ok hcode]
    show Except.map Prod.fst (decodePixels bc7 m (fmtOf (p.format1 + p.format2)) r1 p.width p.height >>= _) = _
    rw [e1]
    rfl

example : ({ offset := 0, size := 11, format1 := 1, format2 := 0, header := 0, pages := 0, width := 1, height := 1 } : Png).buffSize .checked = .ok [0x12#8, 0x34#8].length ∧
    (chunked (fun _ => 5#8) [[0x78#8], [0x9C#8, 9#8]]).length = 11 := by decide

end Wz.Props
