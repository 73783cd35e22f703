import Verif.Pixel.PlainSpec
import Verif.Pixel.DxtPlace
/-!
# Plain images: every pixel is the value of its own bytes (part of C32 and C35)
-/

set_option autoImplicit false

namespace Wz.Props
open Spec

theorem pos_lt {x y w h : Nat} (hx : x < w) (hy : y < h) : y * w + x + 1 ≤ w * h := by
  have : (y + 1) * w ≤ h * w := Nat.mul_le_mul_right _ hy
  rw [Nat.add_mul, Nat.mul_comm h] at this
  omega

theorem pixelPos_ok {m : Mode} {w h x y k : Nat} (hx : x < w) (hy : y < h) (hb : w * h < 2 ^ 32) : pixelPos m w x y k = .ok ((y * w + x) * k) := by
  have := pos_lt hx hy
  unfold pixelPos
  have h1 : mulU32 m y w = .ok (y * w) := if_pos (by omega)
  have h2 : addU32 m x (y * w) = .ok (x + y * w) := if_pos (by omega)
  rw [h1]
  show (addU32 m x (y * w) >>= _) = _
  rw [h2, Nat.add_comm]
  rfl

theorem pos_end {x y w h k : Nat} (hx : x < w) (hy : y < h) : (y * w + x) * k + k ≤ w * h * k := by
  have := Nat.mul_le_mul_right k (pos_lt hx hy)
  rwa [Nat.add_mul, Nat.one_mul] at this

/-- images of which every pixel is made from `k` bytes -/
theorem plain_ok {α : Type} (p0 : α) {k : Nat} {is : Nat → α → Prop} {m : Mode} {raw : Bytes} {w h : Nat} {f : Nat → Except Err α}
    (hb : w * h < 2 ^ 32) (hr : w * h * k ≤ raw.length)
    (hf : ∀ i, i + k ≤ raw.length → ∃ p, f i = .ok p ∧ is (leNat (bytesAt raw i (i + k))) p) :
    ∃ img, genImage w h (fun x y => pixelPos m w x y k >>= f) = .ok img ∧ PlainImage k is raw w h img := by
  let g : Nat → Nat → α := fun x y => match f ((y * w + x) * k) with
    | .ok p => p
    | .error _ => p0
  refine ⟨_, genImage_ok (g := g) fun x y hx hy => ?_, sized_map g, fun x y hx hy => ?_⟩
  · obtain ⟨p, hp, _⟩ := hf _ (Nat.le_trans (pos_end hx hy) hr)
    rw [pixelPos_ok hx hy hb]
    show f _ = .ok (match f ((y * w + x) * k) with
      | .ok p => p
      | .error _ => p0)
    rw [hp]
  · obtain ⟨p, hp, hi⟩ := hf _ (Nat.le_trans (pos_end hx hy) hr)
    refine ⟨_, pixelAt_map g hx hy, ?_⟩
    show is _ (match f ((y * w + x) * k) with
      | .ok p => p
      | .error _ => p0)
    rw [hp]
    exact hi

/-- the pixel whose bytes are missing -/
theorem plain_short {α : Type} {k : Nat} {e : Err} {m : Mode} {raw : Bytes} {w h : Nat} {f : Nat → Except Err α} (hb : w * h < 2 ^ 32)
    (hr : raw.length < w * h * k) (hf : ∀ i, i + k ≤ raw.length → ∃ p, f i = .ok p) (he : ∀ i, raw.length < i + k → f i = .error e) :
    genImage w h (fun x y => pixelPos m w x y k >>= f) = .error e := by
  have h0 : 0 < w ∧ 0 < h := by
    rcases Nat.eq_zero_or_pos w with rfl | hw
    · rw [Nat.zero_mul, Nat.zero_mul] at hr; omega
    · rcases Nat.eq_zero_or_pos h with rfl | hh
      · rw [Nat.mul_zero, Nat.zero_mul] at hr; omega
      · exact ⟨hw, hh⟩
  refine genImage_fails (x0 := w - 1) (y0 := h - 1) (fun x y hx hy => ?_) (by omega) (by omega) ?_
  · rw [pixelPos_ok hx hy hb]
    by_cases hi : (y * w + x) * k + k ≤ raw.length
    · exact .inl (hf _ hi)
    · exact .inr (he _ (by omega))
  · rw [pixelPos_ok (by omega) (by omega) hb]
    refine he _ ?_
    have h1 : (h - 1) * w = w * h - w := by rw [Nat.sub_mul, Nat.one_mul, Nat.mul_comm]
    have h2 : w * 1 ≤ w * h := Nat.mul_le_mul_left _ h0.2
    have h3 : (h - 1) * w + (w - 1) + 1 = w * h := by omega
    have h4 := congrArg (· * k) h3
    rw [Nat.add_mul, Nat.one_mul] at h4
    omega

theorem bytes2 {raw : Bytes} {i : Nat} (h : i + 2 ≤ raw.length) : bytesAt raw i (i + 2) = [raw[i]'(by omega), raw[i + 1]'(by omega)] := by
  unfold bytesAt
  rw [show i + 2 - i = 2 by omega, List.drop_eq_getElem_cons (by omega : i < raw.length), List.drop_eq_getElem_cons (by omega : i + 1 < raw.length)]
  rfl

theorem bytes4 {raw : Bytes} {i : Nat} (h : i + 4 ≤ raw.length) :
    bytesAt raw i (i + 4) = [raw[i]'(by omega), raw[i + 1]'(by omega), raw[i + 2]'(by omega), raw[i + 3]'(by omega)] := by
  unfold bytesAt
  rw [show i + 4 - i = 4 by omega, List.drop_eq_getElem_cons (by omega : i < raw.length), List.drop_eq_getElem_cons (by omega : i + 1 < raw.length),
    List.drop_eq_getElem_cons (by omega : i + 1 + 1 < raw.length), List.drop_eq_getElem_cons (by omega : i + 1 + 1 + 1 < raw.length)]
  rfl

theorem leNat2 (a b : Byte) : leNat [a, b] = a.toNat + 256 * b.toNat := by
  show a.toNat + 256 * (b.toNat + 256 * 0) = _
  omega

theorem leNat4 (a b c d : Byte) : leNat [a, b, c, d] = ((d.toNat * 256 + c.toNat) * 256 + b.toNat) * 256 + a.toNat := by
  show a.toNat + 256 * (b.toNat + 256 * (c.toNat + 256 * (d.toNat + 256 * 0))) = _
  omega

theorem is4444 (a b : Byte) : Is4444 (leNat [a, b]) (fromBgra4444 a b) := by
  have ha := a.isLt; have hb := b.isLt
  have hv : leNat [a, b] < 2 ^ 16 := by rw [leNat2]; omega
  obtain ⟨al, r, g, bl, h1, h2, h3, h4, e⟩ := (C31_fields_cover (leNat [a, b])).2.2.1 hv
  refine ⟨al, r, g, bl, h1, h2, h3, h4, e, ?_⟩
  rw [← C31_bgra4444_fields al r g bl h1 h2 h3 h4, ← e, leNat2]
  have e1 : (a.toNat + 256 * b.toNat) % 256 = a.toNat := by omega
  have e2 : (a.toNat + 256 * b.toNat) / 256 = b.toNat := by omega
  rw [e1, e2, BitVec.ofNat_toNat, BitVec.ofNat_toNat, BitVec.setWidth_eq, BitVec.setWidth_eq]

theorem lt_of_bytesAt (raw : Bytes) (i k : Nat) : leNat (bytesAt raw i (i + k)) < 256 ^ k := by
  have h := leNat_lt (bytesAt raw i (i + k))
  refine Nat.lt_of_lt_of_le h (Nat.pow_le_pow_right (by decide) ?_)
  unfold bytesAt
  rw [List.length_take]
  omega

theorem is1555 {v : Nat} (hv : v < 2 ^ 16) : Is1555 v (fromArgb1555 (BitVec.ofNat 16 v)) := by
  obtain ⟨a, r, g, b, h1, h2, h3, h4, e⟩ := (C31_fields_cover v).2.1 hv
  exact ⟨a, r, g, b, h1, h2, h3, h4, e, by rw [← C31_argb1555_fields a r g b h1 h2 h3 h4, ← e]⟩

theorem is565' {v : Nat} (hv : v < 2 ^ 16) : Is565 v (fromRgb565 (BitVec.ofNat 16 v)) := by
  have := is565 (BitVec.ofNat 16 v)
  rwa [BitVec.toNat_ofNat, Nat.mod_eq_of_lt hv] at this

theorem is1010102 {v : Nat} (hv : v < 2 ^ 32) : Is1010102 v (fromRgba1010102 (BitVec.ofNat 32 v)) := by
  obtain ⟨a, b, g, r, h1, h2, h3, h4, e⟩ := (C31_fields_cover v).2.2.2 hv
  exact ⟨a, b, g, r, h1, h2, h3, h4, e, by rw [← C31_rgba1010102_fields a b g r h1 h4 h3 h2, ← e]⟩

theorem readAt2 {raw : Bytes} {i : Nat} (h : i + 2 ≤ raw.length) : readAt raw 2 i = .ok (leNat (bytesAt raw i (i + 2))) := by
  unfold readAt bytesAt
  rw [if_pos h, show i + 2 - i = 2 by omega]

/-! ### Every format: what is made, and what happens to short data -/

theorem f4444_ok {raw : Bytes} {i : Nat} (h : i + 2 ≤ raw.length) :
    ∃ p, (do let p0 ← idx raw i; let p1 ← idx raw (i + 1); return fromBgra4444 p0 p1 : Except Err Rgba) = .ok p ∧ Is4444 (leNat (bytesAt raw i (i + 2))) p := by
  rw [bytes2 h, idx_ok (by omega), idx_ok (by omega)]
  exact ⟨_, rfl, is4444 _ _⟩

theorem f8888_ok {raw : Bytes} {i : Nat} (h : i + 4 ≤ raw.length) :
    ∃ p, (do let p2 ← idx raw (i + 2); let p1 ← idx raw (i + 1); let p0 ← idx raw i; let p3 ← idx raw (i + 3); return fromBgra8888 p0 p1 p2 p3 : Except Err Rgba) = .ok p ∧
      Is8888 (leNat (bytesAt raw i (i + 4))) p := by
  rw [bytes4 h, idx_ok (by omega), idx_ok (by omega), idx_ok (by omega), idx_ok (by omega)]
  exact ⟨_, rfl, leNat4 _ _ _ _⟩

theorem f565_ok {raw : Bytes} {i : Nat} (h : i + 2 ≤ raw.length) :
    ∃ p, (do let c ← readAt raw 2 i; return fromRgb565 (BitVec.ofNat 16 c) : Except Err Rgb) = .ok p ∧ Is565 (leNat (bytesAt raw i (i + 2))) p := by
  rw [readAt2 h]
  exact ⟨_, rfl, is565' (lt_of_bytesAt raw i 2)⟩

theorem f1555_ok {raw : Bytes} {i : Nat} (h : i + 2 ≤ raw.length) :
    ∃ p, (do let c ← readAt raw 2 i; return fromArgb1555 (BitVec.ofNat 16 c) : Except Err Rgba) = .ok p ∧ Is1555 (leNat (bytesAt raw i (i + 2))) p := by
  rw [readAt2 h]
  exact ⟨_, rfl, is1555 (lt_of_bytesAt raw i 2)⟩

theorem fR16_ok {raw : Bytes} {i : Nat} (h : i + 2 ≤ raw.length) :
    ∃ p, (do let p0 ← idx raw i; let p1 ← idx raw (i + 1); return fromR16 (BitVec.ofNat 16 (p0.toNat + 256 * p1.toNat)) : Except Err Rgba16) = .ok p ∧
      IsR16 (leNat (bytesAt raw i (i + 2))) p := by
  have hl := lt_of_bytesAt raw i 2
  rw [bytes2 h] at hl ⊢
  rw [idx_ok (by omega), idx_ok (by omega)]
  refine ⟨_, rfl, ?_, rfl, rfl, rfl⟩
  rw [leNat2] at hl ⊢
  show _ = (BitVec.ofNat 16 _).toNat
  rw [BitVec.toNat_ofNat, Nat.mod_eq_of_lt hl]

theorem f1010102_ok {raw : Bytes} {i : Nat} (h : i + 4 ≤ raw.length) :
    ∃ p, (do let s ← sliceIdx raw i (i + 4); return fromRgba1010102 (BitVec.ofNat 32 (leNat s)) : Except Err Rgba) = .ok p ∧
      Is1010102 (leNat (bytesAt raw i (i + 4))) p := by
  have : sliceIdx raw i (i + 4) = .ok (bytesAt raw i (i + 4)) := if_pos ⟨by omega, h⟩
  rw [this]
  exact ⟨_, rfl, is1010102 (lt_of_bytesAt raw i 4)⟩

theorem idx2_short {β : Type} {raw : Bytes} {i : Nat} (h : raw.length < i + 2) (f : Byte → Byte → Except Err β) :
    (do let p0 ← idx raw i; let p1 ← idx raw (i + 1); f p0 p1) = .error .panicIndex := by
  by_cases hi : i < raw.length
  · rw [idx_ok hi]
    show (idx raw (i + 1) >>= _) = _
    rw [idx_err (by omega)]
    rfl
  · rw [idx_err (by omega)]
    rfl

theorem idx4_short {β : Type} {raw : Bytes} {i : Nat} (h : raw.length < i + 4) (f : Byte → Byte → Byte → Byte → Except Err β) :
    (do let p2 ← idx raw (i + 2); let p1 ← idx raw (i + 1); let p0 ← idx raw i; let p3 ← idx raw (i + 3); f p0 p1 p2 p3) = .error .panicIndex := by
  by_cases hi : i + 2 < raw.length
  · rw [idx_ok hi]
    show (idx raw (i + 1) >>= _) = _
    rw [idx_ok (by omega)]
    show (idx raw i >>= _) = _
    rw [idx_ok (by omega)]
    show (idx raw (i + 3) >>= _) = _
    rw [idx_err (by omega)]
    rfl
  · rw [idx_err (by omega)]
    rfl

theorem readAt2_short {β : Type} {raw : Bytes} {i : Nat} (h : raw.length < i + 2) (f : Nat → Except Err β) :
    (readAt raw 2 i >>= f) = .error .read := by
  have : readAt raw 2 i = .error .read := if_neg (by omega)
  rw [this]
  rfl

/-- C32 for the plain formats: every pixel has the colour stored for it, at its own position. -/
theorem C32_plain (m : Mode) (raw : Bytes) (w h : Nat) (hb : w * h < 2 ^ 32) :
    (w * h * 2 ≤ raw.length → (∃ img, imageBgra4444 m raw w h = .ok img ∧ PlainImage 2 Is4444 raw w h img) ∧
      (∃ img, imageRgb565 m raw w h = .ok img ∧ PlainImage 2 Is565 raw w h img) ∧
      (∃ img, imageArgb1555 m raw w h = .ok img ∧ PlainImage 2 Is1555 raw w h img) ∧
      (∃ img, imageR16 m raw w h = .ok img ∧ PlainImage 2 IsR16 raw w h img)) ∧
    (w * h * 4 ≤ raw.length → (∃ img, imageBgra8888 m raw w h = .ok img ∧ PlainImage 4 Is8888 raw w h img) ∧
      (∃ img, imageRgba1010102 m raw w h = .ok img ∧ PlainImage 4 Is1010102 raw w h img)) := by
  refine ⟨fun hr => ⟨?_, ?_, ?_, ?_⟩, fun hr => ⟨?_, ?_⟩⟩
  · exact plain_ok ⟨0#8, 0#8, 0#8, 0#8⟩ hb hr fun i hi => f4444_ok hi
  · exact plain_ok ⟨0#8, 0#8, 0#8⟩ hb hr fun i hi => f565_ok hi
  · exact plain_ok ⟨0#8, 0#8, 0#8, 0#8⟩ hb hr fun i hi => f1555_ok hi
  · exact plain_ok ⟨0#16, 0#16, 0#16, 0#16⟩ hb hr fun i hi => fR16_ok hi
  · exact plain_ok ⟨0#8, 0#8, 0#8, 0#8⟩ hb hr fun i hi => f8888_ok hi
  · exact plain_ok ⟨0#8, 0#8, 0#8, 0#8⟩ hb hr fun i hi => f1010102_ok hi

/-- C32: data that is too short never gives an image: a panic, or an error for RGB565 and ARGB1555. -/
theorem C32_plain_short (m : Mode) (raw : Bytes) (w h : Nat) (hb : w * h < 2 ^ 32) :
    (raw.length < w * h * 2 → imageBgra4444 m raw w h = .error .panicIndex ∧ imageRgb565 m raw w h = .error .read ∧
      imageArgb1555 m raw w h = .error .read ∧ imageR16 m raw w h = .error .panicIndex) ∧
    (raw.length < w * h * 4 → imageBgra8888 m raw w h = .error .panicIndex ∧ imageRgba1010102 m raw w h = .error .panicIndex) := by
  refine ⟨fun hr => ⟨?_, ?_, ?_, ?_⟩, fun hr => ⟨?_, ?_⟩⟩
  · exact plain_short hb hr (fun i hi => (f4444_ok hi).imp fun _ h => h.1) fun i hi => idx2_short hi _
  · exact plain_short hb hr (fun i hi => (f565_ok hi).imp fun _ h => h.1) fun i hi => readAt2_short hi _
  · exact plain_short hb hr (fun i hi => (f1555_ok hi).imp fun _ h => h.1) fun i hi => readAt2_short hi _
  · exact plain_short hb hr (fun i hi => (fR16_ok hi).imp fun _ h => h.1) fun i hi => idx2_short hi _
  · exact plain_short hb hr (fun i hi => (f8888_ok hi).imp fun _ h => h.1) fun i hi => idx4_short hi _
  · refine plain_short hb hr (fun i hi => (f1010102_ok hi).imp fun _ h => h.1) fun i hi => ?_
    have : sliceIdx raw i (i + 4) = .error .panicIndex := if_neg (by omega)
    rw [this]
    rfl

example : imageRgb565 .checked [0#8, 0xF8#8, 0x1F#8, 0#8] 2 1 = .ok [[⟨255#8, 0#8, 0#8⟩, ⟨0#8, 0#8, 255#8⟩]] := by decide +kernel
example : imageBgra4444 .checked [0x21#8, 0xF3#8, 0#8, 0#8] 1 2 = .ok [[⟨0x33#8, 0x22#8, 0x11#8, 0xFF#8⟩], [⟨0#8, 0#8, 0#8, 0#8⟩]] := by decide +kernel

/-! ## The format 517 -/

/-- what is to be written so far is there -/
def Filled (g : Nat → Byte) (n : Nat) (px : Bytes) (dst : Nat) : Prop := px.length = n ∧ ∀ i, i < dst → px[i]? = some (g i)

theorem Filled.set {g : Nat → Byte} {n : Nat} {px : Bytes} {dst : Nat} (h : Filled g n px dst) (hd : dst < n) {v : Byte} (hv : v = g dst) :
    setIdx px dst v = .ok (px.set dst v) ∧ Filled g n (px.set dst v) (dst + 1) := by
  refine ⟨if_pos (by rw [h.1]; exact hd), by rw [List.length_set]; exact h.1, fun i hi => ?_⟩
  by_cases e : i = dst
  · subst e
    rw [List.getElem?_set_self (by rw [h.1]; exact hd), hv]
  · rw [List.getElem?_set_ne (by omega)]
    exact h.2 i (by omega)

theorem fill517_ok {g : Nat → Byte} {n : Nat} {raw : Bytes} {i : Nat} (hi : i + 1 < raw.length) (t : Nat) : ∀ {px : Bytes} {dst : Nat}, Filled g n px dst →
    dst + 2 * t ≤ n → (∀ s, s < t → g (dst + 2 * s) = raw[i] ∧ g (dst + 2 * s + 1) = raw[i + 1]) →
    ∃ px', fill517 raw i t (px, dst) = .ok (px', dst + 2 * t) ∧ Filled g n px' (dst + 2 * t) := by
  induction t with
  | zero => intro px dst h _ _; exact ⟨px, rfl, h⟩
  | succ t ih =>
    intro px dst h hd hg
    have hg0 := hg 0 (by omega)
    obtain ⟨e1, f1⟩ := h.set (by omega) hg0.1.symm
    obtain ⟨e2, f2⟩ := f1.set (by omega) hg0.2.symm
    obtain ⟨px', e3, f3⟩ := ih f2 (by omega) (fun s hs => by
      have := hg (s + 1) (by omega)
      rw [show dst + 2 * (s + 1) = dst + 1 + 1 + 2 * s by omega] at this
      exact this)
    rw [show dst + 1 + 1 + 2 * t = dst + 2 * (t + 1) by omega] at e3 f3
    refine ⟨px', ?_, f3⟩
    unfold fill517
    rw [idx_ok (by omega)]
    show (setIdx px dst raw[i] >>= _) = _
    rw [e1]
    show (idx raw (i + 1) >>= _) = _
    rw [idx_ok hi]
    show (setIdx (px.set dst raw[i]) (dst + 1) raw[i + 1] >>= _) = _
    rw [e2]
    exact e3

theorem copy517_ok {g : Nat → Byte} {n : Nat} (t : Nat) : ∀ {px : Bytes} {src dst : Nat}, Filled g n px dst →
    dst + t ≤ n → src < dst → (∀ s, s < t → g (dst + s) = g (src + s)) →
    ∃ px', copy517 t src (px, dst) = .ok (px', dst + t) ∧ Filled g n px' (dst + t) := by
  induction t with
  | zero => intro px src dst h _ _ _; exact ⟨px, rfl, h⟩
  | succ t ih =>
    intro px src dst h hd hs hg
    have hx : px[src]? = some (g src) := h.2 src hs
    obtain ⟨e1, f1⟩ := h.set (by omega) (hg 0 (by omega)).symm
    obtain ⟨px', e3, f3⟩ := ih f1 (src := src + 1) (by omega) (by omega) (fun s hs => by
      have := hg (s + 1) (by omega)
      rw [show dst + (s + 1) = dst + 1 + s by omega, show src + (s + 1) = src + 1 + s by omega] at this
      exact this)
    rw [show dst + 1 + t = dst + (t + 1) by omega] at e3 f3
    refine ⟨px', ?_, f3⟩
    unfold copy517
    have : idx px src = .ok (g (src + 0)) := by unfold idx; rw [hx]; rfl
    rw [this]
    show (setIdx px dst (g (src + 0)) >>= _) = _
    rw [e1]
    exact e3

/-- a loop over `0..n` keeps an invariant -/
theorem foldlM_range {σ : Type} {P : Nat → σ → Prop} {f : σ → Nat → Except Err σ} {n : Nat}
    (hf : ∀ i s, i < n → P i s → ∃ s', f s i = .ok s' ∧ P (i + 1) s') {s : σ} (h0 : P 0 s) :
    ∃ s', (List.range n).foldlM f s = .ok s' ∧ P n s' := by
  induction n with
  | zero => exact ⟨s, rfl, h0⟩
  | succ n ih =>
    obtain ⟨s1, e1, p1⟩ := ih (fun i s hi => hf i s (by omega))
    obtain ⟨s2, e2, p2⟩ := hf n s1 (by omega) p1
    refine ⟨s2, ?_, p2⟩
    rw [List.range_succ, List.foldlM_append, e1]
    show (List.foldlM f s1 [n]) = _
    rw [List.foldlM_cons, e2]
    rfl

/-- byte `n` of the pixels: width `16 v` -/
def byte517 (raw : Bytes) (v n : Nat) : Byte := raw.getD ((n / 2 / (16 * v) / 16 * v + n / 2 % (16 * v) / 16) * 2 + n % 2) 0#8

/-- the byte in row `r` of the `j`-th row of squares, `c` bytes from the left -/
theorem byte517_at {raw : Bytes} {v j r c : Nat} (hr : r < 16) (hc : c < 32 * v) :
    byte517 raw v (512 * v * j + 32 * v * r + c) = raw.getD ((j * v + c / 32) * 2 + c % 2) 0#8 := by
  unfold byte517
  have h1 : (512 * v * j + 32 * v * r + c) / 2 = 16 * v * (16 * j + r) + c / 2 := by
    have : 512 * v * j + 32 * v * r + c = 2 * (16 * v * (16 * j + r)) + c := by
      rw [Nat.mul_add (16 * v)]
      have e1 : 16 * v * (16 * j) = 256 * v * j := by rw [Nat.mul_mul_mul_comm, ← Nat.mul_assoc]
      have e2 : 512 * v * j = 2 * (256 * v * j) := by rw [← Nat.mul_assoc, ← Nat.mul_assoc]
      have e3 : 32 * v * r = 2 * (16 * v * r) := by rw [← Nat.mul_assoc, ← Nat.mul_assoc]
      omega
    omega
  have h2 : (512 * v * j + 32 * v * r + c) % 2 = c % 2 := by
    have e1 : 512 * v * j = 2 * (256 * v * j) := by rw [← Nat.mul_assoc, ← Nat.mul_assoc]
    have e3 : 32 * v * r = 2 * (16 * v * r) := by rw [← Nat.mul_assoc, ← Nat.mul_assoc]
    omega
  rw [h1, h2, Nat.mul_add_div (by omega), Nat.mul_add_mod, Nat.div_eq_of_lt (by omega : c / 2 < 16 * v), Nat.mod_eq_of_lt (by omega : c / 2 < 16 * v)]
  rw [show (16 * j + r + 0) / 16 = j by omega, show c / 2 / 16 = c / 32 by omega]

theorem pixels517_ok {m : Mode} {raw : Bytes} {v u : Nat} (hb : 16 * v * (16 * u) * 2 < 2 ^ 32) (hv : 0 < v) (hr : v * u * 2 ≤ raw.length) :
    ∃ px, pixels517 m raw (16 * v) (16 * u) = .ok px ∧ px.length = 16 * v * (16 * u) * 2 ∧ ∀ n, n < px.length → px[n]? = some (byte517 raw v n) := by
  have hN : 16 * v * (16 * u) * 2 = 512 * v * u := by
    rw [Nat.mul_mul_mul_comm]
    have : 512 * v * u = 512 * (v * u) := Nat.mul_assoc _ _ _
    omega
  by_cases hu : u = 0
  · subst hu
    exact ⟨[], (by unfold pixels517; cases m <;> rfl), by rw [hN]; rfl, fun n hn => by cases hn⟩
  have hvu : 512 * v * 1 ≤ 512 * v * u := Nat.mul_le_mul_left _ (by omega)
  have m1 : mulU32 m (16 * v) (16 * u) = .ok (16 * v * (16 * u)) := if_pos (by omega)
  have m2 : mulU32 m (16 * v * (16 * u)) 2 = .ok (512 * v * u) := by rw [← hN]; exact if_pos hb
  have m3 : mulU32 m (16 * v) 2 = .ok (32 * v) := by
    rw [show 32 * v = 16 * v * 2 by omega]
    exact if_pos (by omega)
  have m4 : mulU32 m (16 * v) 32 = .ok (512 * v) := by
    rw [show 512 * v = 16 * v * 32 by omega]
    exact if_pos (by omega)
  have raw_get : ∀ i (hi : i < raw.length), raw.getD i 0#8 = raw[i] := by
    intro i hi
    rw [List.getD_eq_getElem?_getD, List.getElem?_eq_getElem hi]
    rfl
  have row : ∀ (j : Nat) (s : Bytes × Nat), j < u → (s.2 = 512 * v * j ∧ Filled (byte517 raw v) (512 * v * u) s.1 (512 * v * j)) →
      ∃ s' : Bytes × Nat, row517 m raw (16 * v) s j = .ok s' ∧ s'.2 = 512 * v * (j + 1) ∧ Filled (byte517 raw v) (512 * v * u) s'.1 (512 * v * (j + 1)) := by
    intro j s hj hs
    obtain ⟨s1, s2⟩ := s
    obtain ⟨rfl, hF⟩ := hs
    dsimp only at hF ⊢
    have hju : 512 * v * (j + 1) ≤ 512 * v * u := Nat.mul_le_mul_left _ hj
    rw [Nat.mul_add, Nat.mul_one] at hju ⊢
    have hjr : (j + 1) * v ≤ v * u := by rw [Nat.mul_comm v]; exact Nat.mul_le_mul_right _ hj
    rw [Nat.add_mul, Nat.one_mul] at hjr
    unfold row517
    rw [show 16 * v / 16 = v by omega]
    obtain ⟨⟨p1, d1⟩, e1, hd1, hF1⟩ := foldlM_range (n := v)
      (P := fun i (t : Bytes × Nat) => t.2 = 512 * v * j + 32 * i ∧ Filled (byte517 raw v) (512 * v * u) t.1 (512 * v * j + 32 * i))
      (f := fun (t : Bytes × Nat) i => fill517 raw ((i + j * v) * 2) 16 t)
      (fun i t hi ht => by
        obtain ⟨t1, t2⟩ := t
        obtain ⟨rfl, hF⟩ := ht
        dsimp only at hF ⊢
        obtain ⟨px', e, hF'⟩ := fill517_ok (raw := raw) (i := (i + j * v) * 2) (by omega) 16 hF (by omega) (fun s hs => by
          have a1 := byte517_at (raw := raw) (v := v) (j := j) (r := 0) (c := 32 * i + 2 * s) (by omega) (by omega)
          have a2 := byte517_at (raw := raw) (v := v) (j := j) (r := 0) (c := 32 * i + 2 * s + 1) (by omega) (by omega)
          rw [show 512 * v * j + 32 * v * 0 + (32 * i + 2 * s) = 512 * v * j + 32 * i + 2 * s by omega,
            show (j * v + (32 * i + 2 * s) / 32) * 2 + (32 * i + 2 * s) % 2 = (i + j * v) * 2 by omega, raw_get _ (by omega)] at a1
          rw [show 512 * v * j + 32 * v * 0 + (32 * i + 2 * s + 1) = 512 * v * j + 32 * i + 2 * s + 1 by omega,
            show (j * v + (32 * i + 2 * s + 1) / 32) * 2 + (32 * i + 2 * s + 1) % 2 = (i + j * v) * 2 + 1 by omega, raw_get _ (by omega)] at a2
          exact ⟨a1, a2⟩)
        exact ⟨_, e, by omega, hF'⟩) (s := (s1, 512 * v * j)) ⟨by omega, hF⟩
    dsimp only at hd1 hF1
    subst hd1
    obtain ⟨⟨p2, d2⟩, e2, hd2, hF2⟩ := foldlM_range (n := 15)
      (P := fun r (t : Bytes × Nat) => t.2 = 512 * v * j + 32 * v * (r + 1) ∧ Filled (byte517 raw v) (512 * v * u) t.1 (512 * v * j + 32 * v * (r + 1)))
      (f := fun (t : Bytes × Nat) _ => copy517 (32 * v) (512 * v * j) t)
      (fun r t hi ht => by
        obtain ⟨t1, t2⟩ := t
        obtain ⟨rfl, hF⟩ := ht
        dsimp only at hF ⊢
        have hb1 : 32 * v * (r + 1 + 1) ≤ 32 * v * 16 := Nat.mul_le_mul_left _ (by omega)
        have hb2 : 32 * v * (r + 1 + 1) = 32 * v * (r + 1) + 32 * v := by rw [Nat.mul_add _ (r + 1)]; omega
        have hb3 : 32 * v * 1 ≤ 32 * v * (r + 1) := Nat.mul_le_mul_left _ (by omega)
        obtain ⟨px', e, hF'⟩ := copy517_ok (32 * v) hF (src := 512 * v * j) (by omega) (by omega) (fun s hs => by
          have a1 := byte517_at (raw := raw) (v := v) (j := j) (r := r + 1) (c := s) (by omega) (by omega)
          have a2 := byte517_at (raw := raw) (v := v) (j := j) (r := 0) (c := s) (by omega) (by omega)
          rw [a1]
          rw [show 512 * v * j + 32 * v * 0 + s = 512 * v * j + s by omega] at a2
          rw [a2])
        refine ⟨_, e, by omega, ?_⟩
        rw [show 512 * v * j + 32 * v * (r + 1 + 1) = 512 * v * j + 32 * v * (r + 1) + 32 * v by omega]
        exact hF') (s := (p1, 512 * v * j + 32 * v)) ⟨by dsimp only; omega, by rw [show 512 * v * j + 32 * v * (0 + 1) = 512 * v * j + 32 * v by omega]; exact hF1⟩
    refine ⟨(p2, 512 * v * j + 512 * v), ?_, by dsimp only, ?_⟩
    · rw [e1]
      show (mulU32 m (16 * v) 2 >>= _) = _
      rw [m3]
      show ((List.range 15).foldlM (fun (t : Bytes × Nat) _ => copy517 (32 * v) (512 * v * j) t) (p1, 512 * v * j + 32 * v) >>= _) = _
      rw [e2]
      show (mulU32 m (16 * v) 32 >>= _) = _
      rw [m4]
      rfl
    · dsimp only at hF2 ⊢
      rw [show 512 * v * j + 512 * v = 512 * v * j + 32 * v * (15 + 1) by omega]
      exact hF2
  obtain ⟨s', e, hd, hF⟩ := foldlM_range (n := u) (P := fun j (s : Bytes × Nat) => s.2 = 512 * v * j ∧ Filled (byte517 raw v) (512 * v * u) s.1 (512 * v * j)) row
    (s := (List.replicate (512 * v * u) 0#8, 0)) ⟨by dsimp only; omega, by rw [List.length_replicate], fun i hi => by omega⟩
  refine ⟨s'.1, ?_, by rw [hN]; exact hF.1, fun n hn => hF.2 n (by rw [hF.1] at hn; exact hn)⟩
  unfold pixels517
  rw [m1]
  show (mulU32 m (16 * v * (16 * u)) 2 >>= _) = _
  rw [m2, show 16 * u / 16 = u by omega]
  show (List.foldlM (row517 m raw (16 * v)) (List.replicate (512 * v * u) 0#8, 0) (List.range u) >>= fun r => (pure r.1 : Except Err Bytes)) = _
  rw [e]
  rfl

/-- the decoder of the format 517: `RGB565_517` in `extract_png` (property/png.rs 195-198) -/
theorem C32_squares (m : Mode) (raw : Bytes) (w h : Nat) (h0 : 0 < w) (hw : w % 16 = 0) (hh : h % 16 = 0) (hb : w * h * 2 < 2 ^ 32) (hr : w * h / 128 ≤ raw.length) :
    ∃ px img, pixels517 m raw w h = .ok px ∧ imageRgb565 m px w h = .ok img ∧ SquareImage raw w h img := by
  obtain ⟨v, rfl⟩ : ∃ v, w = 16 * v := ⟨w / 16, by omega⟩
  obtain ⟨u, rfl⟩ : ∃ u, h = 16 * u := ⟨h / 16, by omega⟩
  have hN : 16 * v * (16 * u) = 256 * (v * u) := by rw [Nat.mul_mul_mul_comm]
  have hr' : v * u * 2 ≤ raw.length := by omega
  obtain ⟨px, e1, hl, hp⟩ := pixels517_ok (m := m) hb (by omega : 0 < v) hr'
  obtain ⟨img, e2, s, hi⟩ := (C32_plain m px (16 * v) (16 * u) (by omega)).1 (by omega) |>.2.1
  refine ⟨px, img, e1, e2, s, fun x y hx hy => ?_⟩
  obtain ⟨p, hp1, hp2⟩ := hi x y hx hy
  refine ⟨p, hp1, ?_⟩
  have hpos := pos_lt hx hy
  have hv : 0 < v := by omega
  have hsq : y / 16 * v + x / 16 + 1 ≤ v * u := pos_lt (by omega) (by omega)
  rw [bytes2 (by omega)] at hp2
  rw [show 16 * v / 16 = v by omega, bytes2 (by omega)]
  have get : ∀ k (hk : k < 2), px[(y * (16 * v) + x) * 2 + k]'(by omega) = raw[(y / 16 * v + x / 16) * 2 + k]'(by omega) := by
    intro k hk
    have h1 := hp ((y * (16 * v) + x) * 2 + k) (by omega)
    rw [List.getElem?_eq_getElem (by omega)] at h1
    have h1 := Option.some.inj h1
    rw [h1]
    unfold byte517
    rw [show ((y * (16 * v) + x) * 2 + k) / 2 = 16 * v * y + x by rw [Nat.mul_comm y]; omega, show ((y * (16 * v) + x) * 2 + k) % 2 = k by omega,
      Nat.mul_add_div (by omega), Nat.mul_add_mod, Nat.div_eq_of_lt hx, Nat.mod_eq_of_lt hx, List.getD_eq_getElem?_getD]
    rw [show (y + 0) / 16 = y / 16 by omega, List.getElem?_eq_getElem (by omega)]
    rfl
  have g0 := get 0 (by omega)
  have g1 := get 1 (by omega)
  simp only [Nat.add_zero] at g0
  rw [g0, g1] at hp2
  exact hp2

example : ∃ px img, pixels517 .checked [1#8, 2#8, 3#8, 4#8] 32 16 = .ok px ∧ imageRgb565 .checked px 32 16 = .ok img ∧ SquareImage [1#8, 2#8, 3#8, 4#8] 32 16 img :=
  C32_squares _ _ _ _ (by decide) (by decide) (by decide) (by decide) (by decide)

/-- where byte `n` of the first 1264 bytes comes from if the width is 40: two squares of 32 bytes, then the line again and again -/
def skewed (n : Nat) : Byte :=
  if (if n < 64 then n else (n - 64) % 80 % 64) < 32 then 255#8 else 0#8

theorem skewed_row {px : Bytes} (f0 : Filled skewed 1280 px 0) : ∃ px', row517 .checked [255#8, 255#8, 0#8, 0#8, 0#8] 40 (px, 0) 0 = .ok (px', 1280) ∧
    Filled skewed 1280 px' 1264 := by
  obtain ⟨p1, e1, f1⟩ := fill517_ok (raw := [255#8, 255#8, 0#8, 0#8, 0#8]) (i := 0) (by decide) 16 f0 (by decide) (fun s hs => by
    unfold skewed
    constructor <;> (rw [if_pos (by rw [if_pos (by omega)]; omega)]; rfl))
  obtain ⟨p2, e2, f2⟩ := fill517_ok (raw := [255#8, 255#8, 0#8, 0#8, 0#8]) (i := 2) (by decide) 16 f1 (by decide) (fun s hs => by
    unfold skewed
    constructor <;> (rw [if_neg (by rw [if_pos (by omega)]; omega)]; rfl))
  obtain ⟨⟨p3, d3⟩, e3, hd3, f3⟩ := foldlM_range (n := 15)
    (P := fun r (t : Bytes × Nat) => t.2 = 64 + 80 * r ∧ Filled skewed 1280 t.1 (64 + 80 * r)) (f := fun (t : Bytes × Nat) _ => copy517 80 0 t)
    (fun r t hr ht => by
      obtain ⟨t1, t2⟩ := t
      obtain ⟨rfl, hF⟩ := ht
      dsimp only at hF ⊢
      obtain ⟨px', e, hF'⟩ := copy517_ok 80 hF (src := 0) (by omega) (by omega) (fun s hs => by
        unfold skewed
        have e : (if 64 + 80 * r + s < 64 then 64 + 80 * r + s else (64 + 80 * r + s - 64) % 80 % 64) = if 0 + s < 64 then 0 + s else (0 + s - 64) % 80 % 64 := by
          rw [if_neg (by omega)]
          split <;> omega
        rw [e])
      exact ⟨_, e, by omega, hF'⟩) (s := (p2, 64)) ⟨rfl, f2⟩
  dsimp only at f3
  refine ⟨p3, ?_, f3⟩
  unfold row517
  have hfill : (List.range (40 / 16)).foldlM (fun (t : Bytes × Nat) i => fill517 [255#8, 255#8, 0#8, 0#8, 0#8] ((i + 0 * (40 / 16)) * 2) 16 t) (px, 0) = .ok (p2, 64) := by
    show (fill517 [255#8, 255#8, 0#8, 0#8, 0#8] 0 16 (px, 0) >>= fun s => fill517 [255#8, 255#8, 0#8, 0#8, 0#8] 2 16 s >>= fun s => pure s) = _
    rw [e1]
    show (fill517 [255#8, 255#8, 0#8, 0#8, 0#8] 2 16 (p1, 0 + 2 * 16) >>= _) = _
    rw [e2]
    rfl
  rw [hfill]
  show (List.foldlM (fun (t : Bytes × Nat) _ => copy517 80 0 t) (p2, 64) (List.range 15) >>= _) = _
  rw [e3]
  rfl

theorem pixels517_eq {m : Mode} {raw : Bytes} {w h a n : Nat} (h1 : mulU32 m w h = .ok a) (h2 : mulU32 m a 2 = .ok n) :
    pixels517 m raw w h = ((List.range (h / 16)).foldlM (row517 m raw w) (List.replicate n 0#8, 0)).map Prod.fst := by
  unfold pixels517
  rw [h1]
  show (mulU32 m a 2 >>= _) = _
  rw [h2]
  show ((List.range (h / 16)).foldlM (row517 m raw w) (List.replicate n 0#8, 0) >>= _) = _
  cases (List.range (h / 16)).foldlM (row517 m raw w) (List.replicate n 0#8, 0) <;> rfl

theorem skewed_pixels : ∃ px, pixels517 .checked [255#8, 255#8, 0#8, 0#8, 0#8] 40 16 = .ok px ∧ px.length = 1280 ∧ ∀ n, n < 1264 → px[n]? = some (skewed n) := by
  obtain ⟨px, e, f⟩ := skewed_row (px := List.replicate 1280 0#8) ⟨List.length_replicate, fun i hi => by omega⟩
  refine ⟨px, ?_, f.1, f.2⟩
  rw [pixels517_eq (a := 640) (n := 1280) rfl rfl, show List.range (16 / 16) = [0] from rfl, List.foldlM_cons, e]
  rfl

/-- C32 fails for the format 517 if the width is not a multiple of 16: here a pixel of the first, whole square (white) is black. -/
theorem C32_squares_skewed : ∃ (raw px : Bytes) (img : List (List Rgb)), raw.length = 40 * 16 / 128 ∧ pixels517 .checked raw 40 16 = .ok px ∧
    imageRgb565 .checked px 40 16 = .ok img ∧ pixelAt img 0 0 = some ⟨255#8, 255#8, 255#8⟩ ∧ pixelAt img 8 1 = some ⟨0#8, 0#8, 0#8⟩ := by
  obtain ⟨px, e1, hl, hp⟩ := skewed_pixels
  obtain ⟨img, e2, s, hi⟩ := ((C32_plain .checked px 40 16 (by decide)).1 (by omega)).2.1
  refine ⟨_, px, img, rfl, e1, e2, ?_, ?_⟩
  · obtain ⟨p, h1, h2⟩ := hi 0 0 (by decide) (by decide)
    rw [h1]
    rw [bytes2 (by omega)] at h2
    have g0 := hp ((0 * 40 + 0) * 2) (by decide)
    have g1 := hp ((0 * 40 + 0) * 2 + 1) (by decide)
    rw [List.getElem?_eq_getElem (by omega)] at g0 g1
    rw [Option.some.inj g0, Option.some.inj g1] at h2
    obtain ⟨r, g, b, hr, hg, hb, hv, rfl⟩ := h2
    have hv : 65535 = pack565 r g b := hv
    unfold pack565 at hv
    obtain ⟨rfl, rfl, rfl⟩ : r = 31 ∧ g = 63 ∧ b = 31 := by omega
    rfl
  · obtain ⟨p, h1, h2⟩ := hi 8 1 (by decide) (by decide)
    rw [h1]
    rw [bytes2 (by omega)] at h2
    have g0 := hp ((1 * 40 + 8) * 2) (by decide)
    have g1 := hp ((1 * 40 + 8) * 2 + 1) (by decide)
    rw [List.getElem?_eq_getElem (by omega)] at g0 g1
    rw [Option.some.inj g0, Option.some.inj g1] at h2
    obtain ⟨r, g, b, hr, hg, hb, hv, rfl⟩ := h2
    have hv : 0 = pack565 r g b := hv
    unfold pack565 at hv
    obtain ⟨rfl, rfl, rfl⟩ : r = 0 ∧ g = 0 ∧ b = 0 := by omega
    rfl

end Wz.Props
