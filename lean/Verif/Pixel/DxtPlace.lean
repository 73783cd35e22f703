import Verif.Pixel.DxtProps
/-!
# Property C32: every pixel of a DXT image comes from its own place in its own block
-/

set_option autoImplicit false

namespace Wz.Props
open Spec

theorem pixelAt_map {α : Type} {w h : Nat} (g : Nat → Nat → α) {x y : Nat} (hx : x < w) (hy : y < h) :
    pixelAt ((List.range h).map fun y => (List.range w).map fun x => g x y) x y = some (g x y) := by
  unfold pixelAt
  rw [List.getElem?_map, List.getElem?_range hy]
  show ((List.range w).map fun x => g x y)[x]? = _
  rw [List.getElem?_map, List.getElem?_range hx]
  rfl

theorem sized_map {α : Type} {w h : Nat} (g : Nat → Nat → α) : Sized ((List.range h).map fun y => (List.range w).map fun x => g x y) w h := by
  refine ⟨by simp, ?_⟩
  intro row hr
  obtain ⟨y, _, rfl⟩ := List.mem_map.mp hr
  simp

/-- the pixels of a block, nothing if it cannot be decoded -/
def decOf (alpha : Bytes → Except Err (List Byte)) (chunk : Bytes) : List Rgba :=
  match dxtBlock alpha chunk with
  | .ok px => px
  | .error _ => []

theorem decOf_ok {alpha : Bytes → Except Err (List Byte)} {spec : Bytes → Nat → Byte → Prop} (ha : AlphaOk alpha spec) {chunk : Bytes}
    (hc : chunk.length = 16) : dxtBlock alpha chunk = .ok (decOf alpha chunk) ∧ (decOf alpha chunk).length = 16 ∧
      ∀ k (hk : k < (decOf alpha chunk).length), Texel spec chunk k (decOf alpha chunk)[k] := by
  obtain ⟨px, h1, h2, h3⟩ := block_ok ha hc
  have : decOf alpha chunk = px := by unfold decOf; rw [h1]
  rw [this]
  exact ⟨h1, h2, h3⟩

theorem blockAt_length {raw : Bytes} {n : Nat} (h : 16 * n + 16 ≤ raw.length) : (blockAt raw n).length = 16 := by
  unfold blockAt bytesAt
  rw [List.length_take, List.length_drop]
  omega

theorem chunks16_eq {raw : Bytes} (h : raw.length % 16 = 0) : chunks16 raw = (List.range (raw.length / 16)).map (blockAt raw) := by
  unfold chunks16
  rw [show (raw.length + 15) / 16 = raw.length / 16 by omega]
  refine List.map_congr_left fun n hn => ?_
  unfold blockAt bytesAt
  rw [show 16 * n + 16 - 16 * n = 16 by omega]

theorem blocks_ok {alpha : Bytes → Except Err (List Byte)} {spec : Bytes → Nat → Byte → Prop} (ha : AlphaOk alpha spec) {raw : Bytes}
    (h : raw.length % 16 = 0) : (chunks16 raw).mapM (dxtBlock alpha) = .ok ((List.range (raw.length / 16)).map fun n => decOf alpha (blockAt raw n)) := by
  rw [chunks16_eq h]
  have : (List.range (raw.length / 16)).map (fun n => decOf alpha (blockAt raw n)) = ((List.range (raw.length / 16)).map (blockAt raw)).map (decOf alpha) := by
    rw [List.map_map]
    rfl
  rw [this]
  refine mapM_okay fun c hc => ?_
  obtain ⟨n, hn, rfl⟩ := List.mem_map.mp hc
  have := List.mem_range.mp hn
  exact (decOf_ok ha (blockAt_length (by omega))).1

theorem par_pixels {alpha : Bytes → Except Err (List Byte)} {spec : Bytes → Nat → Byte → Prop} (ha : AlphaOk alpha spec) {raw : Bytes} {w h : Nat}
    (hr : raw.length % 16 = 0) (hn : ∀ x y, x < w → y < h → x / 4 + y / 4 * (w / 4) < raw.length / 16) :
    ∃ img, dxtImagePar alpha raw w h = .ok img ∧ Sized img w h ∧
      ∀ x y, x < w → y < h → pixelAt img x y = (decOf alpha (blockAt raw (x / 4 + y / 4 * (w / 4))))[y % 4 * 4 + x % 4]? := by
  have hlen : ∀ x y, x < w → y < h → (blockAt raw (x / 4 + y / 4 * (w / 4))).length = 16 := by
    intro x y hx hy
    have := hn x y hx hy
    exact blockAt_length (by omega)
  refine ⟨_, ?_, sized_map (fun x y => ((decOf alpha (blockAt raw (x / 4 + y / 4 * (w / 4))))[y % 4 * 4 + x % 4]?).getD ⟨0#8, 0#8, 0#8, 0#8⟩), ?_⟩
  · unfold dxtImagePar
    rw [blocks_ok ha hr]
    refine genImage_ok fun x y hx hy => ?_
    rw [idx_ok (by simpa using hn x y hx hy)]
    simp only [List.getElem_map, List.getElem_range]
    have h2 := (decOf_ok ha (hlen x y hx hy)).2.1
    show idx (decOf alpha _) _ = _
    rw [idx_ok (by rw [h2]; omega), List.getElem?_eq_getElem (by rw [h2]; omega)]
    rfl
  · intro x y hx hy
    have h2 := (decOf_ok ha (hlen x y hx hy)).2.1
    rw [pixelAt_map _ hx hy, List.getElem?_eq_getElem (by rw [h2]; omega)]
    rfl

/-- the block every pixel is taken from, for any size -/
theorem par_source {alpha : Bytes → Except Err (List Byte)} {spec : Bytes → Nat → Byte → Prop} (ha : AlphaOk alpha spec) {raw : Bytes} {w h : Nat}
    (hr : raw.length % 16 = 0) (hn : ∀ x y, x < w → y < h → x / 4 + y / 4 * (w / 4) < raw.length / 16) :
    ∃ img, dxtImagePar alpha raw w h = .ok img ∧ Sized img w h ∧
      ∀ x y, x < w → y < h → ∃ p, pixelAt img x y = some p ∧ Texel spec (blockAt raw (x / 4 + y / 4 * (w / 4))) (y % 4 * 4 + x % 4) p := by
  obtain ⟨img, e, s, p⟩ := par_pixels ha hr hn
  refine ⟨img, e, s, fun x y hx hy => ?_⟩
  have hlen : (blockAt raw (x / 4 + y / 4 * (w / 4))).length = 16 := by
    have := hn x y hx hy
    exact blockAt_length (by omega)
  have h2 := (decOf_ok ha hlen).2.1
  rw [p x y hx hy, List.getElem?_eq_getElem (by rw [h2]; omega)]
  exact ⟨_, rfl, (decOf_ok ha hlen).2.2 _ _⟩

/-- the number of a block is below the number of blocks -/
theorem block_lt {x y w h : Nat} (hx : x < w) (hy : y < h) : x / 4 + y / 4 * (w / 4) < (w + 3) / 4 * ((h + 3) / 4) := by
  have h1 : y / 4 + 1 ≤ (h + 3) / 4 := by omega
  have h2 : x / 4 + 1 ≤ (w + 3) / 4 := by omega
  have h3 : y / 4 * (w / 4) ≤ y / 4 * ((w + 3) / 4) := Nat.mul_le_mul_left _ (by omega)
  have h4 : (y / 4 + 1) * ((w + 3) / 4) ≤ (h + 3) / 4 * ((w + 3) / 4) := Nat.mul_le_mul_right _ h1
  rw [Nat.add_mul] at h4
  rw [Nat.mul_comm ((w + 3) / 4)]
  omega

theorem par_any {alpha : Bytes → Except Err (List Byte)} {spec : Bytes → Nat → Byte → Prop} (ha : AlphaOk alpha spec) {raw : Bytes} {w h : Nat}
    (hr : raw.length = (w + 3) / 4 * ((h + 3) / 4) * 16) :
    ∃ img, dxtImagePar alpha raw w h = .ok img ∧ Sized img w h ∧
      ∀ x y, x < w → y < h → ∃ p, pixelAt img x y = some p ∧ Texel spec (blockAt raw (x / 4 + y / 4 * (w / 4))) (y % 4 * 4 + x % 4) p := by
  refine par_source ha (by omega) fun x y hx hy => ?_
  have := block_lt hx hy
  omega

theorem par_correct {alpha : Bytes → Except Err (List Byte)} {spec : Bytes → Nat → Byte → Prop} (ha : AlphaOk alpha spec) {raw : Bytes} {w h : Nat}
    (hw : w % 4 = 0) (hr : raw.length = (w + 3) / 4 * ((h + 3) / 4) * 16) : ∃ img, dxtImagePar alpha raw w h = .ok img ∧ DxtImage spec raw w h img := by
  obtain ⟨img, h1, h2, h3⟩ := par_any ha hr
  refine ⟨img, h1, h2, fun x y hx hy => ?_⟩
  obtain ⟨p, hp, ht⟩ := h3 x y hx hy
  refine ⟨p, hp, ?_⟩
  rw [show (w + 3) / 4 = w / 4 by omega, Nat.add_comm]
  exact ht

/-- C32 for the default features: the image is right whenever the width is a multiple of 4; the height is free. -/
theorem C32_default_partial (raw : Bytes) (w h : Nat) (hw : w % 4 = 0) (hr : raw.length = (w + 3) / 4 * ((h + 3) / 4) * 16) :
    (∃ img, dxtImagePar blockAlpha3 raw w h = .ok img ∧ DxtImage Alpha3 raw w h img) ∧
    (∃ img, dxtImagePar blockAlpha5 raw w h = .ok img ∧ DxtImage Alpha5 raw w h img) := ⟨par_correct alpha3_ok hw hr, par_correct alpha5_ok hw hr⟩

/-- C32: with any width the pixel `x`, `y` is taken from the block `x / 4 + y / 4 * (w / 4)`, that is as if there were `w / 4` (rounded down)
blocks in a row. -/
theorem C32_default_any_width (raw : Bytes) (w h : Nat) (hr : raw.length = (w + 3) / 4 * ((h + 3) / 4) * 16) :
    (∃ img, dxtImagePar blockAlpha3 raw w h = .ok img ∧ Sized img w h ∧ ∀ x y, x < w → y < h →
      ∃ p, pixelAt img x y = some p ∧ Texel Alpha3 (blockAt raw (x / 4 + y / 4 * (w / 4))) (y % 4 * 4 + x % 4) p) ∧
    (∃ img, dxtImagePar blockAlpha5 raw w h = .ok img ∧ Sized img w h ∧ ∀ x y, x < w → y < h →
      ∃ p, pixelAt img x y = some p ∧ Texel Alpha5 (blockAt raw (x / 4 + y / 4 * (w / 4))) (y % 4 * 4 + x % 4) p) := ⟨par_any alpha3_ok hr, par_any alpha5_ok hr⟩

theorem bytesAt_left {a b : Byte} {n m s : Nat} (h : s + 16 ≤ n) : bytesAt (List.replicate n a ++ List.replicate m b) s (s + 16) = List.replicate 16 a := by
  unfold bytesAt
  rw [List.drop_append_of_le_length (by simp; omega), List.drop_replicate, List.take_append_of_le_length (by simp; omega), List.take_replicate]
  rw [show min (s + 16 - s) (n - s) = 16 by omega]

theorem bytesAt_right {a b : Byte} {n m : Nat} (h : 16 ≤ m) : bytesAt (List.replicate n a ++ List.replicate m b) n (n + 16) = List.replicate 16 b := by
  unfold bytesAt
  rw [List.drop_left' (by simp), List.take_replicate]
  rw [show min (n + 16 - n) m = 16 by omega]

/-- C32 fails: for every width that is not a multiple of 4 and every height above 4 there is data of the right size from which
the wrong image is made, without any error. -/
theorem C32_default_wrong (w h : Nat) (hw : w % 4 ≠ 0) (hh : 4 < h) :
    ∃ raw img, raw.length = (w + 3) / 4 * ((h + 3) / 4) * 16 ∧ dxtImagePar blockAlpha3 raw w h = .ok img ∧ ¬ DxtImage Alpha3 raw w h img := by
  have hb : (w + 3) / 4 * 2 ≤ (w + 3) / 4 * ((h + 3) / 4) := Nat.mul_le_mul_left _ (by omega)
  have h1 : 1 ≤ (w + 3) / 4 := by omega
  let n := 16 * ((w + 3) / 4)
  let k := (w + 3) / 4 * ((h + 3) / 4) * 16 - n
  have hlen : (List.replicate n 0#8 ++ List.replicate k 255#8).length = (w + 3) / 4 * ((h + 3) / 4) * 16 := by
    rw [List.length_append, List.length_replicate, List.length_replicate]
    omega
  obtain ⟨img, e1, e2, e3⟩ := par_any alpha3_ok hlen
  refine ⟨_, img, hlen, e1, fun hD => ?_⟩
  obtain ⟨p, hp, ht⟩ := e3 0 4 (by omega) hh
  obtain ⟨q, hq, hs⟩ := hD.2 0 4 (by omega) hh
  rw [hp] at hq
  cases hq
  have b1 : blockAt (List.replicate n 0#8 ++ List.replicate k 255#8) (0 / 4 + 4 / 4 * (w / 4)) = List.replicate 16 0#8 := bytesAt_left (by omega)
  have b2 : blockAt (List.replicate n 0#8 ++ List.replicate k 255#8) (4 / 4 * ((w + 3) / 4) + 0 / 4) = List.replicate 16 255#8 := by
    unfold blockAt
    rw [show 16 * (4 / 4 * ((w + 3) / 4) + 0 / 4) = n by omega]
    exact bytesAt_right (by omega)
  rw [b1] at ht
  rw [b2] at hs
  have a1 := ht.2
  have a2 := hs.2
  unfold Alpha3 at a1 a2
  rw [a1] at a2
  exact absurd a2 (by decide)

/-! ## Without the default features -/

theorem pixelAt_eq_some {α : Type} {img : List (List α)} {w h : Nat} (hs : Sized img w h) {y : Nat} (hy : y < h) :
    ∃ row, img[y]? = some row ∧ row.length = w := by
  have hy' : y < img.length := by rw [hs.1]; exact hy
  exact ⟨img[y], List.getElem?_eq_getElem hy', hs.2 _ (List.getElem_mem hy')⟩

theorem putPixel_ok {α : Type} {img : List (List α)} {w h : Nat} (hs : Sized img w h) {x y : Nat} (hx : x < w) (hy : y < h) (p : α) :
    ∃ img', putPixel img x y p = .ok img' ∧ Sized img' w h ∧
      ∀ x' y', pixelAt img' x' y' = if x' = x ∧ y' = y then some p else pixelAt img x' y' := by
  obtain ⟨row, h1, h2⟩ := pixelAt_eq_some hs hy
  unfold putPixel
  rw [h1]
  dsimp only
  rw [if_pos (by omega)]
  refine ⟨_, rfl, ⟨by rw [List.length_set]; exact hs.1, ?_⟩, ?_⟩
  · intro r hr
    rcases List.mem_or_eq_of_mem_set hr with hr | rfl
    · exact hs.2 r hr
    · rw [List.length_set]; exact h2
  · intro x' y'
    unfold pixelAt
    by_cases e : y' = y
    · subst e
      rw [List.getElem?_set_self (by rw [hs.1]; exact hy), h1]
      show (row.set x p)[x']? = _
      by_cases e : x' = x
      · subst e
        rw [if_pos ⟨rfl, rfl⟩, List.getElem?_set_self (by omega)]
      · rw [if_neg (by rintro ⟨a, _⟩; exact e a), List.getElem?_set_ne (by omega)]
        rfl
    · rw [if_neg (by rintro ⟨_, a⟩; exact e a), List.getElem?_set_ne (by omega)]

/-- the pixels of a list of places of a block are written one after the other -/
theorem cells_ok {g : Nat → Nat → Rgba} {w h X Y : Nat} {px : List Rgba} (hX : X + 4 ≤ w) (hY : Y + 4 ≤ h) (hl : px.length = 16)
    (hg : ∀ k (hk : k < px.length), px[k] = g (X + k % 4) (Y + k / 4)) (cs : List Nat) (hc : ∀ k ∈ cs, k < 16) {img : List (List Rgba)} (hs : Sized img w h) :
    ∃ img', (cs.map fun k => (k % 4, k / 4, k)).foldlM (fun img c => do
        let p ← idx px c.2.2
        putPixel img (X + c.1) (Y + c.2.1) p) img = .ok img' ∧ Sized img' w h ∧
      ∀ x y, ((∃ k ∈ cs, x = X + k % 4 ∧ y = Y + k / 4) → pixelAt img' x y = some (g x y)) ∧
        ((¬ ∃ k ∈ cs, x = X + k % 4 ∧ y = Y + k / 4) → pixelAt img' x y = pixelAt img x y) := by
  induction cs generalizing img with
  | nil => exact ⟨img, rfl, hs, fun x y => ⟨(by rintro ⟨_, h, _⟩; cases h), fun _ => rfl⟩⟩
  | cons k cs ih =>
    have hk := hc k (.head _)
    obtain ⟨i1, e1, s1, p1⟩ := putPixel_ok hs (x := X + k % 4) (y := Y + k / 4) (by omega) (by omega) (px[k]'(by omega))
    obtain ⟨i2, e2, s2, p2⟩ := ih (fun k hk => hc k (.tail _ hk)) s1
    refine ⟨i2, ?_, s2, fun x y => ⟨?_, ?_⟩⟩
    · rw [List.map_cons, List.foldlM_cons]
      dsimp only
      rw [idx_ok (by omega)]
      show (putPixel img (X + k % 4) (Y + k / 4) (px[k]'(by omega)) >>= _) = _
      rw [e1]
      exact e2
    · rintro ⟨j, hj, hx, hy⟩
      by_cases hm : ∃ k ∈ cs, x = X + k % 4 ∧ y = Y + k / 4
      · exact (p2 x y).1 hm
      · rw [(p2 x y).2 hm, p1]
        rcases List.mem_cons.mp hj with rfl | hj
        · rw [if_pos ⟨hx, hy⟩, hg, hx, hy]
        · exact absurd ⟨j, hj, hx, hy⟩ hm
    · intro hn
      rw [(p2 x y).2 fun ⟨j, hj, h⟩ => hn ⟨j, .tail _ hj, h⟩, p1, if_neg fun h => hn ⟨k, .head _, h⟩]

/-- one block is put in its place -/
theorem putBlock_ok {alpha : Bytes → Except Err (List Byte)} {spec : Bytes → Nat → Byte → Prop} (ha : AlphaOk alpha spec) {m : Mode} {raw : Bytes}
    {w h i j : Nat} (hw : w % 4 = 0) (hi : 4 * i + 4 ≤ w) (hj : 4 * j + 4 ≤ h) (hr : w * h ≤ raw.length) (hb : w * h < 2 ^ 32)
    {img : List (List Rgba)} (hs : Sized img w h) :
    ∃ img', dxtPutBlock alpha m raw w img (4 * i, 4 * j) = .ok img' ∧ Sized img' w h ∧
      ∀ x y, pixelAt img' x y = if x / 4 = i ∧ y / 4 = j then
        (decOf alpha (blockAt raw (j * (w / 4) + i)))[y % 4 * 4 + x % 4]? else pixelAt img x y := by
  have hmul : (4 * j + 4) * w ≤ h * w := Nat.mul_le_mul_right _ hj
  rw [Nat.add_mul, Nat.mul_comm h w] at hmul
  have hoff : 4 * j * w + 4 * i * 4 = 16 * (j * (w / 4) + i) := by
    have : w = 4 * (w / 4) := by omega
    generalize w / 4 = v at this ⊢
    subst this
    rw [show 4 * j * (4 * v) = 16 * (j * v) by rw [Nat.mul_mul_mul_comm]]
    omega
  have hend : 16 * (j * (w / 4) + i) + 16 ≤ raw.length := by omega
  obtain ⟨d1, d2, d3⟩ := decOf_ok ha (blockAt_length hend)
  let g : Nat → Nat → Rgba := fun x y => ((decOf alpha (blockAt raw (j * (w / 4) + i)))[y % 4 * 4 + x % 4]?).getD ⟨0#8, 0#8, 0#8, 0#8⟩
  obtain ⟨i1, e1, s1, p1⟩ := cells_ok (g := g) (X := 4 * i) (Y := 4 * j) hi hj d2 (by
    intro k hk
    show _ = Option.getD _ _
    rw [show (4 * j + k / 4) % 4 * 4 + (4 * i + k % 4) % 4 = k by omega, List.getElem?_eq_getElem hk]
    rfl) (List.range 16) (fun k hk => List.mem_range.mp hk) hs
  refine ⟨i1, ?_, s1, fun x y => ?_⟩
  · unfold dxtPutBlock
    have m1 : mulU32 m (4 * j) w = .ok (4 * j * w) := if_pos (by omega)
    have m2 : mulU32 m (4 * i) 4 = .ok (4 * i * 4) := if_pos (by
      by_cases hj0 : j = 0
      · subst hj0; omega
      · omega)
    have m3 : addU32 m (4 * j * w) (4 * i * 4) = .ok (16 * (j * (w / 4) + i)) := by
      rw [← hoff]
      exact if_pos (by omega)
    have m4 : sliceIdx raw (16 * (j * (w / 4) + i)) (16 * (j * (w / 4) + i) + 16) = .ok (blockAt raw (j * (w / 4) + i)) := if_pos ⟨by omega, hend⟩
    show (mulU32 m (4 * j) w >>= _) = _
    rw [m1]
    show (mulU32 m (4 * i) 4 >>= _) = _
    rw [m2]
    show (addU32 m (4 * j * w) (4 * i * 4) >>= _) = _
    rw [m3]
    show (sliceIdx raw (16 * (j * (w / 4) + i)) (16 * (j * (w / 4) + i) + 16) >>= _) = _
    rw [m4]
    show (dxtBlock alpha (blockAt raw (j * (w / 4) + i)) >>= _) = _
    rw [d1]
    exact e1
  · by_cases hxy : x / 4 = i ∧ y / 4 = j
    · rw [if_pos hxy, (p1 x y).1 ⟨y % 4 * 4 + x % 4, List.mem_range.mpr (by omega), by omega, by omega⟩]
      show some (Option.getD _ _) = _
      rw [List.getElem?_eq_getElem (by rw [d2]; omega)]
      rfl
    · rw [if_neg hxy]
      refine (p1 x y).2 ?_
      rintro ⟨k, hk, hx, hy⟩
      have := List.mem_range.mp hk
      exact hxy (by omega)

theorem putBlocks_ok {alpha : Bytes → Except Err (List Byte)} {spec : Bytes → Nat → Byte → Prop} (ha : AlphaOk alpha spec) {m : Mode} {raw : Bytes}
    {w h : Nat} (hw : w % 4 = 0) (hr : w * h ≤ raw.length) (hb : w * h < 2 ^ 32) (bs : List (Nat × Nat))
    (hbs : ∀ b ∈ bs, ∃ i j, b = (4 * i, 4 * j) ∧ 4 * i + 4 ≤ w ∧ 4 * j + 4 ≤ h) {img : List (List Rgba)} (hs : Sized img w h) :
    ∃ img', bs.foldlM (dxtPutBlock alpha m raw w) img = .ok img' ∧ Sized img' w h ∧
      ∀ x y, ((4 * (x / 4), 4 * (y / 4)) ∈ bs → pixelAt img' x y = (decOf alpha (blockAt raw (y / 4 * (w / 4) + x / 4)))[y % 4 * 4 + x % 4]?) ∧
        ((4 * (x / 4), 4 * (y / 4)) ∉ bs → pixelAt img' x y = pixelAt img x y) := by
  induction bs generalizing img with
  | nil => exact ⟨img, rfl, hs, fun x y => ⟨(by intro h; cases h), fun _ => rfl⟩⟩
  | cons b bs ih =>
    obtain ⟨i, j, rfl, hi, hj⟩ := hbs b (.head _)
    obtain ⟨i1, e1, s1, p1⟩ := putBlock_ok ha (m := m) hw hi hj hr hb hs
    obtain ⟨i2, e2, s2, p2⟩ := ih (fun b hb => hbs b (.tail _ hb)) s1
    refine ⟨i2, ?_, s2, fun x y => ⟨?_, ?_⟩⟩
    · rw [List.foldlM_cons, e1]
      exact e2
    · intro hm
      by_cases hm2 : (4 * (x / 4), 4 * (y / 4)) ∈ bs
      · exact (p2 x y).1 hm2
      · rw [(p2 x y).2 hm2, p1]
        rcases List.mem_cons.mp hm with e | hm
        · have e1 := congrArg Prod.fst e
          have e2 := congrArg Prod.snd e
          dsimp only at e1 e2
          have hx : x / 4 = i := by omega
          have hy : y / 4 = j := by omega
          rw [if_pos ⟨hx, hy⟩, hx, hy]
        · exact absurd hm hm2
    · intro hn
      rw [(p2 x y).2 fun h => hn (.tail _ h), p1, if_neg]
      rintro ⟨rfl, rfl⟩
      exact hn (.head _)

theorem mem_stepBy4 {n k : Nat} : k ∈ stepBy4 n ↔ k < n ∧ k % 4 = 0 := by
  unfold stepBy4
  rw [List.mem_map]
  constructor
  · rintro ⟨i, hi, rfl⟩
    have := List.mem_range.mp hi
    omega
  · rintro ⟨h1, h2⟩
    exact ⟨k / 4, List.mem_range.mpr (by omega), by omega⟩

theorem mem_places {w h : Nat} {b : Nat × Nat} : b ∈ ((stepBy4 h).flatMap fun y => (stepBy4 w).map fun x => (x, y)) ↔
    (b.1 < w ∧ b.1 % 4 = 0) ∧ b.2 < h ∧ b.2 % 4 = 0 := by
  rw [List.mem_flatMap]
  constructor
  · rintro ⟨y, hy, hb⟩
    obtain ⟨x, hx, rfl⟩ := List.mem_map.mp hb
    exact ⟨mem_stepBy4.mp hx, mem_stepBy4.mp hy⟩
  · rintro ⟨h1, h2⟩
    exact ⟨b.2, mem_stepBy4.mpr h2, List.mem_map.mpr ⟨b.1, mem_stepBy4.mpr h1, rfl⟩⟩

theorem sized_replicate {α : Type} (w h : Nat) (p : α) : Sized (List.replicate h (List.replicate w p)) w h := by
  refine ⟨by simp, ?_⟩
  intro row hr
  rw [List.eq_of_mem_replicate hr, List.length_replicate]

theorem seq_pixels {alpha : Bytes → Except Err (List Byte)} {spec : Bytes → Nat → Byte → Prop} (ha : AlphaOk alpha spec) {m : Mode} {raw : Bytes}
    {w h : Nat} (hw : w % 4 = 0) (hh : h % 4 = 0) (hr : w * h ≤ raw.length) (hb : w * h < 2 ^ 32) :
    ∃ img, dxtImageSeq alpha m raw w h = .ok img ∧ Sized img w h ∧
      ∀ x y, x < w → y < h → pixelAt img x y = (decOf alpha (blockAt raw (y / 4 * (w / 4) + x / 4)))[y % 4 * 4 + x % 4]? := by
  obtain ⟨img, e, s, p⟩ := putBlocks_ok ha (m := m) hw hr hb ((stepBy4 h).flatMap fun y => (stepBy4 w).map fun x => (x, y))
    (by
      intro b hb
      obtain ⟨⟨h1, h2⟩, h3, h4⟩ := mem_places.mp hb
      refine ⟨b.1 / 4, b.2 / 4, Prod.ext ?_ ?_, ?_, ?_⟩
      · show b.1 = 4 * (b.1 / 4); omega
      · show b.2 = 4 * (b.2 / 4); omega
      · omega
      · omega) (sized_replicate w h ⟨0#8, 0#8, 0#8, 0#8⟩)
  refine ⟨img, e, s, fun x y hx hy => (p x y).1 (mem_places.mpr
    ⟨⟨(by show 4 * (x / 4) < w; omega), (by show 4 * (x / 4) % 4 = 0; omega)⟩, (by show 4 * (y / 4) < h; omega), by show 4 * (y / 4) % 4 = 0; omega⟩)⟩

theorem seq_correct {alpha : Bytes → Except Err (List Byte)} {spec : Bytes → Nat → Byte → Prop} (ha : AlphaOk alpha spec) {m : Mode} {raw : Bytes}
    {w h : Nat} (hw : w % 4 = 0) (hh : h % 4 = 0) (hr : w * h ≤ raw.length) (hb : w * h < 2 ^ 32) :
    ∃ img, dxtImageSeq alpha m raw w h = .ok img ∧ DxtImage spec raw w h img := by
  obtain ⟨img, e, s, p⟩ := seq_pixels ha (m := m) hw hh hr hb
  refine ⟨img, e, s, fun x y hx hy => ?_⟩
  have hend : 16 * (y / 4 * (w / 4) + x / 4) + 16 ≤ raw.length := by
    have h1 : (4 * (y / 4) + 4) * w ≤ h * w := Nat.mul_le_mul_right _ (by omega)
    rw [Nat.add_mul, Nat.mul_comm h w] at h1
    have h2 : 4 * (y / 4) * w = 16 * (y / 4 * (w / 4)) := by
      have : w = 4 * (w / 4) := by omega
      generalize w / 4 = v at this ⊢
      subst this
      rw [Nat.mul_mul_mul_comm]
    omega
  obtain ⟨d1, d2, d3⟩ := decOf_ok ha (blockAt_length hend)
  rw [p x y hx hy, List.getElem?_eq_getElem (by rw [d2]; omega)]
  refine ⟨_, rfl, ?_⟩
  rw [show (w + 3) / 4 = w / 4 by omega]
  exact d3 _ _

theorem img_ext {α : Type} {a b : List (List α)} {w h : Nat} (ha : Sized a w h) (hb : Sized b w h)
    (hp : ∀ x y, x < w → y < h → pixelAt a x y = pixelAt b x y) : a = b := by
  refine List.ext_getElem (by rw [ha.1, hb.1]) fun y h1 h2 => ?_
  have ra := ha.2 _ (List.getElem_mem h1)
  have rb := hb.2 _ (List.getElem_mem h2)
  refine List.ext_getElem (by rw [ra, rb]) fun x h3 h4 => ?_
  have := hp x y (by omega) (by have := ha.1; omega)
  unfold pixelAt at this
  rw [List.getElem?_eq_getElem h1, List.getElem?_eq_getElem h2] at this
  change a[y][x]? = b[y][x]? at this
  rw [List.getElem?_eq_getElem h3, List.getElem?_eq_getElem h4] at this
  exact Option.some.inj this

theorem par_eq_seq {alpha : Bytes → Except Err (List Byte)} {spec : Bytes → Nat → Byte → Prop} (ha : AlphaOk alpha spec) (m : Mode) {raw : Bytes}
    {w h : Nat} (hw : w % 4 = 0) (hh : h % 4 = 0) (hr : raw.length = (w + 3) / 4 * ((h + 3) / 4) * 16) (hr2 : w * h ≤ raw.length) (hb : w * h < 2 ^ 32) :
    dxtImagePar alpha raw w h = dxtImageSeq alpha m raw w h := by
  obtain ⟨i1, e1, s1, p1⟩ := par_pixels ha (raw := raw) (w := w) (h := h) (by omega) (fun x y hx hy => by
    have := block_lt hx hy
    omega)
  obtain ⟨i2, e2, s2, p2⟩ := seq_pixels ha (m := m) hw hh hr2 hb
  rw [e1, e2]
  refine congrArg _ (img_ext s1 s2 fun x y hx hy => ?_)
  rw [p1 x y hx hy, p2 x y hx hy, Nat.add_comm]

/-- C32 without the default features: right if width and height are multiples of 4. -/
theorem C32_sequential_partial (m : Mode) (raw : Bytes) (w h : Nat) (hw : w % 4 = 0) (hh : h % 4 = 0) (hr : w * h ≤ raw.length) (hb : w * h < 2 ^ 32) :
    (∃ img, dxtImageSeq blockAlpha3 m raw w h = .ok img ∧ DxtImage Alpha3 raw w h img) ∧
    (∃ img, dxtImageSeq blockAlpha5 m raw w h = .ok img ∧ DxtImage Alpha5 raw w h img) := ⟨seq_correct alpha3_ok hw hh hr hb, seq_correct alpha5_ok hw hh hr hb⟩

/-- C32: where both ways of decoding are right they make the same image. -/
theorem C32_same (m : Mode) (raw : Bytes) (w h : Nat) (hw : w % 4 = 0) (hh : h % 4 = 0) (hr : raw.length = w * h) (hb : w * h < 2 ^ 32) :
    dxtImagePar blockAlpha3 raw w h = dxtImageSeq blockAlpha3 m raw w h ∧ dxtImagePar blockAlpha5 raw w h = dxtImageSeq blockAlpha5 m raw w h := by
  have hwh : w * h = 16 * (w / 4 * (h / 4)) := by
    have h1 : w = 4 * (w / 4) := by omega
    have h2 : h = 4 * (h / 4) := by omega
    generalize w / 4 = a at h1 ⊢
    generalize h / 4 = b at h2 ⊢
    subst h1 h2
    rw [Nat.mul_mul_mul_comm]
  have hr' : raw.length = (w + 3) / 4 * ((h + 3) / 4) * 16 := by
    rw [show (w + 3) / 4 = w / 4 by omega, show (h + 3) / 4 = h / 4 by omega]
    omega
  exact ⟨par_eq_seq alpha3_ok m hw hh hr' (by omega) hb, par_eq_seq alpha5_ok m hw hh hr' (by omega) hb⟩

/-- C32: without the default features every pixel is written exactly once.  The list holds the positions of the writes in order. -/
theorem C32_once (w h : Nat) (hw : w % 4 = 0) (hh : h % 4 = 0) :
    let writes := ((stepBy4 h).flatMap fun y => (stepBy4 w).map fun x => (x, y)).flatMap fun b => cells.map fun c => (b.1 + c.1, b.2 + c.2.1)
    writes.Nodup ∧ ∀ x y, (x, y) ∈ writes ↔ x < w ∧ y < h := by
  intro writes
  have step : ∀ n, (stepBy4 n).Pairwise fun a b => a < b ∧ a % 4 = 0 ∧ b % 4 = 0 := by
    intro n
    unfold stepBy4
    rw [List.pairwise_map]
    exact List.pairwise_lt_range.imp fun h => by omega
  constructor
  · show List.Pairwise _ _
    rw [List.pairwise_flatMap]
    constructor
    · intro b _
      rw [List.pairwise_map]
      refine (show cells.Pairwise (fun a b => (a.1, a.2.1) ≠ (b.1, b.2.1)) by decide).imp fun {p q} hne he => hne ?_
      have e1 := congrArg Prod.fst he
      have e2 := congrArg Prod.snd he
      dsimp only at e1 e2
      exact Prod.ext (by dsimp only; omega) (by dsimp only; omega)
    · have hcell : ∀ c ∈ cells, c.1 < 4 ∧ c.2.1 < 4 := by decide
      have key : ∀ b b' : Nat × Nat, (b.1 % 4 = 0 ∧ b.2 % 4 = 0 ∧ b'.1 % 4 = 0 ∧ b'.2 % 4 = 0 ∧ b ≠ b') →
          ∀ p ∈ cells.map (fun c => (b.1 + c.1, b.2 + c.2.1)), ∀ q ∈ cells.map (fun c => (b'.1 + c.1, b'.2 + c.2.1)), p ≠ q := by
        intro b b' hb p hp q hq he
        obtain ⟨c, hc, rfl⟩ := List.mem_map.mp hp
        obtain ⟨d, hd, rfl⟩ := List.mem_map.mp hq
        have e1 := congrArg Prod.fst he
        have e2 := congrArg Prod.snd he
        dsimp only at e1 e2
        have := hcell c hc
        have := hcell d hd
        exact hb.2.2.2.2 (Prod.ext (by omega) (by omega))
      refine List.Pairwise.imp (fun {b b'} h => key b b' h) ?_
      rw [List.pairwise_flatMap]
      constructor
      · intro y hy
        rw [List.pairwise_map]
        have hy := (mem_stepBy4.mp hy).2
        exact (step w).imp fun {a b} h => ⟨h.2.1, hy, h.2.2, hy, fun he => by have := congrArg Prod.fst he; dsimp only at this; omega⟩
      · refine (step h).imp fun {y y'} hyy p hp q hq => ?_
        obtain ⟨x, hx, rfl⟩ := List.mem_map.mp hp
        obtain ⟨x', hx', rfl⟩ := List.mem_map.mp hq
        exact ⟨(mem_stepBy4.mp hx).2, hyy.2.1, (mem_stepBy4.mp hx').2, hyy.2.2, fun he => by have := congrArg Prod.snd he; dsimp only at this; omega⟩
  · intro x y
    show (x, y) ∈ List.flatMap _ _ ↔ _
    rw [List.mem_flatMap]
    constructor
    · rintro ⟨b, hb, hm⟩
      obtain ⟨⟨h1, h2⟩, h3, h4⟩ := mem_places.mp hb
      obtain ⟨c, hc, he⟩ := List.mem_map.mp hm
      have : c.1 < 4 ∧ c.2.1 < 4 := (show ∀ c ∈ cells, c.1 < 4 ∧ c.2.1 < 4 by decide) c hc
      have e1 := congrArg Prod.fst he
      have e2 := congrArg Prod.snd he
      dsimp only at e1 e2
      omega
    · rintro ⟨hx, hy⟩
      refine ⟨(4 * (x / 4), 4 * (y / 4)), mem_places.mpr
        ⟨⟨(by show 4 * (x / 4) < w; omega), (by show 4 * (x / 4) % 4 = 0; omega)⟩, (by show 4 * (y / 4) < h; omega), by show 4 * (y / 4) % 4 = 0; omega⟩, ?_⟩
      refine List.mem_map.mpr ⟨(x % 4, y % 4, y % 4 * 4 + x % 4), List.mem_map.mpr ⟨y % 4 * 4 + x % 4, List.mem_range.mpr (by omega), ?_⟩, ?_⟩
      · exact Prod.ext (by dsimp only; omega) (Prod.ext (by dsimp only; omega) rfl)
      · exact Prod.ext (by dsimp only; omega) (by dsimp only; omega)

/-! ### Sizes that are not multiples of 4, short data -/

theorem foldlM_step {σ α : Type} {P : σ → Prop} {f : σ → α → Except Err σ} (hP : ∀ s a s', P s → f s a = .ok s' → P s') {l : List α} :
    ∀ {s s' : σ}, P s → l.foldlM f s = .ok s' → P s' ∧ ∀ a ∈ l, ∃ t t', P t ∧ f t a = .ok t' := by
  induction l with
  | nil =>
    intro s s' hs h
    cases h
    exact ⟨hs, fun a ha => by cases ha⟩
  | cons a l ih =>
    intro s s' hs h
    rw [List.foldlM_cons] at h
    cases hf : f s a with
    | error e => rw [hf] at h; cases h
    | ok t =>
      rw [hf] at h
      obtain ⟨h1, h2⟩ := ih (hP s a t hs hf) h
      refine ⟨h1, fun b hb => ?_⟩
      rcases List.mem_cons.mp hb with rfl | hb
      · exact ⟨s, t, hs, hf⟩
      · exact h2 b hb

theorem putPixel_inside {α : Type} {img img' : List (List α)} {w h x y : Nat} {p : α} (hs : Sized img w h) (he : putPixel img x y p = .ok img') :
    x < w ∧ y < h ∧ Sized img' w h := by
  by_cases hy : y < h
  · by_cases hx : x < w
    · obtain ⟨i, h1, h2, _⟩ := putPixel_ok hs hx hy p
      rw [h1] at he
      cases he
      exact ⟨hx, hy, h2⟩
    · exfalso
      have hy' : y < img.length := by rw [hs.1]; exact hy
      unfold putPixel at he
      rw [List.getElem?_eq_getElem hy'] at he
      dsimp only at he
      rw [if_neg (by rw [hs.2 _ (List.getElem_mem hy')]; exact hx)] at he
      cases he
  · exfalso
    unfold putPixel at he
    rw [List.getElem?_eq_none (by rw [hs.1]; omega)] at he
    cases he

/-- a block that was put went inside the image, and its 16 bytes were there -/
theorem putBlock_inside {alpha : Bytes → Except Err (List Byte)} {m : Mode} {raw : Bytes} {w h : Nat} {img img' : List (List Rgba)} {xy : Nat × Nat}
    (hs : Sized img w h) (he : dxtPutBlock alpha m raw w img xy = .ok img') :
    xy.1 + 3 < w ∧ xy.2 + 3 < h ∧ Sized img' w h ∧ (xy.2 * w + xy.1 * 4 < 2 ^ 32 → xy.2 * w + xy.1 * 4 + 16 ≤ raw.length) := by
  unfold dxtPutBlock at he
  cases h1 : mulU32 m xy.2 w with
  | error e => rw [h1] at he; cases he
  | ok a =>
    rw [h1] at he
    cases h2 : mulU32 m xy.1 4 with
    | error e => replace he : (mulU32 m xy.1 4 >>= _) = _ := he; rw [h2] at he; cases he
    | ok b =>
      replace he : (mulU32 m xy.1 4 >>= _) = _ := he
      rw [h2] at he
      cases h3 : addU32 m a b with
      | error e => replace he : (addU32 m a b >>= _) = _ := he; rw [h3] at he; cases he
      | ok off =>
        replace he : (addU32 m a b >>= _) = _ := he
        rw [h3] at he
        replace he : (sliceIdx raw off (off + 16) >>= _) = _ := he
        by_cases h4 : off ≤ off + 16 ∧ off + 16 ≤ raw.length
        · have h5 : sliceIdx raw off (off + 16) = .ok ((raw.drop off).take (off + 16 - off)) := if_pos h4
          rw [h5] at he
          replace he : (dxtBlock alpha ((raw.drop off).take (off + 16 - off)) >>= _) = _ := he
          cases h6 : dxtBlock alpha ((raw.drop off).take (off + 16 - off)) with
          | error e => rw [h6] at he; cases he
          | ok px =>
            rw [h6] at he
            have hstep : ∀ (s : List (List Rgba)) (c : Nat × Nat × Nat) s', Sized s w h →
                (idx px c.2.2 >>= fun p => putPixel s (xy.1 + c.1) (xy.2 + c.2.1) p) = .ok s' → xy.1 + c.1 < w ∧ xy.2 + c.2.1 < h ∧ Sized s' w h := by
              intro s c s' hs he
              cases hi : idx px c.2.2 with
              | error e => rw [hi] at he; cases he
              | ok p => rw [hi] at he; exact putPixel_inside hs he
            obtain ⟨q1, q2⟩ := foldlM_step (P := fun i => Sized i w h) (fun s c s' hs he => (hstep s c s' hs he).2.2) hs he
            obtain ⟨t, t', ht, hf⟩ := q2 (3, 3, 15) (by decide)
            obtain ⟨r1, r2, _⟩ := hstep t (3, 3, 15) t' ht hf
            refine ⟨r1, r2, q1, fun hlt => ?_⟩
            have ea : a = xy.2 * w := by
              have : mulU32 m xy.2 w = .ok (xy.2 * w) := if_pos (by omega)
              rw [this] at h1; cases h1; rfl
            have eb : b = xy.1 * 4 := by
              have : mulU32 m xy.1 4 = .ok (xy.1 * 4) := if_pos (by omega)
              rw [this] at h2; cases h2; rfl
            subst ea eb
            have : addU32 m (xy.2 * w) (xy.1 * 4) = .ok (xy.2 * w + xy.1 * 4) := if_pos hlt
            rw [this] at h3
            cases h3
            omega
        · have h5 : sliceIdx raw off (off + 16) = .error .panicIndex := if_neg h4
          rw [h5] at he
          cases he

theorem seq_inside {alpha : Bytes → Except Err (List Byte)} {m : Mode} {raw : Bytes} {w h : Nat} {img : List (List Rgba)}
    (he : dxtImageSeq alpha m raw w h = .ok img) {x y : Nat} (hx : x < w ∧ x % 4 = 0) (hy : y < h ∧ y % 4 = 0) :
    x + 3 < w ∧ y + 3 < h ∧ (y * w + x * 4 < 2 ^ 32 → y * w + x * 4 + 16 ≤ raw.length) := by
  obtain ⟨_, q⟩ := foldlM_step (P := fun i => Sized i w h) (fun s b s' hs he => (putBlock_inside hs he).2.2.1) (sized_replicate w h _) he
  obtain ⟨t, t', ht, hf⟩ := q (x, y) (mem_places.mpr ⟨hx, hy⟩)
  obtain ⟨r1, r2, _, r3⟩ := putBlock_inside ht hf
  exact ⟨r1, r2, r3⟩

/-- C32 fails without the default features: if width or height is not a multiple of 4 no image is made, whatever the data. -/
theorem C32_sequential_fails (alpha : Bytes → Except Err (List Byte)) (m : Mode) (raw : Bytes) (w h : Nat) (hw : 0 < w) (hh : 0 < h)
    (hn : w % 4 ≠ 0 ∨ h % 4 ≠ 0) : ∃ e, dxtImageSeq alpha m raw w h = .error e := by
  cases he : dxtImageSeq alpha m raw w h with
  | error e => exact ⟨e, rfl⟩
  | ok img =>
    exfalso
    obtain ⟨h1, h2, _⟩ := seq_inside he (x := (w - 1) / 4 * 4) (y := (h - 1) / 4 * 4) ⟨by omega, by omega⟩ ⟨by omega, by omega⟩
    omega

/-- C32: data that is too short is refused (by a panic), it never gives an image. -/
theorem C32_sequential_short (alpha : Bytes → Except Err (List Byte)) (m : Mode) (raw : Bytes) (w h : Nat) (hb : w * h < 2 ^ 32) (hr : raw.length < w * h) :
    ∃ e, dxtImageSeq alpha m raw w h = .error e := by
  have hw : 0 < w := by
    rcases Nat.eq_zero_or_pos w with rfl | h
    · rw [Nat.zero_mul] at hr; omega
    · exact h
  have hh : 0 < h := by
    rcases Nat.eq_zero_or_pos h with rfl | h
    · rw [Nat.mul_zero] at hr; omega
    · exact h
  by_cases hn : w % 4 ≠ 0 ∨ h % 4 ≠ 0
  · exact C32_sequential_fails alpha m raw w h hw hh hn
  · cases he : dxtImageSeq alpha m raw w h with
    | error e => exact ⟨e, rfl⟩
    | ok img =>
      exfalso
      obtain ⟨_, _, h3⟩ := seq_inside he (x := w - 4) (y := h - 4) ⟨by omega, by omega⟩ ⟨by omega, by omega⟩
      have hm : (h - 4) * w = w * h - 4 * w := by rw [Nat.sub_mul, Nat.mul_comm h]
      have h4 : 4 * w ≤ w * h := by rw [Nat.mul_comm 4]; exact Nat.mul_le_mul_left _ (by omega)
      rw [hm] at h3
      have := h3 (by omega)
      omega

theorem C32_default_short (alpha : Bytes → Except Err (List Byte)) (raw : Bytes) (w h : Nat) (hw : w % 4 = 0)
    (hr : raw.length + 15 < (w + 3) / 4 * ((h + 3) / 4) * 16) : ∃ e, dxtImagePar alpha raw w h = .error e := by
  have hw0 : 0 < w := by
    rcases Nat.eq_zero_or_pos w with rfl | h
    · rw [show (0 + 3) / 4 = 0 from rfl, Nat.zero_mul] at hr; omega
    · exact h
  have hh0 : 0 < h := by
    rcases Nat.eq_zero_or_pos h with rfl | h
    · rw [show (0 + 3) / 4 = 0 from rfl, Nat.mul_zero] at hr; omega
    · exact h
  unfold dxtImagePar
  cases hb : (chunks16 raw).mapM (dxtBlock alpha) with
  | error e => exact ⟨e, rfl⟩
  | ok blocks =>
    have hl : blocks.length = (raw.length + 15) / 16 := by
      rw [mapM_length hb]
      unfold chunks16
      simp
    show ∃ e, genImage w h _ = .error e
    refine genImage_error (x := w - 1) (y := h - 1) (by omega) (by omega) ⟨.panicIndex, ?_⟩
    rw [idx_err]
    · rfl
    · rw [hl]
      have h1 : (h - 1) / 4 * (w / 4) = (h + 3) / 4 * (w / 4) - w / 4 := by
        rw [show (h - 1) / 4 = (h + 3) / 4 - 1 by omega, Nat.sub_mul, Nat.one_mul]
      have h2 : 1 * (w / 4) ≤ (h + 3) / 4 * (w / 4) := Nat.mul_le_mul_right _ (by omega)
      rw [h1]
      rw [show (w + 3) / 4 = w / 4 by omega, Nat.mul_comm (w / 4)] at hr
      omega

example : ∃ img, dxtImagePar blockAlpha3 (List.replicate 64 7#8) 8 7 = .ok img ∧ DxtImage Alpha3 (List.replicate 64 7#8) 8 7 img :=
  (C32_default_partial _ 8 7 (by decide) (by decide)).1

example : dxtImageSeq blockAlpha3 .checked (List.replicate 32 7#8) 8 3 = .error .panicIndex := by decide +kernel
example : dxtImagePar blockAlpha3 (List.replicate 16 7#8) 8 4 = .error .panicIndex := by decide +kernel

end Wz.Props
