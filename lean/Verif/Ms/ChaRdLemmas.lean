import Verif.Ms.ReaderModel
import Verif.Ms.ReaderSpec
import Verif.Ms.SnowRdLemmas
/-!
# The ChaCha20 reader: lemmas
-/

set_option autoImplicit false

namespace Wz.Spec

/-- byte `q` of the data decrypted, if the key stream started anew at block `j` -/
def chaByte (ks : Nat → Bytes) (D : Bytes) (j q : Nat) : Byte := D.getD q 0#8 ^^^ (ks (q / 64 - j)).getD (q % 64) 0#8

/-- `n` bytes at `p` -/
def chaPiece (ks : Nat → Bytes) (D : Bytes) (j p n : Nat) : Bytes := (List.range n).map fun i => chaByte ks D j (p + i)

end Wz.Spec

namespace Wz.ChaRd

open Wz.Spec

theorem piece_length (ks : Nat → Bytes) (D : Bytes) (j p n : Nat) : (chaPiece ks D j p n).length = n := by simp [chaPiece]

theorem piece_append (ks : Nat → Bytes) (D : Bytes) (j p a b : Nat) :
    chaPiece ks D j p a ++ chaPiece ks D j (p + a) b = chaPiece ks D j p (a + b) := by
  unfold chaPiece
  rw [List.range_add, List.map_append, List.map_map]
  congr 1
  apply List.map_congr_left
  intro i _
  show chaByte ks D j (p + a + i) = chaByte ks D j (p + (a + i))
  rw [Nat.add_assoc]

theorem piece_take (ks : Nat → Bytes) (D : Bytes) (j p n k : Nat) (h : k ≤ n) : (chaPiece ks D j p n).take k = chaPiece ks D j p k := by
  have := piece_append ks D j p k (n - k)
  rw [show k + (n - k) = n by omega] at this
  rw [← this, List.take_append_of_le_length (by rw [piece_length]; omega), List.take_of_length_le (by rw [piece_length]; omega)]

theorem piece_drop (ks : Nat → Bytes) (D : Bytes) (j p n k : Nat) (h : k ≤ n) : (chaPiece ks D j p n).drop k = chaPiece ks D j (p + k) (n - k) := by
  have := piece_append ks D j p k (n - k)
  rw [show k + (n - k) = n by omega] at this
  rw [← this, List.drop_append, piece_length, List.drop_eq_nil_of_le (by rw [piece_length]; omega)]
  simp

/-- the reader stands at byte `p` behind `off`; the key stream started anew at block `j` -/
structure Inv (ks : Nat → Bytes) (data : Bytes) (off j p : Nat) (r : ChaRd) : Prop where
  dat : r.data = data
  key : r.ks = ks
  offset : r.offset = off + 64 * ((p + 63) / 64)
  counter : r.counter = (p + 63) / 64 - j
  start : j ≤ (p + 63) / 64
  bufOff : r.bufOff + 64 * ((p + 63) / 64) = p + 64
  buf : r.buffer.length = 64
  held : r.buffer.drop r.bufOff = chaPiece ks (data.drop off) j p (64 - r.bufOff)
  within : off + 64 * ((p + 63) / 64) ≤ data.length

theorem getD_sub (P : Bytes) (p n i : Nat) (h : i < n) : (sub P p n).getD i 0#8 = P.getD (p + i) 0#8 := by
  unfold sub
  rw [List.getD_eq_getElem?_getD, List.getD_eq_getElem?_getD, List.getElem?_take_of_lt h, List.getElem?_drop]

theorem chunk_eq (ks : Nat → Bytes) (hks : ∀ c, (ks c).length = 64) (data : Bytes) (off j b : Nat) (h : off + 64 * b + 64 ≤ data.length) :
    List.zipWith (· ^^^ ·) (sub data (off + 64 * b) 64) (ks (b - j)) = chaPiece ks (data.drop off) j (64 * b) 64 := by
  apply List.ext_getElem
  · rw [List.length_zipWith, sub_length (by omega), hks, piece_length, Nat.min_self]
  · intro i h1 h2
    rw [piece_length] at h2
    rw [List.getElem_zipWith]
    have hl : (sub data (off + 64 * b) 64).length = 64 := sub_length (by omega)
    have e1 : (sub data (off + 64 * b) 64)[i]'(by omega) = (data.drop off).getD (64 * b + i) 0#8 := by
      have h3 := getD_sub data (off + 64 * b) 64 i h2
      rw [List.getD_eq_getElem?_getD, List.getElem?_eq_getElem (by omega)] at h3
      rw [List.getD_eq_getElem?_getD, List.getElem?_drop]
      rw [List.getD_eq_getElem?_getD] at h3
      rw [Nat.add_assoc] at h3
      exact h3
    rw [e1]
    simp only [chaPiece, List.getElem_map, List.getElem_range]
    unfold chaByte
    rw [show (64 * b + i) / 64 = b by omega, show (64 * b + i) % 64 = i by omega]
    congr 1
    rw [List.getD_eq_getElem?_getD, List.getElem?_eq_getElem (by rw [hks]; omega)]
    rfl

theorem refill_full {ks : Nat → Bytes} (hks : ∀ c, (ks c).length = 64) {data : Bytes} {off j p : Nat} {r : ChaRd} (hI : Inv ks data off j p r)
    (hb : r.bufOff = 64) (h : off + p + 64 ≤ data.length) :
    ∃ r', r.refill = .ok r' ∧ r'.data = data ∧ r'.ks = ks ∧ r'.offset = off + p + 64 ∧ r'.counter = (p + 63) / 64 - j + 1 ∧ r'.bufOff = 0 ∧
      r'.buffer = chaPiece ks (data.drop off) j p 64 := by
  have h1 := hI.bufOff
  have hp : 64 * ((p + 63) / 64) = p := by omega
  unfold refill
  rw [if_pos (by omega)]
  show ∃ r', (sliceIdx r.data r.offset (r.offset + 64) >>= _) = _ ∧ _
  rw [hI.dat, hI.offset, sliceIdx_ok (by omega) (by omega)]
  refine ⟨_, rfl, rfl, hI.key, ?_, ?_, rfl, ?_⟩
  · show off + 64 * ((p + 63) / 64) + 64 = _; omega
  · show r.counter + 1 = _; rw [hI.counter]
  · show List.zipWith _ (sub data (off + 64 * ((p + 63) / 64)) (off + 64 * ((p + 63) / 64) + 64 - (off + 64 * ((p + 63) / 64)))) (r.ks r.counter) = _
    rw [show off + 64 * ((p + 63) / 64) + 64 - (off + 64 * ((p + 63) / 64)) = 64 by omega, hI.key, hI.counter, chunk_eq ks hks data off j _ (by omega), hp]

theorem refill_none {r : ChaRd} (hb : r.bufOff < 64) : r.refill = .ok r := by
  unfold refill; rw [if_neg (by omega)]

/-- one round -/
theorem round {ks : Nat → Bytes} (hks : ∀ c, (ks c).length = 64) {data : Bytes} {off j p : Nat} {r : ChaRd} (hI : Inv ks data off j p r) (n : Nat)
    (hn : n > 0) (h : off + 64 * ((p + n + 63) / 64) ≤ data.length) :
    ∃ r1, r.refill = .ok r1 ∧ ∃ c, c = min n (64 - r1.bufOff) ∧ 0 < c ∧ c ≤ n ∧
      sliceIdx r1.buffer r1.bufOff (r1.bufOff + c) = .ok (chaPiece ks (data.drop off) j p c) ∧
      Inv ks data off j (p + c) { r1 with bufOff := r1.bufOff + c } := by
  have h1 := hI.bufOff
  by_cases hb : r.bufOff = 64
  · obtain ⟨r1, hr, hd, hk, ho, hc, hbo, hbuf⟩ := refill_full hks hI hb (by omega)
    refine ⟨r1, hr, min n (64 - r1.bufOff), rfl, by omega, by omega, ?_, ?_⟩
    · rw [hbo, hbuf, sliceIdx_ok (by omega) (by rw [piece_length]; omega)]
      show Except.ok (((chaPiece ks (data.drop off) j p 64).drop 0).take _) = _
      rw [List.drop_zero, piece_take _ _ _ _ _ _ (by omega)]
      congr 2
      omega
    · have hq : (p + min n (64 - r1.bufOff) + 63) / 64 = (p + 63) / 64 + 1 := by omega
      have hst := hI.start
      refine ⟨hd, hk, ?_, ?_, ?_, ?_, ?_, ?_, ?_⟩
      · show r1.offset = _; rw [hq, ho]; omega
      · show r1.counter = _; rw [hq, hc]; omega
      · rw [hq]; omega
      · show r1.bufOff + min n (64 - r1.bufOff) + _ = _; rw [hq]; omega
      · show r1.buffer.length = 64; rw [hbuf, piece_length]
      · show List.drop (r1.bufOff + min n (64 - r1.bufOff)) r1.buffer = chaPiece _ _ _ _ (64 - (r1.bufOff + min n (64 - r1.bufOff)))
        rw [hbo, hbuf, piece_drop _ _ _ _ _ _ (by omega), Nat.zero_add]
      · rw [hq]; omega
  · refine ⟨r, refill_none (by omega), min n (64 - r.bufOff), rfl, by omega, by omega, ?_, ?_⟩
    · have hb64 := hI.buf
      rw [sliceIdx_ok (by omega) (by omega)]
      show Except.ok ((r.buffer.drop r.bufOff).take _) = _
      rw [hI.held, piece_take _ _ _ _ _ _ (by omega)]
      congr 2
      omega
    · have hq : (p + min n (64 - r.bufOff) + 63) / 64 = (p + 63) / 64 := by omega
      refine ⟨hI.dat, hI.key, ?_, ?_, ?_, ?_, hI.buf, ?_, ?_⟩
      · show r.offset = _; rw [hq]; exact hI.offset
      · show r.counter = _; rw [hq]; exact hI.counter
      · rw [hq]; exact hI.start
      · show r.bufOff + min n (64 - r.bufOff) + _ = _; rw [hq]; omega
      · show List.drop (r.bufOff + min n (64 - r.bufOff)) r.buffer = chaPiece _ _ _ _ (64 - (r.bufOff + min n (64 - r.bufOff)))
        rw [← List.drop_drop, hI.held, piece_drop _ _ _ _ _ _ (by omega)]
        congr 1
        omega
      · rw [hq]; exact hI.within

theorem applyLoop_ok {ks : Nat → Bytes} (hks : ∀ c, (ks c).length = 64) {data : Bytes} {off j : Nat} :
    ∀ (fuel : Nat) (r : ChaRd) (p n : Nat), Inv ks data off j p r → n ≤ fuel → off + 64 * ((p + n + 63) / 64) ≤ data.length →
      ∃ r', r.applyLoop fuel n = .ok (chaPiece ks (data.drop off) j p n, r') ∧ Inv ks data off j (p + n) r' := by
  intro fuel
  induction fuel with
  | zero =>
    intro r p n hI hf _
    have : n = 0 := by omega
    subst this
    exact ⟨r, by unfold applyLoop; rw [if_neg (by omega)]; rfl, hI⟩
  | succ fuel ih =>
    intro r p n hI hf h
    unfold applyLoop
    by_cases h0 : n = 0
    · subst h0
      exact ⟨r, by rw [if_neg (by omega)]; rfl, hI⟩
    · rw [if_pos (by omega)]
      obtain ⟨r1, hr1, c, hc, hc0, hcn, hs, hI1⟩ := round hks hI n (by omega) h
      obtain ⟨r2, hr2, hI2⟩ := ih _ (p + c) (n - c) hI1 (by omega) (by rwa [show p + c + (n - c) = p + n by omega])
      refine ⟨r2, ?_, by rwa [show p + c + (n - c) = p + n by omega] at hI2⟩
      rw [hr1]
      show (sliceIdx r1.buffer r1.bufOff (r1.bufOff + min n (64 - r1.bufOff)) >>= _) = _
      rw [← hc, hs]
      show (applyLoop fuel _ (n - c) >>= _) = _
      rw [hr2]
      show Except.ok (_ ++ _, r2) = _
      rw [piece_append, show c + (n - c) = n by omega]

theorem applyLoop_end {ks : Nat → Bytes} (hks : ∀ c, (ks c).length = 64) {data : Bytes} {off j : Nat} :
    ∀ (fuel : Nat) (r : ChaRd) (p n : Nat), Inv ks data off j p r → n ≤ fuel → ¬ off + 64 * ((p + n + 63) / 64) ≤ data.length →
      r.applyLoop fuel n = .error .panicIndex := by
  intro fuel
  induction fuel with
  | zero =>
    intro r p n hI hf h
    have : n = 0 := by omega
    subst this
    exact absurd hI.within h
  | succ fuel ih =>
    intro r p n hI hf h
    have hw := hI.within
    have h1 := hI.bufOff
    unfold applyLoop
    rw [if_pos (Nat.pos_of_ne_zero fun h0 => by subst h0; exact h hw)]
    by_cases hb : r.bufOff = 64 ∧ ¬ off + p + 64 ≤ data.length
    · have : r.refill = .error .panicIndex := by
        unfold refill
        rw [if_pos (by omega)]
        show (sliceIdx r.data r.offset (r.offset + 64) >>= _) = _
        unfold sliceIdx
        rw [if_neg (by rw [hI.dat, hI.offset]; omega)]
        rfl
      rw [this]
      rfl
    · obtain ⟨m, hm⟩ : ∃ m, m = min n (64 - r.bufOff) ∨ m = min n 64 := ⟨_, .inl rfl⟩
      -- read up to the end of the chunk
      by_cases hbo : r.bufOff = 64
      · obtain ⟨r1, hr1, c, hc, hc0, hcn, hs, hI1⟩ := round hks hI (min n 64) (by omega) (by omega)
        have hb1 := hI1.bufOff
        obtain ⟨r1', hr1', hrest⟩ := refill_full hks hI hbo (by omega)
        rw [hr1] at hr1'
        cases hr1'
        have hbz : r1.bufOff = 0 := hrest.2.2.2.2.1
        have hc' : c = min n (64 - r1.bufOff) := by omega
        rw [hr1]
        show (sliceIdx r1.buffer r1.bufOff (r1.bufOff + min n (64 - r1.bufOff)) >>= _) = _
        rw [← hc', hs]
        show (applyLoop fuel _ (n - c) >>= _) = _
        rw [ih _ (p + c) (n - c) hI1 (by omega) (by rwa [show p + c + (n - c) = p + n by omega])]
        rfl
      · obtain ⟨r1, hr1, c, hc, hc0, hcn, hs, hI1⟩ := round hks hI (min n (64 - r.bufOff)) (by omega) (by omega)
        rw [refill_none (by omega)] at hr1
        cases hr1
        have hc' : c = min n (64 - r.bufOff) := by omega
        rw [refill_none (by omega)]
        show (sliceIdx r.buffer r.bufOff (r.bufOff + min n (64 - r.bufOff)) >>= _) = _
        rw [← hc', hs]
        show (applyLoop fuel _ (n - c) >>= _) = _
        rw [ih _ (p + c) (n - c) hI1 (by omega) (by rwa [show p + c + (n - c) = p + n by omega])]
        rfl

/-- where the key stream starts anew, after a read up to `q` -/
def nextStart (j q : Nat) : Nat := if q % 64 = 0 then q / 64 else j

theorem apply_ok {ks : Nat → Bytes} (hks : ∀ c, (ks c).length = 64) {data : Bytes} {off j p : Nat} {r : ChaRd} (hI : Inv ks data off j p r)
    (n : Nat) (h : off + 64 * ((p + n + 63) / 64) ≤ data.length) :
    ∃ r', r.apply n = .ok (chaPiece ks (data.drop off) j p n, r') ∧ Inv ks data off (nextStart j (p + n)) (p + n) r' := by
  obtain ⟨r1, hr1, hI1⟩ := applyLoop_ok hks n r p n hI (Nat.le_refl _) h
  have hb := hI1.bufOff
  unfold apply
  rw [hr1]
  show ∃ r', (if r1.bufOff ≥ 64 then _ else _) = _ ∧ _
  by_cases hz : (p + n) % 64 = 0
  · refine ⟨{ r1 with counter := 0 }, by rw [if_pos (by omega)]; rfl, ?_⟩
    unfold nextStart
    rw [if_pos hz]
    refine ⟨hI1.dat, hI1.key, hI1.offset, ?_, ?_, hI1.bufOff, hI1.buf, ?_, hI1.within⟩
    · show 0 = _; omega
    · omega
    · show List.drop r1.bufOff r1.buffer = chaPiece _ _ _ _ (64 - r1.bufOff)
      rw [show 64 - r1.bufOff = 0 by omega, List.drop_eq_nil_of_le (by rw [hI1.buf]; omega)]
      rfl
  · refine ⟨r1, by rw [if_neg (by omega)]; rfl, ?_⟩
    unfold nextStart
    rw [if_neg hz]
    exact hI1

theorem apply_end {ks : Nat → Bytes} (hks : ∀ c, (ks c).length = 64) {data : Bytes} {off j p : Nat} {r : ChaRd} (hI : Inv ks data off j p r)
    (n : Nat) (h : ¬ off + 64 * ((p + n + 63) / 64) ≤ data.length) : r.apply n = .error .panicIndex := by
  unfold apply
  rw [applyLoop_end hks n r p n hI (Nat.le_refl _) h]
  rfl

end Wz.ChaRd
