import Verif.Ms.SnowProps
import Verif.Ms.ReaderModel
import Verif.Ms.ReaderSpec
/-!
# The Snow2 reader: lemmas
-/

set_option autoImplicit false

namespace Wz

/-! ## pieces of lists -/

/-- `n` bytes at `p` -/
def sub (P : Bytes) (p n : Nat) : Bytes := (P.drop p).take n

theorem sub_length {P : Bytes} {p n : Nat} (h : p + n ≤ P.length) : (sub P p n).length = n := by
  unfold sub; rw [List.length_take, List.length_drop]; omega

theorem sub_append (P : Bytes) (p a b : Nat) : sub P p a ++ sub P (p + a) b = sub P p (a + b) := by
  unfold sub
  rw [← List.drop_drop, List.take_add]

theorem sub_take (P : Bytes) (p n k : Nat) (h : k ≤ n) : (sub P p n).take k = sub P p k := by
  unfold sub; rw [List.take_take, Nat.min_eq_left h]

theorem sub_drop (P : Bytes) (p n k : Nat) : (sub P p n).drop k = sub P (p + k) (n - k) := by
  unfold sub; rw [List.drop_take, List.drop_drop]

theorem sub_zero (P : Bytes) (p : Nat) : sub P p 0 = [] := by simp [sub]

theorem sliceIdx_ok {buf : Bytes} {s t : Nat} (h : s ≤ t) (h' : t ≤ buf.length) : sliceIdx buf s t = .ok (sub buf s (t - s)) := by
  unfold sliceIdx; rw [if_pos ⟨h, h'⟩]; rfl

theorem setRange_ok {dst src : Bytes} {s t : Nat} (h : s ≤ t) (h1 : t ≤ dst.length) (h2 : src.length = t - s) :
    setRange dst s t src = .ok (dst.take s ++ src ++ dst.drop t) := by
  unfold setRange; rw [if_pos ⟨h, h1, h2⟩]

theorem unitPairs_eq (bs : Bytes) : unitPairs bs = Spec.unitsOf bs := by
  induction bs using unitPairs.induct with
  | case1 a b r ih =>
    rw [unitPairs, ih]
    unfold Spec.unitsOf
    rw [show (a :: b :: r).length / 2 = r.length / 2 + 1 by simp only [List.length_cons]; omega, List.range_succ_eq_map, List.map_cons, List.map_map]
    congr 1
  | case2 bs h =>
    rcases bs with _ | ⟨a, _ | ⟨b, r⟩⟩
    · rfl
    · simp [unitPairs, Spec.unitsOf]
    · exact absurd rfl (h a b r)

namespace SnowRd

open Wz.Spec.Snow Wz.Snow

/-! ## the whole stream -/

theorem oneShot_words (key : Bytes) (bs : Bytes) : ∀ (n : Nat) (d d' : Snow2) (P : Bytes) (k : Nat), At key n d → d.decryptSlice bs = .ok (P, k, d') →
    P.length = bs.length ∧ ∀ i, 4 * i + 4 ≤ bs.length → sub P (4 * i) 4 = toLE 4 (BitVec.ofNat 32 (leNat (sub bs (4 * i) 4)) - stream key (n + i)).toNat := by
  induction bs using words_ind with
  | small bs hs =>
    intro n d d' P k hat h
    rw [slice_small _ _ hs] at h
    cases h
    exact ⟨rfl, fun i hi => absurd hi (by omega)⟩
  | word a b c e rest ih =>
    intro n d d' P k hat h
    obtain ⟨d1, hat1, hd1⟩ := slice_word key n d hat a b c e rest
    rw [hd1] at h
    cases hr : d1.decryptSlice rest with
    | error x => rw [hr] at h; cases h
    | ok q =>
      rw [hr] at h
      cases h
      obtain ⟨hl, hw⟩ := ih (n + 1) d1 q.2.2 q.1 q.2.1 hat1 hr
      refine ⟨by simp only [List.length_append, length_toLE, List.length_cons, hl]; omega, ?_⟩
      intro i hi
      cases i with
      | zero =>
        show sub (toLE 4 _ ++ q.1) 0 4 = _
        unfold sub
        rw [List.drop_zero, List.take_append_of_le_length (by rw [length_toLE]; omega), List.take_of_length_le (by rw [length_toLE]; omega)]
        rfl
      | succ i =>
        simp only [List.length_cons] at hi
        have := hw i (by omega)
        have h1 : sub (toLE 4 (BitVec.ofNat 32 (leNat [a, b, c, e]) - stream key n).toNat ++ q.1) (4 * (i + 1)) 4 = sub q.1 (4 * i) 4 := by
          unfold sub
          rw [List.drop_append, length_toLE, List.drop_eq_nil_of_le (by rw [length_toLE]; omega), List.nil_append]
          rw [show 4 * (i + 1) - 4 = 4 * i by omega]
        have h2 : sub (a :: b :: c :: e :: rest) (4 * (i + 1)) 4 = sub rest (4 * i) 4 := by
          unfold sub
          rw [show 4 * (i + 1) = 4 * i + 1 + 1 + 1 + 1 by omega]
          rfl
        show sub (toLE 4 _ ++ q.1) _ _ = _
        rw [h1, h2, this, show n + 1 + i = n + (i + 1) by omega]

/-- `P` is the decryption of the data from `off` on -/
structure Plain (key data : Bytes) (off : Nat) (P : Bytes) : Prop where
  start : off ≤ data.length
  len : P.length = data.length - off
  words : ∀ i, 4 * i + 4 ≤ P.length → sub P (4 * i) 4 = toLE 4 (BitVec.ofNat 32 (leNat (sub data (off + 4 * i) 4)) - stream key i).toNat

theorem plain_of (key data : Bytes) (off : Nat) (P : Bytes) (k : Nat) (d : Snow2) (h0 : off ≤ data.length)
    (h : (Snow2.new key).decryptSlice (data.drop off) = .ok (P, k, d)) : Plain key data off P := by
  obtain ⟨hl, hw⟩ := oneShot_words key _ 0 _ _ _ _ (at_new key) h
  refine ⟨h0, by rw [hl, List.length_drop], fun i hi => ?_⟩
  rw [hw i (by omega), Nat.zero_add]
  unfold sub
  rw [List.drop_drop]

/-- the reader stands at byte `p` of the decrypted text -/
structure Inv (key data : Bytes) (off : Nat) (P : Bytes) (p : Nat) (r : SnowRd) : Prop where
  data : r.data = data
  offset : r.offset = off + 4 * ((p + 3) / 4)
  dec : At key ((p + 3) / 4) r.dec
  buf : r.buffer.length = 4
  bufLen : r.bufLen = 4 * ((p + 3) / 4) - p
  held : r.buffer.take r.bufLen = sub P p r.bufLen
  within : 4 * ((p + 3) / 4) ≤ P.length

theorem block_ok {key data : Bytes} {off : Nat} {P : Bytes} {n : Nat} {r : SnowRd} (hP : Plain key data off P) (hd : r.data = data)
    (ho : r.offset = off + 4 * n) (hat : At key n r.dec) (h : 4 * n + 4 ≤ P.length) :
    ∃ d, r.block = .ok (sub P (4 * n) 4, { r with dec := d, offset := off + 4 * (n + 1) }) ∧ At key (n + 1) d := by
  have hlen := hP.len
  have hstart := hP.start
  unfold block
  obtain ⟨d, h1, h2⟩ := at_block key n r.dec hat (BitVec.ofNat 32 (leNat ((r.data.drop r.offset).take 4)))
  refine ⟨d, ?_, h2⟩
  rw [if_pos (by rw [ho, hd]; omega), h1, hP.words n h, hd, ho]
  simp only [sub]
  rw [show off + 4 * n + 4 = off + 4 * (n + 1) by omega]

theorem block_end {key data : Bytes} {off : Nat} {P : Bytes} {n : Nat} {r : SnowRd} (hP : Plain key data off P) (hd : r.data = data)
    (ho : r.offset = off + 4 * n) (h : ¬ 4 * n + 4 ≤ P.length) : r.block = .error .read := by
  have hlen := hP.len
  have hstart := hP.start
  unfold block
  rw [if_neg (by rw [ho, hd]; omega)]

/-! ## numbers -/

theorem read4_ok {key data : Bytes} {off : Nat} {P : Bytes} {p : Nat} {r : SnowRd} (hP : Plain key data off P) (hI : Inv key data off P p r)
    (hp : p % 2 = 0) (h : p + 4 ≤ P.length / 4 * 4) :
    ∃ r', r.read4 = .ok (sub P p 4, r') ∧ Inv key data off P (p + 4) r' := by
  obtain ⟨d, hb, hat⟩ := block_ok hP hI.data hI.offset hI.dec (by omega)
  have hbl := hI.bufLen
  have hn : (p + 4 + 3) / 4 = (p + 3) / 4 + 1 := by omega
  by_cases h0 : r.bufLen > 0
  · have h2 : r.bufLen = 2 := by omega
    have hq : 4 * ((p + 3) / 4) = p + 2 := by omega
    have hheld := hI.held
    rw [h2] at hheld
    have hold : sub r.buffer 0 2 = sub P p 2 := by rw [← hheld]; rfl
    rw [hq] at hb
    have hbl4 := hI.buf
    have hlen : (sub P (p + 2) 4).length = 4 := sub_length (by omega)
    refine ⟨{ r with
      dec := d, offset := off + 4 * ((p + 3) / 4 + 1), buffer := List.take 0 r.buffer ++ sub P (p + 4) 2 ++ List.drop (4 - 2) r.buffer }, ?_, ?_⟩
    · unfold read4
      rw [hb]
      show (if r.bufLen > 0 then _ else _) = _
      rw [if_pos h0, h2]
      show (sliceIdx r.buffer 0 2 >>= _) = _
      rw [sliceIdx_ok (by omega) (by omega), hold]
      show (setRange (List.replicate 4 0#8) 0 2 (sub P p 2) >>= _) = _
      rw [setRange_ok (by omega) (by simp) (by rw [sub_length (by omega)])]
      show (sliceIdx (sub P (p + 2) 4) 0 (4 - 2) >>= _) = _
      rw [sliceIdx_ok (by omega) (by omega)]
      show (setRange (List.take 0 (List.replicate 4 0#8) ++ sub P p 2 ++ List.drop 2 (List.replicate 4 0#8)) 2 4 (sub (sub P (p + 2) 4) 0 2) >>= _) = _
      have e1 : sub (sub P (p + 2) 4) 0 2 = sub P (p + 2) 2 := by
        rw [show sub (sub P (p + 2) 4) 0 2 = (sub P (p + 2) 4).take 2 from rfl, sub_take _ _ _ _ (by omega)]
      have l1 : (sub P p 2).length = 2 := sub_length (by omega)
      have l2 : (sub P (p + 2) 2).length = 2 := sub_length (by omega)
      rw [e1, setRange_ok (by omega) (by simp [l1]) (by rw [l2])]
      show (sliceIdx (sub P (p + 2) 4) 2 4 >>= _) = _
      rw [sliceIdx_ok (by omega) (by omega)]
      show (setRange r.buffer 0 (4 - 2) (sub (sub P (p + 2) 4) 2 2) >>= _) = _
      have e2 : sub (sub P (p + 2) 4) 2 2 = sub P (p + 4) 2 := by
        rw [show sub (sub P (p + 2) 4) 2 2 = ((sub P (p + 2) 4).drop 2).take 2 from rfl, sub_drop, sub_take _ _ _ _ (by omega)]
      have l3 : (sub P (p + 4) 2).length = 2 := sub_length (by omega)
      rw [e2, setRange_ok (by omega) (by omega) (by rw [l3])]
      show Except.ok (_, _) = _
      congr 2
      have e3 : List.take 2 (List.take 0 (List.replicate 4 0#8) ++ sub P p 2 ++ List.drop 2 (List.replicate 4 0#8)) = sub P p 2 := by
        rw [List.take_zero, List.nil_append, List.take_append_of_le_length (by omega), List.take_of_length_le (by omega)]
      have e4 : List.drop 4 (List.take 0 (List.replicate 4 0#8) ++ sub P p 2 ++ List.drop 2 (List.replicate 4 0#8)) = [] := by
        apply List.drop_eq_nil_of_le; simp [l1]
      rw [e3, e4, List.append_nil, sub_append]
    · have l3 : (sub P (p + 4) 2).length = 2 := sub_length (by omega)
      refine ⟨hI.data, ?_, ?_, ?_, ?_, ?_, by omega⟩
      · rw [hn]
      · rw [hn]; exact hat
      · simp only [List.length_append, List.length_take, List.length_drop, l3, hbl4]; omega
      · show r.bufLen = _; omega
      · show List.take r.bufLen (List.take 0 r.buffer ++ sub P (p + 4) 2 ++ List.drop (4 - 2) r.buffer) = sub P (p + 4) r.bufLen
        rw [h2, List.take_zero, List.nil_append, List.take_append_of_le_length (by omega), List.take_of_length_le (by omega)]
  · have hq : 4 * ((p + 3) / 4) = p := by omega
    rw [hq] at hb
    refine ⟨{ r with dec := d, offset := off + 4 * ((p + 3) / 4 + 1) }, ?_, ?_⟩
    · unfold read4
      rw [hb]
      show (if r.bufLen > 0 then _ else _) = _
      rw [if_neg h0]
      rfl
    · refine ⟨hI.data, ?_, ?_, hI.buf, ?_, ?_, by omega⟩
      · rw [hn]
      · rw [hn]; exact hat
      · show r.bufLen = _; omega
      · show List.take r.bufLen r.buffer = sub P (p + 4) r.bufLen
        rw [show r.bufLen = 0 by omega, sub_zero, List.take_zero]

theorem read4_end {key data : Bytes} {off : Nat} {P : Bytes} {p : Nat} {r : SnowRd} (hP : Plain key data off P) (hI : Inv key data off P p r)
    (h : ¬ p + 4 ≤ P.length / 4 * 4) : r.read4 = .error .read := by
  unfold read4
  rw [block_end hP hI.data hI.offset (by omega)]
  rfl

/-! ## bytes -/

theorem writeLoop_ok {key data : Bytes} {off : Nat} {P : Bytes} (hP : Plain key data off P) (len : Nat) :
    ∀ (fuel : Nat) (r : SnowRd) (n k : Nat) (dest : Bytes), Inv key data off P (4 * n) r → k ≤ fuel → k ≤ len → dest.length = len →
      4 * n + k ≤ P.length / 4 * 4 →
      ∃ r', writeLoop len fuel r dest (k : Int) = .ok (dest.take (len - k) ++ sub P (4 * n) k, r') ∧ Inv key data off P (4 * n + k) r' := by
  intro fuel
  induction fuel with
  | zero =>
    intro r n k dest hI hf hk hd hlen
    have : k = 0 := by omega
    subst this
    refine ⟨r, ?_, hI⟩
    unfold writeLoop
    rw [if_neg (by omega), sub_zero, List.append_nil, List.take_of_length_le (by omega)]
  | succ fuel ih =>
    intro r n k dest hI hf hk hd hlen
    unfold writeLoop
    by_cases h0 : k = 0
    · subst h0
      refine ⟨r, ?_, hI⟩
      rw [if_neg (by omega), sub_zero, List.append_nil, List.take_of_length_le (by omega)]
    · rw [if_pos (by omega)]
      have hn : (4 * n + 3) / 4 = n := by omega
      obtain ⟨d, hb, hat⟩ := block_ok hP hI.data (n := n) (by rw [hI.offset, hn]) (by have := hI.dec; rwa [hn] at this) (by omega)
      have hbl := hI.bufLen
      rw [hb]
      show ∃ r', (sliceIdx (sub P (4 * n) 4) 0 (min (len - (k : Int).toNat + 4) len - (len - (k : Int).toNat)) >>= _) = _ ∧ _
      have hkn : (k : Int).toNat = k := by omega
      rw [hkn]
      have l4 : (sub P (4 * n) 4).length = 4 := sub_length (by omega)
      by_cases h4 : k < 4
      · have hm : min (len - k + 4) len - (len - k) = k := by omega
        have hm' : min (len - k + 4) len = len := by omega
        rw [hm, hm', sliceIdx_ok (by omega) (by omega)]
        have e1 : sub (sub P (4 * n) 4) 0 (k - 0) = sub P (4 * n) k := by
          rw [show sub (sub P (4 * n) 4) 0 (k - 0) = (sub P (4 * n) 4).take k from rfl, sub_take _ _ _ _ (by omega)]
        rw [e1]
        show ∃ r', (setRange dest (len - k) len (sub P (4 * n) k) >>= _) = _ ∧ _
        rw [setRange_ok (by omega) (by omega) (by rw [sub_length (by omega)]; omega)]
        show ∃ r', (if (k : Int) - 4 < 0 then _ else _) = _ ∧ _
        rw [if_pos (by omega), sub_drop]
        have l5 : (sub P (4 * n + k) (4 - k)).length = 4 - k := sub_length (by omega)
        show ∃ r', (setRange r.buffer 0 (sub P (4 * n + k) (4 - k)).length (sub P (4 * n + k) (4 - k)) >>= _) = _ ∧ _
        have hb4 := hI.buf
        rw [setRange_ok (by omega) (by omega) (by omega)]
        show ∃ r', writeLoop len fuel _ _ _ = _ ∧ _
        have hstop : ∀ (r' : SnowRd) (ds : Bytes), writeLoop len fuel r' ds ((k : Int) - 4) = .ok (ds, r') := by
          intro r' ds
          cases fuel with
          | zero => unfold writeLoop; rw [if_neg (by omega)]
          | succ f => unfold writeLoop; rw [if_neg (by omega)]
        rw [hstop]
        refine ⟨_, by rw [List.drop_eq_nil_of_le (by omega), List.append_nil], ?_⟩
        have hn' : (4 * n + k + 3) / 4 = n + 1 := by omega
        refine ⟨hI.data, ?_, ?_, ?_, ?_, ?_, by omega⟩
        · rw [hn']
        · rw [hn']; exact hat
        · simp only [List.length_append, List.length_take, List.length_drop, l5, hb4]; omega
        · show (sub P (4 * n + k) (4 - k)).length = _; rw [l5]; omega
        · show List.take (sub P (4 * n + k) (4 - k)).length (List.take 0 r.buffer ++ sub P (4 * n + k) (4 - k) ++ _) = _
          rw [List.take_zero, List.nil_append, List.take_append_of_le_length (Nat.le_refl _), List.take_of_length_le (Nat.le_refl _)]
          rw [l5]
      · have hm : min (len - k + 4) len - (len - k) = 4 := by omega
        have hm' : min (len - k + 4) len = len - k + 4 := by omega
        rw [hm, hm', sliceIdx_ok (by omega) (by omega)]
        have e1 : sub (sub P (4 * n) 4) 0 (4 - 0) = sub P (4 * n) 4 := by
          rw [show sub (sub P (4 * n) 4) 0 (4 - 0) = (sub P (4 * n) 4).take 4 from rfl, sub_take _ _ _ _ (by omega)]
        rw [e1]
        show ∃ r', (setRange dest (len - k) (len - k + 4) (sub P (4 * n) 4) >>= _) = _ ∧ _
        rw [setRange_ok (by omega) (by omega) (by rw [l4]; omega)]
        show ∃ r', (if (k : Int) - 4 < 0 then _ else _) = _ ∧ _
        rw [if_neg (by omega)]
        have hI' : Inv key data off P (4 * (n + 1)) { r with dec := d, offset := off + 4 * (n + 1) } := by
          have hn' : (4 * (n + 1) + 3) / 4 = n + 1 := by omega
          refine ⟨hI.data, by rw [hn'], by rw [hn']; exact hat, hI.buf, by show r.bufLen = _; omega, ?_, by omega⟩
          show List.take r.bufLen r.buffer = sub P _ r.bufLen
          rw [show r.bufLen = 0 by omega, sub_zero, List.take_zero]
        obtain ⟨r', hr', hIr⟩ := ih _ (n + 1) (k - 4) (dest.take (len - k) ++ sub P (4 * n) 4 ++ dest.drop (len - k + 4)) hI' (by omega) (by omega)
          (by simp only [List.length_append, List.length_take, List.length_drop, l4]; omega) (by omega)
        refine ⟨r', ?_, ?_⟩
        · rw [show (k : Int) - 4 = ((k - 4 : Nat) : Int) by omega]
          show writeLoop len fuel _ _ _ = _
          rw [hr', List.take_append_of_le_length (by simp only [List.length_append, List.length_take, l4]; omega),
            List.take_of_length_le (by simp only [List.length_append, List.length_take, l4]; omega), List.append_assoc]
          rw [show 4 * (n + 1) = 4 * n + 4 by omega, sub_append, show 4 + (k - 4) = k by omega]
        · rwa [show 4 * (n + 1) + (k - 4) = 4 * n + k by omega] at hIr

theorem writeLoop_end {key data : Bytes} {off : Nat} {P : Bytes} (hP : Plain key data off P) (len : Nat) :
    ∀ (fuel : Nat) (r : SnowRd) (n k : Nat) (dest : Bytes), Inv key data off P (4 * n) r → k ≤ fuel → k ≤ len → dest.length = len →
      ¬ 4 * n + k ≤ P.length / 4 * 4 → writeLoop len fuel r dest (k : Int) = .error .read := by
  intro fuel
  induction fuel with
  | zero =>
    intro r n k dest hI hf hk hd hlen
    have := hI.within
    omega
  | succ fuel ih =>
    intro r n k dest hI hf hk hd hlen
    have hw := hI.within
    unfold writeLoop
    rw [if_pos (by omega)]
    have hn : (4 * n + 3) / 4 = n := by omega
    by_cases hb4 : 4 * n + 4 ≤ P.length
    · obtain ⟨d, hb, hat⟩ := block_ok hP hI.data (n := n) (by rw [hI.offset, hn]) (by have := hI.dec; rwa [hn] at this) hb4
      have hbl := hI.bufLen
      rw [hb]
      show (sliceIdx (sub P (4 * n) 4) 0 (min (len - (k : Int).toNat + 4) len - (len - (k : Int).toNat)) >>= _) = _
      have hkn : (k : Int).toNat = k := by omega
      rw [hkn]
      have l4 : (sub P (4 * n) 4).length = 4 := sub_length (by omega)
      have hm : min (len - k + 4) len - (len - k) = 4 := by omega
      have hm' : min (len - k + 4) len = len - k + 4 := by omega
      rw [hm, hm', sliceIdx_ok (by omega) (by omega)]
      have e1 : sub (sub P (4 * n) 4) 0 (4 - 0) = sub P (4 * n) 4 := by
        rw [show sub (sub P (4 * n) 4) 0 (4 - 0) = (sub P (4 * n) 4).take 4 from rfl, sub_take _ _ _ _ (by omega)]
      rw [e1]
      show (setRange dest (len - k) (len - k + 4) (sub P (4 * n) 4) >>= _) = _
      rw [setRange_ok (by omega) (by omega) (by rw [l4]; omega)]
      show (if (k : Int) - 4 < 0 then _ else _) = _
      rw [if_neg (by omega)]
      have hI' : Inv key data off P (4 * (n + 1)) { r with dec := d, offset := off + 4 * (n + 1) } := by
        have hn' : (4 * (n + 1) + 3) / 4 = n + 1 := by omega
        refine ⟨hI.data, by rw [hn'], by rw [hn']; exact hat, hI.buf, by show r.bufLen = _; omega, ?_, by omega⟩
        show List.take r.bufLen r.buffer = sub P _ r.bufLen
        rw [show r.bufLen = 0 by omega, sub_zero, List.take_zero]
      rw [show (k : Int) - 4 = ((k - 4 : Nat) : Int) by omega]
      exact ih _ (n + 1) (k - 4) _ hI' (by omega) (by omega) (by simp only [List.length_append, List.length_take, List.length_drop, l4]; omega) (by omega)
    · rw [block_end hP hI.data (n := n) (by rw [hI.offset, hn]) hb4]
      rfl

theorem signed_small {n : Nat} (h : n < 2 ^ 31) : signed 32 n = (n : Int) := by
  unfold signed
  rw [BitVec.toInt_eq_toNat_of_lt (by rw [BitVec.toNat_ofNat]; omega), BitVec.toNat_ofNat, Nat.mod_eq_of_lt (by omega)]

/-- which lengths a read of bytes at `p` may have: none, or all the bytes left in the buffer at least -/
def FitsBuffer (p n : Nat) : Prop := n < 2 ^ 31 ∧ (n = 0 ∨ 4 * ((p + 3) / 4) - p ≤ n)

theorem subI32_ok {m : Mode} {a b : Int} (h : -2 ^ 31 ≤ a - b) (h' : a - b < 2 ^ 31) : subI32 m a b = .ok (a - b) := by
  unfold subI32; rw [if_pos ⟨h, h'⟩]

theorem write_buffered {key data : Bytes} {off : Nat} {P : Bytes} {p : Nat} {r : SnowRd} (m : Mode) (hI : Inv key data off P p r)
    (n : Nat) (hn : n < 2 ^ 31) (h0 : r.bufLen > 0) (hb : r.bufLen ≤ n) :
    r.writeBytes m n = writeLoop n (n - r.bufLen) { r with bufLen := 0 } (sub P p r.bufLen ++ List.replicate (n - r.bufLen) 0#8) ((n - r.bufLen : Nat) : Int) := by
  have hb4 := hI.buf
  have hbl := hI.bufLen
  have hw := hI.within
  unfold writeBytes
  simp only [signed_small hn]
  rw [if_pos h0, if_neg (by omega)]
  show (sliceIdx r.buffer 0 r.bufLen >>= _) = _
  rw [sliceIdx_ok (by omega) (by omega)]
  rw [show sub r.buffer 0 (r.bufLen - 0) = r.buffer.take r.bufLen from rfl, hI.held]
  show (setRange (List.replicate n 0#8) 0 r.bufLen (sub P p r.bufLen) >>= _) = _
  rw [setRange_ok (by omega) (by simp; omega) (by rw [sub_length (by omega)]; omega)]
  show (subI32 m (n : Int) r.bufLen >>= _) = _
  rw [subI32_ok (by omega) (by omega)]
  show writeLoop n ((n : Int) - r.bufLen).toNat _ _ _ = _
  rw [show ((n : Int) - r.bufLen).toNat = n - r.bufLen by omega, show (n : Int) - r.bufLen = ((n - r.bufLen : Nat) : Int) by omega]
  simp only [List.take_zero, List.nil_append, List.drop_replicate]

theorem unbuffered {key data : Bytes} {off : Nat} {P : Bytes} {p : Nat} {r : SnowRd} (hI : Inv key data off P p r) (h0 : r.bufLen > 0) :
    Inv key data off P (4 * ((p + 3) / 4)) { r with bufLen := 0 } := by
  have hn : (4 * ((p + 3) / 4) + 3) / 4 = (p + 3) / 4 := by omega
  refine ⟨hI.data, by rw [hn]; exact hI.offset, by rw [hn]; exact hI.dec, hI.buf, by show 0 = _; omega, ?_, by have := hI.within; omega⟩
  show List.take 0 _ = sub P _ 0
  rw [sub_zero, List.take_zero]

theorem write_ok {key data : Bytes} {off : Nat} {P : Bytes} {p : Nat} {r : SnowRd} (m : Mode) (hP : Plain key data off P) (hI : Inv key data off P p r)
    (n : Nat) (hf : FitsBuffer p n) (h : p + n ≤ P.length / 4 * 4) :
    ∃ r', r.writeBytes m n = .ok (sub P p n, r') ∧ Inv key data off P (p + n) r' := by
  have hbl := hI.bufLen
  have hb4 := hI.buf
  have hw := hI.within
  obtain ⟨hn, hf⟩ := hf
  by_cases h0 : r.bufLen > 0
  · by_cases hz : n = 0
    · subst hz
      refine ⟨{ r with bufLen := r.bufLen - 0, buffer := r.buffer }, ?_, ?_⟩
      · unfold writeBytes
        simp only
        rw [if_pos h0, if_pos h0]
        show (sliceIdx r.buffer 0 0 >>= _) = _
        rw [sliceIdx_ok (by omega) (by omega)]
        show (setRange [] 0 0 [] >>= _) = _
        rw [setRange_ok (by omega) (by simp) (by simp)]
        show (sliceIdx r.buffer 0 4 >>= _) = _
        rw [sliceIdx_ok (by omega) (by omega)]
        show (setRange (List.replicate 4 0#8) 0 4 (r.buffer.take 4) >>= _) = _
        rw [List.take_of_length_le (by omega), setRange_ok (by omega) (by simp) (by omega)]
        simp [sub_zero, bind, Except.bind, pure, Except.pure, hb4]
      · exact hI
    · obtain ⟨r', h1, h2⟩ := writeLoop_ok hP n (n - r.bufLen) { r with bufLen := 0 } ((p + 3) / 4) (n - r.bufLen)
        (sub P p r.bufLen ++ List.replicate (n - r.bufLen) 0#8) (unbuffered hI h0) (Nat.le_refl _) (by omega)
        (by rw [List.length_append, sub_length (by omega), List.length_replicate]; omega) (by omega)
      refine ⟨r', ?_, ?_⟩
      · rw [write_buffered m hI n hn h0 (by omega), h1, show n - (n - r.bufLen) = r.bufLen by omega,
          List.take_append_of_le_length (by rw [sub_length (by omega)]; omega), List.take_of_length_le (by rw [sub_length (by omega)]; omega)]
        rw [show 4 * ((p + 3) / 4) = p + r.bufLen by omega, sub_append, show r.bufLen + (n - r.bufLen) = n by omega]
      · rwa [show 4 * ((p + 3) / 4) + (n - r.bufLen) = p + n by omega] at h2
  · have hq : p = 4 * ((p + 3) / 4) := by omega
    obtain ⟨r', h1, h2⟩ := writeLoop_ok hP n n r ((p + 3) / 4) n (List.replicate n 0#8) (by rw [← hq]; exact hI) (Nat.le_refl _) (Nat.le_refl _)
      (by simp) (by omega)
    refine ⟨r', ?_, by rw [← hq] at h2; exact h2⟩
    unfold writeBytes
    simp only [signed_small hn]
    rw [if_neg h0, show (n : Int).toNat = n by omega, h1, ← hq]
    simp

theorem write_end {key data : Bytes} {off : Nat} {P : Bytes} {p : Nat} {r : SnowRd} (m : Mode) (hP : Plain key data off P) (hI : Inv key data off P p r)
    (n : Nat) (hn : n < 2 ^ 31) (h : ¬ p + n ≤ P.length / 4 * 4) : r.writeBytes m n = .error .read := by
  have hbl := hI.bufLen
  have hb4 := hI.buf
  have hw := hI.within
  by_cases h0 : r.bufLen > 0
  · rw [write_buffered m hI n hn h0 (by omega)]
    exact writeLoop_end hP n _ _ ((p + 3) / 4) _ _ (unbuffered hI h0) (Nat.le_refl _) (by omega)
      (by rw [List.length_append, sub_length (by omega), List.length_replicate]; omega) (by omega)
  · have hq : p = 4 * ((p + 3) / 4) := by omega
    unfold writeBytes
    simp only [signed_small hn]
    rw [if_neg h0, show (n : Int).toNat = n by omega]
    exact writeLoop_end hP n _ _ ((p + 3) / 4) _ _ (by rw [← hq]; exact hI) (Nat.le_refl _) (Nat.le_refl _) (by simp) (by omega)

/-- fewer bytes than the buffer holds: the copy of the rest has the wrong length -/
theorem write_short {key data : Bytes} {off : Nat} {P : Bytes} {p : Nat} {r : SnowRd} (m : Mode) (hI : Inv key data off P p r)
    (n : Nat) (h0 : 0 < n) (hb : n < r.bufLen) : r.writeBytes m n = .error .panicIndex := by
  have hbl := hI.bufLen
  have hb4 := hI.buf
  unfold writeBytes
  simp only
  rw [if_pos (by omega), if_pos hb]
  show (sliceIdx r.buffer 0 n >>= _) = _
  rw [sliceIdx_ok (by omega) (by omega)]
  show (setRange (List.replicate n 0#8) 0 n (r.buffer.take n) >>= _) = _
  rw [setRange_ok (by omega) (by simp) (by rw [List.length_take]; omega)]
  show (sliceIdx r.buffer n 4 >>= _) = _
  rw [sliceIdx_ok (by omega) (by omega)]
  show (setRange (List.replicate 4 0#8) 0 4 (sub r.buffer n (4 - n)) >>= _) = _
  unfold setRange
  rw [if_neg (by rw [sub_length (by omega)]; omega)]
  rfl

end SnowRd

end Wz
