import Verif.Keys.Spec
import Verif.Reader.Lemmas

set_option autoImplicit false

namespace Wz
open Spec

/-- first `n` bytes of the stream -/
def streamPrefix (aes : Aes) (key iv : Bytes) (n : Nat) : Bytes := (List.range n).map (stream aes key iv)

@[simp] theorem length_streamPrefix (aes : Aes) (key iv : Bytes) (n : Nat) :
    (streamPrefix aes key iv n).length = n := by simp [streamPrefix]

theorem length_block {aes : Aes} (ha : aes.Sized) {key iv : Bytes} (hiv : iv.length = 4) (n : Nat) :
    (block aes key iv n).length = 16 := by
  induction n with
  | zero => exact ha _ _ (by simp [hiv])
  | succ n ih => exact ha _ _ ih

theorem streamPrefix_succ {aes : Aes} (ha : aes.Sized) {key iv : Bytes} (hiv : iv.length = 4) (j : Nat) :
    streamPrefix aes key iv (16 * (j + 1)) = streamPrefix aes key iv (16 * j) ++ block aes key iv j := by
  unfold streamPrefix
  rw [show 16 * (j + 1) = 16 * j + 16 by omega, List.range_add, List.map_append]
  congr 1
  apply List.ext_getElem
  · simp [length_block ha hiv]
  · intro n h1 h2
    simp only [List.length_map, List.length_range] at h1
    simp only [List.map_map, List.getElem_map, List.getElem_range, Function.comp]
    unfold stream
    rw [show (16 * j + n) / 16 = j by omega, show (16 * j + n) % 16 = n by omega]
    rw [List.getD_eq_getElem?_getD, List.getElem?_eq_getElem h2]
    rfl

theorem streamPrefix_prefix (aes : Aes) (key iv : Bytes) {m n : Nat} (h : m ≤ n) :
    streamPrefix aes key iv n = streamPrefix aes key iv m ++
      ((List.range (n - m)).map fun i => stream aes key iv (m + i)) := by
  unfold streamPrefix
  conv => lhs; rw [show n = m + (n - m) by omega, List.range_add, List.map_append]
  simp [Function.comp_def]

theorem growStep_run {aes : Aes} (ha : aes.Sized) {key iv : Bytes} (hiv : iv.length = 4) (j : Nat) (rest : Bytes)
    (hr : 32 ≤ rest.length) :
    ∃ rest', Ecb.growStep (aes key) (streamPrefix aes key iv (16 * (j + 1)) ++ rest) (16 * (j + 1)) =
        .ok (streamPrefix aes key iv (16 * (j + 2)) ++ rest') ∧ rest'.length + 16 = rest.length := by
  unfold Ecb.growStep
  rw [if_neg (by simp; omega)]
  have h1 : (streamPrefix aes key iv (16 * (j + 1)) ++ rest).take (16 * (j + 1)) =
      streamPrefix aes key iv (16 * (j + 1)) := by
    rw [List.take_append_of_le_length (by simp)]; exact List.take_of_length_le (by simp)
  have h2 : (streamPrefix aes key iv (16 * (j + 1)) ++ rest).drop (16 * (j + 1)) = rest := by
    rw [List.drop_append]; simp
  have h3 : (streamPrefix aes key iv (16 * (j + 1))).drop (16 * (j + 1) - 16) = block aes key iv j := by
    rw [streamPrefix_succ ha hiv, show 16 * (j + 1) - 16 = 16 * j by omega, List.drop_append]
    simp
  rw [h1, h2, h3]
  unfold Ecb.encPadded
  rw [if_neg (by omega)]
  refine ⟨aes key (List.replicate 16 16#8) ++ rest.drop 32, ?_, ?_⟩
  · show Except.ok _ = _
    rw [streamPrefix_succ ha hiv (j + 1)]
    congr 1
    simp only [List.append_assoc]
    rfl
  · have := ha key (List.replicate 16 16#8) (by simp)
    rw [List.length_append, this, List.length_drop]; omega

theorem growLoop_run {aes : Aes} (ha : aes.Sized) {key iv : Bytes} (hiv : iv.length = 4) (k j : Nat) (rest : Bytes)
    (hr : 16 * k + 16 ≤ rest.length) :
    ∃ rest', (List.range' (16 * (j + 1)) k 16).foldlM (Ecb.growStep (aes key))
        (streamPrefix aes key iv (16 * (j + 1)) ++ rest) =
        .ok (streamPrefix aes key iv (16 * (j + 1 + k)) ++ rest') ∧ rest'.length + 16 * k = rest.length := by
  induction k generalizing j rest with
  | zero => exact ⟨rest, rfl, by simp⟩
  | succ k ih =>
    obtain ⟨r1, h1, l1⟩ := growStep_run ha hiv (key := key) j rest (by omega)
    obtain ⟨r2, h2, l2⟩ := ih (j + 1) r1 (by omega)
    refine ⟨r2, ?_, by omega⟩
    rw [List.range'_succ, List.foldlM_cons, h1]
    show List.foldlM _ _ _ = _
    rw [show 16 * (j + 1) + 16 = 16 * (j + 1 + 1) by omega, h2]
    rw [show j + 1 + 1 + k = j + 1 + (k + 1) by omega]

/-- A decryptor whose generated keys are a prefix of the specified stream. -/
structure Ecb.Good (aes : Aes) (d : Ecb) : Prop where
  iv4 : d.iv.length = 4
  zero : d.withoutDecrypt = decide (d.iv = ivZero)
  blocks : ∃ n, d.keys = streamPrefix aes d.aesKey d.iv (4096 * n)
  empty : d.withoutDecrypt = true → d.keys = []

theorem leNat_zero {b : Bytes} (h : b.length = 4) : leNat b = 0 ↔ b = ivZero := by
  constructor
  · intro h0
    have := toLE_leNat b
    rw [h0, h] at this
    rw [← this]; rfl
  · rintro rfl; rfl

theorem Ecb.good_new (aes : Aes) (iv key : Bytes) (hiv : iv.length = 4) : (Ecb.new iv key).Good aes where
  iv4 := hiv
  zero := by
    have hlt := leNat_lt iv
    rw [hiv] at hlt
    have : (signed 32 (leNat iv) == 0) = decide (iv = ivZero) := by
      rw [Bool.eq_iff_iff, beq_iff_eq, decide_eq_true_iff, ← leNat_zero hiv]
      unfold signed
      constructor
      · intro h
        have h' : BitVec.ofNat 32 (leNat iv) = 0#32 := BitVec.eq_of_toInt_eq (by rw [h]; rfl)
        have := congrArg BitVec.toNat h'
        simp only [BitVec.toNat_ofNat] at this
        omega
      · intro h; rw [h]; rfl
    exact this
  blocks := ⟨0, rfl⟩
  empty := fun _ => rfl

/-- an `ensure` that has work to do -/
theorem Ecb.ensure_grow {aes : Aes} (ha : aes.Sized) {d : Ecb} (hd : d.Good aes) (size : Nat)
    (hw : d.withoutDecrypt = false) (hn : d.keys.length < size) :
    d.ensure aes size = .ok { d with keys := streamPrefix aes d.aesKey d.iv (Ecb.roundUp size) } := by
  obtain ⟨n, hk⟩ := hd.blocks
  have hlen : d.keys.length = 4096 * n := by rw [hk]; simp
  have hru : Ecb.roundUp size = 16 * (256 * ((size + 4095) / 4096)) := by unfold Ecb.roundUp; omega
  have hru0 : 0 < (size + 4095) / 4096 := by omega
  have hge : size ≤ Ecb.roundUp size := by unfold Ecb.roundUp; omega
  -- the keys after the first block has been initialised
  have hinit : ∃ j, Ecb.initKeys (aes d.aesKey) d.iv d.keys =
      .ok (streamPrefix aes d.aesKey d.iv (16 * (j + 1))) ∧ 16 * (j + 1) ≤ Ecb.roundUp size := by
    unfold Ecb.initKeys
    by_cases h0 : d.keys = []
    · refine ⟨0, ?_, by omega⟩
      rw [if_pos h0, h0]
      unfold Ecb.encPadded
      rw [if_neg (by simp [Ecb.resize])]
      show Except.ok _ = _
      congr 1
      have hblk : ((List.range 16).map fun i => d.iv.getD (i % 4) 0#8) = d.iv ++ d.iv ++ d.iv ++ d.iv := by
        have h4 := hd.iv4
        match hm : d.iv, h4 with
        | [a, b, c, e], _ => rfl
      rw [hblk]
      have hl := length_block ha hd.iv4 (key := d.aesKey) 0
      rw [streamPrefix_succ ha hd.iv4 0]
      unfold block at hl ⊢
      rw [List.append_assoc, List.take_append_of_le_length (by omega), List.take_of_length_le (by omega)]
      simp [streamPrefix]
    · have hn0 : 0 < n := by
        rcases Nat.eq_zero_or_pos n with h | h
        · rw [h] at hlen; exact absurd (List.length_eq_zero_iff.mp hlen) h0
        · exact h
      refine ⟨256 * n - 1, ?_, by unfold Ecb.roundUp; omega⟩
      rw [if_neg h0, hk, show 16 * (256 * n - 1 + 1) = 4096 * n by omega]
  obtain ⟨j, hj, hjle⟩ := hinit
  unfold Ecb.ensure
  rw [if_neg (by simp [Ecb.isEnough, hw]; omega), hj]
  suffices Ecb.fillKeys (aes d.aesKey) (Ecb.roundUp size) (streamPrefix aes d.aesKey d.iv (16 * (j + 1))) =
      .ok (streamPrefix aes d.aesKey d.iv (Ecb.roundUp size)) by
    dsimp only; rw [this]
  unfold Ecb.fillKeys
  dsimp only
  simp only [length_streamPrefix]
  by_cases hlt : 16 * (j + 1) < Ecb.roundUp size
  · rw [if_pos hlt]
    have hres : Ecb.resize (streamPrefix aes d.aesKey d.iv (16 * (j + 1))) (Ecb.roundUp size + 16) =
        streamPrefix aes d.aesKey d.iv (16 * (j + 1)) ++
          List.replicate (Ecb.roundUp size + 16 - 16 * (j + 1)) 0#8 := by
      unfold Ecb.resize
      rw [List.take_of_length_le (by simp; omega)]
      simp
    have hcnt : (Ecb.roundUp size - 16 * (j + 1) + 15) / 16 = 256 * ((size + 4095) / 4096) - (j + 1) := by omega
    rw [hres, hcnt]
    obtain ⟨rest', h1, h2⟩ := growLoop_run ha hd.iv4 (key := d.aesKey) (256 * ((size + 4095) / 4096) - (j + 1)) j
      (List.replicate (Ecb.roundUp size + 16 - 16 * (j + 1)) 0#8) (by simp; omega)
    rw [h1]
    have he : 16 * (j + 1 + (256 * ((size + 4095) / 4096) - (j + 1))) = Ecb.roundUp size := by omega
    rw [he]
    simp only [List.length_replicate] at h2
    dsimp only
    rw [if_pos (by simp; omega)]
    congr 1
    rw [List.take_append_of_le_length (by simp)]
    exact List.take_of_length_le (by simp)
  · have he : 16 * (j + 1) = Ecb.roundUp size := by omega
    rw [if_neg hlt, show (Ecb.roundUp size - 16 * (j + 1) + 15) / 16 = 0 by omega]
    simp only [List.range'_zero, List.foldlM_nil, he, pure, Except.pure, length_streamPrefix]
    simp

/-- what a key request does, in full -/
theorem Ecb.ensure_run {aes : Aes} (ha : aes.Sized) {d : Ecb} (hd : d.Good aes) (size : Nat) :
    d.ensure aes size = .ok (if d.withoutDecrypt = true ∨ size ≤ d.keys.length then d
      else { d with keys := streamPrefix aes d.aesKey d.iv (Ecb.roundUp size) }) := by
  by_cases h : d.withoutDecrypt = true ∨ size ≤ d.keys.length
  · rw [if_pos h]
    unfold Ecb.ensure
    rw [if_pos (by unfold Ecb.isEnough; rcases h with h | h <;> simp [h])]
  · rw [if_neg h]
    simp only [not_or, Bool.not_eq_true] at h
    exact Ecb.ensure_grow ha hd size h.1 (by omega)

theorem Ecb.ensure_good {aes : Aes} (ha : aes.Sized) {d d' : Ecb} (hd : d.Good aes) {size : Nat}
    (h : d.ensure aes size = .ok d') :
    d'.Good aes ∧ d'.iv = d.iv ∧ d'.aesKey = d.aesKey ∧ d'.withoutDecrypt = d.withoutDecrypt ∧
      d.keys <+: d'.keys ∧ (d.withoutDecrypt = false → size ≤ d'.keys.length) := by
  rw [Ecb.ensure_run ha hd] at h
  have h := Except.ok.inj h
  by_cases hc : d.withoutDecrypt = true ∨ size ≤ d.keys.length
  · rw [if_pos hc] at h
    subst h
    refine ⟨hd, rfl, rfl, rfl, List.prefix_rfl, fun hw => ?_⟩
    rcases hc with hc | hc
    · rw [hw] at hc; cases hc
    · exact hc
  · rw [if_neg hc] at h
    subst h
    simp only [not_or, Bool.not_eq_true] at hc
    obtain ⟨n, hk⟩ := hd.blocks
    have hlen : d.keys.length = 4096 * n := by rw [hk]; simp
    have hge : size ≤ Ecb.roundUp size := by unfold Ecb.roundUp; omega
    refine ⟨⟨hd.iv4, hd.zero, ⟨(size + 4095) / 4096, ?_⟩, fun hw => ?_⟩, rfl, rfl, rfl, ?_, fun _ => ?_⟩
    · simp only [Ecb.roundUp]; rw [Nat.mul_comm]
    · simp only at hw; rw [hc.1] at hw; cases hw
    · rw [hk, streamPrefix_prefix aes d.aesKey d.iv (m := 4096 * n) (n := Ecb.roundUp size) (by omega)]
      exact List.prefix_append _ _
    · simpa using hge

theorem getElem?_streamPrefix (aes : Aes) (key iv : Bytes) (n i : Nat) :
    (streamPrefix aes key iv n)[i]? = if i < n then some (stream aes key iv i) else none := by
  unfold streamPrefix
  by_cases h : i < n
  · simp [h]
  · simp [h]

/-- enough keys: decryption is xor with the specified key stream -/
theorem Ecb.decrypt_run {aes : Aes} {d : Ecb} (hd : d.Good aes) (data : Bytes)
    (hl : d.withoutDecrypt = true ∨ data.length ≤ d.keys.length) :
    d.decrypt data = .ok (xorStream (keyByte aes d.aesKey d.iv) data) := by
  unfold Ecb.decrypt xorStream
  cases hw : d.withoutDecrypt with
  | true =>
    have hz : d.iv = ivZero := by have := hd.zero; rw [hw] at this; simpa using this.symm
    simp only [if_true, hz, keyByte]
    congr 1
    apply List.ext_getElem
    · simp
    · intro i h1 h2; simp
  | false =>
    have hz : d.iv ≠ ivZero := by have := hd.zero; rw [hw] at this; simpa using this.symm
    rw [hw] at hl
    have hl : data.length ≤ d.keys.length := by simpa using hl
    rw [if_neg (by simp), if_neg (by omega)]
    congr 1
    obtain ⟨n, hk⟩ := hd.blocks
    have hlen : d.keys.length = 4096 * n := by rw [hk]; simp
    apply List.ext_getElem
    · simp; omega
    · intro i h1 h2
      simp only [List.length_mapIdx] at h2
      simp only [List.getElem_zipWith, List.getElem_take, List.getElem_mapIdx, keyByte, if_neg hz]
      congr 1
      have : d.keys[i]? = some (stream aes d.aesKey d.iv i) := by
        rw [hk, getElem?_streamPrefix, if_pos (by omega)]
      rw [List.getElem?_eq_getElem (by omega)] at this
      exact Option.some.inj this

theorem Ecb.grow_run {aes : Aes} (ha : aes.Sized) {d : Ecb} (hd : d.Good aes) (n : Nat) :
    ∃ d', d.grow aes n = .ok d' ∧ d'.Good aes ∧ d'.iv = d.iv ∧ d'.aesKey = d.aesKey ∧
      d'.withoutDecrypt = d.withoutDecrypt ∧ d.keys <+: d'.keys ∧
      (d'.withoutDecrypt = true ∨ n ≤ d'.keys.length) := by
  unfold Ecb.grow
  by_cases h : d.isEnough n = true
  · refine ⟨d, by rw [if_pos h], hd, rfl, rfl, rfl, List.prefix_rfl, ?_⟩
    unfold Ecb.isEnough at h
    cases hw : d.withoutDecrypt
    · rw [hw] at h; right; simpa using h
    · left; rfl
  · rw [if_neg h]
    refine ⟨_, Ecb.ensure_run ha hd n, ?_⟩
    obtain ⟨g, h1, h2, h3, h4, h5⟩ := Ecb.ensure_good ha hd (Ecb.ensure_run ha hd n)
    refine ⟨g, h1, h2, h3, h4, ?_⟩
    rcases d.withoutDecrypt.eq_false_or_eq_true with hw | hw
    · left; rw [h3, hw]
    · right; exact h5 hw

theorem Ecb.tryAt_getD {aes : Aes} {d : Ecb} (hd : d.Good aes) {i : Nat}
    (h : d.withoutDecrypt = true ∨ i < d.keys.length) :
    (d.tryAt i).getD 0#8 = keyByte aes d.aesKey d.iv i := by
  unfold Ecb.tryAt keyByte
  have hz := hd.zero
  cases hw : d.withoutDecrypt with
  | true =>
    rw [hw] at hz
    rw [hd.empty hw, if_pos (by simpa using hz.symm)]; rfl
  | false =>
    rw [hw] at hz h
    have h : i < d.keys.length := by simpa using h
    obtain ⟨n, hk⟩ := hd.blocks
    have hlen : d.keys.length = 4096 * n := by rw [hk]; simp
    rw [hk, getElem?_streamPrefix, if_pos (by omega), if_neg (by simpa using hz.symm)]
    rfl

end Wz
