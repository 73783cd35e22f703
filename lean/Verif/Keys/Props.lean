import Verif.Keys.Lemmas
/-!
# Property theorems about key streams: C07, C08, C09, C15
-/

set_option autoImplicit false

namespace Wz.Props
open Wz Wz.Spec

/-- what a user can do with a decryptor -/
inductive KeyOp where
  /-- `ensure_key_size(n)` -/
  | ensure (n : Nat)
  /-- `at(i)` -/
  | at (i : Nat)
  /-- `get_decrypt_slice(data)` -/
  | decrypt (data : Bytes)
  /-- `encrypt_str(text, type)` -/
  | encrypt (s : List Char) (ty : StrType)

/-- the decryptor after an operation; an operation that panics leaves it as it was -/
def KeyOp.after (aes : Aes) (d : Ecb) : KeyOp → Ecb
  | .ensure n => match d.ensure aes n with | .ok d' => d' | .error _ => d
  | .at i => match d.at aes i with | .ok (_, d') => d' | .error _ => d
  | .decrypt data => match getDecryptSlice aes d data with | .ok (_, d') => d' | .error _ => d
  | .encrypt s ty => match encryptStrEcb aes d s ty with | .ok (_, d') => d' | .error _ => d

private theorem at_run {aes : Aes} (ha : aes.Sized) {d : Ecb} (hd : d.Good aes) (i : Nat) :
    ∃ d', d'.Good aes ∧ d'.iv = d.iv ∧ d'.aesKey = d.aesKey ∧ d'.withoutDecrypt = d.withoutDecrypt ∧
      d.keys <+: d'.keys ∧
      d.at aes i = if d.iv = ivZero then .error .panicIndex else .ok (stream aes d.aesKey d.iv i, d') := by
  have hz := hd.zero
  by_cases h : d.keys.length ≤ i
  · obtain ⟨hg, h1, h2, h3, h4, h5⟩ := Ecb.ensure_good ha hd (Ecb.ensure_run ha hd (i + 1))
    refine ⟨_, hg, h1, h2, h3, h4, ?_⟩
    unfold Ecb.at
    rw [if_pos h, Ecb.ensure_run ha hd (i + 1)]
    simp only [bind, Except.bind]
    by_cases hiv : d.iv = ivZero
    · have hw : d.withoutDecrypt = true := by rw [hz]; simpa using hiv
      simp only [hw, true_or, if_true, if_pos hiv, hd.empty hw, List.getElem?_nil]
      rfl
    · have hw : d.withoutDecrypt = false := by rw [hz]; simpa using hiv
      rw [if_neg hiv]
      have hd' := hg
      obtain ⟨n, hk⟩ := hg.blocks
      rw [h1, h2] at hk
      have hlen := h5 hw
      rw [hk] at hlen ⊢
      rw [length_streamPrefix] at hlen
      rw [getElem?_streamPrefix, if_pos (by omega)]
      rfl
  · refine ⟨d, hd, rfl, rfl, rfl, List.prefix_rfl, ?_⟩
    unfold Ecb.at
    rw [if_neg h]
    obtain ⟨n, hk⟩ := hd.blocks
    have hlen : d.keys.length = 4096 * n := by rw [hk]; simp
    by_cases hiv : d.iv = ivZero
    · have hw : d.withoutDecrypt = true := by rw [hz]; simpa using hiv
      rw [hd.empty hw] at h; simp at h
    · rw [if_neg hiv]
      have : d.keys[i]? = some (stream aes d.aesKey d.iv i) := by
        rw [hk, getElem?_streamPrefix, if_pos (by omega)]
      simp only [pure, Except.pure, bind, Except.bind, this]

private theorem decrypt_slice_run {aes : Aes} (ha : aes.Sized) {d : Ecb} (hd : d.Good aes) (data : Bytes) :
    ∃ d', d'.Good aes ∧ d'.iv = d.iv ∧ d'.aesKey = d.aesKey ∧ d'.withoutDecrypt = d.withoutDecrypt ∧
      d.keys <+: d'.keys ∧
      getDecryptSlice aes d data = .ok (xorStream (keyByte aes d.aesKey d.iv) data, d') := by
  obtain ⟨d', h0, hg, h1, h2, h3, h4, h5⟩ := Ecb.grow_run ha hd data.length
  refine ⟨d', hg, h1, h2, h3, h4, ?_⟩
  unfold getDecryptSlice
  simp only [h0, bind, Except.bind, Ecb.decrypt_run hg data h5, h1, h2]
  rfl

private theorem mapIdx_congr_bound {α β : Type} {f g : Nat → α → β} {l : List α}
    (h : ∀ i a, i < l.length → f i a = g i a) : l.mapIdx f = l.mapIdx g := by
  apply List.ext_getElem
  · simp
  · intro i h1 h2
    simp only [List.length_mapIdx] at h1
    simp only [List.getElem_mapIdx]
    exact h _ _ h1

private theorem encrypt_run {aes : Aes} (ha : aes.Sized) {d : Ecb} (hd : d.Good aes) (s : List Char) (ty : StrType) :
    ∃ d', d'.Good aes ∧ d'.iv = d.iv ∧ d'.aesKey = d.aesKey ∧ d'.withoutDecrypt = d.withoutDecrypt ∧
      d.keys <+: d'.keys ∧
      encryptStrEcb aes d s ty = .ok (encryptStr (keyByte aes d.aesKey d.iv) s ty, d') := by
  have hens : ∀ n, ∃ d', d.ensure aes n = .ok d' ∧ d'.Good aes ∧ d'.iv = d.iv ∧ d'.aesKey = d.aesKey ∧
      d'.withoutDecrypt = d.withoutDecrypt ∧ d.keys <+: d'.keys ∧
      (d'.withoutDecrypt = true ∨ n ≤ d'.keys.length) := by
    intro n
    obtain ⟨hg, h1, h2, h3, h4, h5⟩ := Ecb.ensure_good ha hd (Ecb.ensure_run ha hd n)
    refine ⟨_, Ecb.ensure_run ha hd n, hg, h1, h2, h3, h4, ?_⟩
    rcases d.withoutDecrypt.eq_false_or_eq_true with hw | hw
    · left; rw [h3, hw]
    · right; exact h5 hw
  cases ty with
  | empty => exact ⟨d, hd, rfl, rfl, rfl, List.prefix_rfl, rfl⟩
  | unicode =>
    obtain ⟨d', h0, hg, h1, h2, h3, h4, h5⟩ := hens ((utf16EncStr s).length * 2)
    refine ⟨d', hg, h1, h2, h3, h4, ?_⟩
    simp only [encryptStrEcb, h0, bind, Except.bind, pure, Except.pure]
    rw [← h1, ← h2]
    refine congrArg (fun l => Except.ok (List.flatten l, d')) ?_
    apply mapIdx_congr_bound
    intro i a hi
    rw [Ecb.tryAt_getD hg (by rcases h5 with h | h; exact .inl h; right; omega),
      Ecb.tryAt_getD hg (by rcases h5 with h | h; exact .inl h; right; omega)]
  | ascii =>
    obtain ⟨d', h0, hg, h1, h2, h3, h4, h5⟩ := hens ((utf8EncStr s).length)
    refine ⟨d', hg, h1, h2, h3, h4, ?_⟩
    simp only [encryptStrEcb, h0, bind, Except.bind, pure, Except.pure]
    rw [← h1, ← h2]
    refine congrArg (fun l => Except.ok (l, d')) ?_
    apply mapIdx_congr_bound
    intro i a hi
    rw [Ecb.tryAt_getD hg (by rcases h5 with h | h; exact .inl h; right; omega)]
  | pkg2Dir =>
    obtain ⟨d', h0, hg, h1, h2, h3, h4, h5⟩ := hens (((utf16EncStr s).flatMap fun u => toLE 2 u.toNat).length * 2)
    refine ⟨d', hg, h1, h2, h3, h4, ?_⟩
    simp only [encryptStrEcb, h0, bind, Except.bind, pure, Except.pure]
    rw [Ecb.decrypt_run hg _ (by rcases h5 with h | h; exact .inl h; right; omega), h1, h2]
    rfl

private theorem after_good {aes : Aes} (ha : aes.Sized) {d : Ecb} (hd : d.Good aes) (op : KeyOp) :
    (op.after aes d).Good aes ∧ (op.after aes d).iv = d.iv ∧ (op.after aes d).aesKey = d.aesKey ∧
      d.keys <+: (op.after aes d).keys := by
  cases op with
  | ensure n =>
    obtain ⟨hg, h1, h2, h3, h4, h5⟩ := Ecb.ensure_good ha hd (Ecb.ensure_run ha hd n)
    simp only [KeyOp.after, Ecb.ensure_run ha hd n]
    exact ⟨hg, h1, h2, h4⟩
  | «at» i =>
    obtain ⟨d', hg, h1, h2, h3, h4, h5⟩ := at_run ha hd i
    simp only [KeyOp.after, h5]
    by_cases hz : d.iv = ivZero
    · rw [if_pos hz]; exact ⟨hd, rfl, rfl, List.prefix_rfl⟩
    · rw [if_neg hz]; exact ⟨hg, h1, h2, h4⟩
  | decrypt data =>
    obtain ⟨d', hg, h1, h2, h3, h4, h5⟩ := decrypt_slice_run ha hd data
    simp only [KeyOp.after, h5]
    exact ⟨hg, h1, h2, h4⟩
  | encrypt s ty =>
    obtain ⟨d', hg, h1, h2, h3, h4, h5⟩ := encrypt_run ha hd s ty
    simp only [KeyOp.after, h5]
    exact ⟨hg, h1, h2, h4⟩

theorem history_good {aes : Aes} (ha : aes.Sized) {d : Ecb} (hd : d.Good aes) (ops : List KeyOp) :
    (ops.foldl (KeyOp.after aes) d).Good aes ∧ (ops.foldl (KeyOp.after aes) d).iv = d.iv ∧
      (ops.foldl (KeyOp.after aes) d).aesKey = d.aesKey ∧
      d.keys <+: (ops.foldl (KeyOp.after aes) d).keys := by
  induction ops generalizing d with
  | nil => exact ⟨hd, rfl, rfl, List.prefix_rfl⟩
  | cons op ops ih =>
    obtain ⟨hg, h1, h2, h3⟩ := after_good ha hd op
    obtain ⟨ig, i1, i2, i3⟩ := ih hg
    exact ⟨ig, by rw [List.foldl_cons, i1, h1], by rw [List.foldl_cons, i2, h2], h3.trans i3⟩

/-! ## C07 -/

/-- C07: the AES key that goes with a user key. -/
theorem C07_user_key (userKey : Bytes) :
    trimmedUserKey userKey = if 113 ≤ userKey.length then .ok (spreadKey userKey) else .error .panicIndex := by
  unfold trimmedUserKey
  rw [show List.range' 0 8 16 = [0, 16, 32, 48, 64, 80, 96, 112] from rfl]
  simp only [List.foldlM_cons, List.foldlM_nil]
  by_cases h : 113 ≤ userKey.length
  · rw [if_pos h]
    have g : ∀ i, i < 113 → userKey[i]? = some (userKey.getD i 0#8) := fun i hi => by
      rw [List.getD_eq_getElem?_getD, List.getElem?_eq_getElem (by omega)]
      rfl
    rw [g 0 (by decide), g 16 (by decide), g 32 (by decide), g 48 (by decide), g 64 (by decide), g 80 (by decide), g 96 (by decide), g 112 (by decide)]
    rfl
  · rw [if_neg h, List.getElem?_eq_none (i := 112) (by omega)]
    cases userKey[0]? <;> cases userKey[16]? <;> cases userKey[32]? <;> cases userKey[48]? <;> cases userKey[64]? <;>
      cases userKey[80]? <;> cases userKey[96]? <;> rfl

/-- C07: the key in use when no user key is given. -/
theorem C07_default_key (iv : Bytes) :
    Ecb.fromIv iv = .ok (Ecb.new iv ([0x13, 0, 0, 0, 0x08, 0, 0, 0, 0x06, 0, 0, 0, 0xB4, 0, 0, 0, 0x1B, 0, 0, 0, 0x0F, 0, 0, 0, 0x33, 0, 0, 0, 0x52, 0, 0, 0].map (BitVec.ofNat 8))) := by
  rfl

example : (spreadKey userKeyDefault).length = 32 ∧ 113 ≤ userKeyDefault.length := by decide +kernel

/-- C07: after any history of operations on a decryptor made for an IV and a user key, decrypting data is
xor with the specified stream of that IV and key: the history does not matter. -/
theorem C07_decrypt_after_history (aes : Aes) (ha : aes.Sized) (iv key : Bytes) (hiv : iv.length = 4)
    (ops : List KeyOp) (data : Bytes) :
    (getDecryptSlice aes (ops.foldl (KeyOp.after aes) (Ecb.new iv key)) data).map Prod.fst =
      .ok (xorStream (keyByte aes key iv) data) := by
  obtain ⟨hg, h1, h2, _⟩ := history_good ha (Ecb.good_new aes iv key hiv) ops
  obtain ⟨d', _, _, _, _, _, h⟩ := decrypt_slice_run ha hg data
  rw [h, h1, h2]; rfl

/-- C07: same for single key bytes.  With a zero IV there are no key bytes and asking for one panics. -/
theorem C07_at_after_history (aes : Aes) (ha : aes.Sized) (iv key : Bytes) (hiv : iv.length = 4)
    (ops : List KeyOp) (i : Nat) :
    ((ops.foldl (KeyOp.after aes) (Ecb.new iv key)).at aes i).map Prod.fst =
      if iv = ivZero then .error .panicIndex else .ok (stream aes key iv i) := by
  obtain ⟨hg, h1, h2, _⟩ := history_good ha (Ecb.good_new aes iv key hiv) ops
  obtain ⟨d', _, _, _, _, _, h⟩ := at_run ha hg i
  have e1 : (Ecb.new iv key).iv = iv := rfl
  have e2 : (Ecb.new iv key).aesKey = key := rfl
  rw [h, h1, h2, e1, e2]
  split <;> rfl

/-- C07: key bytes that exist are the specified ones, whatever happened before. -/
theorem C07_generated_bytes (aes : Aes) (ha : aes.Sized) (iv key : Bytes) (hiv : iv.length = 4)
    (ops : List KeyOp) (i : Nat) (b : Byte)
    (h : (ops.foldl (KeyOp.after aes) (Ecb.new iv key)).tryAt i = some b) : b = stream aes key iv i := by
  obtain ⟨hg, h1, h2, _⟩ := history_good ha (Ecb.good_new aes iv key hiv) ops
  obtain ⟨n, hk⟩ := hg.blocks
  unfold Ecb.tryAt at h
  rw [hk, h1, h2, getElem?_streamPrefix] at h
  split at h
  · exact (Option.some.inj h).symm
  · cases h

/-- C07: later operations only extend the generated bytes. -/
theorem C07_prefix_stable (aes : Aes) (ha : aes.Sized) (iv key : Bytes) (hiv : iv.length = 4)
    (ops more : List KeyOp) :
    (ops.foldl (KeyOp.after aes) (Ecb.new iv key)).keys <+:
      ((ops ++ more).foldl (KeyOp.after aes) (Ecb.new iv key)).keys := by
  obtain ⟨hg, _, _, _⟩ := history_good ha (Ecb.good_new aes iv key hiv) ops
  rw [List.foldl_append]
  exact (history_good ha hg more).2.2.2

/-- C07: a request for `n` bytes always succeeds and, unless the IV is zero, makes the first `n` bytes
available. -/
theorem C07_request (aes : Aes) (ha : aes.Sized) (iv key : Bytes) (hiv : iv.length = 4) (ops : List KeyOp) (n : Nat) :
    ∃ d', (ops.foldl (KeyOp.after aes) (Ecb.new iv key)).ensure aes n = .ok d' ∧
      (iv ≠ ivZero → ∀ i < n, d'.tryAt i = some (stream aes key iv i)) := by
  obtain ⟨hg, h1, h2, _⟩ := history_good ha (Ecb.good_new aes iv key hiv) ops
  have he := Ecb.ensure_run ha hg n
  refine ⟨_, he, fun hz i hi => ?_⟩
  obtain ⟨hg', k1, k2, k3, k4, k5⟩ := Ecb.ensure_good ha hg he
  obtain ⟨m, hk⟩ := hg'.blocks
  have hw : (ops.foldl (KeyOp.after aes) (Ecb.new iv key)).withoutDecrypt = false := by
    rw [hg.zero, h1]; exact decide_eq_false hz
  have hlen := k5 hw
  unfold Ecb.tryAt
  rw [hk] at hlen ⊢
  rw [length_streamPrefix] at hlen
  rw [getElem?_streamPrefix, if_pos (by omega), k1, k2, h1, h2]
  rfl

/-- C07: encrypting text with a used decryptor gives what the string model of C03/C06 computes with the
specified key stream. -/
theorem C07_encrypt_after_history (aes : Aes) (ha : aes.Sized) (iv key : Bytes) (hiv : iv.length = 4)
    (ops : List KeyOp) (s : List Char) (ty : StrType) :
    (encryptStrEcb aes (ops.foldl (KeyOp.after aes) (Ecb.new iv key)) s ty).map Prod.fst =
      .ok (encryptStr (keyByte aes key iv) s ty) := by
  obtain ⟨hg, h1, h2, _⟩ := history_good ha (Ecb.good_new aes iv key hiv) ops
  obtain ⟨d', _, _, _, _, _, h⟩ := encrypt_run ha hg s ty
  rw [h, h1, h2]; rfl

/-- invariant of the shared use of one decryptor -/
private structure SharedOk (aes : Aes) (iv key : Bytes) (datas : List Bytes) (s : Shared) : Prop where
  good : s.dec.Good aes
  hiv : s.dec.iv = iv
  hkey : s.dec.aesKey = key
  len : s.calls.length = datas.length
  call : ∀ (t : Nat) (c : Call), s.calls[t]? = some c → datas[t]? = some c.data ∧
    match c.phase with
    | .start => True
    | .grown => s.dec.withoutDecrypt = true ∨ c.data.length ≤ s.dec.keys.length
    | .done r => r = .ok (xorStream (keyByte aes key iv) c.data)

private theorem shared_step {aes : Aes} (ha : aes.Sized) {iv key : Bytes} {datas : List Bytes} {s : Shared}
    (h : SharedOk aes iv key datas s) (t : Nat) : SharedOk aes iv key datas (s.step aes t) := by
  unfold Shared.step
  cases hc : s.calls[t]? with
  | none => exact h
  | some c =>
    have hct := h.call t c hc
    have htl : t < s.calls.length := by
      rcases Nat.lt_or_ge t s.calls.length with h | h
      · exact h
      · rw [List.getElem?_eq_none h] at hc; cases hc
    cases hp : c.phase with
    | done r => simp only [hp]; exact h
    | start =>
      obtain ⟨d', h0, hg, h1, h2, h3, h4, h5⟩ := Ecb.grow_run ha h.good c.data.length
      simp only [hp, h0]
      refine ⟨hg, h1.trans h.hiv, h2.trans h.hkey, by simpa using h.len, ?_⟩
      intro t' c' hc'
      simp only at hc'
      rw [List.getElem?_set] at hc'
      by_cases htt : t = t'
      · subst htt
        rw [if_pos rfl, if_pos htl] at hc'
        have := Option.some.inj hc'
        subst this
        exact ⟨hct.1, h5⟩
      · rw [if_neg htt] at hc'
        have := h.call t' c' hc'
        refine ⟨this.1, ?_⟩
        cases hph : c'.phase with
        | start => trivial
        | grown =>
          have h6 := this.2
          rw [hph] at h6
          simp only at h6 ⊢
          rcases h6 with h6 | h6
          · left; rw [h3, h6]
          · right; exact Nat.le_trans h6 h4.length_le
        | done r => have h6 := this.2; rw [hph] at h6; exact h6
    | grown =>
      simp only [hp]
      have hg := hct.2
      rw [hp] at hg
      refine ⟨h.good, h.hiv, h.hkey, by simpa using h.len, ?_⟩
      intro t' c' hc'
      simp only at hc'
      rw [List.getElem?_set] at hc'
      by_cases htt : t = t'
      · subst htt
        rw [if_pos rfl, if_pos htl] at hc'
        have := Option.some.inj hc'
        subst this
        refine ⟨hct.1, ?_⟩
        show _ = _
        rw [Ecb.decrypt_run h.good _ hg, h.hiv, h.hkey]
      · rw [if_neg htt] at hc'
        exact h.call t' c' hc'

/-- number of steps a call has made -/
private def Phase.rank : Phase → Nat
  | .start => 0
  | .grown => 1
  | .done _ => 2

private theorem rank_step {aes : Aes} (ha : aes.Sized) {iv key : Bytes} {datas : List Bytes} {s : Shared}
    (h : SharedOk aes iv key datas s) (t u : Nat) (c : Call) (hc : s.calls[t]? = some c) :
    ∃ c', (s.step aes u).calls[t]? = some c' ∧ min 2 (Phase.rank c.phase + if u = t then 1 else 0) ≤ Phase.rank c'.phase := by
  have hr : Phase.rank c.phase ≤ 2 := by cases c.phase <;> simp [Phase.rank]
  have htl : t < s.calls.length := by
    rcases Nat.lt_or_ge t s.calls.length with h | h
    · exact h
    · rw [List.getElem?_eq_none h] at hc; cases hc
  by_cases hut : u = t
  · subst hut
    rw [if_pos rfl]
    unfold Shared.step
    rw [hc]
    cases hp : c.phase with
    | done r => simp only [hp]; exact ⟨c, hc, by rw [hp]; simp [Phase.rank]⟩
    | start =>
      obtain ⟨d', h0, _⟩ := Ecb.grow_run ha h.good c.data.length
      simp only [hp, h0]
      refine ⟨_, by rw [List.getElem?_set, if_pos rfl, if_pos htl], by simp [Phase.rank]⟩
    | grown =>
      simp only [hp]
      refine ⟨_, by rw [List.getElem?_set, if_pos rfl, if_pos htl], by simp [Phase.rank]⟩
  · rw [if_neg hut]
    refine ⟨c, ?_, by omega⟩
    unfold Shared.step
    cases hcu : s.calls[u]? with
    | none => exact hc
    | some cu =>
      simp only
      cases cu.phase with
      | done r => exact hc
      | start =>
        simp only
        cases s.dec.grow aes cu.data.length <;> (simp only; rw [List.getElem?_set, if_neg hut]; exact hc)
      | grown => simp only; rw [List.getElem?_set, if_neg hut]; exact hc

/-- C07: any number of readers share a decryptor with any history; their check-and-grow and decrypt steps
are interleaved in any order.  Every call that was scheduled twice has finished, without panic, with
exactly the result it would have had alone. -/
theorem C07_concurrent (aes : Aes) (ha : aes.Sized) (iv key : Bytes) (hiv : iv.length = 4) (ops : List KeyOp)
    (datas : List Bytes) (schedule : List Nat) (t : Nat) (data : Bytes) (hdata : datas[t]? = some data)
    (ht : 2 ≤ schedule.count t) :
    (schedule.foldl (Shared.step aes)
      { dec := ops.foldl (KeyOp.after aes) (Ecb.new iv key),
        calls := datas.map fun d => { data := d, phase := .start } }).calls[t]? =
      some { data := data, phase := .done (.ok (xorStream (keyByte aes key iv) data)) } := by
  obtain ⟨hg, h1, h2, _⟩ := history_good ha (Ecb.good_new aes iv key hiv) ops
  have hinit : SharedOk aes iv key datas
      { dec := ops.foldl (KeyOp.after aes) (Ecb.new iv key),
        calls := datas.map fun d => { data := d, phase := .start } } := by
    refine ⟨hg, h1, h2, by simp, ?_⟩
    intro t c hc
    simp only [List.getElem?_map, Option.map_eq_some_iff] at hc
    obtain ⟨d, hd, rfl⟩ := hc
    exact ⟨hd, trivial⟩
  have key : ∀ (sch : List Nat) (s : Shared) (c : Call), SharedOk aes iv key datas s → s.calls[t]? = some c →
      ∃ c', (sch.foldl (Shared.step aes) s).calls[t]? = some c' ∧
        min 2 (Phase.rank c.phase + sch.count t) ≤ Phase.rank c'.phase ∧
        SharedOk aes iv key datas (sch.foldl (Shared.step aes) s) := by
    intro sch
    induction sch with
    | nil =>
      intro s c hs hc
      exact ⟨c, hc, by simp; omega, hs⟩
    | cons u sch ih =>
      intro s c hs hc
      obtain ⟨c1, hc1, hr1⟩ := rank_step ha hs t u c hc
      obtain ⟨c2, hc2, hr2, hs2⟩ := ih _ c1 (shared_step ha hs u) hc1
      refine ⟨c2, hc2, ?_, hs2⟩
      rw [List.count_cons]
      by_cases hut : u = t
      · subst hut
        simp only [if_true, beq_self_eq_true] at hr1 ⊢
        omega
      · simp only [if_neg hut, beq_iff_eq] at hr1 ⊢
        omega
  obtain ⟨c', hc', hr, hs⟩ := key schedule _ { data := data, phase := .start } hinit
    (by simp [hdata])
  rw [hc']
  have hcall := hs.call t c' hc'
  have hd : c'.data = data := by
    have := hcall.1; rw [hdata] at this; exact (Option.some.inj this).symm
  have h2' : 2 ≤ Phase.rank c'.phase := by simp only [Phase.rank] at hr ⊢; omega
  obtain ⟨cd, cp⟩ := c'
  simp only at hd hcall h2'
  subst hd
  cases cp with
  | start => simp [Phase.rank] at h2'
  | grown => simp [Phase.rank] at h2'
  | done r => simp only at hcall; rw [hcall.2]

/-- an artificial block cipher for the examples -/
def toyAes : Aes := fun k b => b.mapIdx fun i x => x * 3#8 + k.getD (i % 4) 7#8 + 1#8

example : toyAes.Sized := by intro k b h; simp [toyAes, h]
example : gmsIv.length = 4 ∧ gmsIv ≠ ivZero := by decide
example : 2 ≤ [0, 1, 1, 0].count 0 ∧ ([[1#8], [2#8, 3#8]] : List Bytes)[0]? = some [1#8] := by decide

/-! ## C08 -/

/-- C08: decrypting twice gives the data back, for the AES based decryptor with any history. -/
theorem C08_ecb_involution (aes : Aes) (ha : aes.Sized) (iv key : Bytes) (hiv : iv.length = 4)
    (ops ops' : List KeyOp) (data out : Bytes)
    (h : (getDecryptSlice aes (ops.foldl (KeyOp.after aes) (Ecb.new iv key)) data).map Prod.fst = .ok out) :
    out.length = data.length ∧
    (getDecryptSlice aes (ops'.foldl (KeyOp.after aes) (Ecb.new iv key)) out).map Prod.fst = .ok data := by
  rw [C07_decrypt_after_history aes ha iv key hiv] at h
  have h := Except.ok.inj h
  subst h
  refine ⟨by simp [xorStream], ?_⟩
  rw [C07_decrypt_after_history aes ha iv key hiv]
  congr 1
  apply List.ext_getElem
  · simp [xorStream]
  · intro i h1 h2
    simp [xorStream, BitVec.xor_assoc]

/-- C08: a zero IV leaves data unchanged. -/
theorem C08_zero_iv (aes : Aes) (ha : aes.Sized) (key : Bytes) (ops : List KeyOp) (data : Bytes) :
    (getDecryptSlice aes (ops.foldl (KeyOp.after aes) (Ecb.new ivZero key)) data).map Prod.fst = .ok data := by
  rw [C07_decrypt_after_history aes ha ivZero key rfl]
  congr 1
  apply List.ext_getElem
  · simp [xorStream]
  · intro i h1 h2
    simp [xorStream, keyByte]

/-- byte `j` of the PKG2 key schedule, from the number of the key byte it repeats -/
def pkg2KeyByte (key : BitVec 64) (j : Nat) : Byte := BitVec.ofNat 8 (key.toNat / 256 ^ ((j % 8 + 1) / 2))

private theorem mapM_ok {α β : Type} (f : α → Except Err β) (g : α → β) (l : List α)
    (h : ∀ a ∈ l, f a = .ok (g a)) : l.mapM f = .ok (l.map g) := by
  induction l with
  | nil => rfl
  | cons a l ih =>
    rw [List.mapM_cons, h a (by simp), ih (fun b hb => h b (by simp [hb]))]
    rfl

private theorem setIv_keys (d : Pkg2Dec) (key : BitVec 64) (t : DecType) (i : Nat) :
    (d.setIv key t).keys[i % 8]? = some (pkg2KeyByte key i) := by
  have hb : ∀ k, (key >>> (8 * k)).setWidth 8 = BitVec.ofNat 8 (key.toNat / 256 ^ k) := by
    intro k
    apply BitVec.eq_of_toNat_eq
    rw [BitVec.toNat_setWidth, BitVec.toNat_ushiftRight, BitVec.toNat_ofNat, Nat.shiftRight_eq_div_pow, Nat.pow_mul]
  unfold Pkg2Dec.setIv pkg2KeyByte
  simp only [hb]
  have : i % 8 < 8 := Nat.mod_lt _ (by omega)
  generalize i % 8 = j at *
  match j, this with
  | 0, _ | 1, _ | 2, _ | 3, _ | 4, _ | 5, _ | 6, _ | 7, _ => rfl

private theorem pkg2_decrypt_run (d : Pkg2Dec) (key : BitVec 64) (t : DecType) (data : Bytes) :
    (d.setIv key t).decrypt data = .ok (xorStream (pkg2KeyByte key) data) := by
  unfold Pkg2Dec.decrypt
  rw [mapM_ok _ (fun p => p.2 ^^^ pkg2KeyByte key p.1)]
  · congr 1
    apply List.ext_getElem
    · simp [xorStream]
    · intro i h1 h2; simp [xorStream]
  · rintro ⟨i, b⟩ _
    simp only [setIv_keys]

/-- C08: same for the PKG2 decryptor and any 64-bit key. -/
theorem C08_pkg2_involution (key : BitVec 64) (t : DecType) (data : Bytes) :
    ∃ out, (Pkg2Dec.newWithKey key t).decrypt data = .ok out ∧ out.length = data.length ∧
      (Pkg2Dec.newWithKey key t).decrypt out = .ok data := by
  refine ⟨_, pkg2_decrypt_run _ key t data, by simp [xorStream], ?_⟩
  rw [Pkg2Dec.newWithKey, pkg2_decrypt_run]
  congr 1
  apply List.ext_getElem
  · simp [xorStream]
  · intro i h1 h2
    simp [xorStream, BitVec.xor_assoc]

/-- C08: an output byte depends only on the input byte at the same index (both decryptors are of the form
`xorStream`, see `C07_decrypt_after_history` and `C15_period`). -/
theorem C08_bytewise (ks : Nat → Byte) (data data' : Bytes) (i : Nat) (h : data[i]? = data'[i]?) :
    (xorStream ks data)[i]? = (xorStream ks data')[i]? := by
  simp [xorStream, List.getElem?_mapIdx, h]

/-! ## C09 -/

/-- C09 is violated: once key bytes have been generated, replacing the IV does not change what is
decrypted.  For any block cipher, any two IVs and any data no longer than what was generated, the result
after `set_iv` is still the one for the old IV. -/
theorem C09_set_iv_ignored (aes : Aes) (ha : aes.Sized) (iv key : Bytes) (hiv : iv.length = 4) (hz : iv ≠ ivZero)
    (ops : List KeyOp) (newIv : Nat) (t : DecType) (data : Bytes)
    (hl : data.length ≤ (ops.foldl (KeyOp.after aes) (Ecb.new iv key)).keys.length) :
    (getDecryptSlice aes ((ops.foldl (KeyOp.after aes) (Ecb.new iv key)).setIv newIv t) data).map Prod.fst =
      .ok (xorStream (keyByte aes key iv) data) := by
  obtain ⟨hg, h1, h2, _⟩ := history_good ha (Ecb.good_new aes iv key hiv) ops
  generalize hdd : ops.foldl (KeyOp.after aes) (Ecb.new iv key) = d at *
  have hw : d.withoutDecrypt = false := by
    rw [hg.zero, h1]; exact decide_eq_false hz
  have hdec := Ecb.decrypt_run hg data (.inr hl)
  rw [h1, h2] at hdec
  unfold getDecryptSlice Ecb.grow
  have hen : (d.setIv newIv t).isEnough data.length = true := by
    simp [Ecb.isEnough, Ecb.setIv, hw, hl]
  have hdec' : (d.setIv newIv t).decrypt data = d.decrypt data := rfl
  rw [if_pos hen]
  simp only [bind, Except.bind, hdec', hdec]
  rfl

private theorem toySized : toyAes.Sized := by intro k b h; simp [toyAes, h]

private theorem fresh_set_iv (newIv : Nat) (h : newIv % 2 ^ 32 ≠ 0) :
    (getDecryptSlice toyAes ((Ecb.new gmsIv []).setIv newIv .gms) [0#8]).map Prod.fst =
      .ok (xorStream (keyByte toyAes [] (toLE 4 (newIv % 2 ^ 32))) [0#8]) := by
  have hz : toLE 4 (newIv % 2 ^ 32) ≠ ivZero := by
    intro hc
    have := congrArg leNat hc
    rw [leNat_toLE] at this
    have e0 : leNat ivZero = 0 := rfl
    rw [e0] at this
    omega
  have hg : ((Ecb.new gmsIv []).setIv newIv .gms).Good toyAes :=
    ⟨by simp [Ecb.setIv], by
      show (Ecb.new gmsIv []).withoutDecrypt = decide (toLE 4 (newIv % 2 ^ 32) = ivZero)
      rw [decide_eq_false hz]; decide, ⟨0, rfl⟩, fun _ => rfl⟩
  obtain ⟨d2, _, _, _, _, _, h2⟩ := decrypt_slice_run toySized hg [0#8]
  rw [h2]
  rfl

/-- C09 is violated, concrete witness: after one key request the replaced IV and a fresh decryptor with
that IV give different results. -/
theorem C09_set_iv_violated : ∃ (aes : Aes) (iv : Bytes) (newIv n : Nat), aes.Sized ∧ iv ≠ ivZero ∧
    (getDecryptSlice aes (([KeyOp.ensure n].foldl (KeyOp.after aes) (Ecb.new iv [])).setIv newIv .gms) [0#8]).map Prod.fst
      ≠ (getDecryptSlice aes ((Ecb.new iv []).setIv newIv .gms) [0#8]).map Prod.fst := by
  suffices h : ∀ n, 0 < n →
      (getDecryptSlice toyAes (([KeyOp.ensure n].foldl (KeyOp.after toyAes) (Ecb.new gmsIv [])).setIv 1 .gms) [0#8]).map Prod.fst
      ≠ (getDecryptSlice toyAes ((Ecb.new gmsIv []).setIv 1 .gms) [0#8]).map Prod.fst from
    ⟨toyAes, gmsIv, 1, 1, toySized, by decide, h 1 (by omega)⟩
  intro n hn
  have hlen : 1 ≤ ([KeyOp.ensure n].foldl (KeyOp.after toyAes) (Ecb.new gmsIv [])).keys.length := by
    obtain ⟨d', h1, h2⟩ := C07_request toyAes toySized gmsIv [] rfl [] n
    have hn := h2 (by decide) 0 hn
    simp only [List.foldl_nil] at h1
    simp only [List.foldl_cons, List.foldl_nil, KeyOp.after, h1]
    unfold Ecb.tryAt at hn
    rcases Nat.eq_zero_or_pos d'.keys.length with h | h
    · rw [List.getElem?_eq_none (by omega)] at hn; cases hn
    · omega
  rw [C09_set_iv_ignored toyAes toySized gmsIv [] rfl (by decide) [.ensure n] 1 .gms [0#8] hlen,
    fresh_set_iv 1 (by decide)]
  decide

/-- C09, the part that holds: if no key byte has been generated yet, and neither or both of the old and new
IV are zero, the decryptor equals a fresh one with the new IV.  Missing: decryptors with generated keys
(`C09_set_iv_violated`) and switching between a zero and a non-zero IV. -/
theorem C09_set_iv_partial (iv key : Bytes) (newIv : Nat) (t : DecType)
    (hz : (Ecb.new iv key).withoutDecrypt = (Ecb.new (toLE 4 (newIv % 2 ^ 32)) key).withoutDecrypt) :
    (Ecb.new iv key).setIv newIv t = { Ecb.new (toLE 4 (newIv % 2 ^ 32)) key with encType := t } := by
  unfold Ecb.setIv
  simp only [Ecb.new] at hz ⊢
  simp [hz]

example : (Ecb.new gmsIv []).withoutDecrypt = (Ecb.new (toLE 4 (0xE9637DB9 % 2 ^ 32)) []).withoutDecrypt := by decide

/-- C09 holds for the PKG2 decryptor: after `set_iv` it is the fresh decryptor for that key. -/
theorem C09_pkg2_set_iv (d : Pkg2Dec) (key : BitVec 64) (t : DecType) : d.setIv key t = Pkg2Dec.newWithKey key t := rfl

/-! ## C15 -/

private theorem xorshift16 (x y : BitVec 32) (h : x ^^^ (x >>> 16) = y ^^^ (y >>> 16)) : x = y := by
  have key : ∀ z : BitVec 32, (z ^^^ (z >>> 16)) ^^^ ((z ^^^ (z >>> 16)) >>> 16) = z := by
    intro z
    apply BitVec.eq_of_getLsbD_eq
    intro i hi
    simp only [BitVec.getLsbD_xor, BitVec.getLsbD_ushiftRight]
    rw [BitVec.getLsbD_of_ge z (16 + (16 + i)) (by omega)]
    cases z.getLsbD i <;> cases z.getLsbD (16 + i) <;> rfl
  rw [← key x, ← key y, h]

private theorem xorshift15 (x y : BitVec 32) (h : x ^^^ (x >>> 15) = y ^^^ (y >>> 15)) : x = y := by
  have key : ∀ z : BitVec 32, (z ^^^ (z >>> 15)) ^^^ ((z ^^^ (z >>> 15)) >>> 15) ^^^ ((z ^^^ (z >>> 15)) >>> 30) = z := by
    intro z
    apply BitVec.eq_of_getLsbD_eq
    intro i hi
    simp only [BitVec.getLsbD_xor, BitVec.getLsbD_ushiftRight]
    rw [BitVec.getLsbD_of_ge z (15 + (30 + i)) (by omega), show 15 + (15 + i) = 30 + i by omega]
    cases z.getLsbD i <;> cases z.getLsbD (15 + i) <;> cases z.getLsbD (30 + i) <;> rfl
  rw [← key x, ← key y, h]

private theorem mul_cancel (c ci : BitVec 32) (hc : c * ci = 1#32) (x y : BitVec 32) (h : x * c = y * c) : x = y := by
  have : x * c * ci = y * c * ci := by rw [h]
  simpa [BitVec.mul_assoc, hc] using this

private theorem mix_injective (x y : BitVec 32) (h : mixKmst1199 x = mixKmst1199 y) : x = y := by
  unfold mixKmst1199 at h
  dsimp only at h
  have h := xorshift16 _ _ h
  have h := mul_cancel 0x846CA68B#32 0x43021123#32 (by decide) _ _ h
  have h := xorshift15 _ _ h
  have h := mul_cancel 0x7FEB352D#32 0x1D69E2A5#32 (by decide) _ _ h
  exact xorshift16 _ _ h

private theorem xor_right_cancel {n : Nat} {a b c : BitVec n} (h : a ^^^ c = b ^^^ c) : a = b := by
  have := congrArg (· ^^^ c) h
  simpa [BitVec.xor_assoc] using this

private theorem xor_left_cancel {n : Nat} {a b c : BitVec n} (h : c ^^^ a = c ^^^ b) : a = b := by
  rw [BitVec.xor_comm c a, BitVec.xor_comm c b] at h
  exact xor_right_cancel h

/-- C15: different version hashes give different KMST1199 keys. -/
theorem C15_kmst1199_injective (hash1 v v' : BitVec 32) (h : kmst1199Key hash1 v = kmst1199Key hash1 v') : v = v' := by
  unfold kmst1199Key at h
  exact xor_left_cancel (xor_right_cancel (mix_injective _ _ (xor_right_cancel (mix_injective _ _ h))))

example : kmst1199Key 0xabcd#32 12345#32 ≠ kmst1199Key 0xabcd#32 12346#32 := by
  intro h
  have := C15_kmst1199_injective _ _ _ h
  revert this
  decide

/-- C15: and so do different stored hashes. -/
theorem C15_kmst1199_injective_hash1 (h1 h1' v : BitVec 32) (h : kmst1199Key h1 v = kmst1199Key h1' v) : h1 = h1' := by
  unfold kmst1199Key at h
  exact xor_right_cancel (xor_right_cancel (mix_injective _ _ (xor_right_cancel (mix_injective _ _ h))))

example : kmst1199Key 0xabcd#32 12345#32 ≠ kmst1199Key 0xabce#32 12345#32 := by
  intro h
  have := C15_kmst1199_injective_hash1 _ _ _ h
  revert this
  decide

/-- C15: different version hashes give different KMST1202 keys. -/
theorem C15_kmst1202_injective (hash1 v v' : BitVec 64) (h : kmst1202Key hash1 v = kmst1202Key hash1 v') : v = v' := by
  unfold kmst1202Key at h
  exact xor_left_cancel (xor_right_cancel h)

example : kmst1202Key 0xabcd#64 12345#64 ≠ kmst1202Key 0xabcd#64 12346#64 := by
  intro h
  have := C15_kmst1202_injective _ _ _ h
  revert this
  decide

/-- C15: the PKG2 decryptor xors byte `i` with a byte that depends only on `i` modulo 8. -/
theorem C15_period (key : BitVec 64) (t : DecType) :
    ∃ ks : Nat → Byte, (∀ i, ks (i + 8) = ks i) ∧
      ∀ data, (Pkg2Dec.newWithKey key t).decrypt data = .ok (xorStream ks data) :=
  ⟨pkg2KeyByte key, fun i => by simp [pkg2KeyByte], fun data => pkg2_decrypt_run _ key t data⟩

/-- C15: two keys decrypt alike exactly when their low 40 bits agree.  So a 32-bit (KMST1199) key is
determined by its stream, and the upper 24 bits of a KMST1202 key have no influence. -/
theorem C15_effective_bits (key key' : BitVec 64) (t : DecType) :
    (∀ data, (Pkg2Dec.newWithKey key t).decrypt data = (Pkg2Dec.newWithKey key' t).decrypt data) ↔
      key.setWidth 40 = key'.setWidth 40 := by
  simp only [Pkg2Dec.newWithKey, pkg2_decrypt_run]
  constructor
  · intro h
    have hb : ∀ j < 8, pkg2KeyByte key j = pkg2KeyByte key' j := by
      intro j hj
      have := Except.ok.inj (h (List.replicate 8 0#8))
      have := congrArg (·[j]?) this
      simp only [xorStream, List.getElem?_mapIdx, List.getElem?_replicate, hj, if_true, Option.map_some,
        Option.some.injEq, BitVec.zero_xor] at this
      exact this
    have h0 := congrArg BitVec.toNat (hb 0 (by omega))
    have h1 := congrArg BitVec.toNat (hb 1 (by omega))
    have h3 := congrArg BitVec.toNat (hb 3 (by omega))
    have h5 := congrArg BitVec.toNat (hb 5 (by omega))
    have h7 := congrArg BitVec.toNat (hb 7 (by omega))
    simp only [pkg2KeyByte, BitVec.toNat_ofNat, Nat.reduceMod, Nat.reduceAdd, Nat.reduceDiv, Nat.reducePow] at h0 h1 h3 h5 h7
    apply BitVec.eq_of_toNat_eq
    simp only [BitVec.toNat_setWidth]
    rw [show (2 : Nat) ^ 40 = 256 ^ 5 by decide]
    simp only [Nat.mod_pow_succ, Nat.pow_zero, Nat.mod_one, Nat.div_one, Nat.one_mul, Nat.zero_add]
    simp only [Nat.reducePow, Nat.div_one] at h0 h1 h3 h5 h7 ⊢
    rw [h0, h1, h3, h5, h7]
  · intro h data
    have h := congrArg BitVec.toNat h
    simp only [BitVec.toNat_setWidth] at h
    have hm : ∀ k < 5, key.toNat / 256 ^ k % 2 ^ 8 = key'.toNat / 256 ^ k % 2 ^ 8 := by
      intro k hk
      have e : ∀ n : Nat, n / 256 ^ k % 2 ^ 8 = n % 2 ^ 40 / 256 ^ k % 2 ^ 8 := by
        intro n
        match k, hk with
        | 0, _ | 1, _ | 2, _ | 3, _ | 4, _ => omega
      rw [e, h, ← e]
    congr 1
    unfold xorStream
    congr 1
    funext i b
    congr 1
    unfold pkg2KeyByte
    have : i % 8 < 8 := Nat.mod_lt _ (by omega)
    generalize i % 8 = j at *
    apply BitVec.eq_of_toNat_eq
    simp only [BitVec.toNat_ofNat]
    exact hm ((j + 1) / 2) (by omega)

example : kmst1199Key 1#32 2#32 ≠ kmst1199Key 1#32 3#32 := by decide

end Wz.Props
