import Verif.Ms.SnowStream
/-!
# Snow2 (C38, C52)
-/

set_option autoImplicit false

namespace Wz.Spec.Snow

/-- encryption with a key stream, from word `n` on: the words of the text, lowest byte first, plus the words of the key stream; what
is left at the end, less than a word, stays -/
def encrypt (z : Nat → BitVec 32) (n : Nat) : Bytes → Bytes
  | a :: b :: c :: d :: rest => toLE 4 ((leNat [a, b, c, d] + (z n).toNat) % 4294967296) ++ encrypt z (n + 1) rest
  | rest => rest

/-- the key of sixteen bytes as four words, the first byte the highest -/
def plainKey (k : Bytes) : St :=
  let w := fun i => pack (k.getD (4 * i) 0#8) (k.getD (4 * i + 1) 0#8) (k.getD (4 * i + 2) 0#8) (k.getD (4 * i + 3) 0#8)
  start (w 0) (w 1) (w 2) (w 3)

/-- the same with the bytes taken as signed numbers: the sign of a byte runs into all the higher bytes of its word -/
def signedKey (k : Bytes) : St :=
  let v := fun i => BitVec.ofInt 32 (k.getD i 0#8).toInt
  let w := fun i => (v (4 * i) <<< 24) ||| (v (4 * i + 1) <<< 16) ||| (v (4 * i + 2) <<< 8) ||| v (4 * i + 3)
  start (w 0) (w 1) (w 2) (w 3)

/-- calls one after the other -/
inductive Calls : Snow2 → List Bytes → List Bytes → Snow2 → Prop
  | done (d) : Calls d [] [] d
  | call (d d' d'' ins outs p q r) : d.decryptSlice p = .ok (q, r, d') → Calls d' ins outs d'' → Calls d (p :: ins) (q :: outs) d''

end Wz.Spec.Snow

namespace Wz.Snow

open Wz.Spec.Snow

/-! ## lemmas -/

/-- induction on lists of bytes by words -/
theorem words_ind {P : Bytes → Prop} (small : ∀ bs : Bytes, bs.length < 4 → P bs)
    (word : ∀ (a b c d : Byte) (rest : Bytes), P rest → P (a :: b :: c :: d :: rest)) : ∀ bs, P bs
  | [] => small _ (by simp)
  | [_] => small _ (by simp)
  | [_, _] => small _ (by simp)
  | [_, _, _] => small _ (by simp)
  | a :: b :: c :: d :: rest => word a b c d rest (words_ind small word rest)

theorem slice_small (d : Snow2) (bs : Bytes) (h : bs.length < 4) : d.decryptSlice bs = .ok (bs, bs.length, d) := by
  rcases bs with _ | ⟨a, _ | ⟨b, _ | ⟨c, _ | ⟨e, r⟩⟩⟩⟩ <;> first | rfl | (simp only [List.length_cons] at h; omega)

theorem encrypt_small (z : Nat → W32) (n : Nat) (bs : Bytes) (h : bs.length < 4) : encrypt z n bs = bs := by
  rcases bs with _ | ⟨a, _ | ⟨b, _ | ⟨c, _ | ⟨e, r⟩⟩⟩⟩ <;> first | rfl | (simp only [List.length_cons] at h; omega)

theorem slice_word (key : Bytes) (n : Nat) (d : Snow2) (h : At key n d) (a b c e : Byte) (rest : Bytes) :
    ∃ d', At key (n + 1) d' ∧ d.decryptSlice (a :: b :: c :: e :: rest) =
      ((d'.decryptSlice rest).map fun r => (toLE 4 (BitVec.ofNat 32 (leNat [a, b, c, e]) - stream key n).toNat ++ r.1, r.2.1, r.2.2)) := by
  obtain ⟨d', hd, hat⟩ := at_block key n d h (BitVec.ofNat 32 (leNat [a, b, c, e]))
  refine ⟨d', hat, ?_⟩
  show (d.decryptBlock _ >>= _) = _
  rw [hd]
  show (d'.decryptSlice rest >>= _) = _
  cases d'.decryptSlice rest <;> rfl

theorem toLE_cons4 (v : Nat) : ∃ a b c d : Byte, toLE 4 v = [a, b, c, d] :=
  ⟨_, _, _, _, rfl⟩

theorem sub_encrypted (a b c d : Byte) (z : W32) :
    toLE 4 (BitVec.ofNat 32 (leNat (toLE 4 ((leNat [a, b, c, d] + z.toNat) % 4294967296))) - z).toNat = [a, b, c, d] := by
  have hlt : leNat [a, b, c, d] < 4294967296 := by
    have := leNat_lt [a, b, c, d]
    simpa using this
  have hz := z.isLt
  rw [leNat_toLE]
  have h1 : (BitVec.ofNat 32 ((leNat [a, b, c, d] + z.toNat) % 4294967296 % 256 ^ 4) - z).toNat = leNat [a, b, c, d] := by
    rw [BitVec.toNat_sub, BitVec.toNat_ofNat]
    generalize leNat [a, b, c, d] = v at *
    simp only [Nat.reducePow] at *
    omega
  rw [h1]
  exact toLE_leNat [a, b, c, d]

theorem slice_encrypted (key : Bytes) (data : Bytes) : ∀ (n : Nat) (d : Snow2), At key n d →
    ∃ d', d.decryptSlice (encrypt (stream key) n data) = .ok (data, data.length % 4, d') ∧ At key (n + data.length / 4) d' := by
  induction data using words_ind with
  | small bs hs =>
    intro n d h
    rw [encrypt_small _ _ _ hs, slice_small _ _ hs]
    refine ⟨d, by rw [Nat.mod_eq_of_lt hs], ?_⟩
    rwa [Nat.div_eq_of_lt hs]
  | word a b c e rest ih =>
    intro n d h
    show ∃ d', d.decryptSlice (toLE 4 _ ++ encrypt (stream key) (n + 1) rest) = _ ∧ _
    have hsub := sub_encrypted a b c e (stream key n)
    obtain ⟨a', b', c', e', hw⟩ := toLE_cons4 ((leNat [a, b, c, e] + (stream key n).toNat) % 4294967296)
    rw [hw] at hsub ⊢
    obtain ⟨d1, hat, hd⟩ := slice_word key n d h a' b' c' e' (encrypt (stream key) (n + 1) rest)
    obtain ⟨d2, hd2, hat2⟩ := ih (n + 1) d1 hat
    refine ⟨d2, ?_, ?_⟩
    · show d.decryptSlice (a' :: b' :: c' :: e' :: encrypt (stream key) (n + 1) rest) = _
      rw [hd, hd2, hsub]
      show Except.ok ([a, b, c, e] ++ rest, rest.length % 4, d2) = _
      simp only [List.length_cons]
      rw [show (rest.length + 1 + 1 + 1 + 1) % 4 = rest.length % 4 by omega]
      rfl
    · simp only [List.length_cons]
      rwa [show n + (rest.length + 1 + 1 + 1 + 1) / 4 = n + 1 + rest.length / 4 by omega]

theorem slice_total (key : Bytes) (data : Bytes) : ∀ (n : Nat) (d : Snow2), At key n d →
    ∃ out d', d.decryptSlice data = .ok (out, data.length % 4, d') ∧ At key (n + data.length / 4) d' ∧ out.length = data.length ∧
      out.drop (data.length - data.length % 4) = data.drop (data.length - data.length % 4) := by
  induction data using words_ind with
  | small bs hs =>
    intro n d h
    refine ⟨bs, d, by rw [slice_small _ _ hs, Nat.mod_eq_of_lt hs], ?_, rfl, rfl⟩
    rwa [Nat.div_eq_of_lt hs]
  | word a b c e rest ih =>
    intro n d h
    obtain ⟨d1, hat, hd⟩ := slice_word key n d h a b c e rest
    obtain ⟨out, d2, hd2, hat2, hl, hdrop⟩ := ih (n + 1) d1 hat
    refine ⟨_, d2, by rw [hd, hd2]; simp only [List.length_cons, Except.map]; rw [show (rest.length + 1 + 1 + 1 + 1) % 4 = rest.length % 4 by omega], ?_, ?_, ?_⟩
    · simp only [List.length_cons]
      rwa [show n + (rest.length + 1 + 1 + 1 + 1) / 4 = n + 1 + rest.length / 4 by omega]
    · simp only [List.length_append, length_toLE, List.length_cons, hl]; omega
    · simp only [List.length_cons]
      rw [show rest.length + 1 + 1 + 1 + 1 - (rest.length + 1 + 1 + 1 + 1) % 4 = (rest.length - rest.length % 4) + 4 by omega]
      rw [List.drop_append, length_toLE, List.drop_eq_nil_of_le (by rw [length_toLE]; omega)]
      simpa using hdrop

theorem slice_append (key : Bytes) (rest : Bytes) (data : Bytes) : ∀ (n : Nat) (d : Snow2), At key n d → data.length % 4 = 0 →
    ∃ out d', d.decryptSlice data = .ok (out, 0, d') ∧ At key (n + data.length / 4) d' ∧
      d.decryptSlice (data ++ rest) = (d'.decryptSlice rest).map fun r => (out ++ r.1, r.2.1, r.2.2) := by
  induction data using words_ind with
  | small bs hs =>
    intro n d h h0
    have : bs = [] := List.length_eq_zero_iff.mp (by omega)
    subst this
    refine ⟨[], d, rfl, h, ?_⟩
    show d.decryptSlice rest = _
    cases d.decryptSlice rest <;> rfl
  | word a b c e bs ih =>
    intro n d h h0
    simp only [List.length_cons] at h0
    obtain ⟨w, hw⟩ : ∃ w, w = BitVec.ofNat 32 (leNat [a, b, c, e]) := ⟨_, rfl⟩
    obtain ⟨d1, hd, hat⟩ := at_block key n d h w
    obtain ⟨out, d2, hd2, hat2, hap⟩ := ih (n + 1) d1 hat (by omega)
    refine ⟨toLE 4 (w - stream key n).toNat ++ out, d2, ?_, ?_, ?_⟩
    · show (d.decryptBlock _ >>= _) = _
      rw [← hw, hd]
      show (d1.decryptSlice bs >>= _) = _
      rw [hd2]; rfl
    · simp only [List.length_cons]
      rwa [show n + (bs.length + 1 + 1 + 1 + 1) / 4 = n + 1 + bs.length / 4 by omega]
    · show (d.decryptBlock _ >>= _) = _
      rw [← hw, hd]
      show (d1.decryptSlice (bs ++ rest) >>= _) = _
      rw [hap]
      cases d2.decryptSlice rest with
      | error x => rfl
      | ok r => show Except.ok (_ ++ (out ++ r.1), _, _) = Except.ok ((_ ++ out) ++ r.1, _, _); rw [List.append_assoc]

theorem signedByte_eq (b : Byte) : signedByte b = BitVec.ofInt 32 b.toInt := by
  show BitVec.ofInt 32 b.toInt = _
  rfl

theorem startOf_signed (key : Bytes) : startOf key = signedKey key := by
  simp only [startOf, signedKey, word, signedByte_eq]

theorem signed_low (b : Byte) (h : b.toNat < 128) : BitVec.ofInt 32 b.toInt = b.setWidth 32 := by
  apply BitVec.eq_of_toNat_eq
  rw [BitVec.toNat_ofInt, BitVec.toInt_eq_toNat_of_lt (by omega), BitVec.toNat_setWidth]
  have := b.isLt
  omega

theorem or_pack (a b c d : Byte) :
    (a.setWidth 32 <<< 24) ||| (b.setWidth 32 <<< 16) ||| (c.setWidth 32 <<< 8) ||| d.setWidth 32 = pack a b c d := by
  apply BitVec.eq_of_getLsbD_eq
  intro i hi
  simp only [pack, BitVec.getLsbD_append, BitVec.getLsbD_or, BitVec.getLsbD_shiftLeft, BitVec.getLsbD_setWidth]
  by_cases h1 : i < 8
  · simp [h1, hi, show i < 24 by omega, show i < 16 by omega]
  · by_cases h2 : i < 16
    · simp [h1, hi, h2, show i < 24 by omega, show i - 8 < 8 by omega, show i - 8 < 32 by omega, BitVec.getLsbD_of_ge d i (by omega)]
    · by_cases h3 : i < 24
      · simp [h1, hi, h2, h3, show ¬ i - 8 < 8 by omega, show i - 8 < 32 by omega, show i - 16 < 32 by omega, show i - 8 - 8 < 8 by omega, BitVec.getLsbD_of_ge d i (by omega),
          BitVec.getLsbD_of_ge c (i - 8) (by omega), show i - 8 - 8 = i - 16 by omega]
        intro h; omega
      · simp [h1, hi, h2, h3, show ¬ i - 8 < 8 by omega, show i - 8 < 32 by omega, show i - 16 < 32 by omega, show ¬ i - 8 - 8 < 8 by omega, BitVec.getLsbD_of_ge d i (by omega),
          BitVec.getLsbD_of_ge c (i - 8) (by omega), BitVec.getLsbD_of_ge b (i - 16) (by omega), show i - 8 - 8 - 8 = i - 24 by omega, show i - 24 < 32 by omega]

theorem signedKey_plain (key : Bytes) (h : ∀ b ∈ key, b.toNat < 128) : signedKey key = plainKey key := by
  have hk : ∀ i, BitVec.ofInt 32 (key.getD i 0#8).toInt = (key.getD i 0#8).setWidth 32 := by
    intro i
    apply signed_low
    rw [List.getD_eq_getElem?_getD]
    cases hi : key[i]? with
    | none => simp
    | some b => exact h b (List.mem_of_getElem? hi)
  simp only [signedKey, plainKey, hk, or_pack]

end Wz.Snow

namespace Wz.Props

open Wz.Spec.Snow

/-! ## C38 -/

/-- every key has a key stream such that decryption gives back what was encrypted with it -/
theorem C38_roundtrip (key : Bytes) :
    ∃ z : Nat → BitVec 32, ∀ data, ∃ d, (Snow2.new key).decryptSlice (encrypt z 0 data) = .ok (data, data.length % 4, d) :=
  ⟨Snow.stream key, fun data => (Snow.slice_encrypted key data 0 _ (Snow.at_new key)).imp fun _ h => h.1⟩

/-- the same in the middle of a stream: after any calls on `parts` of whole words, the decryption goes on at that word -/
theorem C38_stream (key : Bytes) :
    ∃ z : Nat → BitVec 32, ∀ (parts : List Bytes), (∀ p ∈ parts, 4 ∣ p.length) → ∀ outs d, Calls (Snow2.new key) parts outs d →
      ∀ data, ∃ d', d.decryptSlice (encrypt z (parts.flatten.length / 4) data) = .ok (data, data.length % 4, d') := by
  refine ⟨Snow.stream key, ?_⟩
  suffices H : ∀ (parts : List Bytes) n d0, Snow.At key n d0 → (∀ p ∈ parts, 4 ∣ p.length) → ∀ outs d, Calls d0 parts outs d →
      Snow.At key (n + parts.flatten.length / 4) d by
    intro parts hp outs d hc data
    have := H parts 0 _ (Snow.at_new key) hp outs d hc
    rw [Nat.zero_add] at this
    exact (Snow.slice_encrypted key data _ _ this).imp fun _ h => h.1
  intro parts
  induction parts with
  | nil => intro n d0 hat _ outs d hc; cases hc; simpa using hat
  | cons p ps ih =>
    intro n d0 hat hp outs d hc
    cases hc with
    | call _ d' _ _ outs' _ q r hq hc =>
      obtain ⟨out, d1, hd1, hat1, _⟩ := Snow.slice_total key p n d0 hat
      rw [hd1] at hq
      cases hq
      have := ih _ _ hat1 (fun x hx => hp x (List.mem_cons_of_mem _ hx)) _ _ hc
      have h4 := hp p List.mem_cons_self
      have hs : (p :: ps).flatten.length = p.length + ps.flatten.length := by simp
      rw [hs]
      rwa [show n + (p.length + ps.flatten.length) / 4 = n + p.length / 4 + ps.flatten.length / 4 by omega]

/-- processing in parts of whole words (the last one of any length) gives the pieces of the result of one call -/
theorem C38_chunks (key : Bytes) (parts : List Bytes) (last : Bytes) (h : ∀ p ∈ parts, 4 ∣ p.length) :
    ∃ outs out d, Calls (Snow2.new key) (parts ++ [last]) (outs ++ [out]) d ∧ outs.length = parts.length ∧
      (Snow2.new key).decryptSlice (parts.flatten ++ last) = .ok (outs.flatten ++ out, last.length % 4, d) := by
  suffices H : ∀ n d0, Snow.At key n d0 → ∃ outs out d, Calls d0 (parts ++ [last]) (outs ++ [out]) d ∧ outs.length = parts.length ∧
      d0.decryptSlice (parts.flatten ++ last) = .ok (outs.flatten ++ out, last.length % 4, d) from H 0 _ (Snow.at_new key)
  induction parts with
  | nil =>
    intro n d0 hat
    obtain ⟨out, d1, hd1, _⟩ := Snow.slice_total key last n d0 hat
    exact ⟨[], out, d1, .call _ _ _ _ _ _ _ _ hd1 (.done _), rfl, hd1⟩
  | cons p ps ih =>
    intro n d0 hat
    have h4 := h p List.mem_cons_self
    obtain ⟨o, d1, hd1, hat1, hap⟩ := Snow.slice_append key (ps.flatten ++ last) p n d0 hat (by omega)
    obtain ⟨outs, out, d, hc, hl, hd⟩ := ih (fun x hx => h x (List.mem_cons_of_mem _ hx)) _ _ hat1
    refine ⟨o :: outs, out, d, .call _ _ _ _ _ _ _ _ hd1 hc, by simp [hl], ?_⟩
    rw [List.flatten_cons, List.append_assoc, hap, hd]
    simp [Except.map]

/-- whatever was decrypted before: no call fails, the length stays, the rest of less than four bytes stays as it was and its length is
reported -/
theorem C38_rest (key : Bytes) (parts : List Bytes) (outs : List Bytes) (d : Snow2) (h : Calls (Snow2.new key) parts outs d) (data : Bytes) :
    ∃ out d', d.decryptSlice data = .ok (out, data.length % 4, d') ∧ out.length = data.length ∧
      out.drop (data.length - data.length % 4) = data.drop (data.length - data.length % 4) := by
  suffices H : ∀ n d0, Snow.At key n d0 → Calls d0 parts outs d → ∃ m, Snow.At key m d by
    obtain ⟨m, hm⟩ := H 0 _ (Snow.at_new key) h
    obtain ⟨out, d', h1, _, h2, h3⟩ := Snow.slice_total key data m d hm
    exact ⟨out, d', h1, h2, h3⟩
  clear h
  intro n d0 hat hc
  induction hc generalizing n with
  | done d => exact ⟨n, hat⟩
  | call d d' d'' ins outs p q r hq _ ih =>
    obtain ⟨out, d1, hd1, hat1, _⟩ := Snow.slice_total key p n d hat
    rw [hd1] at hq
    cases hq
    exact ih _ hat1

/-! ## C52 -/

/-- the key stream is that of SNOW 2.0, for the key with its bytes taken as signed numbers -/
theorem C52_keystream : ∃ M : Maps, M.Ok ∧ ∀ key data : Bytes, key.length = 16 →
    ∃ d, (Snow2.new key).decryptSlice (encrypt (keyWord M (signedKey key)) 0 data) = .ok (data, data.length % 4, d) := by
  refine ⟨Snow.maps, Snow.maps_ok, fun key data _ => ?_⟩
  rw [← Snow.startOf_signed]
  exact (Snow.slice_encrypted key data 0 _ (Snow.at_new key)).imp fun _ h => h.1

/-- for keys of bytes below 0x80 it is that of SNOW 2.0 -/
theorem C52_standard : ∃ M : Maps, M.Ok ∧ ∀ key data : Bytes, key.length = 16 → (∀ b ∈ key, b.toNat < 128) →
    ∃ d, (Snow2.new key).decryptSlice (encrypt (keyWord M (plainKey key)) 0 data) = .ok (data, data.length % 4, d) := by
  refine ⟨Snow.maps, Snow.maps_ok, fun key data _ hk => ?_⟩
  rw [← Snow.signedKey_plain key hk, ← Snow.startOf_signed]
  exact (Snow.slice_encrypted key data 0 _ (Snow.at_new key)).imp fun _ h => h.1

/-- with a byte of 0x80 or more it may be another one: the program takes the bytes as signed -/
theorem C52_signed : ∃ M : Maps, M.Ok ∧ ∃ key data : Bytes, key.length = 16 ∧
    ((Snow2.new key).decryptSlice (encrypt (keyWord M (plainKey key)) 0 data)).toOption.map Prod.fst ≠ some data :=
  ⟨Snow.maps, Snow.maps_ok, [0#8, 0#8, 0#8, 0x80#8, 0#8, 0#8, 0#8, 0#8, 0#8, 0#8, 0#8, 0#8, 0#8, 0#8, 0#8, 0#8], [0#8, 0#8, 0#8, 0#8], rfl,
    by decide +kernel⟩

/-! ## concrete cases -/

/-- the published test vector: key 80 00 … 00 -/
example : (Snow2.new (0x80#8 :: List.replicate 15 0#8)).keys.take 4 = [0x8D590AE9#32, 0xA74A7D05#32, 0x6DC9CA74#32, 0xB72D1A45#32] := by
  decide +kernel

/-- five words and two bytes in three calls -/
example : 4 ∣ (List.replicate 8 7#8).length ∧ 4 ∣ ([1#8, 2#8, 3#8, 4#8] : Bytes).length ∧ ([1#8, 2#8, 3#8, 4#8, 5#8, 6#8] : Bytes).length % 4 = 2 := by
  decide

/-- a key of letters has only bytes below 0x80 -/
example : ∀ b ∈ ("abcdefghijklmnop".toList.map fun c => BitVec.ofNat 8 c.toNat : Bytes), b.toNat < 128 := by decide

end Wz.Props
