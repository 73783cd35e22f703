import Verif.Ms.HeaderLemmas
/-!
# Reading version 1 headers
-/

set_option autoImplicit false

namespace Wz

open Wz.Spec Wz.Spec.Snow Wz.Spec.Ms

theorem salted_ne (name : List Char) (h : name ≠ []) (salt : Bytes) : salted name salt ≠ [] := by
  cases name with
  | nil => exact absurd rfl h
  | cons c cs =>
    intro h'
    have : (salted (c :: cs) salt).length = 0 := by rw [h']; rfl
    unfold salted Ms.lower utf8EncStr at this
    simp only [List.map_cons, List.cons_append, List.flatMap_cons, List.length_append] at this
    have hpos : ∀ d : Char, 0 < (utf8Enc d).length := by
      intro d
      unfold utf8Enc
      simp only
      repeat' split
      all_goals simp
    have := hpos (if 65 ≤ c.toNat ∧ c.toNat ≤ 90 then Char.ofNat (c.toNat + 32) else c)
    omega

theorem encrypt_length (z : Nat → BitVec 32) (bs : Bytes) : ∀ n, (encrypt z n bs).length = bs.length := by
  induction bs using Snow.words_ind with
  | small bs h => intro n; rw [Snow.encrypt_small z n bs h]
  | word a b c d rest ih =>
    intro n
    rw [encrypt, List.length_append, ih, length_toLE]
    simp only [List.length_cons]; omega

theorem saltV1_ok (h : Head1) (name : List Char) (hok : h.Ok name) : saltV1 h.rand h.saltField h.salt.length = .ok (byteText h.chars) := by
  unfold saltV1
  have hlen : h.saltField.length = 2 * h.salt.length := pairs_length _ _ _ 0
  have hr := hok.rand
  have hs := hok.salt
  rw [tabulateM_ok (g := fun i => Char.ofNat (h.rand.getD i 0#8 ^^^ h.saltField.getD (i * 2) 0#8).toNat)]
  · congr 1
    apply byteText_range
    intro i hi
    unfold Head1.saltField
    rw [pairs_get (fun ci => ci.1.1 ^^^ h.rand.getD ci.2 0#8) (fun ci => ci.1.2) h.salt 0 i hi]
    rw [Nat.zero_add]
    generalize h.rand.getD i 0#8 = x
    generalize h.salt[i].1 = y
    rw [BitVec.xor_comm y x, ← BitVec.xor_assoc, BitVec.xor_self, BitVec.zero_xor]
  · intro i hi
    simp only [bind, Except.bind, pure, Except.pure]
    rw [nth8_ok (by omega)]
    dsimp only
    rw [nth8_ok (by omega)]

theorem headerV1_layout (m : Mode) (h : Head1) (name : List Char) (rest : Bytes) (hok : h.Ok name) (hn : name ≠ [])
    (hk : m = .wrap ∨ NoCarry1 (salted name h.chars) 16) (hs : m = .wrap ∨ SumsFit h.hash) :
    headerV1 m (h.bytes Snow.maps name ++ rest) name = h.result name := by
  have hr := hok.rand
  have hsl := hok.salt
  have hh := hok.high
  have hp := hok.plain
  have hfl : h.lenField.length = 4 := by unfold Head1.lenField; rw [List.length_cons, hh]
  have hsf : h.saltField.length = 2 * h.salt.length := pairs_length _ _ _ 0
  generalize hE : encrypt (keyWord Snow.maps (signedKey (key1 (salted name h.chars) 16))) 0 h.plain = E
  have hEl : E.length = 12 := by rw [← hE, encrypt_length, hp]
  have hdec : ∃ d, (Snow2.new (key1 (salted name h.chars) 16)).decryptSlice E = .ok (h.plain, h.plain.length % 4, d) := by
    rw [← hE, ← Snow.startOf_signed]
    exact (Snow.slice_encrypted _ h.plain 0 _ (Snow.at_new _)).imp fun _ h => h.1
  obtain ⟨d, hdec⟩ := hdec
  have hbuf : h.bytes Snow.maps name ++ rest = h.rand ++ h.lenField ++ h.saltField ++ E ++ rest := by
    unfold Head1.bytes; rw [hE]
  rw [hbuf]
  generalize hB : h.rand ++ h.lenField ++ h.saltField ++ E ++ rest = buf
  have hcount : Ms.nameSum name % 312 + 30 = h.rand.length := by rw [hr]; unfold randCount; omega
  have s1 : sliceIdx buf 0 h.rand.length = .ok h.rand := by
    have := slice_of_append (A := []) (B := h.rand) (C := h.lenField ++ h.saltField ++ E ++ rest) (s := 0) (t := h.rand.length) rfl (by simp)
    rw [← hB]
    simpa [List.append_assoc] using this
  have hbl : buf.length = h.rand.length + 4 + 2 * h.salt.length + 12 + rest.length := by
    rw [← hB]; simp only [List.length_append, hfl, hsf, hEl]
  have e1 : buf.drop h.rand.length = h.lenField ++ (h.saltField ++ E ++ rest) := by
    rw [← hB]; simp only [List.append_assoc, List.drop_left]
  have s2 : buf.getD h.rand.length 0#8 = BitVec.ofNat 8 h.salt.length ^^^ h.rand.getD 0 0#8 := by
    have : buf[h.rand.length]? = (buf.drop h.rand.length)[0]? := by rw [List.getElem?_drop]; rfl
    rw [List.getD_eq_getElem?_getD, this, e1]
    rfl
  have s3 : Ms.i32At buf h.rand.length = Ms.i32At h.lenField 0 := by
    unfold Ms.i32At
    rw [e1, List.take_left' hfl, List.drop_zero, List.take_of_length_le (by omega)]
  have s4 : sliceIdx buf (h.rand.length + 4) (h.rand.length + 4 + 2 * h.salt.length) = .ok h.saltField := by
    have := slice_of_append (A := h.rand ++ h.lenField) (B := h.saltField) (C := E ++ rest) (s := h.rand.length + 4) (t := h.rand.length + 4 + 2 * h.salt.length)
      (by rw [List.length_append, hfl]) (by rw [List.length_append, hfl, hsf])
    rw [← hB]
    simpa [List.append_assoc] using this
  have s5 : sliceIdx buf (h.rand.length + 4 + 2 * h.salt.length) (h.rand.length + 4 + 2 * h.salt.length + 12) = .ok E := by
    have := slice_of_append (A := h.rand ++ h.lenField ++ h.saltField) (B := E) (C := rest) (s := h.rand.length + 4 + 2 * h.salt.length)
      (t := h.rand.length + 4 + 2 * h.salt.length + 12)
      (by rw [List.length_append, List.length_append, hfl, hsf]) (by rw [List.length_append, List.length_append, hfl, hsf, hEl])
    rw [← hB]
    exact this
  have hxor : (buf.getD h.rand.length 0#8 ^^^ h.rand.getD 0 0#8).toNat = h.salt.length := by
    rw [s2, BitVec.xor_assoc, BitVec.xor_self, BitVec.xor_zero, BitVec.toNat_ofNat, Nat.mod_eq_of_lt (by omega)]
  unfold headerV1
  simp only [bind, Except.bind, pure, Except.pure]
  rw [sumStr_eq, hcount, s1]
  dsimp only
  rw [byteAt_ok (by omega)]
  dsimp only
  rw [i32At_ok (by omega)]
  dsimp only
  rw [nth8_ok (by have : randCount name ≥ 30 := by unfold randCount; omega
                  omega)]
  dsimp only
  rw [hxor, show ((h.salt.length : Int) * 2) = ((2 * h.salt.length : Nat) : Int) by omega, u8_ok (by omega)]
  dsimp only
  rw [s4]
  dsimp only
  rw [saltV1_ok h name hok]
  dsimp only
  rw [asciiLower_eq, show utf8EncStr (Ms.lower name ++ byteText h.chars) = salted name h.chars from rfl,
    headerKeyV1_eq m _ (salted_ne name hn _) hk]
  dsimp only
  rw [s5]
  dsimp only
  rw [hdec]
  dsimp only
  rw [nth8_ok (by omega)]
  dsimp only
  unfold Head1.result
  by_cases hv : h.plain.getD 4 0#8 = 2#8
  · have hv2 : (h.plain.getD 4 0#8).toNat = 2 := by rw [hv]; rfl
    rw [if_neg (by omega), if_neg (by simpa using hv), hv2, s3]
    obtain ⟨x, hx, hxe, hxr⟩ := expectedHash_eq (m := m) (a := Ms.i32At h.lenField 0) (c := Ms.i32At h.plain 5) (d := saltSum h.saltField)
      (hs.imp id fun h' => by
        unfold Head1.hash at h'
        unfold saltSum; rw [unitPairs_eq]; exact h')
    rw [show signed 32 (leNat ((h.plain.drop 5).take 4)) = Ms.i32At h.plain 5 from rfl, hx]
    dsimp only
    rw [show signed 32 (leNat (h.plain.take 4)) = Ms.i32At h.plain 0 from rfl]
    have hsum : [Ms.i32At h.lenField 0, 2, Ms.i32At h.plain 5, saltSum h.saltField] = h.hash := by
      unfold Head1.hash saltSum; rw [unitPairs_eq]
    rw [hsum] at hxe
    by_cases hh : Ms.i32At h.plain 0 = x
    · rw [if_neg (by simpa using hh), if_neg (by rw [hh, hxe]; simp)]
      rw [hr, show ∀ a s : Nat, a + 9 + s * 3 % 212 + 33 = a + 42 + 3 * s % 212 from fun a s => by omega]
    · rw [if_pos hh, if_pos]
      intro he
      exact hh (eq_of_ofInt (i32_range _ _) hxr (he.trans hxe.symm))
  · have hv2 : (h.plain.getD 4 0#8).toNat ≠ 2 := fun h' => hv (BitVec.eq_of_toNat_eq h')
    rw [if_pos hv2, if_pos hv]

/-! ## every file -/

theorem tabulateM_inv {α : Type} {f : Nat → Except Err α} {n : Nat} {l : List α} (h : tabulateM f n = .ok l) : ∀ i < n, ∃ x, f i = .ok x := by
  intro i hi
  cases hf : f i with
  | ok x => exact ⟨x, rfl⟩
  | error e =>
    obtain ⟨_, _, _, _, h'⟩ := tabulateM_error ⟨i, hi, e, hf⟩
    rw [h] at h'; cases h'

theorem tabulateM_err {α : Type} {f : Nat → Except Err α} {n : Nat} {e : Err} (h : tabulateM f n = .error e) : ∃ i < n, f i = .error e := by
  apply Classical.byContradiction
  intro hno
  by_cases hs : ∃ i < n, ∃ e, f i = .error e
  · obtain ⟨i, hi, e', h1, h2⟩ := tabulateM_error hs
    rw [h] at h2
    cases h2
    exact hno ⟨i, hi, h1⟩
  · have : ∀ i < n, ∃ x, f i = .ok x := by
      intro i hi
      cases hf : f i with
      | ok x => exact ⟨x, rfl⟩
      | error e => exact absurd ⟨i, hi, e, hf⟩ hs
    have hok : ∃ l, tabulateM f n = .ok l := by
      clear h hno hs
      induction n with
      | zero => exact ⟨[], rfl⟩
      | succ n ih =>
        obtain ⟨l, hl⟩ := ih fun i hi => this i (by omega)
        obtain ⟨x, hx⟩ := this n (by omega)
        refine ⟨l ++ [x], ?_⟩
        show (tabulateM f n >>= _) = _
        rw [hl]
        show (f n >>= _) = _
        rw [hx]; rfl
    obtain ⟨l, hl⟩ := hok
    rw [hl] at h; cases h

theorem nth8_err {bs : Bytes} {i : Nat} {e : Err} (h : nth8 bs i = .error e) : e = .panicIndex := by
  unfold nth8 at h
  split at h <;> cases h
  rfl

theorem nth8_inv {bs : Bytes} {i : Nat} {b : Byte} (h : nth8 bs i = .ok b) : i < bs.length ∧ b = bs.getD i 0#8 := by
  unfold nth8 at h
  split at h
  · rename_i b' hb
    cases h
    obtain ⟨h1, h2⟩ := List.getElem?_eq_some_iff.mp hb
    exact ⟨h1, by rw [List.getD_eq_getElem?_getD, hb]; rfl⟩
  · cases h

theorem sliceIdx_inv {buf bs : Bytes} {s t : Nat} (h : sliceIdx buf s t = .ok bs) : s ≤ t ∧ t ≤ buf.length ∧ bs = sub buf s (t - s) := by
  unfold sliceIdx at h
  split at h
  · rename_i hc
    cases h
    exact ⟨hc.1, hc.2, rfl⟩
  · cases h

theorem sliceIdx_err {buf : Bytes} {s t : Nat} {e : Err} (h : sliceIdx buf s t = .error e) : e = .panicIndex := by
  unfold sliceIdx at h
  split at h <;> cases h
  rfl

theorem u8_err {m : Mode} {v : Int} {e : Err} (h : u8 m v = .error e) : e = .panicOverflow := by
  unfold u8 at h
  split at h
  · cases h
  · cases m <;> cases h
    rfl

theorem saltV1_err {rand sb : Bytes} {n : Nat} {e : Err} (h : saltV1 rand sb n = .error e) : e = .panicIndex := by
  obtain ⟨i, _, h⟩ := tabulateM_err h
  simp only [bind, Except.bind, pure, Except.pure] at h
  cases h1 : nth8 rand i with
  | error e' => rw [h1] at h; cases h; exact nth8_err h1
  | ok a =>
    rw [h1] at h
    dsimp only at h
    cases h2 : nth8 sb (i * 2) with
    | error e' => rw [h2] at h; cases h; exact nth8_err h2
    | ok b => rw [h2] at h; cases h

theorem saltV1_inv {rand sb : Bytes} {n : Nat} {l : List Char} (h : saltV1 rand sb n = .ok l) (i : Nat) (hi : i < n) : i < rand.length ∧ i * 2 < sb.length := by
  obtain ⟨x, h⟩ := tabulateM_inv h i hi
  simp only [bind, Except.bind, pure, Except.pure] at h
  cases h1 : nth8 rand i with
  | error e' => rw [h1] at h; cases h
  | ok a =>
    rw [h1] at h
    dsimp only at h
    cases h2 : nth8 sb (i * 2) with
    | error e' => rw [h2] at h; cases h
    | ok b => exact ⟨(nth8_inv h1).1, (nth8_inv h2).1⟩

theorem remU_err {i n : Nat} {e : Err} (h : remU i n = .error e) : e = .panicOverflow := by
  unfold remU at h
  split at h <;> cases h
  rfl

theorem headerKeyV1_err {m : Mode} {B : Bytes} {e : Err} (h : headerKeyV1 m B = .error e) : e = .panicIndex ∨ e = .panicOverflow := by
  obtain ⟨i, _, h⟩ := tabulateM_err h
  simp only [bind, Except.bind, pure, Except.pure] at h
  cases h1 : remU i B.length with
  | error e' => rw [h1] at h; cases h; exact .inr (remU_err h1)
  | ok a =>
    rw [h1] at h
    dsimp only at h
    cases h2 : nth8 B a with
    | error e' => rw [h2] at h; cases h; exact .inl (nth8_err h2)
    | ok b =>
      rw [h2] at h
      dsimp only at h
      cases h3 : u8 m (b.toNat + i) with
      | error e' => rw [h3] at h; cases h; exact .inr (u8_err h3)
      | ok b => rw [h3] at h; cases h

/-- decryption undone by encryption -/
theorem encrypt_slice (key : Bytes) (bs : Bytes) : ∀ (n : Nat) (d d' : Snow2) (out : Bytes) (k : Nat), Snow.At key n d →
    d.decryptSlice bs = .ok (out, k, d') → encrypt (Snow.stream key) n out = bs := by
  induction bs using Snow.words_ind with
  | small bs hs =>
    intro n d d' out k _ h
    rw [Snow.slice_small _ _ hs] at h
    cases h
    exact Snow.encrypt_small _ _ _ hs
  | word a b c e rest ih =>
    intro n d d' out k hat h
    obtain ⟨d1, hat1, h1⟩ := Snow.slice_word key n d hat a b c e rest
    rw [h1] at h
    cases h2 : d1.decryptSlice rest with
    | error e => rw [h2] at h; cases h
    | ok r =>
      obtain ⟨o, k', d2⟩ := r
      rw [h2] at h
      cases h
      have hr := ih (n + 1) d1 d2 o k' hat1 h2
      obtain ⟨w, x, y, z, hw⟩ := Snow.toLE_cons4 (BitVec.ofNat 32 (leNat [a, b, c, e]) - Snow.stream key n).toNat
      dsimp only
      rw [hw]
      show toLE 4 ((leNat [w, x, y, z] + (Snow.stream key n).toNat) % 4294967296) ++ encrypt (Snow.stream key) (n + 1) o = _
      rw [hr, ← hw, leNat_toLE]
      have hlt : leNat [a, b, c, e] < 4294967296 := by
        have := leNat_lt [a, b, c, e]
        simpa using this
      have hz := (Snow.stream key n).isLt
      have : ((BitVec.ofNat 32 (leNat [a, b, c, e]) - Snow.stream key n).toNat % 256 ^ 4 + (Snow.stream key n).toNat) % 4294967296 = leNat [a, b, c, e] := by
        rw [BitVec.toNat_sub, BitVec.toNat_ofNat]
        omega
      rw [this]
      have := toLE_leNat [a, b, c, e]
      simp only [List.length_cons, List.length_nil] at this
      rw [this]
      rfl

/-- every even number of bytes is a list of hidden pairs -/
theorem pairs_exist (F : Nat → Byte) : ∀ (L : Nat) (sb : Bytes) (n : Nat), sb.length = 2 * L →
    ∃ l : List (Byte × Byte), l.length = L ∧ ((l.zipIdx n).flatMap fun ci => [ci.1.1 ^^^ F ci.2, ci.1.2]) = sb := by
  intro L
  induction L with
  | zero => intro sb n h; exact ⟨[], rfl, (List.length_eq_zero_iff.mp (by omega)).symm⟩
  | succ L ih =>
    intro sb n h
    match sb, h with
    | a :: b :: sb, h =>
      obtain ⟨l, h1, h2⟩ := ih sb (n + 1) (by simp only [List.length_cons] at h; omega)
      refine ⟨(a ^^^ F n, b) :: l, by simp [h1], ?_⟩
      rw [List.zipIdx_cons, List.flatMap_cons, h2]
      show [a ^^^ F n ^^^ F n, b] ++ sb = _
      rw [BitVec.xor_assoc, BitVec.xor_self, BitVec.xor_zero]
      rfl
    | [a], h => simp only [List.length_cons, List.length_nil] at h; omega
    | [], h => simp only [List.length_nil] at h; omega

/-- a file that is long enough, with a salt that is not too long, is laid out as it should be -/
theorem layout1_exists (buf : Bytes) (name : List Char) (L : Nat) (hL : (buf.getD (randCount name) 0#8 ^^^ buf.getD 0 0#8).toNat = L) (hL128 : L < 128)
    (hLc : L ≤ randCount name) (hlen : randCount name + 4 + 2 * L + 12 ≤ buf.length) :
    ∃ h : Head1, ∃ rest, h.Ok name ∧ buf = h.bytes Snow.maps name ++ rest ∧ h.salt.length = L := by
  have h30 : randCount name ≥ 30 := by unfold randCount; omega
  generalize hrand : sub buf 0 (randCount name) = rand
  generalize hsb : sub buf (randCount name + 4) (2 * L) = sb
  generalize henc : sub buf (randCount name + 4 + 2 * L) 12 = enc
  have hrl : rand.length = randCount name := by rw [← hrand, sub_length (by omega)]
  have hsbl : sb.length = 2 * L := by rw [← hsb, sub_length (by omega)]
  have hel : enc.length = 12 := by rw [← henc, sub_length (by omega)]
  have hr0 : rand.getD 0 0#8 = buf.getD 0 0#8 := by rw [← hrand, ChaRd.getD_sub _ _ _ _ (by omega)]
  obtain ⟨pairs, hpl, hpf⟩ := pairs_exist (fun i => rand.getD i 0#8) L sb 0 (by omega)
  obtain ⟨plain, d', hdec, _, hpl12, _⟩ := Snow.slice_total (key1 (salted name (pairs.map Prod.fst)) 16) enc 0 _ (Snow.at_new _)
  refine ⟨⟨rand, pairs, sub buf (randCount name + 1) 3, plain⟩, buf.drop (randCount name + 4 + 2 * L + 12),
    ⟨hrl, ⟨show pairs.length < 128 by omega, show pairs.length ≤ _ by omega⟩, ?_, ?_⟩, ?_, hpl⟩
  · exact sub_length (by omega)
  · show plain.length = 12; omega
  · have hE := encrypt_slice _ enc 0 _ _ plain _ (Snow.at_new _) hdec
    unfold Snow.stream at hE
    rw [Snow.startOf_signed] at hE
    unfold Head1.bytes Head1.lenField Head1.saltField Head1.chars
    dsimp only
    rw [hpf, hE, hpl]
    have hlen : (BitVec.ofNat 8 L ^^^ rand.getD 0 0#8) = buf.getD (randCount name) 0#8 := by
      rw [← hL, BitVec.ofNat_toNat, BitVec.setWidth_eq, hr0, BitVec.xor_assoc, BitVec.xor_self, BitVec.xor_zero]
    rw [hlen]
    have hone : [buf.getD (randCount name) 0#8] = sub buf (randCount name) 1 := by
      unfold sub
      rw [List.getD_eq_getElem?_getD, List.getElem?_eq_getElem (by omega), List.drop_eq_getElem_cons (by omega)]
      rfl
    rw [show buf.getD (randCount name) 0#8 :: sub buf (randCount name + 1) 3 = [buf.getD (randCount name) 0#8] ++ sub buf (randCount name + 1) 3 from rfl,
      hone, sub_append, ← hrand, ← hsb, ← henc]
    have e0 := sub_append buf 0 (randCount name) (1 + 3)
    rw [Nat.zero_add] at e0
    have e1 := sub_append buf 0 (randCount name + (1 + 3)) (2 * L)
    rw [Nat.zero_add] at e1
    have e2 := sub_append buf 0 (randCount name + (1 + 3) + 2 * L) 12
    rw [Nat.zero_add] at e2
    rw [e0, show randCount name + 4 = randCount name + (1 + 3) from rfl, e1, e2]
    unfold sub
    rw [List.drop_zero, List.take_append_drop]

/-- a result that is neither a reading error nor a crash comes from a file that is laid out as it should be -/
theorem headerV1_every (m : Mode) (buf : Bytes) (name : List Char) (hn : ∀ e, headerV1 m buf name = .error e → (e = .read → randCount name + 4 ≤ buf.length) ∧ e.isPanic = false) :
    ∃ h : Head1, ∃ rest, h.Ok name ∧ buf = h.bytes Snow.maps name ++ rest ∧
      h.salt.length = (buf.getD (randCount name) 0#8 ^^^ buf.getD 0 0#8).toNat := by
  have hcount : Ms.nameSum name % 312 + 30 = randCount name := by unfold randCount; omega
  unfold headerV1 at hn
  simp only [bind, Except.bind, pure, Except.pure] at hn
  rw [sumStr_eq, hcount] at hn
  cases h1 : sliceIdx buf 0 (randCount name) with
  | error e => rw [h1] at hn; have := (hn e rfl).2; rw [sliceIdx_err h1] at this; cases this
  | ok rand =>
  rw [h1] at hn
  dsimp only at hn
  cases h2 : byteAt buf (randCount name) with
  | error e =>
    rw [h2] at hn
    by_cases hl : randCount name < buf.length
    · rw [byteAt_ok hl] at h2; cases h2
    · unfold byteAt at h2
      split at h2 <;> cases h2
      exact absurd ((hn _ rfl).1 rfl) (by omega)
  | ok hashed =>
  rw [h2] at hn
  dsimp only at hn
  cases h3 : Wz.readI32At buf (randCount name) with
  | error e =>
    rw [h3] at hn
    by_cases hl : randCount name + 4 ≤ buf.length
    · rw [i32At_ok hl] at h3; cases h3
    · unfold Wz.readI32At at h3
      rw [if_neg hl] at h3
      cases h3
      exact absurd ((hn _ rfl).1 rfl) hl
  | ok hashedI =>
  rw [h3] at hn
  dsimp only at hn
  cases h4 : nth8 rand 0 with
  | error e => rw [h4] at hn; have := (hn e rfl).2; rw [nth8_err h4] at this; cases this
  | ok r0 =>
  rw [h4] at hn
  dsimp only at hn
  generalize hL : (hashed ^^^ r0).toNat = L at hn
  have hL256 : L < 256 := by rw [← hL]; exact (hashed ^^^ r0).isLt
  cases h5 : u8 m ((L : Int) * 2) with
  | error e => rw [h5] at hn; have := (hn e rfl).2; rw [u8_err h5] at this; cases this
  | ok sbl =>
  rw [h5] at hn
  dsimp only at hn
  cases h6 : sliceIdx buf (randCount name + 4) (randCount name + 4 + sbl) with
  | error e => rw [h6] at hn; have := (hn e rfl).2; rw [sliceIdx_err h6] at this; cases this
  | ok sb =>
  rw [h6] at hn
  dsimp only at hn
  cases h7 : saltV1 rand sb L with
  | error e => rw [h7] at hn; have := (hn e rfl).2; rw [saltV1_err h7] at this; cases this
  | ok salt =>
  rw [h7] at hn
  dsimp only at hn
  cases h8 : headerKeyV1 m (utf8EncStr (asciiLower name ++ salt)) with
  | error e =>
    rw [h8] at hn
    have := (hn e rfl).2
    rcases headerKeyV1_err h8 with h | h <;> rw [h] at this <;> cases this
  | ok key =>
  rw [h8] at hn
  dsimp only at hn
  cases h9 : sliceIdx buf (randCount name + 4 + sbl) (randCount name + 4 + sbl + 12) with
  | error e => rw [h9] at hn; have := (hn e rfl).2; rw [sliceIdx_err h9] at this; cases this
  | ok enc =>
  clear hn h8
  obtain ⟨_, hc1, hrand⟩ := sliceIdx_inv h1
  obtain ⟨_, hc2, hsb⟩ := sliceIdx_inv h6
  obtain ⟨_, hc3, henc⟩ := sliceIdx_inv h9
  have hrl : rand.length = randCount name := by rw [hrand, sub_length (by omega)]; omega
  have hsbl : sb.length = sbl := by rw [hsb, sub_length (by omega)]; omega
  have h0 := hsbl
  have hL128 : sbl = 2 * L := by
    by_cases hlt : 2 * L < 256
    · rw [show ((L : Int) * 2) = ((2 * L : Nat) : Int) by omega, u8_ok hlt] at h5
      exact (Except.ok.inj h5).symm
    · exfalso
      cases m with
      | checked => rw [u8, if_neg (by omega)] at h5; cases h5
      | wrap =>
        rw [show ((L : Int) * 2) = ((2 * L : Nat) : Int) by omega, u8_wrap] at h5
        have h5 := Except.ok.inj h5
        have := (saltV1_inv h7 (L - 1) (by omega)).2
        omega
  subst hL128
  have hLc : L ≤ randCount name := by
    by_cases hz : L = 0
    · omega
    · have := (saltV1_inv h7 (L - 1) (by omega)).1
      omega
  have hL128 : L < 128 := by
    apply Classical.byContradiction
    intro hge
    have : ((L : Int) * 2) = ((2 * L : Nat) : Int) := by omega
    rw [this] at h5
    cases m with
    | checked => rw [u8, if_neg (by omega)] at h5; cases h5
    | wrap =>
      rw [u8_wrap] at h5
      have h5 := Except.ok.inj h5
      omega
  have h30 : randCount name ≥ 30 := by unfold randCount; omega
  have hr0 : r0 = buf.getD 0 0#8 := by rw [(nth8_inv h4).2, hrand, ChaRd.getD_sub _ _ _ _ (by omega)]
  have hhash : hashed = buf.getD (randCount name) 0#8 := by
    rw [byteAt_ok (by omega)] at h2
    exact (Except.ok.inj h2).symm
  rw [hr0, hhash] at hL
  obtain ⟨h, rest, g1, g2, g3⟩ := layout1_exists buf name L hL hL128 hLc (by omega)
  exact ⟨h, rest, g1, g2, by rw [g3, hL]⟩

end Wz
