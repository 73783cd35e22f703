import Verif.Ms.HeaderV1
/-!
# Reading version 2 headers
-/

set_option autoImplicit false

namespace Wz

open Wz.Spec Wz.Spec.Snow Wz.Spec.Ms

theorem shiftSigned_eq : ∀ b : Byte, shiftSigned b = half b := by decide +kernel

theorem saltCharV2_wrap : ∀ a : Byte, saltCharV2 .wrap a = .ok (a ^^^ 0x4B#8).toNat := by decide +kernel

theorem saltCharV2_low : ∀ a : Byte, a.toNat < 128 → saltCharV2 .checked a = .ok (a ^^^ 0x4B#8).toNat := by decide +kernel

theorem saltCharV2_high : ∀ a : Byte, ¬ a.toNat < 128 → saltCharV2 .checked a = .error .panicOverflow := by decide +kernel

theorem low_xor : ∀ a : Byte, a.toNat < 128 → (a ^^^ 0x4B#8).toNat < 128 := by decide +kernel

theorem saltCharV2_err {m : Mode} {a : Byte} {e : Err} (h : saltCharV2 m a = .error e) : e = .panicOverflow := by
  cases m with
  | wrap => rw [saltCharV2_wrap] at h; cases h
  | checked =>
    by_cases hl : a.toNat < 128
    · rw [saltCharV2_low a hl] at h; cases h
    · rw [saltCharV2_high a hl] at h; cases h; rfl

theorem half_eq (h : Head2) (i : Nat) (hi : i < h.rand.length) : (h.rand.map shiftSigned).getD i 0#8 = h.r i := by
  unfold Head2.r
  rw [List.getD_eq_getElem?_getD, List.getElem?_map, List.getElem?_eq_getElem hi, List.getD_eq_getElem?_getD, List.getElem?_eq_getElem hi]
  exact shiftSigned_eq _

/-- the salt as it stands in the file -/
def saltField2 (h : Head2) : Bytes := h.salt.zipIdx.flatMap fun ci => [ci.1.1 ^^^ 0x4B#8 ^^^ h.r ci.2, ci.1.2]

theorem saltV2_ok (m : Mode) (h : Head2) (name : List Char) (hok : h.Ok name) (hc : m = .wrap ∨ ∀ c ∈ h.chars, c.toNat < 128) :
    saltV2 m (h.rand.map shiftSigned) (saltField2 h) h.salt.length = .ok (byteText h.chars) := by
  unfold saltV2
  have hlen : (saltField2 h).length = 2 * h.salt.length := pairs_length _ _ _ 0
  have hr := hok.rand
  have hs := hok.salt
  have key : ∀ i (hi : i < h.salt.length), ((h.rand.map shiftSigned).getD i 0#8 ^^^ (saltField2 h).getD (i * 2) 0#8) = h.salt[i].1 ^^^ 0x4B#8 := by
    intro i hi
    unfold saltField2
    rw [pairs_get (fun ci => ci.1.1 ^^^ 0x4B#8 ^^^ h.r ci.2) (fun ci => ci.1.2) h.salt 0 i hi, half_eq h i (by omega), Nat.zero_add]
    generalize h.r i = x
    generalize h.salt[i].1 ^^^ 0x4B#8 = y
    rw [BitVec.xor_comm y x, ← BitVec.xor_assoc, BitVec.xor_self, BitVec.zero_xor]
  rw [tabulateM_ok (g := fun i => Char.ofNat ((h.rand.map shiftSigned).getD i 0#8 ^^^ (saltField2 h).getD (i * 2) 0#8 ^^^ 0x4B#8).toNat)]
  · congr 1
    apply byteText_range
    intro i hi
    rw [key i hi, BitVec.xor_assoc, BitVec.xor_self, BitVec.xor_zero]
  · intro i hi
    simp only [bind, Except.bind, pure, Except.pure]
    rw [nth8_ok (by rw [List.length_map]; omega)]
    dsimp only
    rw [nth8_ok (by omega)]
    dsimp only
    have hcc : saltCharV2 m ((h.rand.map shiftSigned).getD i 0#8 ^^^ (saltField2 h).getD (i * 2) 0#8) =
        .ok ((h.rand.map shiftSigned).getD i 0#8 ^^^ (saltField2 h).getD (i * 2) 0#8 ^^^ 0x4B#8).toNat := by
      cases m with
      | wrap => exact saltCharV2_wrap _
      | checked =>
        apply saltCharV2_low
        rw [key i hi]
        apply low_xor
        rcases hc with hc | hc
        · cases hc
        · exact hc _ (List.mem_map.mpr ⟨h.salt[i], List.getElem_mem hi, rfl⟩)
    rw [hcc]

theorem chaDecrypt_take (ks : Nat → Bytes) (D : Bytes) (n : Nat) : chaDecrypt ks (D.take n) = (chaDecrypt ks D).take n := by
  unfold chaDecrypt
  apply List.ext_getElem?
  intro i
  by_cases hi : i < n
  · rw [List.getElem?_mapIdx, List.getElem?_take_of_lt hi, List.getElem?_take_of_lt hi, List.getElem?_mapIdx]
  · rw [List.getElem?_eq_none (by rw [List.length_mapIdx, List.length_take]; omega), List.getElem?_eq_none (by rw [List.length_take]; omega)]

/-- the pieces of a file with a version 2 header -/
theorem layout2 (h : Head2) (name : List Char) (hok : h.Ok name) :
    nameSum name % 312 + 30 = h.rand.length ∧ h.bytes.length = h.rand.length + 5 + 2 * h.salt.length + h.data.length ∧
    (h.rand.map shiftSigned).getD 0 0#8 = h.r 0 ∧ sliceIdx h.bytes 0 h.rand.length = .ok h.rand ∧
    h.bytes.getD h.rand.length 0#8 = 4#8 ^^^ h.r 0 ∧ h.bytes.getD (h.rand.length + 1) 0#8 = BitVec.ofNat 8 h.salt.length ^^^ h.r 0 ∧
    sliceIdx h.bytes (h.rand.length + 5) (h.rand.length + 5 + h.salt.length * 2) = .ok (saltField2 h) ∧
    sliceIdx h.bytes (h.rand.length + 5 + h.salt.length * 2) (h.rand.length + 5 + h.salt.length * 2 + 128) = .ok (h.data.take 128) := by
  have hr := hok.rand
  have hsl := hok.salt
  have hh := hok.high
  have hd := hok.data
  have hsf : (saltField2 h).length = 2 * h.salt.length := pairs_length _ _ _ 0
  have hcount : Ms.nameSum name % 312 + 30 = h.rand.length := by rw [hr]; unfold randCount; omega
  have h30 : randCount name ≥ 30 := by unfold randCount; omega
  have hr0 := half_eq h 0 (by omega)
  have hbytes : h.bytes = h.rand ++ [4#8 ^^^ h.r 0] ++ ((BitVec.ofNat 8 h.salt.length ^^^ h.r 0) :: h.high) ++ saltField2 h ++ h.data := rfl
  rw [hbytes]
  generalize hB : h.rand ++ [4#8 ^^^ h.r 0] ++ ((BitVec.ofNat 8 h.salt.length ^^^ h.r 0) :: h.high) ++ saltField2 h ++ h.data = buf
  have hbl : buf.length = h.rand.length + 5 + 2 * h.salt.length + h.data.length := by
    rw [← hB]; simp only [List.length_append, List.length_cons, List.length_nil, hh, hsf]
  have s1 : sliceIdx buf 0 h.rand.length = .ok h.rand := by
    have := slice_of_append (A := []) (B := h.rand)
      (C := [4#8 ^^^ h.r 0] ++ ((BitVec.ofNat 8 h.salt.length ^^^ h.r 0) :: h.high) ++ saltField2 h ++ h.data) (s := 0) (t := h.rand.length) rfl (by simp)
    rw [← hB]
    simpa [List.append_assoc] using this
  have e1 : buf.drop h.rand.length = (4#8 ^^^ h.r 0) :: (BitVec.ofNat 8 h.salt.length ^^^ h.r 0) :: (h.high ++ saltField2 h ++ h.data) := by
    rw [← hB]; simp only [List.append_assoc, List.drop_left]; rfl
  have s2 : buf.getD h.rand.length 0#8 = 4#8 ^^^ h.r 0 := by
    have : buf[h.rand.length]? = (buf.drop h.rand.length)[0]? := by rw [List.getElem?_drop]; rfl
    rw [List.getD_eq_getElem?_getD, this, e1]
    rfl
  have s3 : buf.getD (h.rand.length + 1) 0#8 = BitVec.ofNat 8 h.salt.length ^^^ h.r 0 := by
    have : buf[h.rand.length + 1]? = (buf.drop h.rand.length)[1]? := by rw [List.getElem?_drop]
    rw [List.getD_eq_getElem?_getD, this, e1]
    rfl
  have s4 : sliceIdx buf (h.rand.length + 5) (h.rand.length + 5 + h.salt.length * 2) = .ok (saltField2 h) := by
    rw [← hB]
    apply slice_of_append
    · simp only [List.length_append, List.length_cons, List.length_nil, hh]
    · simp only [List.length_append, List.length_cons, List.length_nil, hh, hsf]; omega
  have s5 : sliceIdx buf (h.rand.length + 5 + h.salt.length * 2) (h.rand.length + 5 + h.salt.length * 2 + 128) = .ok (h.data.take 128) := by
    rw [sliceIdx_ok (by omega) (by omega), show h.rand.length + 5 + h.salt.length * 2 + 128 - (h.rand.length + 5 + h.salt.length * 2) = 128 by omega]
    unfold sub
    rw [← hB, List.drop_left']
    simp only [List.length_append, List.length_cons, List.length_nil, hh, hsf]; omega
  exact ⟨hcount, hbl, hr0, s1, s2, s3, s4, s5⟩

theorem headerV2_layout (m : Mode) (C : ChaCha) (hC : Blocks64 C) (h : Head2) (name : List Char) (hok : h.Ok name) (hn : name ≠ [])
    (hk : m = .wrap ∨ NoCarry1 (salted name h.chars) 32) (hc : m = .wrap ∨ ∀ c ∈ h.chars, c.toNat < 128) :
    headerV2 m C h.bytes name = .ok (h.result C name) := by
  obtain ⟨hcount, hbl, hr0, s1, s2, s3, s4, s5⟩ := layout2 h name hok
  have hr := hok.rand
  have hsl := hok.salt
  have hd := hok.data
  have h30 : randCount name ≥ 30 := by unfold randCount; omega
  have hx4 : (4#8 ^^^ h.r 0 ^^^ h.r 0).toNat = 4 := by rw [BitVec.xor_assoc, BitVec.xor_self, BitVec.xor_zero]; rfl
  have hxL : (BitVec.ofNat 8 h.salt.length ^^^ h.r 0 ^^^ h.r 0).toNat = h.salt.length := by
    rw [BitVec.xor_assoc, BitVec.xor_self, BitVec.xor_zero, BitVec.toNat_ofNat, Nat.mod_eq_of_lt (by omega)]
  generalize hks : C (xorBase (key1 (salted name h.chars) 32)) (List.replicate 12 0#8) = ks
  have hks64 : ∀ c, (ks c).length = 64 := by rw [← hks]; exact hC _ _
  have hdl : (h.data.take 128).length = 128 := by rw [List.length_take]; omega
  have hI0 := ChaRd.inv_start (C := C) (data := h.data.take 128) (key := xorBase (key1 (salted name h.chars) 32)) (nonce := List.replicate 12 0#8)
    (off := 0) (by omega)
  rw [hks] at hI0
  obtain ⟨r1, hrd1, hI1⟩ := ChaRd.readBytes_ok hks64 hI0 4 (by omega) (by omega)
  have hns : ChaRd.nextStart 0 (0 + 4) = 0 := rfl
  rw [hns] at hI1
  obtain ⟨r2, hrd2, hI2⟩ := ChaRd.readBytes_ok hks64 hI1 4 (by omega) (by omega)
  rw [List.drop_zero, ChaRd.piece_zero ks _ _ _ (by omega), chaDecrypt_take] at hrd1 hrd2
  have p1 : signed 32 (leNat ((((chaDecrypt ks h.data).take 128).drop 0).take 4)) = Ms.i32At (chaDecrypt ks h.data) 0 := by
    unfold Ms.i32At
    rw [List.drop_zero, List.drop_zero, List.take_take]
    rfl
  have p2 : signed 32 (leNat ((((chaDecrypt ks h.data).take 128).drop (0 + 4)).take 4)) = Ms.i32At (chaDecrypt ks h.data) 4 := by
    unfold Ms.i32At
    rw [List.drop_take, List.take_take]
    rfl
  unfold headerV2
  simp only [bind, Except.bind, pure, Except.pure]
  rw [sumStr_eq, hcount, s1]
  dsimp only
  rw [byteAt_ok (by omega)]
  dsimp only
  rw [nth8_ok (by rw [List.length_map]; omega)]
  dsimp only
  rw [hr0, s2, hx4, if_neg (by omega), byteAt_ok (by omega)]
  dsimp only
  rw [i32At_ok (by omega)]
  dsimp only
  rw [s3, hxL, s4]
  dsimp only
  rw [saltV2_ok m h name hok hc]
  dsimp only
  rw [asciiLower_eq, show utf8EncStr (Ms.lower name ++ byteText h.chars) = salted name h.chars from rfl,
    headerKeyV2_eq m _ (salted_ne name hn _) hk]
  dsimp only
  rw [s5]
  dsimp only
  rw [ChaRd.readI32_eq, show ChaRd.new C (h.data.take 128) (xorBase (key1 (salted name h.chars) 32)) (List.replicate 12 0#8) =
    ChaRd.from C (h.data.take 128) (xorBase (key1 (salted name h.chars) 32)) (List.replicate 12 0#8) 0 from rfl, hrd1]
  simp only [Except.map]
  rw [ChaRd.readI32_eq, hrd2]
  simp only [Except.map]
  rw [p1, p2]
  unfold Head2.result
  rw [hks, hr, show ∀ a s : Nat, a + 8 + s * 3 % 212 + 64 = a + 72 + 3 * s % 212 from fun a s => by omega, Nat.mul_comm h.salt.length 2]

/-! ## every file -/

theorem saltV2_inv {m : Mode} {rand sb : Bytes} {n : Nat} {l : List Char} (h : saltV2 m rand sb n = .ok l) (i : Nat) (hi : i < n) :
    i < rand.length ∧ i * 2 < sb.length := by
  obtain ⟨x, h⟩ := tabulateM_inv h i hi
  simp only [bind, Except.bind, pure, Except.pure] at h
  cases h1 : nth8 rand i with
  | error e' => rw [h1] at h; cases h
  | ok a =>
    rw [h1] at h
    dsimp only at h
    cases h2 : nth8 sb (i * 2) with
    | error e' => rw [h2] at h; cases h
    | ok b => exact ⟨(nth8_inv h1).1, (nth8_inv h2).1⟩

/-- a header is only read from a file that is laid out as it should be -/
theorem headerV2_every (m : Mode) (C : ChaCha) (buf : Bytes) (name : List Char) (H : MsHeader) (hn : headerV2 m C buf name = .ok H) :
    ∃ h : Head2, h.Ok name ∧ buf = h.bytes := by
  have hcount : Ms.nameSum name % 312 + 30 = randCount name := by unfold randCount; omega
  unfold headerV2 at hn
  simp only [bind, Except.bind, pure, Except.pure] at hn
  rw [sumStr_eq, hcount] at hn
  cases h1 : sliceIdx buf 0 (randCount name) with
  | error e => rw [h1] at hn; cases hn
  | ok rand =>
  rw [h1] at hn
  dsimp only at hn
  cases h2 : byteAt buf (randCount name) with
  | error e => rw [h2] at hn; cases hn
  | ok vb =>
  rw [h2] at hn
  dsimp only at hn
  cases h4 : nth8 (rand.map shiftSigned) 0 with
  | error e => rw [h4] at hn; cases hn
  | ok r0 =>
  rw [h4] at hn
  dsimp only at hn
  by_cases hv : (vb ^^^ r0).toNat = 4
  · rw [if_neg (by simpa using hv)] at hn
    cases h3 : byteAt buf (randCount name + 1) with
    | error e => rw [h3] at hn; cases hn
    | ok hashed =>
    rw [h3] at hn
    dsimp only at hn
    cases h5 : Wz.readI32At buf (randCount name + 1) with
    | error e => rw [h5] at hn; cases hn
    | ok _ =>
    rw [h5] at hn
    dsimp only at hn
    generalize hL : (hashed ^^^ r0).toNat = L at hn
    have hL256 : L < 256 := by rw [← hL]; exact (hashed ^^^ r0).isLt
    cases h6 : sliceIdx buf (randCount name + 5) (randCount name + 5 + L * 2) with
    | error e => rw [h6] at hn; cases hn
    | ok sb =>
    rw [h6] at hn
    dsimp only at hn
    cases h7 : saltV2 m (rand.map shiftSigned) sb L with
    | error e => rw [h7] at hn; cases hn
    | ok salt =>
    rw [h7] at hn
    dsimp only at hn
    cases h8 : headerKeyV2 m (utf8EncStr (asciiLower name ++ salt)) with
    | error e => rw [h8] at hn; cases hn
    | ok key =>
    rw [h8] at hn
    dsimp only at hn
    cases h9 : sliceIdx buf (randCount name + 5 + L * 2) (randCount name + 5 + L * 2 + 128) with
    | error e => rw [h9] at hn; cases hn
    | ok enc =>
    clear hn h8
    obtain ⟨_, hc1, hrand⟩ := sliceIdx_inv h1
    obtain ⟨_, hc2, hsb⟩ := sliceIdx_inv h6
    obtain ⟨_, hc3, henc⟩ := sliceIdx_inv h9
    have hrl : rand.length = randCount name := by rw [hrand, sub_length (by omega)]; omega
    have hsbl : sb.length = 2 * L := by rw [hsb, sub_length (by omega)]; omega
    have h30 : randCount name ≥ 30 := by unfold randCount; omega
    have hLc : L ≤ randCount name := by
      by_cases hz : L = 0
      · omega
      · have := (saltV2_inv h7 (L - 1) (by omega)).1
        rw [List.length_map] at this
        omega
    have hr0 : r0 = half (rand.getD 0 0#8) := by
      rw [(nth8_inv h4).2]
      exact half_eq ⟨rand, [], [], []⟩ 0 (by show 0 < rand.length; omega)
    have hvb : vb = buf.getD (randCount name) 0#8 := by
      rw [byteAt_ok (by omega)] at h2
      exact (Except.ok.inj h2).symm
    have hhash : hashed = buf.getD (randCount name + 1) 0#8 := by
      rw [byteAt_ok (by omega)] at h3
      exact (Except.ok.inj h3).symm
    obtain ⟨pairs, hpl, hpf⟩ := pairs_exist (fun i => 0x4B#8 ^^^ half (rand.getD i 0#8)) L sb 0 hsbl
    refine ⟨⟨rand, pairs, sub buf (randCount name + 2) 3, buf.drop (randCount name + 5 + L * 2)⟩, ⟨hrl, ⟨show pairs.length < 256 by omega, show pairs.length ≤ _ by omega⟩, ?_, ?_⟩, ?_⟩
    · exact sub_length (by omega)
    · show 128 ≤ (buf.drop (randCount name + 5 + L * 2)).length
      rw [List.length_drop]; omega
    · unfold Head2.bytes Head2.r
      dsimp only
      have hpf' : (pairs.zipIdx.flatMap fun ci => [ci.1.1 ^^^ 0x4B#8 ^^^ half (rand.getD ci.2 0#8), ci.1.2]) = sb := by
        rw [← hpf]
        congr 1
        funext ci
        rw [BitVec.xor_assoc]
      rw [hpf', hpl]
      have hver : (4#8 ^^^ half (rand.getD 0 0#8)) = buf.getD (randCount name) 0#8 := by
        have : vb ^^^ r0 = 4#8 := BitVec.eq_of_toNat_eq hv
        rw [← this, ← hr0, BitVec.xor_assoc, BitVec.xor_self, BitVec.xor_zero, hvb]
      have hlen : (BitVec.ofNat 8 L ^^^ half (rand.getD 0 0#8)) = buf.getD (randCount name + 1) 0#8 := by
        rw [← hL, BitVec.ofNat_toNat, BitVec.setWidth_eq, ← hr0, BitVec.xor_assoc, BitVec.xor_self, BitVec.xor_zero, hhash]
      rw [hver, hlen]
      have hone : ∀ p, p < buf.length → [buf.getD p 0#8] = sub buf p 1 := by
        intro p hp
        unfold sub
        rw [List.getD_eq_getElem?_getD, List.getElem?_eq_getElem hp, List.drop_eq_getElem_cons hp]
        rfl
      rw [show buf.getD (randCount name + 1) 0#8 :: sub buf (randCount name + 2) 3 = [buf.getD (randCount name + 1) 0#8] ++ sub buf (randCount name + 1 + 1) 3 from rfl,
        hone _ (by omega), hone _ (by omega), sub_append, hrand, hsb]
      simp only [Nat.sub_zero, show randCount name + 5 + L * 2 - (randCount name + 5) = L * 2 by omega]
      have e0 := sub_append buf 0 (randCount name) 1
      rw [Nat.zero_add] at e0
      have e1 := sub_append buf 0 (randCount name + 1) (1 + 3)
      rw [Nat.zero_add] at e1
      have e2 := sub_append buf 0 (randCount name + 1 + (1 + 3)) (L * 2)
      rw [Nat.zero_add] at e2
      rw [e0, e1, show randCount name + 5 = randCount name + 1 + (1 + 3) from rfl, e2]
      unfold sub
      rw [List.drop_zero, List.take_append_drop]
  · rw [if_pos hv] at hn; cases hn

end Wz
