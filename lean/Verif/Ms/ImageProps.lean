import Verif.Ms.ImageLemmas
/-!
# Images of MS archives (C42)
-/

set_option autoImplicit false

namespace Wz.Props

open Wz.Spec Wz.Spec.Snow Wz.Spec.Ms

/-! ## keys -/

/-- version 1: every entry with a name has a key -/
theorem C42_key_v1 (salt : List Char) (e : MsEntry) (hn : e.name ≠ []) : imageKeyV1 salt e = .ok (imageKey1 salt e.name e.key) :=
  imageKeyV1_ok salt e hn

/-- version 2: only ASCII names, and names of 32 characters or more, have a key; `_partial`: see `C42_key_v2_panic` for the others -/
theorem C42_key_v2_partial (salt : List Char) (e : MsEntry) (hn : e.name ≠ []) (h : (∀ c ∈ e.name, c.toNat < 128) ∨ 32 ≤ e.name.length) :
    imageKeyV2 salt e = .ok (imageKey2 salt e.name e.key) :=
  imageKeyV2_ok salt e hn h

example : ∃ e : MsEntry, e.name ≠ [] ∧ (∃ c ∈ e.name, 128 ≤ c.toNat) ∧ 32 ≤ e.name.length :=
  ⟨⟨List.replicate 32 'é', 0, 0, 0, 0, 0, 0, 0, [], 0, 0⟩, by decide, ⟨'é', by decide, by decide⟩, by decide⟩

/-- a shorter name with another character crashes the program -/
theorem C42_key_v2_panic (salt : List Char) (e : MsEntry) (h : ∃ c ∈ e.name, 128 ≤ c.toNat) (h2 : e.name.length < 32) :
    imageKeyV2 salt e = .error .panicUnwrap :=
  imageKeyV2_panic salt e h h2

/-- e.g. "é" -/
example : ∃ e : MsEntry, (∃ c ∈ e.name, 128 ≤ c.toNat) ∧ e.name.length < 32 := ⟨⟨['é'], 0, 0, 0, 0, 0, 0, 0, [], 0, 0⟩, ⟨'é', by simp, by decide⟩, by decide⟩

/-- and so does the empty name, in both versions -/
theorem C42_key_empty (salt : List Char) (e : MsEntry) (h : e.name = []) :
    imageKeyV1 salt e = .error .panicOverflow ∧ imageKeyV2 salt e = .error .panicOverflow :=
  imageKey_empty salt e h

/-- nonce and first block of version 2 come from the salt -/
theorem C42_nonce (salt : List Char) : imageNonce (saltHash salt) = imageNonceOf (fnv salt) ∧ imageCounter (saltHash salt) = imageCounterOf (fnv salt) := by
  rw [← saltHash_eq]
  exact hashData_eq _

/-- the digits are those of the number -/
theorem C42_digits (n : Nat) : (decDigits n).foldl (fun a d => 10 * a + d) 0 = n ∧ (∀ d ∈ decDigits n, d < 10) := by
  fun_induction decDigits n with
  | case1 n h => simp; omega
  | case2 n h ih =>
    constructor
    · rw [List.foldl_append, ih.1]; simp; omega
    · intro d hd
      rcases List.mem_append.mp hd with hd | hd
      · exact ih.2 d hd
      · simp at hd; omega

example : decDigits 40923 = [4, 0, 9, 2, 3] := by decide +kernel

/-- the salt "a": the hash of FNV-1a, its digits, the bytes of a key -/
example : fnv ['a'] = 0xE40C292C ∧ decDigits (fnv ['a']) = [3, 8, 2, 6, 0, 0, 2, 2, 2, 0] ∧
    (imageKey1 ['a'] ['b', 'c'] (List.replicate 16 1#8)).length = 16 := by decide +kernel

/-! ## data -/

theorem cut {im : MsImage} {pre block plain post : Bytes} {size : Nat} (hs : Sits im pre block size) (hp : plain.length = block.length)
    (hlen : (pre ++ block ++ post).length < 2 ^ 63) :
    (∀ m, addU m im.offset im.blockSize = .ok (pre.length + block.length)) ∧
    sliceIdx (pre ++ block ++ post) im.offset (pre.length + block.length) = .ok block ∧
    sliceIdx plain 0 (asUsize im.entry.size) = .ok (plain.take size) := by
  have h1 := hs.small
  simp only [List.length_append] at hlen
  refine ⟨fun m => ?_, ?_, ?_⟩
  · rw [hs.place, hs.whole, addU_ok (by omega)]
  · exact slice_of_append hs.place rfl
  · rw [hs.used, asUsize_nat size (by omega), sliceIdx_ok (by omega) (by omega)]
    simp [sub]

/-- with the tables of the program -/
theorem imageDataV1_stored (m : Mode) (im : MsImage) (salt : List Char) (pre plain post : Bytes) (size : Nat) (hn : im.entry.name ≠ [])
    (block : Bytes) (hb : block = encryptTwice (keyWord Snow.maps (signedKey (imageKey1 salt im.entry.name im.entry.key))) plain)
    (hs : Sits im pre block size) (hlen : (pre ++ block ++ post).length < 2 ^ 63) :
    imageDataV1 m (pre ++ block ++ post) salt im = .ok (plain.take size) := by
  generalize hkey : imageKey1 salt im.entry.name im.entry.key = key at hb
  rw [← Snow.startOf_signed] at hb
  change block = encryptTwice (Snow.stream key) plain at hb
  have hel : (encrypt (Snow.stream key) 0 plain).length = plain.length := encrypt_length _ _ _
  have hbl : plain.length = block.length := by
    rw [hb]; unfold encryptTwice
    rw [List.length_append, encrypt_length, ← List.length_append, List.take_append_drop, hel]
  obtain ⟨c1, c2, c3⟩ := cut (post := post) hs hbl hlen
  have htake : block.take (min 1024 block.length) = encrypt (Snow.stream key) 0 ((encrypt (Snow.stream key) 0 plain).take 1024) := by
    rw [← hbl, hb]
    unfold encryptTwice
    exact List.take_left' (by rw [encrypt_length, List.length_take, hel])
  have hdrop : block.drop (min 1024 block.length) = (encrypt (Snow.stream key) 0 plain).drop 1024 := by
    rw [← hbl, hb]
    unfold encryptTwice
    exact List.drop_left' (by rw [encrypt_length, List.length_take, hel])
  obtain ⟨d1, e1, _⟩ := Snow.slice_encrypted key ((encrypt (Snow.stream key) 0 plain).take 1024) 0 _ (Snow.at_new key)
  obtain ⟨d2, e2, _⟩ := Snow.slice_encrypted key plain 0 _ (Snow.at_new key)
  unfold imageDataV1
  simp only [bind, Except.bind, pure, Except.pure]
  rw [imageKeyV1_ok salt _ hn, hkey]
  dsimp only
  rw [c1]
  dsimp only
  rw [c2]
  dsimp only
  rw [htake, hdrop, e1]
  dsimp only
  rw [List.take_append_drop, e2]
  exact c3

/-- version 1: an image that was encrypted with its key, the first 1024 bytes twice, is read as it was -/
theorem C42_data_v1 : ∃ M : Maps, M.Ok ∧ ∀ (m : Mode) (im : MsImage) (salt : List Char) (pre plain post : Bytes) (size : Nat), im.entry.name ≠ [] →
    ∀ block, block = encryptTwice (keyWord M (signedKey (imageKey1 salt im.entry.name im.entry.key))) plain → Sits im pre block size →
    (pre ++ block ++ post).length < 2 ^ 63 →
    imageDataV1 m (pre ++ block ++ post) salt im = .ok (plain.take size) :=
  ⟨Snow.maps, Snow.maps_ok, imageDataV1_stored⟩

/-- an image of 1500 bytes in a block of 2048 behind 3 bytes -/
def anImage : MsImage := ⟨3, 2048, ⟨['a'], 0, 0, 0, 1500, 2048, 0, 0, List.replicate 16 1#8, 0, 0⟩⟩

/-- it meets the hypotheses -/
example (z : Nat → BitVec 32) : ∃ pre plain block : Bytes, anImage.entry.name ≠ [] ∧ block = encryptTwice z plain ∧ Sits anImage pre block 1500 := by
  have hl : (encryptTwice z (List.replicate 2048 5#8)).length = 2048 := by
    unfold encryptTwice
    rw [List.length_append, encrypt_length, ← List.length_append, List.take_append_drop, encrypt_length, List.length_replicate]
  exact ⟨[1#8, 2#8, 3#8], List.replicate 2048 5#8, _, List.cons_ne_nil _ _, rfl, rfl, hl.symm, rfl, by rw [hl]; omega⟩

theorem apply_length (ks : Nat → Bytes) (n : Nat) (bs : Bytes) : (chaApply ks n bs).length = bs.length := by simp [chaApply]

theorem apply_twice (ks : Nat → Bytes) (n : Nat) (bs : Bytes) : chaApply ks n (chaApply ks n bs) = bs := by
  apply List.ext_getElem?
  intro i
  unfold chaApply
  rw [List.getElem?_mapIdx, List.getElem?_mapIdx]
  cases bs[i]? with
  | none => rfl
  | some b =>
    show some (b ^^^ _ ^^^ _) = some b
    rw [BitVec.xor_assoc, BitVec.xor_self, BitVec.xor_zero]

/-- version 2: an image whose first 1024 bytes were encrypted is read as it was; `_partial`: for the names that have a key -/
theorem C42_data_v2_partial (m : Mode) (C : ChaCha) (im : MsImage) (salt : List Char) (pre plain post : Bytes) (size : Nat) (hn : im.entry.name ≠ [])
    (h : (∀ c ∈ im.entry.name, c.toNat < 128) ∨ 32 ≤ im.entry.name.length) (block : Bytes)
    (hb : block = encryptHead (C (imageKey2 salt im.entry.name im.entry.key) (imageNonceOf (fnv salt))) (imageCounterOf (fnv salt)) plain)
    (hs : Sits im pre block size) (hlen : (pre ++ block ++ post).length < 2 ^ 63) :
    imageDataV2 m C (pre ++ block ++ post) salt im = .ok (plain.take size) := by
  generalize hks : C (imageKey2 salt im.entry.name im.entry.key) (imageNonceOf (fnv salt)) = ks at hb
  generalize hcn : imageCounterOf (fnv salt) = n at hb
  change block = chaApply ks n (plain.take 1024) ++ plain.drop 1024 at hb
  have hbl : plain.length = block.length := by
    rw [hb, List.length_append, apply_length, ← List.length_append, List.take_append_drop]
  obtain ⟨c1, c2, c3⟩ := cut (post := post) hs hbl hlen
  have htake : block.take (min 1024 block.length) = chaApply ks n (plain.take 1024) := by
    rw [← hbl, hb]
    exact List.take_left' (by rw [apply_length, List.length_take])
  have hdrop : block.drop (min 1024 block.length) = plain.drop 1024 := by
    rw [← hbl, hb]
    exact List.drop_left' (by rw [apply_length, List.length_take])
  unfold imageDataV2
  simp only [bind, Except.bind, pure, Except.pure]
  rw [imageKeyV2_ok salt _ hn h]
  dsimp only
  rw [c1]
  dsimp only
  rw [c2]
  dsimp only
  rw [(C42_nonce salt).1, (C42_nonce salt).2, hks, hcn, htake, hdrop, apply_twice, List.take_append_drop]
  exact c3

theorem addU_err {m : Mode} {a b : Nat} {e : Err} (h : addU m a b = .error e) : e = .panicOverflow := by
  unfold addU at h
  split at h
  · cases h
  · cases m <;> cases h
    rfl

theorem key1_total (salt : List Char) (e : MsEntry) : (∃ k, imageKeyV1 salt e = .ok k) ∨ ∃ x, imageKeyV1 salt e = .error x ∧ x.isPanic = true := by
  by_cases hn : e.name = []
  · exact .inr ⟨_, (imageKey_empty salt e hn).1, rfl⟩
  · exact .inl ⟨_, imageKeyV1_ok salt e hn⟩

theorem key2_total (salt : List Char) (e : MsEntry) : (∃ k, imageKeyV2 salt e = .ok k) ∨ ∃ x, imageKeyV2 salt e = .error x ∧ x.isPanic = true := by
  by_cases hn : e.name = []
  · exact .inr ⟨_, (imageKey_empty salt e hn).2, rfl⟩
  · by_cases h : (∀ c ∈ e.name, c.toNat < 128) ∨ 32 ≤ e.name.length
    · exact .inl ⟨_, imageKeyV2_ok salt e hn h⟩
    · refine .inr ⟨_, imageKeyV2_panic salt e ?_ ?_, rfl⟩
      · apply Classical.byContradiction
        intro hno
        exact h (.inl fun c hc => Nat.lt_of_not_le fun h128 => hno ⟨c, hc, h128⟩)
      · exact Nat.lt_of_not_le fun h32 => h (.inr h32)

/-- both readers, up to the way of decryption -/
theorem data_total (m : Mode) (buf : Bytes) (im : MsImage) (key : Except Err Bytes) (dec : Bytes → Bytes → Except Err Bytes)
    (hk : (∃ k, key = .ok k) ∨ ∃ x, key = .error x ∧ x.isPanic = true) (hd : ∀ k bs, ∃ out, dec k bs = .ok out ∧ out.length = bs.length) :
    let r := key >>= fun k => addU m im.offset im.blockSize >>= fun stop => sliceIdx buf im.offset stop >>= fun data => dec k data >>= fun out =>
      sliceIdx out 0 (asUsize im.entry.size)
    (∃ d stop, r = .ok d ∧ d.length = asUsize im.entry.size ∧ addU m im.offset im.blockSize = .ok stop ∧ im.offset ≤ stop ∧ stop ≤ buf.length ∧
      asUsize im.entry.size ≤ stop - im.offset) ∨ ∃ e, r = .error e ∧ e.isPanic = true := by
  intro r
  show (∃ d stop, r = _ ∧ _) ∨ _
  rcases hk with ⟨k, hk⟩ | ⟨x, hx, hp⟩
  · cases ha : addU m im.offset im.blockSize with
    | error e =>
      refine .inr ⟨e, ?_, by rw [addU_err ha]; rfl⟩
      show (key >>= _) = _
      rw [hk, ha]; rfl
    | ok stop =>
      cases hs : sliceIdx buf im.offset stop with
      | error e =>
        refine .inr ⟨e, ?_, by rw [sliceIdx_err hs]; rfl⟩
        show (key >>= _) = _
        rw [hk, ha]
        show (sliceIdx buf im.offset stop >>= _) = _
        rw [hs]; rfl
      | ok data =>
        obtain ⟨h1, h2, h3⟩ := sliceIdx_inv hs
        obtain ⟨out, h4, h5⟩ := hd k data
        have hr : r = sliceIdx out 0 (asUsize im.entry.size) := by
          show (key >>= _) = _
          rw [hk, ha]
          show (sliceIdx buf im.offset stop >>= _) = _
          rw [hs]
          show (dec k data >>= _) = _
          rw [h4]; rfl
        have hdl : data.length = stop - im.offset := by rw [h3]; unfold sub; rw [List.length_take, List.length_drop]; omega
        cases hf : sliceIdx out 0 (asUsize im.entry.size) with
        | error e => exact .inr ⟨e, by rw [hr, hf], by rw [sliceIdx_err hf]; rfl⟩
        | ok d =>
          obtain ⟨_, g2, g3⟩ := sliceIdx_inv hf
          refine .inl ⟨d, stop, by rw [hr, hf], ?_, rfl, h1, h2, by omega⟩
          rw [g3]; unfold sub
          rw [List.length_take, List.length_drop]
          omega
  · refine .inr ⟨x, ?_, hp⟩
    show (key >>= _) = _
    rw [hx]; rfl

theorem image_total (m : Mode) (C : ChaCha) (f : MsFile) (im : MsImage) :
    (∃ d stop, f.toWzImage m C im = .ok ⟨im.entry.name, d, asUsize im.entry.size⟩ ∧ d.length = asUsize im.entry.size ∧
      addU m im.offset im.blockSize = .ok stop ∧ im.offset ≤ stop ∧ stop ≤ f.buf.length ∧ asUsize im.entry.size ≤ stop - im.offset) ∨
    ∃ e, f.toWzImage m C im = .error e ∧ e.isPanic = true := by
  unfold MsFile.toWzImage
  simp only [bind, Except.bind, pure, Except.pure]
  by_cases h1 : f.header.msVersion = 1
  · rw [if_pos h1]
    have := data_total m f.buf im (imageKeyV1 f.header.keySalt im.entry) (fun key data => do
        let (head, _, _) ← (Snow2.new key).decryptSlice (data.take (min 1024 data.length))
        let (dec, _, _) ← (Snow2.new key).decryptSlice (head ++ data.drop (min 1024 data.length))
        return dec) (key1_total _ _) (by
      intro k bs
      obtain ⟨o1, d1, e1, _, l1, _⟩ := Snow.slice_total k (bs.take (min 1024 bs.length)) 0 _ (Snow.at_new k)
      obtain ⟨o2, d2, e2, _, l2, _⟩ := Snow.slice_total k (o1 ++ bs.drop (min 1024 bs.length)) 0 _ (Snow.at_new k)
      refine ⟨o2, ?_, ?_⟩
      · simp only [bind, Except.bind, pure, Except.pure]
        rw [e1]
        dsimp only
        rw [e2]
      · rw [l2, List.length_append, l1, ← List.length_append, List.take_append_drop])
    simp only [bind_assoc, pure_bind] at this
    change (∃ d stop, imageDataV1 m f.buf f.header.keySalt im = .ok d ∧ _) ∨ ∃ e, imageDataV1 m f.buf f.header.keySalt im = .error e ∧ _ at this
    rcases this with ⟨d, stop, g1, g2⟩ | ⟨e, g1, g2⟩
    · exact .inl ⟨d, stop, by rw [g1], g2⟩
    · exact .inr ⟨e, by rw [g1], g2⟩
  · rw [if_neg h1]
    by_cases h2 : f.header.msVersion = 2
    · rw [if_pos h2]
      have := data_total m f.buf im (imageKeyV2 f.header.keySalt im.entry) (fun key data => .ok
          (chaApply (C key (imageNonce (saltHash f.header.keySalt))) (imageCounter (saltHash f.header.keySalt)) (data.take (min 1024 data.length)) ++ data.drop (min 1024 data.length)))
        (key2_total _ _) (by
          intro k bs
          refine ⟨_, rfl, ?_⟩
          rw [List.length_append, apply_length, ← List.length_append, List.take_append_drop])
      change (∃ d stop, imageDataV2 m C f.buf f.header.keySalt im = .ok d ∧ _) ∨ ∃ e, imageDataV2 m C f.buf f.header.keySalt im = .error e ∧ _ at this
      rcases this with ⟨d, stop, g1, g2⟩ | ⟨e, g1, g2⟩
      · exact .inl ⟨d, stop, by rw [g1], g2⟩
      · exact .inr ⟨e, by rw [g1], g2⟩
    · rw [if_neg h2]
      exact .inr ⟨_, rfl, rfl⟩

/-- The result has the declared size, or there is no result: the program crashes. -/
theorem C42_size (m : Mode) (C : ChaCha) (f : MsFile) (im : MsImage) :
    (∃ r, f.toWzImage m C im = .ok r ∧ r.name = im.entry.name ∧ r.blockSize = r.data.length ∧ r.data.length = asUsize im.entry.size) ∨
    ∃ e, f.toWzImage m C im = .error e ∧ e.isPanic = true := by
  rcases image_total m C f im with ⟨d, stop, h1, h2, _⟩ | h
  · exact .inl ⟨_, h1, rfl, h2.symm, h2⟩
  · exact .inr h

/-- e.g. a size of -1 -/
example : ({ anImage with entry := { anImage.entry with size := -1 } } : MsImage).entry.size < 0 := by decide

/-- It crashes if the size is negative or larger than the block, or if the block is not in the file. -/
theorem C42_outside (m : Mode) (C : ChaCha) (f : MsFile) (im : MsImage) (hf : f.buf.length < 2 ^ 63) (ho : im.offset < 2 ^ 64) (hb : im.blockSize < 2 ^ 64)
    (hs : -2147483648 ≤ im.entry.size ∧ im.entry.size < 2147483648)
    (h : f.buf.length < im.offset + im.blockSize ∨ im.entry.size < 0 ∨ (im.blockSize : Int) < im.entry.size) :
    ∃ e, f.toWzImage m C im = .error e ∧ e.isPanic = true := by
  rcases image_total m C f im with ⟨d, stop, _, h2, h3, h4, h5, h6⟩ | h'
  · exfalso
    have hstop : stop = im.offset + im.blockSize := by
      unfold addU at h3
      split at h3
      · exact (Except.ok.inj h3).symm
      · cases m
        · cases h3
        · have := Except.ok.inj h3
          omega
    rcases h with h | h | h
    · omega
    · unfold asUsize at h6; omega
    · unfold asUsize at h6; omega
  · exact h'

example (m : Mode) (C : ChaCha) : ∃ e, (⟨[1#8, 2#8], ⟨['k', 'T'], ['h', 'k', 'T'], 0, 2, 1, 0, 0, 1⟩⟩ : MsFile).toWzImage m C anImage = .error e ∧ e.isPanic = true :=
  C42_outside m C _ _ (by decide) (by decide) (by decide) (by decide) (.inl (by decide))

end Wz.Props
