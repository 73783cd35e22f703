import Verif.Ms.EntryLemmas
/-!
# MS archives: layout (C41)

The text of C41 asks for the offsets "documented" by the format: the random bytes at the start (their number depends on the name), the
salt, the header, the table, and the images from the next multiple of 1024 on.  `Spec.Ms` writes such files; the theorems say that the
reader finds what was written, and that it accepts nothing else.
-/

set_option autoImplicit false

namespace Wz.Props

open Wz.Spec Wz.Spec.Snow Wz.Spec.Ms

theorem misread_low : ∀ r : Byte, (4#8 ^^^ half r ^^^ r).toNat < 128 := by decide +kernel

theorem head1_length (h : Head1) (name : List Char) (hok : h.Ok name) : (h.bytes Snow.maps name).length = randCount name + 4 + 2 * h.salt.length + 12 := by
  have hsf : h.saltField.length = 2 * h.salt.length := pairs_length _ _ _ 0
  unfold Head1.bytes Head1.lenField
  simp only [List.length_append, List.length_cons, encrypt_length, hok.rand, hok.high, hok.plain, hsf]

theorem result1_error (h : Head1) (name : List Char) (e : Err) (he : h.result name = .error e) : e.isPanic = false := by
  unfold Head1.result at he
  split at he
  · cases he; rfl
  · split at he
    · cases he; rfl
    · cases he

theorem head2_first (h : Head2) (name : List Char) (hok : h.Ok name) : h.bytes.getD 0 0#8 = h.rand.getD 0 0#8 := by
  have hr := hok.rand
  have h30 : randCount name ≥ 30 := by unfold randCount; omega
  unfold Head2.bytes
  simp only [List.append_assoc]
  rw [List.getD_eq_getElem?_getD, List.getElem?_append_left (by omega), ← List.getD_eq_getElem?_getD]

/-! ## version 1 headers -/

/-- A file that begins with a version 1 header is read as the format says: refused for another version, refused if the hash does not
match, otherwise accepted with these offsets.  `hk`, `hs`: a build with overflow checks crashes if a byte of the key or a sum of the hash
overflows. -/
theorem C41_header_v1 : ∃ M : Maps, M.Ok ∧ ∀ (m : Mode) (h : Head1) (name : List Char) (rest : Bytes), h.Ok name → name ≠ [] →
    (m = .wrap ∨ NoCarry1 (salted name h.chars) 16) → (m = .wrap ∨ SumsFit h.hash) →
    headerV1 m (h.bytes M name ++ rest) name = h.result name :=
  ⟨Snow.maps, Snow.maps_ok, headerV1_layout⟩

/-- a header for the examples, for a file named "hhh" (30 random bytes), salt "kT", five entries -/
def aHead1 : Head1 := ⟨List.replicate 30 0x11#8, [(0x6B#8, 1#8), (0x54#8, 2#8)], [1#8, 2#8, 3#8], num 50463961 ++ [2#8] ++ num 5 ++ [9#8, 9#8, 9#8]⟩

theorem aHead1_ok : aHead1.Ok ['h', 'h', 'h'] := ⟨by decide, by decide, by decide, by decide⟩

/-- it meets the hypotheses, of checked builds too -/
example : aHead1.Ok ['h', 'h', 'h'] ∧ NoCarry1 (salted ['h', 'h', 'h'] aHead1.chars) 16 ∧ (∀ n, 0 < n → n ≤ 4 →
    -2147483648 ≤ (aHead1.hash.take n).sum ∧ (aHead1.hash.take n).sum < 2147483648) ∧
    aHead1.result ['h', 'h', 'h'] = .ok ⟨['k', 'T'], ['h', 'h', 'h', 'k', 'T'], 50463961, 2, 5, 38, 38 + 42 + 88, 1⟩ := by
  refine ⟨aHead1_ok, by unfold NoCarry1; decide +kernel, ?_, by decide +kernel⟩
  intro n h1 h2
  have : n = 1 ∨ n = 2 ∨ n = 3 ∨ n = 4 := by omega
  rcases this with rfl | rfl | rfl | rfl <;> decide +kernel

/-- What is not laid out so is not accepted: it ends in a reading error (only if there are less than four bytes behind the random ones) or
a crash. -/
theorem C41_header_v1_only : ∃ M : Maps, M.Ok ∧ ∀ (m : Mode) (buf : Bytes) (name : List Char),
    (∃ h : Head1, ∃ rest, h.Ok name ∧ buf = h.bytes M name ++ rest) ∨
    (headerV1 m buf name = .error .read ∧ buf.length < randCount name + 4) ∨ ∃ e, headerV1 m buf name = .error e ∧ e.isPanic = true := by
  refine ⟨Snow.maps, Snow.maps_ok, fun m buf name => ?_⟩
  by_cases hp : ∃ e, headerV1 m buf name = .error e ∧ e.isPanic = true
  · exact .inr (.inr hp)
  · by_cases hr : headerV1 m buf name = .error .read ∧ buf.length < randCount name + 4
    · exact .inr (.inl hr)
    · left
      obtain ⟨h, rest, h1, h2, _⟩ := headerV1_every m buf name (by
        intro e he
        refine ⟨fun h => ?_, ?_⟩
        · subst h
          exact Nat.le_of_not_lt fun hlt => hr ⟨he, hlt⟩
        · cases hb : e.isPanic
          · rfl
          · exact absurd ⟨e, he, hb⟩ hp)
      exact ⟨h, rest, h1, h2⟩

theorem accept_maps : ∀ (buf : Bytes) (name : List Char), name ≠ [] → ∀ H : MsHeader, headerV1 .wrap buf name = .ok H ↔
    ∃ h : Head1, ∃ rest, h.Ok name ∧ buf = h.bytes Snow.maps name ++ rest ∧ h.plain.getD 4 0#8 = 2#8 ∧
      BitVec.ofInt 32 (i32At h.plain 0) = BitVec.ofInt 32 h.hash.sum ∧ h.result name = .ok H := by
  refine fun buf name hn H => ⟨fun hH => ?_, ?_⟩
  · obtain ⟨h, rest, h1, h2, _⟩ := headerV1_every .wrap buf name (by intro e he; rw [hH] at he; cases he)
    have hres : h.result name = .ok H := by rw [← hH, h2, headerV1_layout .wrap h name rest h1 hn (.inl rfl) (.inl rfl)]
    refine ⟨h, rest, h1, h2, ?_, ?_, hres⟩
    · apply Classical.byContradiction
      intro hv
      unfold Head1.result at hres
      rw [if_pos hv] at hres
      cases hres
    · apply Classical.byContradiction
      intro hv
      unfold Head1.result at hres
      by_cases h4 : h.plain.getD 4 0#8 ≠ 2#8
      · rw [if_pos h4] at hres
        cases hres
      · rw [if_neg h4, if_pos hv] at hres
        cases hres
  · rintro ⟨h, rest, h1, h2, _, _, h3⟩
    rw [h2, headerV1_layout .wrap h name rest h1 hn (.inl rfl) (.inl rfl), h3]

/-- Accepted are exactly the files with a version 1 header of version 2 whose hash matches (in a build without overflow checks). -/
theorem C41_accept_v1 : ∃ M : Maps, M.Ok ∧ ∀ (buf : Bytes) (name : List Char), name ≠ [] → ∀ H : MsHeader, headerV1 .wrap buf name = .ok H ↔
    ∃ h : Head1, ∃ rest, h.Ok name ∧ buf = h.bytes M name ++ rest ∧ h.plain.getD 4 0#8 = 2#8 ∧
      BitVec.ofInt 32 (i32At h.plain 0) = BitVec.ofInt 32 h.hash.sum ∧ h.result name = .ok H :=
  ⟨Snow.maps, Snow.maps_ok, accept_maps⟩

/-! ## version 2 headers -/

/-- A file that begins with a version 2 header is accepted, with these offsets; its hash is not checked. -/
theorem C41_header_v2 (m : Mode) (C : ChaCha) (hC : Blocks64 C) (h : Head2) (name : List Char) (hok : h.Ok name) (hn : name ≠ [])
    (hk : m = .wrap ∨ NoCarry1 (salted name h.chars) 32) (hc : m = .wrap ∨ ∀ c ∈ h.chars, c.toNat < 128) :
    headerV2 m C h.bytes name = .ok (h.result C name) :=
  headerV2_layout m C hC h name hok hn hk hc

/-- a header for the examples, for a file named "hhh" -/
def aHead2 (first : Byte) (c : Byte) : Head2 := ⟨first :: List.replicate 29 0x91#8, [(0x6B#8, 1#8), (c, 2#8)], [1#8, 2#8, 3#8], List.replicate 128 7#8⟩

theorem aHead2_ok (first c : Byte) : (aHead2 first c).Ok ['h', 'h', 'h'] := ⟨by unfold aHead2; rw [List.length_cons, List.length_replicate]; decide, ⟨(by decide : 2 < 256), (by decide : 2 ≤ randCount ['h', 'h', 'h'])⟩, rfl, by unfold aHead2; rw [List.length_replicate]; omega⟩

example : (aHead2 0x83#8 0x54#8).Ok ['h', 'h', 'h'] ∧ NoCarry1 (salted ['h', 'h', 'h'] (aHead2 0x83#8 0x54#8).chars) 32 ∧
    (∀ c ∈ (aHead2 0x83#8 0x54#8).chars, c.toNat < 128) ∧
    headerV2 .checked countingCipher (aHead2 0x83#8 0x54#8).bytes ['h', 'h', 'h'] =
      .ok ⟨['k', 'T'], ['h', 'h', 'h', 'k', 'T'], 0x06060606, 4, 0x06060606, 39, 39 + 72 + 88, 2⟩ :=
  ⟨aHead2_ok _ _, by unfold NoCarry1; decide +kernel, by decide +kernel, by decide +kernel⟩

/-- accepted are only files laid out so -/
theorem C41_header_v2_only (m : Mode) (C : ChaCha) (hC : Blocks64 C) (buf : Bytes) (name : List Char) (hn : name ≠ []) (H : MsHeader)
    (h : headerV2 m C buf name = .ok H) : ∃ h : Head2, h.Ok name ∧ buf = h.bytes ∧ (m = .wrap → H = h.result C name) := by
  obtain ⟨h2, h3, h4⟩ := headerV2_every m C buf name H h
  refine ⟨h2, h3, h4, fun hm => ?_⟩
  rw [h4, headerV2_layout m C hC h2 name h3 hn (.inl hm) (.inl hm)] at h
  exact (Except.ok.inj h).symm

/-- another version is refused -/
theorem C41_version_v2 (m : Mode) (C : ChaCha) (rand rest : Bytes) (v : Byte) (name : List Char) (hr : rand.length = randCount name) (hv : v ≠ 4#8) :
    headerV2 m C (rand ++ (v ^^^ half (rand.getD 0 0#8)) :: rest) name = .error (.lib "UnsupportedChacha20Version") := by
  have hcount : nameSum name % 312 + 30 = rand.length := by rw [hr]; unfold randCount; omega
  have h30 : randCount name ≥ 30 := by unfold randCount; omega
  unfold headerV2
  simp only [bind, Except.bind, pure, Except.pure]
  have s1 : sliceIdx (rand ++ (v ^^^ half (rand.getD 0 0#8)) :: rest) 0 rand.length = .ok rand := by
    have := slice_of_append (A := []) (B := rand) (C := (v ^^^ half (rand.getD 0 0#8)) :: rest) (s := 0) (t := rand.length) rfl (by simp)
    simpa using this
  rw [sumStr_eq, hcount, s1]
  dsimp only
  rw [byteAt_ok (by simp)]
  dsimp only
  rw [nth8_ok (by rw [List.length_map]; omega)]
  dsimp only
  have e1 : (rand ++ (v ^^^ half (rand.getD 0 0#8)) :: rest).getD rand.length 0#8 = v ^^^ half (rand.getD 0 0#8) := by
    rw [List.getD_eq_getElem?_getD, List.getElem?_append_right (by omega)]
    simp
  have e2 : (rand.map shiftSigned).getD 0 0#8 = half (rand.getD 0 0#8) := half_eq ⟨rand, [], [], []⟩ 0 (by show 0 < rand.length; omega)
  rw [e1, e2, BitVec.xor_assoc, BitVec.xor_self, BitVec.xor_zero, if_pos]
  intro h
  exact hv (BitVec.eq_of_toNat_eq h)

example : headerV2 .wrap countingCipher (List.replicate (randCount ['h', 'h', 'h']) 6#8 ++ (5#8 ^^^ half 6#8) :: [1#8, 2#8]) ['h', 'h', 'h'] =
    .error (.lib "UnsupportedChacha20Version") :=
  (congrArg (fun b => headerV2 .wrap countingCipher (List.replicate (randCount ['h', 'h', 'h']) 6#8 ++ (5#8 ^^^ half b) :: [1#8, 2#8]) ['h', 'h', 'h'])
    (show (6#8 : Byte) = (List.replicate (randCount ['h', 'h', 'h']) 6#8).getD 0 0#8 by decide)).trans
    (C41_version_v2 .wrap countingCipher (List.replicate (randCount ['h', 'h', 'h']) 6#8) [1#8, 2#8] 5#8 _ List.length_replicate (by decide))

/-- A build with overflow checks crashes on a version 2 salt with a character above 127: the character is computed with a subtraction. -/
theorem C41_salt_v2_debug (C : ChaCha) (h : Head2) (name : List Char) (hok : h.Ok name) (hc : ∃ c ∈ h.chars, 128 ≤ c.toNat) :
    headerV2 .checked C h.bytes name = .error .panicOverflow := by
  obtain ⟨hcount, hbl, hr0, s1, s2, s3, s4, s5⟩ := layout2 h name hok
  have hr := hok.rand
  have hsl := hok.salt
  have hd := hok.data
  have h30 : randCount name ≥ 30 := by unfold randCount; omega
  have hx4 : (4#8 ^^^ h.r 0 ^^^ h.r 0).toNat = 4 := by rw [BitVec.xor_assoc, BitVec.xor_self, BitVec.xor_zero]; rfl
  have hxL : (BitVec.ofNat 8 h.salt.length ^^^ h.r 0 ^^^ h.r 0).toNat = h.salt.length := by
    rw [BitVec.xor_assoc, BitVec.xor_self, BitVec.xor_zero, BitVec.toNat_ofNat, Nat.mod_eq_of_lt (by omega)]
  have hsalt : saltV2 .checked (h.rand.map shiftSigned) (saltField2 h) h.salt.length = .error .panicOverflow := by
    have hlen : (saltField2 h).length = 2 * h.salt.length := pairs_length _ _ _ 0
    have key : ∀ i (hi : i < h.salt.length), (do
        let a ← nth8 (h.rand.map shiftSigned) i
        let b ← nth8 (saltField2 h) (i * 2)
        let c ← saltCharV2 .checked (a ^^^ b)
        return Char.ofNat c) = (saltCharV2 .checked (h.salt[i].1 ^^^ 0x4B#8)).map Char.ofNat := by
      intro i hi
      simp only [bind, Except.bind, pure, Except.pure]
      rw [nth8_ok (by rw [List.length_map]; omega)]
      dsimp only
      rw [nth8_ok (by omega)]
      dsimp only
      have : ((h.rand.map shiftSigned).getD i 0#8 ^^^ (saltField2 h).getD (i * 2) 0#8) = h.salt[i].1 ^^^ 0x4B#8 := by
        unfold saltField2
        rw [pairs_get (fun ci => ci.1.1 ^^^ 0x4B#8 ^^^ h.r ci.2) (fun ci => ci.1.2) h.salt 0 i hi, half_eq h i (by omega), Nat.zero_add]
        generalize h.r i = x
        generalize h.salt[i].1 ^^^ 0x4B#8 = y
        rw [BitVec.xor_comm y x, ← BitVec.xor_assoc, BitVec.xor_self, BitVec.zero_xor]
      rw [this]
      cases saltCharV2 .checked (h.salt[i].1 ^^^ 0x4B#8) <;> rfl
    obtain ⟨c, hcm, hc⟩ := hc
    obtain ⟨pr, hpm, hpc⟩ := List.mem_map.mp hcm
    obtain ⟨i, hi, hg⟩ := List.getElem_of_mem hpm
    have hhi : ∀ a : Byte, 128 ≤ a.toNat → ¬ (a ^^^ 0x4B#8).toNat < 128 := by decide +kernel
    obtain ⟨k, hk, e, he, ht⟩ := tabulateM_error (f := fun i => do
        let a ← nth8 (h.rand.map shiftSigned) i
        let b ← nth8 (saltField2 h) (i * 2)
        let c ← saltCharV2 .checked (a ^^^ b)
        return Char.ofNat c) (n := h.salt.length) ⟨i, hi, .panicOverflow, by
          rw [key i hi, hg, hpc, saltCharV2_high _ (hhi c hc)]; rfl⟩
    unfold saltV2
    rw [ht]
    rw [key k hk] at he
    cases hs : saltCharV2 .checked (h.salt[k].1 ^^^ 0x4B#8) with
    | ok c => rw [hs] at he; cases he
    | error e' =>
      rw [hs] at he
      cases he
      rw [saltCharV2_err hs]
  unfold headerV2
  simp only [bind, Except.bind, pure, Except.pure]
  rw [sumStr_eq, hcount, s1]
  dsimp only
  rw [byteAt_ok (by omega)]
  dsimp only
  rw [nth8_ok (by rw [List.length_map]; omega)]
  dsimp only
  rw [hr0, s2, hx4, if_neg (by omega), byteAt_ok (by omega)]
  dsimp only
  rw [i32At_ok (by omega)]
  dsimp only
  rw [s3, hxL, s4]
  dsimp only
  rw [hsalt]

/-- e.g. é -/
example : (aHead2 0x83#8 0xE9#8).Ok ['h', 'h', 'h'] ∧ ∃ c ∈ (aHead2 0x83#8 0xE9#8).chars, 128 ≤ c.toNat :=
  ⟨aHead2_ok _ _, 0xE9#8, by decide, by decide⟩

/-! ## opening -/

/-- a file with a version 1 header opens with it -/
theorem C41_open_v1 : ∃ M : Maps, M.Ok ∧ ∀ (m : Mode) (C : ChaCha) (h : Head1) (name : List Char) (rest : Bytes) (H : MsHeader), h.Ok name → name ≠ [] →
    (m = .wrap ∨ NoCarry1 (salted name h.chars) 16) → (m = .wrap ∨ SumsFit h.hash) → h.result name = .ok H →
    msOpen m C (h.bytes M name ++ rest) name = .ok ⟨h.bytes M name ++ rest, H⟩ := by
  refine ⟨Snow.maps, Snow.maps_ok, fun m C h name rest H h1 h2 h3 h4 h5 => ?_⟩
  unfold msOpen
  rw [headerV1_layout m h name rest h1 h2 h3 h4, h5]

/-- A file with a version 2 header opens with it, unless it also passes for a version 1 file; if what the version 1 reader takes for the length
of the salt is not larger than the number of random bytes, and the file is long enough for such a salt.
`_partial`: otherwise the attempt as version 1 crashes (see `C41_open_v2_crash`); and for builds with overflow checks nothing is said. -/
theorem C41_open_v2_partial (C : ChaCha) (hC : Blocks64 C) (h : Head2) (name : List Char) (hok : h.Ok name) (hn : name ≠ [])
    (h1 : h.misread ≤ randCount name) (h2 : randCount name + 4 + 2 * h.misread + 12 ≤ h.bytes.length) :
    msOpen .wrap C h.bytes name = .ok ⟨h.bytes, h.result C name⟩ ∨
    ∃ H, headerV1 .wrap h.bytes name = .ok H ∧ msOpen .wrap C h.bytes name = .ok ⟨h.bytes, H⟩ := by
  obtain ⟨_, _, _, _, s2, _⟩ := layout2 h name hok
  rw [hok.rand] at s2
  have hL : (h.bytes.getD (randCount name) 0#8 ^^^ h.bytes.getD 0 0#8).toNat = h.misread := by
    rw [s2, head2_first h name hok]; rfl
  obtain ⟨g, rest, g1, g2, _⟩ := layout1_exists h.bytes name _ hL (misread_low _) h1 h2
  have hv1 := headerV1_layout .wrap g name rest g1 hn (.inl rfl) (.inl rfl)
  rw [← g2] at hv1
  unfold msOpen
  cases hg : g.result name with
  | ok H => exact .inr ⟨H, by rw [hv1, hg], by rw [hv1, hg]⟩
  | error e =>
    left
    rw [hv1, hg]
    dsimp only
    rw [result1_error g name e hg, headerV2_layout .wrap C hC h name hok hn (.inl rfl) (.inl rfl)]
    rfl

/-- with a first random byte of 3 -/
example : (aHead2 3#8 0x54#8).misread = 6 ∧ (aHead2 3#8 0x54#8).Ok ['h', 'h', 'h'] ∧ (aHead2 3#8 0x54#8).misread ≤ randCount ['h', 'h', 'h'] ∧
    randCount ['h', 'h', 'h'] + 4 + 2 * (aHead2 3#8 0x54#8).misread + 12 ≤ (aHead2 3#8 0x54#8).bytes.length :=
  ⟨by decide, aHead2_ok _ _, by decide, by decide +kernel⟩

/-- Otherwise it does not open at all. -/
theorem C41_open_v2_crash (m : Mode) (C : ChaCha) (h : Head2) (name : List Char) (hok : h.Ok name)
    (h1 : randCount name < h.misread ∨ h.bytes.length < randCount name + 4 + 2 * h.misread + 12) :
    ∃ e, msOpen m C h.bytes name = .error e ∧ e.isPanic = true := by
  obtain ⟨_, hbl, _, _, s2, _⟩ := layout2 h name hok
  rw [hok.rand] at s2 hbl
  have hd := hok.data
  have hL : (h.bytes.getD (randCount name) 0#8 ^^^ h.bytes.getD 0 0#8).toNat = h.misread := by
    rw [s2, head2_first h name hok]; rfl
  by_cases hp : ∃ e, headerV1 m h.bytes name = .error e ∧ e.isPanic = true
  · obtain ⟨e, he, hpe⟩ := hp
    refine ⟨e, ?_, hpe⟩
    unfold msOpen
    rw [he]
    dsimp only
    rw [hpe]
    rfl
  · exfalso
    obtain ⟨g, rest, g1, g2, g3⟩ := headerV1_every m h.bytes name (by
      intro e he
      refine ⟨fun _ => by omega, ?_⟩
      cases hb : e.isPanic
      · rfl
      · exact absurd ⟨e, he, hb⟩ hp)
    rw [hL] at g3
    have hs := g1.salt
    have hlen := congrArg List.length g2
    rw [List.length_append, head1_length g name g1] at hlen
    omega

/-- with a first random byte of 32 -/
example : (aHead2 0x20#8 0x54#8).Ok ['h', 'h', 'h'] ∧ randCount ['h', 'h', 'h'] < (aHead2 0x20#8 0x54#8).misread := ⟨aHead2_ok _ _, by decide⟩

/-- So opening a well-formed version 2 file can crash the program. -/
theorem C41_open_v2_counterexample : ∃ (C : ChaCha) (h : Head2) (name : List Char), Blocks64 C ∧ h.Ok name ∧ name ≠ [] ∧
    (∃ H, headerV2 .wrap C h.bytes name = .ok H) ∧ ∃ e, msOpen .wrap C h.bytes name = .error e ∧ e.isPanic = true :=
  have hC : Blocks64 countingCipher := fun _ _ n => by unfold countingCipher; exact List.length_replicate
  ⟨countingCipher, aHead2 0x20#8 0x54#8, ['h', 'h', 'h'], hC, aHead2_ok _ _, by decide,
    ⟨_, headerV2_layout .wrap _ hC _ _ (aHead2_ok _ _) (by decide) (.inl rfl) (.inl rfl)⟩, C41_open_v2_crash .wrap _ _ _ (aHead2_ok _ _) (.inl (by decide))⟩

/-- a file shorter than its random bytes crashes the program -/
theorem C41_open_short (m : Mode) (C : ChaCha) (buf : Bytes) (name : List Char) (h : buf.length < randCount name) :
    msOpen m C buf name = .error .panicIndex := by
  have : headerV1 m buf name = .error .panicIndex := by
    unfold headerV1
    simp only [bind, Except.bind, pure, Except.pure]
    rw [sumStr_eq, show nameSum name % 312 + 30 = randCount name by unfold randCount; omega]
    unfold sliceIdx
    rw [if_neg (by omega)]
  unfold msOpen
  rw [this]
  rfl

example (m : Mode) (C : ChaCha) : msOpen m C [1#8, 2#8, 3#8] ['h', 'h', 'h'] = .error .panicIndex := C41_open_short m C _ _ (by decide)

/-! ## tables -/

/-- The table of a version 1 file gives the entries that were written, with the images at the places the format says: the data starts at the
first multiple of 1024 behind the table (which fills whole words of four bytes), each image `start` units of 1024 further. -/
theorem C41_table_v1 : ∃ M : Maps, M.Ok ∧ ∀ (m : Mode) (f : MsFile) (es : List MsEntry) (pre pad rest : Bytes), f.header.nameWithSalt ≠ [] →
    (m = .wrap ∨ NoCarry2 (utf8EncStr f.header.nameWithSalt) 16) → f.header.entryCount = es.length → pre.length = f.header.estart →
    (∀ e ∈ es, EntryOk e ∧ 0 ≤ e.startPos ∧ 0 ≤ e.sizeAligned ∧ e.unk3 = 0 ∧ e.unk4 = 0) →
    ((es.flatMap fields1).flatten ++ pad).length = roundUp 4 (es.flatMap fields1).flatten.length →
    f.buf = pre ++ encrypt (keyWord M (signedKey (key2 (utf8EncStr f.header.nameWithSalt) 16))) 0 ((es.flatMap fields1).flatten ++ pad) ++ rest →
    f.buf.length < 2 ^ 63 →
    f.parseV1 m = .ok (es.map (placed (f.header.estart + roundUp 4 (es.flatMap fields1).flatten.length))) :=
  ⟨Snow.maps, Snow.maps_ok, parseV1_table⟩

/-- The same for version 2, where the table fills whole blocks of 64 bytes, and is encrypted field by field with a key stream that starts anew
behind each field that ends with a block (see C40). -/
theorem C41_table_v2 (m : Mode) (C : ChaCha) (hC : Blocks64 C) (f : MsFile) (es : List MsEntry) (pre rest : Bytes)
    (hB : f.header.nameWithSalt ≠ []) (hk : m = .wrap ∨ NoCarry2 (utf8EncStr f.header.nameWithSalt) 32)
    (hc : f.header.entryCount = es.length) (hs : pre.length = f.header.estart)
    (hes : ∀ e ∈ es, EntryOk e ∧ 0 ≤ e.startPos ∧ 0 ≤ e.sizeAligned) (hrest : 63 ≤ rest.length)
    (hbuf : f.buf = pre ++ restartEncrypt (C (xorBase (key2 (utf8EncStr f.header.nameWithSalt) 32)) (List.replicate 12 0#8)) 0 0 (es.flatMap fields2) ++ rest)
    (hlen : f.buf.length < 2 ^ 63) :
    f.parseV2 m C = .ok (es.map (placed (f.header.estart + roundUp 64 (es.flatMap fields2).flatten.length))) :=
  parseV2_table m C hC f es pre rest hB hk hc hs hes hrest hbuf hlen

/-- Read from the whole file: a version 1 header, a gap, the table, the images. -/
theorem C41_file_v1 : ∃ M : Maps, M.Ok ∧ ∀ (C : ChaCha) (h : Head1) (name : List Char) (H : MsHeader) (es : List MsEntry) (gap pad rest : Bytes),
    h.Ok name → name ≠ [] → h.result name = .ok H → i32At h.plain 5 = es.length → gap.length = 30 + 3 * nameSum name % 212 →
    (∀ e ∈ es, EntryOk e ∧ 0 ≤ e.startPos ∧ 0 ≤ e.sizeAligned ∧ e.unk3 = 0 ∧ e.unk4 = 0) →
    ((es.flatMap fields1).flatten ++ pad).length = roundUp 4 (es.flatMap fields1).flatten.length →
    ∀ buf, buf = h.bytes M name ++ gap ++ encrypt (keyWord M (signedKey (key2 (utf8EncStr (lower name ++ byteText h.chars)) 16))) 0 ((es.flatMap fields1).flatten ++ pad) ++ rest →
    buf.length < 2 ^ 63 →
    (do let f ← msOpen .wrap C buf name; f.parse .wrap C) =
      .ok (es.map (placed ((h.bytes M name ++ gap).length + roundUp 4 (es.flatMap fields1).flatten.length))) := by
  refine ⟨Snow.maps, Snow.maps_ok, fun C h name H es gap pad rest hok hn hH hc hg hes hpad buf hbuf hlen => ?_⟩
  have hv := headerV1_layout .wrap h name (gap ++ encrypt (keyWord Snow.maps (signedKey (key2 (utf8EncStr (lower name ++ byteText h.chars)) 16))) 0
    ((es.flatMap fields1).flatten ++ pad) ++ rest) hok hn (.inl rfl) (.inl rfl)
  have e1 : h.bytes Snow.maps name ++ (gap ++ encrypt (keyWord Snow.maps (signedKey (key2 (utf8EncStr (lower name ++ byteText h.chars)) 16))) 0
    ((es.flatMap fields1).flatten ++ pad) ++ rest) = buf := by rw [hbuf]; simp only [List.append_assoc]
  rw [e1, hH] at hv
  have ho : msOpen .wrap C buf name = .ok ⟨buf, H⟩ := by unfold msOpen; rw [hv]
  have hf : H.nameWithSalt = lower name ++ byteText h.chars ∧ H.entryCount = i32At h.plain 5 ∧ H.msVersion = 1 ∧
      H.estart = randCount name + 4 + 2 * h.salt.length + 42 + 3 * nameSum name % 212 := by
    unfold Head1.result at hH
    split at hH
    · cases hH
    · split at hH
      · cases hH
      · cases hH; exact ⟨rfl, rfl, rfl, rfl⟩
  have hl := head1_length h name hok
  have hes' : (h.bytes Snow.maps name ++ gap).length = H.estart := by rw [List.length_append, hf.2.2.2]; omega
  simp only [bind, Except.bind]
  rw [ho]
  dsimp only
  unfold MsFile.parse
  dsimp only
  rw [if_pos hf.2.2.1, hes']
  exact parseV1_table .wrap ⟨buf, H⟩ es _ pad rest (by
      show H.nameWithSalt ≠ []
      rw [hf.1]
      intro h0
      have := (List.append_eq_nil_iff.mp h0).1
      unfold lower at this
      exact hn (List.map_eq_nil_iff.mp this)) (.inl rfl) (by show H.entryCount = _; rw [hf.2.1, hc]) hes' hes hpad (by
      show buf = _ ++ encrypt (keyWord Snow.maps (signedKey (key2 (utf8EncStr H.nameWithSalt) 16))) 0 _ ++ rest
      rw [hf.1, hbuf]) hlen

theorem utf8EncStr_ne {l : List Char} (h : l ≠ []) : utf8EncStr l ≠ [] := by
  intro he
  obtain ⟨c, l', rfl⟩ := List.exists_cons_of_ne_nil h
  have := congrArg List.length he
  simp only [utf8EncStr, List.flatMap_cons, List.length_append, List.length_nil] at this
  have hpos : 0 < (utf8Enc c).length := by
    unfold utf8Enc
    simp only
    repeat' split
    all_goals simp
  omega

theorem carry_byte (B : Bytes) (hB : B ≠ []) (i : Nat) (h : 256 ≤ (B.getD (B.length - 1 - i % B.length) 0#8 * BitVec.ofNat 8 (2 + i % 3)).toNat + i) :
    entryKeyByte .checked B i = .error .panicOverflow := by
  have hl : B.length ≠ 0 := fun h => hB (List.length_eq_zero_iff.mp h)
  unfold entryKeyByte
  simp only [bind, Except.bind, pure, Except.pure]
  rw [remU_ok hl]
  dsimp only
  rw [nth8_ok (by omega)]
  dsimp only
  generalize B.getD (B.length - 1 - i % B.length) 0#8 = b at h ⊢
  rw [BitVec.toNat_mul, BitVec.toNat_ofNat, Nat.mod_eq_of_lt (a := 2 + i % 3) (by omega), Nat.mul_comm b.toNat, Nat.add_comm 2 (i % 3)] at h
  unfold u8
  rw [if_neg (by omega)]

theorem entryKeyByte_err {B : Bytes} (hB : B ≠ []) {m : Mode} {i : Nat} {e : Err} (h : entryKeyByte m B i = .error e) : e = .panicOverflow := by
  have hl : B.length ≠ 0 := fun h => hB (List.length_eq_zero_iff.mp h)
  unfold entryKeyByte at h
  simp only [bind, Except.bind, pure, Except.pure] at h
  rw [remU_ok hl] at h
  dsimp only at h
  rw [nth8_ok (by omega)] at h
  dsimp only at h
  generalize hu : u8 m _ = u at h
  cases u with
  | ok v => cases h
  | error e' => cases h; exact u8_err hu

/-- A build with overflow checks crashes on the table of every file whose name and salt make a byte of the second key pass 255. -/
theorem C41_table_debug_v1 (f : MsFile) (hB : f.header.nameWithSalt ≠ []) (h : ¬ NoCarry2 (utf8EncStr f.header.nameWithSalt) 16) :
    f.parseV1 .checked = .error .panicOverflow := by
  have hBne := utf8EncStr_ne hB
  have hx : ∃ i < 16, ∃ e, entryKeyByte .checked (utf8EncStr f.header.nameWithSalt) i = .error e := by
    apply Classical.byContradiction
    intro hno
    exact h fun i hi => Nat.lt_of_not_le fun hc => hno ⟨i, hi, _, carry_byte _ hBne i hc⟩
  obtain ⟨i, hi, e, he, ht⟩ := tabulateM_error hx
  unfold MsFile.parseV1
  simp only [bind, Except.bind, pure, Except.pure]
  rw [ht, entryKeyByte_err hBne he]

theorem C41_table_debug_v2 (C : ChaCha) (f : MsFile) (hB : f.header.nameWithSalt ≠ []) (h : ¬ NoCarry2 (utf8EncStr f.header.nameWithSalt) 32)
    (hc : f.header.entryCount ≠ 0) : f.parseV2 .checked C = .error .panicOverflow := by
  have hBne := utf8EncStr_ne hB
  have hx : ∃ i < 32, ∃ e, (do
      let b ← entryKeyByte .checked (utf8EncStr f.header.nameWithSalt) i
      return msKeyBase.getD i 0#8 ^^^ b : Except Err Byte) = .error e := by
    apply Classical.byContradiction
    intro hno
    refine h fun i hi => Nat.lt_of_not_le fun hc => hno ⟨i, hi, .panicOverflow, ?_⟩
    rw [carry_byte _ hBne i hc]
    rfl
  obtain ⟨i, hi, e, he, ht⟩ := tabulateM_error hx
  unfold MsFile.parseV2
  rw [if_neg hc]
  simp only [bind, Except.bind, pure, Except.pure] at ht he ⊢
  rw [ht]
  cases hk : entryKeyByte .checked (utf8EncStr f.header.nameWithSalt) i with
  | ok b => rw [hk] at he; cases he
  | error e' => rw [hk] at he; cases he; rw [entryKeyByte_err hBne hk]

/-- a T as the fifth letter from the end of the salt is enough -/
example : ¬ NoCarry2 (utf8EncStr ("mob_00000.msk".toList ++ ['T', 'a', 'b', 'c', 'd'])) 16 := by unfold NoCarry2; decide +kernel

/-- a table with a negative number of entries crashes the program -/
theorem C41_table_negative (m : Mode) (C : ChaCha) (f : MsFile) (hB : f.header.nameWithSalt ≠ []) (h : f.header.entryCount < 0) :
    (∃ e, f.parseV1 m = .error e ∧ e.isPanic = true) ∧ (∃ e, f.parseV2 m C = .error e ∧ e.isPanic = true) := by
  have hBne := utf8EncStr_ne hB
  have hcap : capacity f.header.entryCount = .error .panicOverflow := by unfold capacity; rw [if_pos h]
  constructor
  · unfold MsFile.parseV1
    simp only [bind, Except.bind, pure, Except.pure]
    cases ht : tabulateM (entryKeyByte m (utf8EncStr f.header.nameWithSalt)) 16 with
    | error e =>
      obtain ⟨i, _, hi⟩ := tabulateM_err ht
      exact ⟨e, rfl, by rw [entryKeyByte_err hBne hi]; rfl⟩
    | ok k =>
      dsimp only
      rw [hcap]
      exact ⟨_, rfl, rfl⟩
  · unfold MsFile.parseV2
    rw [if_neg (by omega)]
    simp only [bind, Except.bind, pure, Except.pure]
    generalize ht : tabulateM _ 32 = t
    cases t with
    | error e =>
      obtain ⟨i, _, hi⟩ := tabulateM_err ht
      refine ⟨e, rfl, ?_⟩
      cases hk : entryKeyByte m (utf8EncStr f.header.nameWithSalt) i with
      | ok b => rw [hk] at hi; cases hi
      | error e' => rw [hk] at hi; cases hi; rw [entryKeyByte_err hBne hk]; rfl
    | ok k =>
      dsimp only
      rw [hcap]
      exact ⟨_, rfl, rfl⟩

example (m : Mode) : ∃ e, (⟨[1#8], ⟨['k', 'T'], ['h', 'k', 'T'], 0, 2, -3, 0, 0, 1⟩⟩ : MsFile).parseV1 m = .error e ∧ e.isPanic = true :=
  (C41_table_negative m countingCipher _ (List.cons_ne_nil _ _) (by decide)).1

/-- The table is the one encrypted with the plain key stream as long as no field but the last ends with a block of 64 bytes. -/
theorem C41_table_plain (ks : Nat → Bytes) (fs : List Bytes) (h : ∀ A f B, fs = A ++ f :: B → B ≠ [] → (A.flatten.length + f.length) % 64 ≠ 0) :
    restartEncrypt ks 0 0 fs = fs.flatten.mapIdx fun i b => b ^^^ (ks (i / 64)).getD (i % 64) 0#8 := by
  suffices H : ∀ (fs pre : List Bytes), (∀ A f B, fs = A ++ f :: B → B ≠ [] → ((pre ++ A).flatten.length + f.length) % 64 ≠ 0) →
      restartEncrypt ks 0 pre.flatten.length fs = fs.flatten.mapIdx fun i b => b ^^^ (ks ((pre.flatten.length + i) / 64)).getD ((pre.flatten.length + i) % 64) 0#8 by
    have := H fs [] (by simpa using h)
    simpa using this
  intro fs
  induction fs with
  | nil => intro pre _; rfl
  | cons f fs ih =>
    intro pre h
    have hp : pre.flatten.length + f.length = (pre ++ [f]).flatten.length := by simp
    rw [restartEncrypt, List.flatten_cons, List.mapIdx_append]
    congr 1
    by_cases hfs : fs = []
    · subst hfs; rfl
    · have hb := h [] f fs rfl hfs
      rw [List.append_nil] at hb
      rw [if_neg hb, hp, ih (pre ++ [f])]
      · congr 1
        funext i b
        rw [show (pre ++ [f]).flatten.length + i = pre.flatten.length + (i + f.length) by rw [← hp]; omega]
      · intro A g B he hB
        have := h (f :: A) g B (by rw [he]; rfl) hB
        rwa [List.append_assoc, List.singleton_append]

/-- an entry for the examples -/
def anEntry (name : List Char) : MsEntry := ⟨name, 7, 1, 2, 5, 1024, 0, 0, List.replicate 16 3#8, 0, 0⟩

/-- the table of the example, in the plain key stream -/
def borderTable : Bytes := ((([anEntry ['a', 'b', 'c', 'd'], anEntry ['e']].flatMap fields2).flatten ++ List.replicate 128 0#8).mapIdx fun i b => b ^^^
  (countingCipher (xorBase (key2 (utf8EncStr ['a']) 32)) (List.replicate 12 0#8) (i / 64)).getD (i % 64) 0#8)

theorem blocks_counting : Blocks64 countingCipher := fun _ _ n => by unfold countingCipher; exact List.length_replicate

example : EntryOk (anEntry ['a', 'b']) ∧ 0 ≤ (anEntry ['a', 'b']).startPos ∧ ((([anEntry ['a', 'b']].flatMap fields1).flatten ++ []).length =
    roundUp 4 ([anEntry ['a', 'b']].flatMap fields1).flatten.length) := by
  refine ⟨⟨?_, ?_, ?_⟩, ?_, ?_⟩ <;> decide +kernel

/-- no field but the last of an entry with such a name ends with a block -/
example : (([anEntry ['a', 'b', 'c', 'd']].flatMap fields2).flatten.length = 64) ∧ ∀ k < 11,
    ((([anEntry ['a', 'b', 'c', 'd']].flatMap fields2).take (k + 1)).flatten.length) % 64 ≠ 0 := by decide +kernel

/-- Otherwise it is not: in a table in the plain key stream whose first name has four letters, the second entry is misread. -/
theorem C41_table_border : ∃ (C : ChaCha) (f : MsFile) (es : List MsEntry), Blocks64 C ∧ f.header.nameWithSalt ≠ [] ∧ f.header.entryCount = es.length ∧
    (∀ e ∈ es, EntryOk e ∧ 0 ≤ e.startPos ∧ 0 ≤ e.sizeAligned) ∧ f.header.estart = 0 ∧
    f.buf = ((es.flatMap fields2).flatten ++ List.replicate 128 0#8).mapIdx (fun i b => b ^^^
      (C (xorBase (key2 (utf8EncStr f.header.nameWithSalt) 32)) (List.replicate 12 0#8) (i / 64)).getD (i % 64) 0#8) ∧
    f.parseV2 .wrap C ≠ .ok (es.map (placed (roundUp 64 (es.flatMap fields2).flatten.length))) := by
  refine ⟨countingCipher, ⟨borderTable, ⟨[], ['a'], 0, 4, 2, 0, 0, 2⟩⟩, [anEntry ['a', 'b', 'c', 'd'], anEntry ['e']], blocks_counting,
    List.cons_ne_nil _ _, rfl, ?_, rfl, by decide +kernel, by decide +kernel⟩
  intro e he
  refine ⟨⟨?_, ?_, ?_⟩, ?_, ?_⟩ <;> revert e he <;> decide +kernel

end Wz.Props
