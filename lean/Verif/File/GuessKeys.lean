import Verif.File.GuessLemmas

/-!
# When a name can be read with two keys
-/

set_option autoImplicit false

namespace Wz

open Spec

theorem Spec.Holds.unique {buf : Bytes} {p : Nat} {a b : Bytes} (h1 : Holds buf p a) (h2 : Holds buf p b) (hl : a.length = b.length) :
    a = b := by rw [← h1.slice, ← h2.slice, hl]

theorem top_msb (b : Byte) : top b = b.msb := by
  unfold top
  rw [BitVec.msb_eq_decide]

theorem top_xor (a b : Byte) : top (a ^^^ b) = (top a ^^ top b) := by
  simp only [top_msb, BitVec.msb_xor]

theorem top_char {c : Char} (h : c.toNat < 128) : top (BitVec.ofNat 8 c.toNat) = false := by
  unfold top
  simp only [BitVec.toNat_ofNat, decide_eq_false_iff_not]
  omega

theorem narrow_iff {buf bs : Bytes} {p n : Nat} {ks : Nat → Byte} (hh : Holds buf p bs) (hn : bs.length = n) :
    NameAt buf p n .narrow ks ↔ ∀ i (h : i < bs.length), top (bs[i] ^^^ BitVec.ofNat 8 (0xAA + i) ^^^ ks i) = false := by
  constructor
  · rintro ⟨s, h1, h2, h3⟩ i hi
    have he := hh.unique h3 (by simp [nameBytes, cipherAscii]; omega)
    subst he
    simp only [nameBytes, cipherAscii, List.getElem_mapIdx, List.getElem_map]
    have hc : ∀ a m k : Byte, a ^^^ m ^^^ k ^^^ m ^^^ k = a := by
      intro a m k
      rw [BitVec.xor_assoc (a ^^^ m) k m, BitVec.xor_comm k m, ← BitVec.xor_assoc (a ^^^ m) m k, BitVec.xor_assoc a m m]
      simp [BitVec.xor_assoc]
    rw [hc]
    exact top_char (h1 _ (List.getElem_mem _))
  · intro h
    have hlt : ∀ i (hi : i < bs.length), (bs[i] ^^^ BitVec.ofNat 8 (0xAA + i) ^^^ ks i).toNat < 128 := by
      intro i hi
      have := h i hi
      unfold top at this
      simpa using this
    have hc : ∀ x : Nat, x < 128 → (Char.ofNat x).toNat = x := by
      intro x hx
      exact toNat_ofNat_char (by omega)
    refine ⟨bs.mapIdx fun i b => Char.ofNat (b ^^^ BitVec.ofNat 8 (0xAA + i) ^^^ ks i).toNat, ?_, by simpa using hn, ?_⟩
    · intro c hcm
      obtain ⟨i, hi, rfl⟩ := List.getElem_of_mem hcm
      have hi' : i < bs.length := by simpa using hi
      simp only [List.getElem_mapIdx]
      rw [hc _ (hlt i hi')]
      exact hlt i hi'
    · have he : nameBytes ks (bs.mapIdx fun i b => Char.ofNat (b ^^^ BitVec.ofNat 8 (0xAA + i) ^^^ ks i).toNat) .narrow = bs := by
        apply List.ext_getElem
        · simp [nameBytes, cipherAscii]
        · intro i h1 h2
          simp only [nameBytes, cipherAscii, List.getElem_mapIdx, List.getElem_map]
          rw [hc _ (hlt i h2), BitVec.ofNat_toNat, BitVec.setWidth_eq]
          simp [BitVec.xor_assoc]
          rw [BitVec.xor_comm (ks i), BitVec.xor_assoc, BitVec.xor_self]
          simp
      rw [he]
      exact hh

/-- the bytes of an ASCII text of two bytes a character -/
theorem ascii_units {s : List Char} (h : ∀ c ∈ s, c.toNat < 128) :
    utf16EncStr s = s.map fun c => BitVec.ofNat 16 c.toNat := by
  induction s with
  | nil => rfl
  | cons c s ih =>
    simp only [utf16EncStr, List.flatMap_cons, List.map_cons] at *
    rw [ih fun x hx => h x (by simp [hx])]
    have : utf16Enc c = [BitVec.ofNat 16 c.toNat] := by
      have := h c (by simp)
      unfold utf16Enc
      rw [if_pos (by omega)]
    rw [this]
    rfl

theorem unitBytes_get : ∀ (us : List (BitVec 16)) (j : Nat) (hj : j < us.length),
    (unitBytes us)[2 * j]? = some (BitVec.ofNat 8 us[j].toNat) ∧ (unitBytes us)[2 * j + 1]? = some (BitVec.ofNat 8 (us[j].toNat / 256))
  | u :: us, 0, _ => ⟨rfl, rfl⟩
  | u :: us, j + 1, hj => by
    have := unitBytes_get us j (by simpa using hj)
    have e : unitBytes (u :: us) = BitVec.ofNat 8 u.toNat :: BitVec.ofNat 8 (u.toNat / 256) :: unitBytes us := rfl
    rw [e, show 2 * (j + 1) = (2 * j) + 1 + 1 by omega]
    simpa using this

theorem unitBytes_even {us : List (BitVec 16)} {j : Nat} (hj : j < us.length) (h : 2 * j < (unitBytes us).length) :
    (unitBytes us)[2 * j] = BitVec.ofNat 8 us[j].toNat := by
  have := (unitBytes_get us j hj).1
  rw [List.getElem?_eq_getElem h] at this
  exact Option.some.inj this

theorem unitBytes_odd {us : List (BitVec 16)} {j : Nat} (hj : j < us.length) (h : 2 * j + 1 < (unitBytes us).length) :
    (unitBytes us)[2 * j + 1] = BitVec.ofNat 8 (us[j].toNat / 256) := by
  have := (unitBytes_get us j hj).2
  rw [List.getElem?_eq_getElem h] at this
  exact Option.some.inj this

/-- the bytes of an ASCII text of two bytes a character have the top bit clear -/
theorem ascii_unit_top {s : List Char} (hs : ∀ c ∈ s, c.toNat < 128) (i : Nat) (h : i < (unitBytes (utf16EncStr s)).length) :
    top (unitBytes (utf16EncStr s))[i] = false := by
  have hl : (unitBytes (utf16EncStr s)).length = 2 * s.length := by rw [length_unitBytes, utf16EncStr_len_ascii hs]
  have hj : i / 2 < (utf16EncStr s).length := by rw [utf16EncStr_len_ascii hs]; omega
  have hu : (utf16EncStr s)[i / 2].toNat < 128 := by
    have he : (utf16EncStr s)[i / 2] ∈ utf16EncStr s := List.getElem_mem _
    generalize (utf16EncStr s)[i / 2] = u at he
    rw [ascii_units hs] at he
    obtain ⟨c, h1, rfl⟩ := List.mem_map.mp he
    have := hs c h1
    simp only [BitVec.toNat_ofNat]
    omega
  rcases (by omega : i = 2 * (i / 2) ∨ i = 2 * (i / 2) + 1) with hi | hi
  · have := unitBytes_even hj (by omega)
    rw [show (unitBytes (utf16EncStr s))[i] = (unitBytes (utf16EncStr s))[2 * (i / 2)]'(by omega) by congr 1, this]
    unfold top
    simp only [BitVec.toNat_ofNat, decide_eq_false_iff_not]
    omega
  · have := unitBytes_odd hj (by omega)
    rw [show (unitBytes (utf16EncStr s))[i] = (unitBytes (utf16EncStr s))[2 * (i / 2) + 1]'(by omega) by congr 1, this]
    unfold top
    simp only [BitVec.toNat_ofNat, decide_eq_false_iff_not]
    omega

theorem top_mask (i : Nat) (h : i < 127) : top (BitVec.ofNat 8 (0xAA + i)) = decide (i < 86) := by
  unfold top
  simp only [BitVec.toNat_ofNat, decide_eq_decide]
  omega

theorem narrow_of_narrow {buf : Bytes} {p : Nat} {ks ks' : Nat → Byte} {s : List Char} (hs : ∀ c ∈ s, c.toNat < 128)
    (h : Holds buf p (nameBytes ks s .narrow)) :
    NameAt buf p s.length .narrow ks' ↔ ∀ i < s.length, top (ks i) = top (ks' i) := by
  have hlen : (nameBytes ks s .narrow).length = s.length := by simp [nameBytes, cipherAscii]
  rw [narrow_iff h hlen]
  constructor
  · intro hh i hi
    have := hh i (by omega)
    simp only [nameBytes, cipherAscii, List.getElem_mapIdx, List.getElem_map, top_xor, top_char (hs _ (List.getElem_mem _))] at this
    revert this
    cases top (ks i) <;> cases top (ks' i) <;> cases top (BitVec.ofNat 8 (0xAA + i)) <;> decide
  · intro hh i hi
    have := hh i (by omega)
    simp only [nameBytes, cipherAscii, List.getElem_mapIdx, List.getElem_map, top_xor, top_char (hs _ (List.getElem_mem _)), this]
    cases top (ks' i) <;> cases top (BitVec.ofNat 8 (0xAA + i)) <;> decide

theorem narrow_of_dir {buf : Bytes} {p : Nat} {ks ks' : Nat → Byte} {s : List Char} (hs : ∀ c ∈ s, c.toNat < 128)
    (hn : s.length ≤ 127) (h : Holds buf p (nameBytes ks s .dir)) :
    NameAt buf p s.length .narrow ks' ↔ ∀ i < s.length, (top (ks i) ≠ top (ks' i) ↔ i < 86) := by
  have hl : (unitBytes (utf16EncStr s)).length = 2 * s.length := by rw [length_unitBytes, utf16EncStr_len_ascii hs]
  have hlen : (nameBytes ks s .dir).length = 2 * s.length := by simp [nameBytes, cipherPkg2, utf16EncStr_len_ascii hs]
  have ht : Holds buf p ((nameBytes ks s .dir).take s.length) := by
    rw [← List.take_append_drop s.length (nameBytes ks s .dir)] at h
    exact h.left
  have hlt : ((nameBytes ks s .dir).take s.length).length = s.length := by rw [List.length_take, hlen]; omega
  rw [narrow_iff ht hlt]
  have key : ∀ i (hi : i < ((nameBytes ks s .dir).take s.length).length),
      top (((nameBytes ks s .dir).take s.length)[i] ^^^ BitVec.ofNat 8 (0xAA + i) ^^^ ks' i) =
        ((top (ks i) ^^ decide (i < 86)) ^^ top (ks' i)) := by
    intro i hi
    rw [hlt] at hi
    simp only [nameBytes, cipherPkg2, List.getElem_take, List.getElem_mapIdx, top_xor, top_mask i (by omega),
      ascii_unit_top hs i (by omega), Bool.false_bne]
  constructor
  · intro hh i hi
    have h1 := hh i (by omega)
    rw [key i (by omega)] at h1
    by_cases h8 : i < 86
    · simp only [h8, decide_true, iff_true] at h1 ⊢
      revert h1
      cases top (ks i) <;> cases top (ks' i) <;> decide
    · simp only [h8, decide_false, iff_false] at h1 ⊢
      revert h1
      cases top (ks i) <;> cases top (ks' i) <;> decide
  · intro hh i hi
    rw [key i hi]
    have h1 := hh i (by omega)
    by_cases h8 : i < 86
    · simp only [h8, decide_true, iff_true] at h1 ⊢
      revert h1
      cases top (ks i) <;> cases top (ks' i) <;> decide
    · simp only [h8, decide_false, iff_false] at h1 ⊢
      revert h1
      cases top (ks i) <;> cases top (ks' i) <;> decide

theorem lo_xor (a b : BitVec 16) : BitVec.ofNat 8 (a ^^^ b).toNat = BitVec.ofNat 8 a.toNat ^^^ BitVec.ofNat 8 b.toNat := by
  rw [BitVec.ofNat_toNat, BitVec.ofNat_toNat, BitVec.ofNat_toNat, BitVec.setWidth_xor]

theorem hi_xor (a b : BitVec 16) :
    BitVec.ofNat 8 ((a ^^^ b).toNat / 256) = BitVec.ofNat 8 (a.toNat / 256) ^^^ BitVec.ofNat 8 (b.toNat / 256) := by
  have : ∀ x : BitVec 16, BitVec.ofNat 8 (x.toNat / 256) = (x >>> 8).setWidth 8 := by
    intro x
    apply BitVec.eq_of_toNat_eq
    simp [Nat.shiftRight_eq_div_pow]
  rw [this, this, this, BitVec.ushiftRight_xor_distrib, BitVec.setWidth_xor]

/-- the mask of a unit, as two bytes -/
def wideMask (j : Nat) : BitVec 16 := BitVec.ofNat 16 (0xAAAA + j)

theorem wide_len {ks : Nat → Byte} {s : List Char} (hs : ∀ c ∈ s, c.toNat < 128) : (nameBytes ks s .wide).length = 2 * s.length := by
  simp [nameBytes, cipherUnicode, utf16EncStr_len_ascii hs]

theorem wide_byte {ks : Nat → Byte} {s : List Char} (hs : ∀ c ∈ s, c.toNat < 128) {j : Nat} (hj : j < s.length) :
    (nameBytes ks s .wide)[2 * j]? = some (BitVec.ofNat 8 s[j].toNat ^^^ BitVec.ofNat 8 (wideMask j).toNat ^^^ ks (2 * j)) ∧
    (nameBytes ks s .wide)[2 * j + 1]? = some (BitVec.ofNat 8 ((wideMask j).toNat / 256) ^^^ ks (2 * j + 1)) := by
  have hl : j < ((utf16EncStr s).mapIdx fun i u => u ^^^ BitVec.ofNat 16 (0xAAAA + i)).length := by
    simpa [utf16EncStr_len_ascii hs] using hj
  obtain ⟨h1, h2⟩ := unitBytes_get _ j hl
  have hc := hs s[j] (List.getElem_mem hj)
  have he : ((utf16EncStr s).mapIdx fun i u => u ^^^ BitVec.ofNat 16 (0xAAAA + i))[j] = BitVec.ofNat 16 s[j].toNat ^^^ wideMask j := by
    simp [ascii_units hs, wideMask]
  rw [he] at h1 h2
  unfold nameBytes cipherUnicode
  dsimp only
  rw [List.getElem?_mapIdx, List.getElem?_mapIdx, h1, h2, lo_xor, hi_xor]
  constructor
  · simp only [Option.map_some]
    congr 3
    apply BitVec.eq_of_toNat_eq
    simp only [BitVec.toNat_ofNat]
    omega
  · simp only [Option.map_some]
    congr 2
    have : BitVec.ofNat 8 ((BitVec.ofNat 16 s[j].toNat).toNat / 256) = 0#8 := by
      apply BitVec.eq_of_toNat_eq
      simp only [BitVec.toNat_ofNat]
      omega
    rw [this]
    simp

theorem xor_swap {a b m k k' : Byte} (h : a ^^^ m ^^^ k = b ^^^ m ^^^ k') : b = a ^^^ k ^^^ k' := by
  have : a ^^^ m ^^^ k ^^^ k' ^^^ m = b ^^^ m ^^^ k' ^^^ k' ^^^ m := by rw [h]
  rw [BitVec.xor_assoc (b ^^^ m), BitVec.xor_self, BitVec.xor_zero, BitVec.xor_assoc b, BitVec.xor_self, BitVec.xor_zero] at this
  rw [← this, BitVec.xor_assoc a m k, BitVec.xor_comm m k, ← BitVec.xor_assoc a k m, BitVec.xor_assoc (a ^^^ k) m k', BitVec.xor_comm m k',
    ← BitVec.xor_assoc (a ^^^ k) k' m, BitVec.xor_assoc (a ^^^ k ^^^ k') m m, BitVec.xor_self, BitVec.xor_zero]

theorem xor_swap' {a b m k k' : Byte} (h : b = a ^^^ k ^^^ k') : b ^^^ m ^^^ k' = a ^^^ m ^^^ k := by
  rw [h, BitVec.xor_assoc (a ^^^ k) k' m, BitVec.xor_comm k' m, ← BitVec.xor_assoc (a ^^^ k) m k', BitVec.xor_assoc (a ^^^ k ^^^ m) k' k',
    BitVec.xor_self, BitVec.xor_zero, BitVec.xor_assoc a k m, BitVec.xor_comm k m, ← BitVec.xor_assoc]

theorem wide_of_wide {buf : Bytes} {p : Nat} {ks ks' : Nat → Byte} {s : List Char} (hs : ∀ c ∈ s, c.toNat < 128)
    (h : Holds buf p (nameBytes ks s .wide)) :
    NameAt buf p s.length .wide ks' ↔
      ∀ i < s.length, top (ks (2 * i)) = top (ks' (2 * i)) ∧ ks (2 * i + 1) = ks' (2 * i + 1) := by
  constructor
  · rintro ⟨s', h1, h2, h3⟩ i hi
    have he := h.unique h3 (by rw [wide_len hs, wide_len h1, h2])
    obtain ⟨a1, a2⟩ := wide_byte (ks := ks) hs hi
    obtain ⟨b1, b2⟩ := wide_byte (ks := ks') h1 (j := i) (by omega)
    rw [he] at a1 a2
    rw [a1] at b1
    rw [a2] at b2
    have c1 := xor_swap (Option.some.inj b1)
    have c2 := Option.some.inj b2
    constructor
    · have := congrArg top c1
      rw [top_xor, top_xor, top_char (hs _ (List.getElem_mem _)), top_char (h1 _ (List.getElem_mem _))] at this
      revert this
      cases top (ks (2 * i)) <;> cases top (ks' (2 * i)) <;> decide
    · have := congrArg (fun x => BitVec.ofNat 8 ((wideMask i).toNat / 256) ^^^ x) c2
      simpa [← BitVec.xor_assoc] using this
  · intro hh
    have hlt : ∀ i (hi : i < s.length), (BitVec.ofNat 8 s[i].toNat ^^^ ks (2 * i) ^^^ ks' (2 * i)).toNat < 128 := by
      intro i hi
      have h1 : top (BitVec.ofNat 8 s[i].toNat ^^^ ks (2 * i) ^^^ ks' (2 * i)) = false := by
        rw [top_xor, top_xor, top_char (hs _ (List.getElem_mem _)), (hh i hi).1]
        cases top (ks' (2 * i)) <;> rfl
      unfold top at h1
      simpa using h1
    have hc : ∀ x : Nat, x < 128 → (Char.ofNat x).toNat = x := fun x hx => toNat_ofNat_char (by omega)
    let s' := s.mapIdx fun i c => Char.ofNat (BitVec.ofNat 8 c.toNat ^^^ ks (2 * i) ^^^ ks' (2 * i)).toNat
    have hl' : s'.length = s.length := by simp [s']
    have hs' : ∀ c ∈ s', c.toNat < 128 := by
      intro c hcm
      obtain ⟨i, hi, rfl⟩ := List.getElem_of_mem hcm
      have hi' : i < s.length := by simpa [s'] using hi
      simp only [s', List.getElem_mapIdx]
      rw [hc _ (hlt i hi')]
      exact hlt i hi'
    refine ⟨s', hs', hl', ?_⟩
    have he : nameBytes ks' s' .wide = nameBytes ks s .wide := by
      apply List.ext_getElem?
      intro j
      by_cases hj : j / 2 < s.length
      · obtain ⟨a1, a2⟩ := wide_byte (ks := ks) hs hj
        obtain ⟨b1, b2⟩ := wide_byte (ks := ks') hs' (j := j / 2) (by omega)
        have hget : BitVec.ofNat 8 (s'[j / 2]'(by omega)).toNat =
            BitVec.ofNat 8 s[j / 2].toNat ^^^ ks (2 * (j / 2)) ^^^ ks' (2 * (j / 2)) := by
          simp only [s', List.getElem_mapIdx]
          rw [hc _ (hlt _ hj), BitVec.ofNat_toNat, BitVec.setWidth_eq]
        rcases (by omega : j = 2 * (j / 2) ∨ j = 2 * (j / 2) + 1) with h2 | h2
        · rw [h2, a1, b1, xor_swap' hget]
        · rw [h2, a2, b2, (hh _ hj).2]
      · rw [List.getElem?_eq_none (by rw [wide_len hs', hl']; omega), List.getElem?_eq_none (by rw [wide_len hs]; omega)]
    rw [he]
    exact h

/-- a text that is not ASCII is not read as ASCII text with its own key -/
theorem wide_not_ascii {buf : Bytes} {p n : Nat} {ks : Nat → Byte} {s : List Char} (hb : buf.length < 2 ^ 63)
    (hn : (utf16EncStr s).length = n) (hs : ¬∀ c ∈ s, c.toNat < 128) (h : Holds buf p (nameBytes ks s .wide)) :
    ¬NameAt buf p n .wide ks := by
  rintro ⟨s', h1, h2, h3⟩
  have r1 := resolveUnicode_cipher (m := .checked) (us := utf16EncStr s) (ks := ks) h rfl hb
  have r2 := resolveUnicode_cipher (m := .checked) (us := utf16EncStr s') (ks := ks) h3 rfl hb
  rw [utf16EncStr_len_ascii h1, h2, ← hn, r1] at r2
  have e := utf16Strict_encStr s
  rw [Except.ok.inj r2, utf16Strict_encStr] at e
  exact hs (Except.ok.inj e ▸ h1)

end Wz
