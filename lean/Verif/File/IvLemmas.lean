import Verif.File.IvSpec
import Verif.File.GuessEdgeProps

/-!
# Lemmas about the IV of an archive
-/

set_option autoImplicit false

namespace Wz

open Spec

theorem unit_eq {u : BitVec 16} {n : Nat} (h : u.toNat = n) : BitVec.ofNat 16 n = u := by
  subst h
  simp

theorem utf16Dec_inv : ∀ (s : List Char) (us : List (BitVec 16)), utf16Dec us = s.map some → us = utf16EncStr s := by
  intro s
  induction s with
  | nil =>
    intro us h
    cases us with
    | nil => rfl
    | cons u r =>
      exfalso
      unfold utf16Dec at h
      split at h
      · cases h
      · split at h
        · split at h
          · cases h
          · split at h <;> cases h
        · cases h
  | cons c s ih =>
    intro us h
    cases us with
    | nil => cases h
    | cons u r =>
      have hu : u.toNat < 65536 := u.isLt
      unfold utf16Dec at h
      by_cases h1 : isLow u = true
      · rw [if_pos h1] at h; cases (List.cons.inj h).1
      · rw [if_neg h1] at h
        by_cases h2 : isHigh u = true
        · rw [if_pos h2] at h
          cases r with
          | nil => cases (List.cons.inj h).1
          | cons v r' =>
            dsimp only at h
            have hv : v.toNat < 65536 := v.isLt
            by_cases h3 : isLow v = true
            · rw [if_pos h3] at h
              have hc := Option.some.inj (List.cons.inj h).1
              have ht := ih r' (List.cons.inj h).2
              simp only [isHigh, isLow, Bool.and_eq_true, decide_eq_true_eq] at h2 h3
              have hn : c.toNat = 0x10000 + (u.toNat - 0xD800) * 0x400 + (v.toNat - 0xDC00) := by
                rw [← hc]
                exact toNat_ofNat_char (by omega)
              have he : utf16Enc c = [u, v] := by
                unfold utf16Enc
                rw [if_neg (by omega)]
                rw [unit_eq (u := u) (by omega), unit_eq (u := v) (by omega)]
              rw [ht]
              simp only [utf16EncStr, List.flatMap_cons, he]
              rfl
            · rw [if_neg h3] at h; cases (List.cons.inj h).1
        · rw [if_neg h2] at h
          have hc := Option.some.inj (List.cons.inj h).1
          have ht := ih r (List.cons.inj h).2
          simp only [isHigh, isLow, Bool.and_eq_true, decide_eq_true_eq] at h1 h2
          have hn : c.toNat = u.toNat := by
            rw [← hc]
            exact toNat_ofNat_char (by omega)
          have he : utf16Enc c = [u] := by
            unfold utf16Enc
            rw [if_pos (by omega), unit_eq (u := u) (by omega)]
          rw [ht]
          simp only [utf16EncStr, List.flatMap_cons, he]
          rfl

theorem utf16Strict_inv {us : List (BitVec 16)} {s : List Char} (h : utf16Strict us = .ok s) : us = utf16EncStr s := by
  unfold utf16Strict at h
  cases ha : allSome (utf16Dec us) with
  | none => rw [ha] at h; cases h
  | some t =>
    rw [ha] at h
    cases h
    exact utf16Dec_inv _ _ (allSome_eq ha)

theorem fileIvKey_plain (st : Bytes → Nat → Byte) (iv : Bytes) : keyForPlain (fileIvKey st iv) = streamOfIv st iv := rfl

theorem text_reads {m : Mode} {buf : Bytes} {k : SKey} {p n : Nat} {form : NameForm} (hb : buf.length < 2 ^ 63) (hd : form ≠ .dir)
    (h : TextAt buf p n form (keyForPlain k)) :
    ∃ s, tryResolveMeta (k.env m buf) (NameForm.ty form) p (NameForm.size n form) = .ok s := by
  obtain ⟨s, h1, h2⟩ := h
  refine ⟨s, ?_⟩
  cases form with
  | narrow =>
    show (resolveAsciiRaw m buf (keyForPlain k) p n >>= utf8Strict) = _
    rw [resolveAscii_cipher (ks := keyForPlain k) (bs := utf8EncStr s) h2 h1 hb]
    exact utf8Strict_encStr s
  | wide =>
    show (resolveUnicodeRaw m buf (keyForPlain k) p (2 * n) >>= utf16Strict) = _
    have h1' : (utf16EncStr s).length = n := h1
    rw [resolveUnicode_cipher (ks := keyForPlain k) (us := utf16EncStr s) h2 (by rw [h1']) hb]
    exact utf16Strict_encStr s
  | dir => exact absurd rfl hd

theorem text_only {m : Mode} {buf : Bytes} {k : SKey} {p n : Nat} {form : NameForm} {s : List Char} (hb : buf.length < 2 ^ 63)
    (hn : n < 2 ^ 32) (hd : form ≠ .dir)
    (h : tryResolveMeta (k.env m buf) (NameForm.ty form) p (NameForm.size n form) = .ok s) :
    TextAt buf p n form (keyForPlain k) := by
  cases form with
  | narrow =>
    obtain ⟨bs, h1, h2⟩ := bind_ok (show (resolveAsciiRaw m buf (keyForPlain k) p n >>= utf8Strict) = _ from h)
    obtain ⟨h3, h4⟩ := cipherAscii_of_read hb (by omega) h1
    have h5 := utf8Strict_inv h2
    subst h5
    exact ⟨s, h3, h4⟩
  | wide =>
    obtain ⟨us, h1, h2⟩ := bind_ok (show (resolveUnicodeRaw m buf (keyForPlain k) p (2 * n) >>= utf16Strict) = _ from h)
    obtain ⟨h3, h4⟩ := cipherUnicode_of_read hb (by omega) h1
    have h5 := utf16Strict_inv h2
    subst h5
    exact ⟨s, by show (utf16EncStr s).length = n; omega, h4⟩
  | dir => exact absurd rfl hd

open Classical in
theorem verifyFileIv_eq {m : Mode} {st : Bytes → Nat → Byte} {buf iv : Bytes} {p n : Nat} {form : NameForm} (hb : buf.length < 2 ^ 63)
    (hp : p ≤ buf.length) (hn : n < 2 ^ 32) (hd : form ≠ .dir)
    (h : ((Rd.firstName (headerOf buf)).run ((fileIvKey st iv).env m buf) ⟨0, 0⟩).1 = .ok ⟨p, NameForm.size n form, NameForm.ty form⟩) :
    verifyFileIv m st buf iv = .ok (decide (TextAt buf p n form (streamOfIv st iv))) := by
  unfold verifyFileIv
  dsimp only
  rw [h]
  dsimp only
  cases hr : tryResolveMeta ((fileIvKey st iv).env m buf) (NameForm.ty form) p (NameForm.size n form) with
  | error x =>
    dsimp only
    rw [name_err hb hp hn hr, decide_eq_false (fun hh => by
      obtain ⟨s, h2⟩ := text_reads (m := m) (k := fileIvKey st iv) hb hd (by rw [fileIvKey_plain]; exact hh)
      rw [hr] at h2
      cases h2)]
    rfl
  | ok s =>
    have := text_only hb hn hd hr
    rw [fileIvKey_plain] at this
    rw [decide_eq_true this]

/-- the two bytes of a key for a unit -/
def unitKey (ks : Nat → Byte) (j : Nat) : BitVec 16 := BitVec.ofNat 16 ((ks (2 * j)).toNat + 256 * (ks (2 * j + 1)).toNat)

theorem unitKey_lo (ks : Nat → Byte) (j : Nat) : BitVec.ofNat 8 (unitKey ks j).toNat = ks (2 * j) := by
  have := (ks (2 * j)).isLt
  have := (ks (2 * j + 1)).isLt
  apply BitVec.eq_of_toNat_eq
  simp only [unitKey, BitVec.toNat_ofNat]
  omega

theorem unitKey_hi (ks : Nat → Byte) (j : Nat) : BitVec.ofNat 8 ((unitKey ks j).toNat / 256) = ks (2 * j + 1) := by
  have := (ks (2 * j)).isLt
  have := (ks (2 * j + 1)).isLt
  apply BitVec.eq_of_toNat_eq
  simp only [unitKey, BitVec.toNat_ofNat]
  omega

/-- the units another key reads -/
def otherUnits (ks ks' : Nat → Byte) (us : List (BitVec 16)) : List (BitVec 16) :=
  us.mapIdx fun j u => u ^^^ unitKey ks j ^^^ unitKey ks' j

theorem cipherUnicode_get (ks : Nat → Byte) (us : List (BitVec 16)) {j : Nat} (hj : j < us.length) :
    (cipherUnicode ks us)[2 * j]? = some (BitVec.ofNat 8 us[j].toNat ^^^ BitVec.ofNat 8 (wideMask j).toNat ^^^ ks (2 * j)) ∧
    (cipherUnicode ks us)[2 * j + 1]? =
      some (BitVec.ofNat 8 (us[j].toNat / 256) ^^^ BitVec.ofNat 8 ((wideMask j).toNat / 256) ^^^ ks (2 * j + 1)) := by
  have hl : j < (us.mapIdx fun i u => u ^^^ BitVec.ofNat 16 (0xAAAA + i)).length := by simpa using hj
  obtain ⟨h1, h2⟩ := unitBytes_get _ j hl
  have he : (us.mapIdx fun i u => u ^^^ BitVec.ofNat 16 (0xAAAA + i))[j] = us[j] ^^^ wideMask j := by simp [wideMask]
  rw [he] at h1 h2
  unfold cipherUnicode
  rw [List.getElem?_mapIdx, List.getElem?_mapIdx, h1, h2, lo_xor, hi_xor]
  exact ⟨rfl, rfl⟩

theorem cipherUnicode_len (ks : Nat → Byte) (us : List (BitVec 16)) : (cipherUnicode ks us).length = 2 * us.length := by
  simp [cipherUnicode]

theorem cipherUnicode_other (ks ks' : Nat → Byte) (us : List (BitVec 16)) :
    cipherUnicode ks' (otherUnits ks ks' us) = cipherUnicode ks us := by
  have hl : (otherUnits ks ks' us).length = us.length := by simp [otherUnits]
  apply List.ext_getElem?
  intro i
  by_cases hj : i / 2 < us.length
  · obtain ⟨a1, a2⟩ := cipherUnicode_get ks us hj
    obtain ⟨b1, b2⟩ := cipherUnicode_get ks' (otherUnits ks ks' us) (j := i / 2) (by omega)
    have hg : (otherUnits ks ks' us)[i / 2]'(by omega) = us[i / 2] ^^^ unitKey ks (i / 2) ^^^ unitKey ks' (i / 2) := by
      simp [otherUnits]
    rw [hg] at b1 b2
    rw [lo_xor, lo_xor, unitKey_lo, unitKey_lo] at b1
    rw [hi_xor, hi_xor, unitKey_hi, unitKey_hi] at b2
    rcases (by omega : i = 2 * (i / 2) ∨ i = 2 * (i / 2) + 1) with h2 | h2
    · rw [h2, a1, b1, xor_swap' rfl]
    · rw [h2, a2, b2, xor_swap' rfl]
  · rw [List.getElem?_eq_none (by rw [cipherUnicode_len, hl]; omega), List.getElem?_eq_none (by rw [cipherUnicode_len]; omega)]

theorem cipherUnicode_inj {ks : Nat → Byte} {us vs : List (BitVec 16)} (h : cipherUnicode ks us = cipherUnicode ks vs) : us = vs := by
  have hl : us.length = vs.length := by
    have := congrArg List.length h
    rw [cipherUnicode_len, cipherUnicode_len] at this
    omega
  apply List.ext_getElem hl
  intro j h1 h2
  obtain ⟨a1, a2⟩ := cipherUnicode_get ks us h1
  obtain ⟨b1, b2⟩ := cipherUnicode_get ks vs h2
  rw [h] at a1 a2
  rw [a1] at b1
  rw [a2] at b2
  have c1 := xor_swap (Option.some.inj b1)
  have c2 := xor_swap (Option.some.inj b2)
  rw [BitVec.xor_assoc, BitVec.xor_self, BitVec.xor_zero] at c1 c2
  have d1 := congrArg BitVec.toNat c1
  have d2 := congrArg BitVec.toNat c2
  have e1 := us[j].isLt
  have e2 := vs[j].isLt
  apply BitVec.eq_of_toNat_eq
  simp only [BitVec.toNat_ofNat] at d1 d2
  omega

/-- units without surrogates are a text -/
theorem units_text {us : List (BitVec 16)} (h : ∀ u ∈ us, ¬(0xD800 ≤ u.toNat ∧ u.toNat < 0xE000)) : ∃ s, us = utf16EncStr s := by
  induction us with
  | nil => exact ⟨[], rfl⟩
  | cons u us ih =>
    obtain ⟨s, hs⟩ := ih fun v hv => h v (by simp [hv])
    have hu := h u (by simp)
    have hlt := u.isLt
    have hn : (Char.ofNat u.toNat).toNat = u.toNat := toNat_ofNat_char (by omega)
    refine ⟨Char.ofNat u.toNat :: s, ?_⟩
    have he : utf16Enc (Char.ofNat u.toNat) = [u] := by
      unfold utf16Enc
      rw [if_pos (by omega), unit_eq hn.symm]
    rw [hs]
    simp only [utf16EncStr, List.flatMap_cons, he]
    rfl

/-- the upper byte another key reads for an ASCII character -/
theorem otherUnits_hi {ks ks' : Nat → Byte} {s : List Char} (hs : ∀ c ∈ s, c.toNat < 128) {j : Nat}
    (hj : j < (otherUnits ks ks' (utf16EncStr s)).length) :
    (otherUnits ks ks' (utf16EncStr s))[j].toNat / 256 = (ks (2 * j + 1) ^^^ ks' (2 * j + 1)).toNat := by
  have hj' : j < (utf16EncStr s).length := by simpa [otherUnits] using hj
  have hg : (otherUnits ks ks' (utf16EncStr s))[j] = (utf16EncStr s)[j] ^^^ unitKey ks j ^^^ unitKey ks' j := by simp [otherUnits]
  have hu : (utf16EncStr s)[j].toNat < 128 := by
    have he : (utf16EncStr s)[j] ∈ utf16EncStr s := List.getElem_mem _
    generalize (utf16EncStr s)[j] = u at he
    rw [ascii_units hs] at he
    obtain ⟨c, h1, rfl⟩ := List.mem_map.mp he
    have := hs c h1
    simp only [BitVec.toNat_ofNat]
    omega
  have h1 : BitVec.ofNat 8 ((otherUnits ks ks' (utf16EncStr s))[j].toNat / 256) = ks (2 * j + 1) ^^^ ks' (2 * j + 1) := by
    rw [hg, hi_xor, hi_xor, unitKey_hi, unitKey_hi, Nat.div_eq_of_lt (by omega)]
    simp
  have h2 := (otherUnits ks ks' (utf16EncStr s))[j].isLt
  rw [← h1, BitVec.toNat_ofNat, Nat.mod_eq_of_lt (by omega)]

theorem wide_text_iff {buf : Bytes} {p : Nat} {ks ks' : Nat → Byte} {s : List Char} (h : Holds buf p (textBytes ks s .wide)) :
    TextAt buf p (textLen s .wide) .wide ks' ↔ ∃ s', otherUnits ks ks' (utf16EncStr s) = utf16EncStr s' := by
  have he := cipherUnicode_other ks ks' (utf16EncStr s)
  constructor
  · rintro ⟨s', h1, h2⟩
    have hl : (textBytes ks s .wide).length = (textBytes ks' s' .wide).length := by
      show (cipherUnicode _ _).length = (cipherUnicode _ _).length
      have h1' : (utf16EncStr s').length = (utf16EncStr s).length := h1
      rw [cipherUnicode_len, cipherUnicode_len, h1']
    have hu : cipherUnicode ks (utf16EncStr s) = cipherUnicode ks' (utf16EncStr s') := h.unique h2 hl
    exact ⟨s', cipherUnicode_inj (he.trans hu)⟩
  · rintro ⟨s', h1⟩
    refine ⟨s', ?_, ?_⟩
    · show (utf16EncStr s').length = (utf16EncStr s).length
      rw [← h1]
      simp [otherUnits]
    · show Holds buf p (cipherUnicode ks' (utf16EncStr s'))
      rw [← h1, he]
      exact h

theorem wide_text_other {buf : Bytes} {p : Nat} {ks ks' : Nat → Byte} {s : List Char} (hs : ∀ c ∈ s, c.toNat < 128)
    (h : Holds buf p (textBytes ks s .wide)) (hk : ∀ i < s.length, ¬SurrogateHalf (ks (2 * i + 1) ^^^ ks' (2 * i + 1))) :
    TextAt buf p s.length .wide ks' := by
  have hl : textLen s .wide = s.length := utf16EncStr_len_ascii hs
  rw [← hl, wide_text_iff h]
  apply units_text
  intro u hu
  obtain ⟨j, hj, rfl⟩ := List.getElem_of_mem hu
  have h1 := otherUnits_hi (ks := ks) (ks' := ks') hs hj
  have h2 := hk j (by simpa [otherUnits, utf16EncStr_len_ascii hs] using hj)
  unfold SurrogateHalf at h2
  omega

/-- an ASCII name is a text -/
theorem textAt_of_name {buf : Bytes} {p n : Nat} {form : NameForm} {ks : Nat → Byte} (h : NameAt buf p n form ks) :
    TextAt buf p n form ks := by
  obtain ⟨s, h1, h2, h3⟩ := h
  cases form with
  | narrow =>
    have e := ascii_bytes h1
    exact ⟨s, by show (utf8EncStr s).length = n; rw [e]; simpa using h2, by show Holds buf p (cipherAscii ks (utf8EncStr s)); rw [e]; exact h3⟩
  | wide => exact ⟨s, by show (utf16EncStr s).length = n; rw [utf16EncStr_len_ascii h1, h2], h3⟩
  | dir => exact ⟨s, by show (utf16EncStr s).length = n; rw [utf16EncStr_len_ascii h1, h2], h3⟩

end Wz
