import Verif.Text.Model
/-! Helper lemmas: decoding inverts encoding. -/

set_option autoImplicit false

namespace Wz

theorem Char.ofNat_toNat' (c : Char) : Char.ofNat c.toNat = c := Char.ofNat_toNat c

theorem char_lt (c : Char) : c.toNat < 0x110000 := by
  have := c.valid
  unfold UInt32.isValidChar Nat.isValidChar at this
  unfold Char.toNat
  omega

theorem char_notSurr (c : Char) : c.toNat < 0xD800 ∨ 0xDFFF < c.toNat := by
  have := c.valid
  unfold UInt32.isValidChar Nat.isValidChar at this
  unfold Char.toNat
  omega

theorem utf16Dec_enc (c : Char) (rest : List (BitVec 16)) :
    utf16Dec (utf16Enc c ++ rest) = some c :: utf16Dec rest := by
  have h1 := char_lt c
  have h2 := char_notSurr c
  unfold utf16Enc
  split
  · rename_i h
    have hn : (BitVec.ofNat 16 c.toNat).toNat = c.toNat := by
      simp; omega
    have hl : isLow (BitVec.ofNat 16 c.toNat) = false := by
      unfold isLow; rw [hn]; simp; omega
    have hh : isHigh (BitVec.ofNat 16 c.toNat) = false := by
      unfold isHigh; rw [hn]; simp; omega
    simp only [List.cons_append, List.nil_append]
    rw [utf16Dec.eq_def]
    simp only [hl, hh, hn]
    simp [Char.ofNat_toNat']
  · rename_i h
    have hn1 : (BitVec.ofNat 16 (0xD800 + (c.toNat - 0x10000) / 0x400)).toNat
        = 0xD800 + (c.toNat - 0x10000) / 0x400 := by
      simp only [BitVec.toNat_ofNat]; omega
    have hn2 : (BitVec.ofNat 16 (0xDC00 + (c.toNat - 0x10000) % 0x400)).toNat
        = 0xDC00 + (c.toNat - 0x10000) % 0x400 := by
      simp only [BitVec.toNat_ofNat]; omega
    have hl : isLow (BitVec.ofNat 16 (0xD800 + (c.toNat - 0x10000) / 0x400)) = false := by
      unfold isLow; rw [hn1]; simp; omega
    have hh : isHigh (BitVec.ofNat 16 (0xD800 + (c.toNat - 0x10000) / 0x400)) = true := by
      unfold isHigh; rw [hn1]; simp; omega
    have hl2 : isLow (BitVec.ofNat 16 (0xDC00 + (c.toNat - 0x10000) % 0x400)) = true := by
      unfold isLow; rw [hn2]; simp; omega
    simp only [List.cons_append, List.nil_append]
    rw [utf16Dec]
    simp only [hl, hh, hl2, hn1, hn2]
    have : 0x10000 + (0xD800 + (c.toNat - 0x10000) / 0x400 - 0xD800) * 0x400
        + (0xDC00 + (c.toNat - 0x10000) % 0x400 - 0xDC00) = c.toNat := by omega
    simp only [this, Char.ofNat_toNat']
    simp

theorem utf16Dec_encStr (s : List Char) (rest : List (BitVec 16)) :
    utf16Dec (utf16EncStr s ++ rest) = s.map some ++ utf16Dec rest := by
  induction s with
  | nil => simp [utf16EncStr]
  | cons c s ih =>
    simp only [utf16EncStr, List.flatMap_cons, List.append_assoc] at ih ⊢
    rw [utf16Dec_enc, ih]; simp

theorem lossy_map_some (s : List Char) :
    (s.map some).map (fun o => match o with | some c => c | none => replacement) = s := by
  induction s with
  | nil => rfl
  | cons c s ih => simp only [List.map_cons, ih]

theorem utf16Lossy_encStr (s : List Char) : utf16Lossy (utf16EncStr s) = s := by
  have := utf16Dec_encStr s []
  simp only [List.append_nil] at this
  simp only [utf16Lossy, this, utf16Dec, List.append_nil]
  exact lossy_map_some s

theorem allSome_map_some {α : Type} (s : List α) : allSome (s.map some) = some s := by
  induction s with
  | nil => rfl
  | cons a s ih => simp [allSome, ih]

theorem utf16Strict_encStr (s : List Char) : utf16Strict (utf16EncStr s) = .ok s := by
  have := utf16Dec_encStr s []
  simp only [List.append_nil, utf16Dec] at this
  simp [utf16Strict, this, allSome_map_some]

theorem utf8Step_len (b : Byte) (rest : Bytes) : (utf8Step b rest).2.length ≤ rest.length := by
  unfold utf8Step
  dsimp only
  repeat' split
  all_goals simp only [List.length_cons, List.length_nil]
  all_goals omega

theorem utf8DecAux_fuel (n m : Nat) (bs : Bytes) (h : bs.length ≤ n) (h' : bs.length ≤ m) :
    utf8DecAux n bs = utf8DecAux m bs := by
  induction n generalizing m bs with
  | zero =>
    cases bs with
    | nil => cases m <;> rfl
    | cons => simp at h
  | succ n ih =>
    cases bs with
    | nil => cases m <;> rfl
    | cons b rest =>
      cases m with
      | zero => simp at h'
      | succ m =>
        simp only [utf8DecAux, List.length_cons] at *
        have := utf8Step_len b rest
        rw [ih m _ (by omega) (by omega)]

theorem utf8Dec_cons (b : Byte) (rest : Bytes) :
    utf8Dec (b :: rest) = (utf8Step b rest).1 :: utf8Dec (utf8Step b rest).2 := by
  unfold utf8Dec
  simp only [List.length_cons, utf8DecAux]
  have := utf8Step_len b rest
  rw [utf8DecAux_fuel _ (utf8Step b rest).2.length _ (by omega) (by omega)]

theorem toNat8 {n : Nat} (h : n < 256) : (BitVec.ofNat 8 n).toNat = n := by
  simp only [BitVec.toNat_ofNat]; omega

theorem utf8Dec_enc (c : Char) (rest : Bytes) :
    utf8Dec (utf8Enc c ++ rest) = some c :: utf8Dec rest := by
  have h1 := char_lt c
  have h2 := char_notSurr c
  unfold utf8Enc
  simp only []
  split
  · rename_i h
    simp only [List.cons_append, List.nil_append]
    rw [utf8Dec_cons]
    unfold utf8Step
    simp only [toNat8 (show c.toNat < 256 by omega), h, if_true, Char.ofNat_toNat']
  split
  · rename_i _ h
    simp only [List.cons_append, List.nil_append]
    rw [utf8Dec_cons]
    unfold utf8Step
    simp only [toNat8 (show 0xC0 + c.toNat / 0x40 < 256 by omega)]
    rw [if_neg (by omega), if_pos (by omega)]
    have hc : isCont (BitVec.ofNat 8 (0x80 + c.toNat % 0x40)).toNat = true := by
      rw [toNat8 (by omega)]; unfold isCont; simp; omega
    simp only [hc, if_true]
    rw [toNat8 (by omega)]
    have : (0xC0 + c.toNat / 0x40 - 0xC0) * 0x40 + (0x80 + c.toNat % 0x40 - 0x80) = c.toNat := by omega
    rw [this, Char.ofNat_toNat']
  split
  · rename_i _ _ h
    simp only [List.cons_append, List.nil_append]
    rw [utf8Dec_cons]
    unfold utf8Step
    simp only [toNat8 (show 0xE0 + c.toNat / 0x1000 < 256 by omega)]
    rw [if_neg (by omega), if_neg (by omega), if_pos (by omega)]
    have hc : isCont (BitVec.ofNat 8 (0x80 + c.toNat % 0x40)).toNat = true := by
      rw [toNat8 (by omega)]; unfold isCont; simp; omega
    have h3 : ok3 (0xE0 + c.toNat / 0x1000) (BitVec.ofNat 8 (0x80 + c.toNat / 0x40 % 0x40)).toNat = true := by
      rw [toNat8 (by omega)]; unfold ok3; simp; omega
    simp only [hc, h3, if_true]
    rw [toNat8 (by omega), toNat8 (by omega)]
    have : (0xE0 + c.toNat / 0x1000 - 0xE0) * 0x1000 + (0x80 + c.toNat / 0x40 % 0x40 - 0x80) * 0x40
        + (0x80 + c.toNat % 0x40 - 0x80) = c.toNat := by omega
    rw [this, Char.ofNat_toNat']
  · rename_i _ _ h
    simp only [List.cons_append, List.nil_append]
    rw [utf8Dec_cons]
    unfold utf8Step
    simp only [toNat8 (show 0xF0 + c.toNat / 0x40000 < 256 by omega)]
    rw [if_neg (by omega), if_neg (by omega), if_neg (by omega), if_pos (by omega)]
    have hc : isCont (BitVec.ofNat 8 (0x80 + c.toNat % 0x40)).toNat = true := by
      rw [toNat8 (by omega)]; unfold isCont; simp; omega
    have hc2 : isCont (BitVec.ofNat 8 (0x80 + c.toNat / 0x40 % 0x40)).toNat = true := by
      rw [toNat8 (by omega)]; unfold isCont; simp; omega
    have h4 : ok4 (0xF0 + c.toNat / 0x40000) (BitVec.ofNat 8 (0x80 + c.toNat / 0x1000 % 0x40)).toNat = true := by
      rw [toNat8 (by omega)]; unfold ok4; simp; omega
    simp only [hc, hc2, h4, if_true]
    rw [toNat8 (by omega), toNat8 (by omega), toNat8 (by omega)]
    have : (0xF0 + c.toNat / 0x40000 - 0xF0) * 0x40000 + (0x80 + c.toNat / 0x1000 % 0x40 - 0x80) * 0x1000
        + (0x80 + c.toNat / 0x40 % 0x40 - 0x80) * 0x40 + (0x80 + c.toNat % 0x40 - 0x80) = c.toNat := by omega
    rw [this, Char.ofNat_toNat']

theorem utf8Dec_encStr (s : List Char) (rest : Bytes) :
    utf8Dec (utf8EncStr s ++ rest) = s.map some ++ utf8Dec rest := by
  induction s with
  | nil => simp [utf8EncStr]
  | cons c s ih =>
    simp only [utf8EncStr, List.flatMap_cons, List.append_assoc] at ih ⊢
    rw [utf8Dec_enc, ih]; simp

theorem utf8Lossy_encStr (s : List Char) : utf8Lossy (utf8EncStr s) = s := by
  have := utf8Dec_encStr s []
  simp only [List.append_nil] at this
  rw [utf8Lossy, this, show utf8Dec [] = [] from rfl, List.append_nil]
  exact lossy_map_some s

theorem utf8Strict_encStr (s : List Char) : utf8Strict (utf8EncStr s) = .ok s := by
  have := utf8Dec_encStr s []
  simp only [List.append_nil] at this
  simp only [utf8Strict, this]
  simp [utf8Dec, utf8DecAux, allSome_map_some]

end Wz
