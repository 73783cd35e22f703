import Verif.Text.Lemmas
/-! Helper lemmas: bytes that decode without error are the encoding of what they decode to. -/

set_option autoImplicit false

namespace Wz

theorem toNat_ofNat {n : Nat} (h : n < 0xD800 ∨ (0xDFFF < n ∧ n < 0x110000)) : (Char.ofNat n).toNat = n := by
  have hv : n.isValidChar := h
  unfold Char.ofNat
  rw [dif_pos hv]
  unfold Char.ofNatAux Char.toNat
  simp

theorem byte_eq {b : Byte} {n : Nat} (h : b.toNat = n) : BitVec.ofNat 8 n = b := by
  subst h
  simp

theorem utf8Step_inv {b : Byte} {rest r : Bytes} {c : Char} (h : utf8Step b rest = (some c, r)) : b :: rest = utf8Enc c ++ r := by
  have hb := b.isLt
  unfold utf8Step at h
  dsimp only at h
  split at h
  · cases h
    rename_i h1
    unfold utf8Enc
    rw [toNat_ofNat (by omega)]
    dsimp only
    rw [if_pos h1, byte_eq rfl]
    rfl
  split at h
  · rename_i h1 h2
    cases rest with
    | nil => cases h
    | cons b1 r1 =>
      dsimp only at h
      split at h
      · rename_i h3
        have hb1 := b1.isLt
        unfold isCont at h3
        simp only [Bool.and_eq_true, decide_eq_true_eq] at h3
        obtain ⟨hc, hr⟩ := Prod.mk.inj h
        rw [← Option.some.inj hc, ← hr]
        unfold utf8Enc
        rw [toNat_ofNat (by omega)]
        dsimp only
        rw [if_neg (by omega), if_pos (by omega), byte_eq (b := b) (by omega), byte_eq (b := b1) (by omega)]
        rfl
      · cases h
  split at h
  · rename_i h1 h2 h3
    cases rest with
    | nil => cases h
    | cons b1 r1 =>
      dsimp only at h
      split at h
      · rename_i h4
        have hb1 := b1.isLt
        unfold ok3 at h4
        simp only [Bool.and_eq_true, Bool.or_eq_true, beq_iff_eq, decide_eq_true_eq] at h4
        cases r1 with
        | nil => cases h
        | cons b2 r2 =>
          dsimp only at h
          split at h
          · rename_i h5
            have hb2 := b2.isLt
            unfold isCont at h5
            simp only [Bool.and_eq_true, decide_eq_true_eq] at h5
            obtain ⟨hc, hr⟩ := Prod.mk.inj h
            rw [← Option.some.inj hc, ← hr]
            unfold utf8Enc
            rw [toNat_ofNat (by omega)]
            dsimp only
            rw [if_neg (by omega), if_neg (by omega), if_pos (by omega), byte_eq (b := b) (by omega), byte_eq (b := b1) (by omega), byte_eq (b := b2) (by omega)]
            rfl
          · cases h
      · cases h
  split at h
  · rename_i h1 h2 h3 h4
    cases rest with
    | nil => cases h
    | cons b1 r1 =>
      dsimp only at h
      split at h
      · rename_i h5
        have hb1 := b1.isLt
        unfold ok4 at h5
        simp only [Bool.and_eq_true, Bool.or_eq_true, beq_iff_eq, decide_eq_true_eq] at h5
        cases r1 with
        | nil => cases h
        | cons b2 r2 =>
          dsimp only at h
          split at h
          · rename_i h6
            have hb2 := b2.isLt
            unfold isCont at h6
            simp only [Bool.and_eq_true, decide_eq_true_eq] at h6
            cases r2 with
            | nil => cases h
            | cons b3 r3 =>
              dsimp only at h
              split at h
              · rename_i h7
                have hb3 := b3.isLt
                unfold isCont at h7
                simp only [Bool.and_eq_true, decide_eq_true_eq] at h7
                obtain ⟨hc, hr⟩ := Prod.mk.inj h
                rw [← Option.some.inj hc, ← hr]
                unfold utf8Enc
                rw [toNat_ofNat (by omega)]
                dsimp only
                rw [if_neg (by omega), if_neg (by omega), if_neg (by omega), byte_eq (b := b) (by omega), byte_eq (b := b1) (by omega), byte_eq (b := b2) (by omega),
                  byte_eq (b := b3) (by omega)]
                rfl
              · cases h
          · cases h
      · cases h
  · cases h

theorem allSome_eq {α : Type} : ∀ {l : List (Option α)} {s : List α}, allSome l = some s → l = s.map some
  | [], s, h => by cases h; rfl
  | none :: l, s, h => by cases h
  | some a :: l, s, h => by
    unfold allSome at h
    cases hl : allSome l with
    | none => rw [hl] at h; cases h
    | some t =>
      rw [hl] at h
      cases h
      rw [allSome_eq hl]
      rfl

theorem utf8Dec_inv (s : List Char) : ∀ {bs : Bytes}, utf8Dec bs = s.map some → bs = utf8EncStr s := by
  induction s with
  | nil =>
    intro bs h
    cases bs with
    | nil => rfl
    | cons b rest => rw [utf8Dec_cons] at h; cases h
  | cons c s ih =>
    intro bs h
    cases bs with
    | nil => cases h
    | cons b rest =>
      rw [utf8Dec_cons] at h
      have h1 : (utf8Step b rest).1 = some c := (List.cons.inj h).1
      have h2 := ih (List.cons.inj h).2
      rw [utf8Step_inv (Prod.ext h1 rfl : utf8Step b rest = (some c, (utf8Step b rest).2)), h2]
      rfl

theorem utf8Strict_inv {bs : Bytes} {s : List Char} (h : utf8Strict bs = .ok s) : bs = utf8EncStr s := by
  unfold utf8Strict at h
  cases ha : allSome (utf8Dec bs) with
  | none => rw [ha] at h; cases h
  | some t =>
    rw [ha] at h
    cases h
    exact utf8Dec_inv _ (allSome_eq ha)

theorem utf8EncStr_append (a b : List Char) : utf8EncStr (a ++ b) = utf8EncStr a ++ utf8EncStr b := List.flatMap_append

/-- a piece at the front that is valid by itself ends between two characters -/
theorem utf8_prefix {a s : List Char} {r : Bytes} (h : utf8EncStr s = utf8EncStr a ++ r) : ∃ b, s = a ++ b ∧ r = utf8EncStr b := by
  have h1 : utf8Dec (utf8EncStr s) = s.map some := by
    have := utf8Dec_encStr s []
    rw [List.append_nil] at this
    rw [this]
    exact List.append_nil _
  rw [h, utf8Dec_encStr] at h1
  have h2 : a = s.take a.length := by
    have h3 := congrArg (List.take a.length) h1
    rw [List.take_left' (List.length_map _), ← List.map_take] at h3
    exact (List.map_inj_right (fun _ _ h => Option.some.inj h)).mp h3
  refine ⟨s.drop a.length, ?_, ?_⟩
  · exact (List.take_append_drop a.length s).symm.trans (congrArg (· ++ s.drop a.length) h2.symm)
  · apply utf8Dec_inv
    have h3 := congrArg (List.drop a.length) h1
    rw [List.drop_left' (List.length_map _), ← List.map_drop] at h3
    exact h3

end Wz
