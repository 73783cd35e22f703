import Verif.Offset.Lemmas
/-!
# Property theorems about directory offsets: C10
-/

set_option autoImplicit false

namespace Wz.Props
open Wz Wz.Spec

private def storedBv (v : OffsetVersion) (offset fstart : Nat) (hash hash1 : BitVec 32) (real : Nat) : BitVec 32 :=
  let pad := padBv v offset fstart hash hash1
  match v with
  | .pkg1 => pad ^^^ (BitVec.ofNat 32 real - BitVec.ofNat 32 (2 * fstart))
  | .pkg2V1 => pad ^^^ (BitVec.ofNat 32 real - BitVec.ofNat 32 fstart)
  | _ => ~~~(pad ^^^ (BitVec.ofNat 32 real - BitVec.ofNat 32 fstart))

private theorem toNat_storedBv (v : OffsetVersion) (offset fstart : Nat) (hash hash1 : BitVec 32) (real : Nat) :
    (storedBv v offset fstart hash hash1 real).toNat =
      storedOffset v offset fstart hash.toNat hash1.toNat real := by
  cases v <;> simp only [storedBv, storedOffset, toNat_not32, BitVec.toNat_xor, toNat_padBv, toNat_sub32,
    BitVec.toNat_ofNat, sub32_mod, sub32_mod_right]

private theorem stored_calc (v : OffsetVersion) (offset fstart : Nat) (hash hash1 : BitVec 32) (real : Nat) :
    (padBv v offset fstart hash hash1 ^^^ (if v = .pkg1 ∨ v = .pkg2V1 then storedBv v offset fstart hash hash1 real
      else ~~~storedBv v offset fstart hash hash1 real)) +
      BitVec.ofNat 32 (if v = .pkg1 then 2 * fstart else fstart) = BitVec.ofNat 32 real := by
  cases v <;> simp [storedBv, ← BitVec.xor_assoc, BitVec.sub_add_cancel]

private theorem xor_flip {a b c : BitVec 32} (h : a ^^^ b = c) : b = a ^^^ c := by
  rw [← h, ← BitVec.xor_assoc, BitVec.xor_self, BitVec.zero_xor]

private theorem add_flip {a b c : BitVec 32} (h : a + b = c) : a = c - b := by
  rw [← h, BitVec.add_sub_cancel]

private theorem not_flip {a b : BitVec 32} (h : ~~~a = b) : a = ~~~b := by
  rw [← h, BitVec.not_not]

private theorem calc_stored (v : OffsetVersion) (offset fstart : Nat) (hash hash1 enc : BitVec 32) (real : Nat)
    (h : (padBv v offset fstart hash hash1 ^^^ (if v = .pkg1 ∨ v = .pkg2V1 then enc else ~~~enc)) +
      BitVec.ofNat 32 (if v = .pkg1 then 2 * fstart else fstart) = BitVec.ofNat 32 real) :
    enc = storedBv v offset fstart hash hash1 real := by
  cases v <;> simp at h <;> simp only [storedBv]
  · exact xor_flip (add_flip h)
  · exact xor_flip (add_flip h)
  · exact not_flip (xor_flip (add_flip h))
  · exact not_flip (xor_flip (add_flip h))
  · exact not_flip (xor_flip (add_flip h))

/-- C10: every real 32-bit offset, stored by the format's rule at any position of a file with any header and
any version hash, is decoded to exactly that offset. -/
theorem C10_decode_stored (v : OffsetVersion) (mode : Mode) (h : Header) (pos real : Nat) (hash : BitVec 64)
    (hf : h.fstart < 2 ^ 32) (hr : real < 2 ^ 32) :
    v.calc mode h ⟨hash, BitVec.ofNat 32
      (storedOffset v pos h.fstart (hash.toNat % 2 ^ 32) (h.hash1.toNat % 2 ^ 32) real), pos⟩ = .ok real := by
  rw [calc_pad v mode h _ (by omega)]
  have e1 : hash.toNat % 2 ^ 32 = (hash.setWidth 32).toNat := by simp
  have e2 : h.hash1.toNat % 2 ^ 32 = (h.hash1.setWidth 32).toNat := by simp
  rw [e1, e2, ← toNat_storedBv, BitVec.ofNat_toNat, BitVec.setWidth_eq]
  have := stored_calc v pos h.fstart (hash.setWidth 32) (h.hash1.setWidth 32) real
  simp only [OffsetMeta.hash32, Header.hash1u32, BitVec.truncate_eq_setWidth]
  rw [this, BitVec.toNat_ofNat, Nat.mod_eq_of_lt hr]

/-- C10: the stored form is determined: whatever value decodes to `real` is the one the format's rule
stores, so no two stored values decode to the same offset. -/
theorem C10_stored_unique (v : OffsetVersion) (mode : Mode) (h : Header) (pos real : Nat) (hash : BitVec 64)
    (enc : BitVec 32) (hf : h.fstart < 2 ^ 32)
    (hd : v.calc mode h ⟨hash, enc, pos⟩ = .ok real) :
    real < 2 ^ 32 ∧
    enc.toNat = storedOffset v pos h.fstart (hash.toNat % 2 ^ 32) (h.hash1.toNat % 2 ^ 32) real := by
  rw [calc_pad v mode h _ (by omega)] at hd
  injection hd with hd
  have hr : real < 2 ^ 32 := by rw [← hd]; exact BitVec.isLt _
  refine ⟨hr, ?_⟩
  have e1 : hash.toNat % 2 ^ 32 = (hash.setWidth 32).toNat := by simp
  have e2 : h.hash1.toNat % 2 ^ 32 = (h.hash1.setWidth 32).toNat := by simp
  rw [e1, e2, ← toNat_storedBv]
  congr 1
  apply calc_stored
  apply BitVec.eq_of_toNat_eq
  rw [BitVec.toNat_ofNat, Nat.mod_eq_of_lt hr]
  exact hd

/-- C10: decoding never fails or panics and always gives a 32-bit offset. -/
theorem C10_total (v : OffsetVersion) (mode : Mode) (h : Header) (m : OffsetMeta) (hf : h.fstart < 2 ^ 32) :
    ∃ real, v.calc mode h m = .ok real ∧ real < 2 ^ 32 := by
  rw [calc_pad v mode h _ (by omega)]
  exact ⟨_, rfl, BitVec.isLt _⟩

/-- a concrete PKG1 offset: header of 60 bytes, value stored at position 79, version 83's hash -/
example : OffsetVersion.pkg1.calc .checked { fstart := 60 }
    { hash := 1876#64, offset := 79, encrypted := BitVec.ofNat 32 (storedOffset .pkg1 79 60 1876 0 4711) } = .ok 4711 ∧
    storedOffset .pkg1 79 60 1876 0 4711 = 1058628082 := by
  decide +kernel

/-- C10: the entry count of a 64-bit PKG2 directory is decoded to the count that was stored, whatever the
16 noise bits. -/
theorem C10_count_stored (h : Header) (hash : BitVec 64) (n : Nat) (noise : BitVec 16) (hn : n < 2 ^ 31) :
    entryCount64 h hash (storedCount h.hash1 hash n noise) = .ok n := by
  unfold entryCount64 storedCount
  have e : (BitVec.ofNat 48 n ++ noise : BitVec 64) ^^^ 0x550EC4DD02C468EC#64 ^^^ hash ^^^ h.hash1 ^^^ h.hash1 ^^^ hash ^^^
      0x550EC4DD02C468EC#64 = (BitVec.ofNat 48 n ++ noise : BitVec 64) := by
    simp only [BitVec.xor_assoc]
    rw [← BitVec.xor_assoc h.hash1 h.hash1, BitVec.xor_self, BitVec.zero_xor, ← BitVec.xor_assoc hash hash,
      BitVec.xor_self, BitVec.zero_xor, BitVec.xor_self, BitVec.xor_zero]
  have ht : (BitVec.ofNat 48 n ++ noise : BitVec 64).toNat = n * 2 ^ 16 + noise.toNat := by
    rw [BitVec.toNat_append, ← Nat.shiftLeft_add_eq_or_of_lt noise.isLt, BitVec.toNat_ofNat, Nat.mod_eq_of_lt (by omega),
      Nat.shiftLeft_eq]
  have hnl := noise.isLt
  have hi : ((BitVec.ofNat 48 n ++ noise : BitVec 64).sshiftRight 16).toInt = n := by
    rw [BitVec.toInt_sshiftRight, BitVec.toInt_eq_toNat_of_lt (by rw [ht]; omega), ht, Int.shiftRight_eq_div_pow]
    omega
  dsimp only
  rw [e, hi, if_neg (by omega), asUsize_nonneg (by omega) (by omega)]
  rfl

/-- C10: counts above `i32::MAX` are rejected. -/
theorem C10_count_too_big (h : Header) (hash : BitVec 64) (n : Nat) (noise : BitVec 16) (hn : 2 ^ 31 ≤ n)
    (hn2 : n < 2 ^ 47) :
    entryCount64 h hash (storedCount h.hash1 hash n noise) = .error (.lib "InvalidEntryCount") := by
  unfold entryCount64 storedCount
  have e : (BitVec.ofNat 48 n ++ noise : BitVec 64) ^^^ 0x550EC4DD02C468EC#64 ^^^ hash ^^^ h.hash1 ^^^ h.hash1 ^^^ hash ^^^
      0x550EC4DD02C468EC#64 = (BitVec.ofNat 48 n ++ noise : BitVec 64) := by
    simp only [BitVec.xor_assoc]
    rw [← BitVec.xor_assoc h.hash1 h.hash1, BitVec.xor_self, BitVec.zero_xor, ← BitVec.xor_assoc hash hash,
      BitVec.xor_self, BitVec.zero_xor, BitVec.xor_self, BitVec.xor_zero]
  have ht : (BitVec.ofNat 48 n ++ noise : BitVec 64).toNat = n * 2 ^ 16 + noise.toNat := by
    rw [BitVec.toNat_append, ← Nat.shiftLeft_add_eq_or_of_lt noise.isLt, BitVec.toNat_ofNat, Nat.mod_eq_of_lt (by omega),
      Nat.shiftLeft_eq]
  have hnl := noise.isLt
  have hi : ((BitVec.ofNat 48 n ++ noise : BitVec 64).sshiftRight 16).toInt = n := by
    rw [BitVec.toInt_sshiftRight, BitVec.toInt_eq_toNat_of_lt (by rw [ht]; omega), ht, Int.shiftRight_eq_div_pow]
    omega
  dsimp only
  rw [e, hi, if_pos (by omega)]

/-- C10: what the check on the count does not reject: a stored count whose top bit is set is negative as a
signed number and comes out as a number of entries of at least `2^64 - 2^47` (the directory reader then
rejects it, see `C18`). -/
theorem C10_count_negative (h : Header) (hash : BitVec 64) (n : Nat) (noise : BitVec 16) (hn : 2 ^ 47 ≤ n)
    (hn2 : n < 2 ^ 48) :
    ∃ k, entryCount64 h hash (storedCount h.hash1 hash n noise) = .ok k ∧ 2 ^ 64 - 2 ^ 47 ≤ k := by
  unfold entryCount64 storedCount
  have e : (BitVec.ofNat 48 n ++ noise : BitVec 64) ^^^ 0x550EC4DD02C468EC#64 ^^^ hash ^^^ h.hash1 ^^^ h.hash1 ^^^ hash ^^^
      0x550EC4DD02C468EC#64 = (BitVec.ofNat 48 n ++ noise : BitVec 64) := by
    simp only [BitVec.xor_assoc]
    rw [← BitVec.xor_assoc h.hash1 h.hash1, BitVec.xor_self, BitVec.zero_xor, ← BitVec.xor_assoc hash hash,
      BitVec.xor_self, BitVec.zero_xor, BitVec.xor_self, BitVec.xor_zero]
  have ht : (BitVec.ofNat 48 n ++ noise : BitVec 64).toNat = n * 2 ^ 16 + noise.toNat := by
    rw [BitVec.toNat_append, ← Nat.shiftLeft_add_eq_or_of_lt noise.isLt, BitVec.toNat_ofNat, Nat.mod_eq_of_lt (by omega),
      Nat.shiftLeft_eq]
  have hnl := noise.isLt
  have hi : ((BitVec.ofNat 48 n ++ noise : BitVec 64).sshiftRight 16).toInt = (n : Int) - 2 ^ 48 := by
    rw [BitVec.toInt_sshiftRight, BitVec.toInt_eq_toNat_cond, ht, if_neg (by omega), Int.shiftRight_eq_div_pow]
    omega
  dsimp only
  rw [e, hi, if_neg (by omega)]
  refine ⟨_, rfl, ?_⟩
  unfold asUsize
  omega

example : entryCount64 { hash1 := 0x1111222233334444#64 } 0xABCDEF#64
    (storedCount 0x1111222233334444#64 0xABCDEF#64 12 0xBEEF#16) = .ok 12 := by decide +kernel

end Wz.Props
