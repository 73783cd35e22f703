import Verif.Offset.Spec
/-!
# Offset calculators as natural number arithmetic
-/

set_option autoImplicit false

namespace Wz
open Spec

theorem toNat_sub32 (a b : BitVec 32) : (a - b).toNat = sub32 a.toNat b.toNat := by
  have := b.isLt
  rw [BitVec.toNat_sub]; unfold sub32
  omega

theorem toNat_not32 (a : BitVec 32) : (~~~a).toNat = not32 a.toNat := by
  rw [BitVec.toNat_not]; rfl

theorem toNat_rotl32 (a : BitVec 32) (n : Nat) (hn : n < 32) : (a.rotateLeft n).toNat = rotl32 a.toNat n := by
  rw [BitVec.toNat_rotateLeft, Nat.mod_eq_of_lt hn]; rfl

theorem toNat_and31 (a : BitVec 32) : (a &&& 0x1F#32).toNat = a.toNat % 32 := by
  rw [BitVec.toNat_and]
  exact Nat.and_two_pow_sub_one_eq_mod a.toNat 5

theorem sub32_lt (a b : Nat) : sub32 a b < 2 ^ 32 := Nat.mod_lt _ (by decide)

theorem sub32_mod (a b : Nat) : sub32 (a % 2 ^ 32) b = sub32 a b := by
  unfold sub32; omega

theorem sub32_mod_right (a b : Nat) : sub32 a (b % 2 ^ 32) = sub32 a b := by
  unfold sub32; omega

theorem toNat_mix (k : BitVec 32) : (mixKmst1199 k).toNat = mix32 k.toNat := by
  have e1 : (0x7FEB352D#32).toNat = 0x7FEB352D := by decide
  have e2 : (0x846CA68B#32).toNat = 0x846CA68B := by decide
  unfold mixKmst1199 mix32
  dsimp only
  rw [BitVec.toNat_xor, BitVec.toNat_ushiftRight, BitVec.toNat_mul, BitVec.toNat_xor, BitVec.toNat_ushiftRight,
    BitVec.toNat_mul, BitVec.toNat_xor, BitVec.toNat_ushiftRight, e1, e2, Nat.shiftRight_eq_div_pow,
    Nat.shiftRight_eq_div_pow, Nat.shiftRight_eq_div_pow]

theorem toNat_base (offset fstart : Nat) (mul : BitVec 32) :
    ((~~~(BitVec.ofNat 32 offset - BitVec.ofNat 32 fstart)) * mul - wzOffset).toNat =
      offsetBase offset fstart mul.toNat := by
  unfold offsetBase
  rw [toNat_sub32, BitVec.toNat_mul, toNat_not32, toNat_sub32, sub32_mod, BitVec.toNat_ofNat, BitVec.toNat_ofNat,
    sub32_mod, sub32_mod_right]
  rfl

/-- the pad as a bit vector -/
def padBv (v : OffsetVersion) (offset fstart : Nat) (hash hash1 : BitVec 32) : BitVec 32 :=
  let base (mul : BitVec 32) := (~~~(BitVec.ofNat 32 offset - BitVec.ofNat 32 fstart)) * mul - wzOffset
  match v with
  | .pkg1 => (base hash).rotateLeft (base hash &&& 0x1F#32).toNat
  | .pkg2V1 => (base hash ^^^ (hash1 * 0x01010101#32)).rotateLeft ((hash ^^^ hash1) &&& 0x1F#32).toNat
  | .pkg2V2 => (base (hash ^^^ hash1) ^^^ (hash1 * 0x01010101#32)).rotateLeft ((hash ^^^ hash1) &&& 0x1F#32).toNat
  | .pkg2V3 =>
    let pre := hash1 ^^^ hash
    let mixed := mixKmst1199 (pre ^^^ 0x6D4C3B2A#32) ^^^ 0x91E10DA5#32
    (base (pre + (mixed ^^^ 0xA7E3C093#32)) ^^^ (hash1 * 0x01010101#32) ^^^ (mixed * 0x9E3779B9#32)).rotateLeft
      ((pre ^^^ mixed) &&& 0x1F#32).toNat
  | .pkg2_64V1 =>
    let pre := hash1 ^^^ hash
    let mixed := pre ^^^ 0x33BBBB33#32
    (base (pre + (mixed ^^^ 0xA7E3C093#32)) ^^^ (hash1 * 0x01010101#32) ^^^ (mixed * 0x9E3779B9#32)).rotateLeft 19

theorem offsetBase_mod (p f m : Nat) : offsetBase p f (m % 2 ^ 32) = offsetBase p f m := by
  unfold offsetBase
  rw [← sub32_mod, Nat.mul_mod, Nat.mod_mod, ← Nat.mul_mod, sub32_mod]

theorem toNat_padBv (v : OffsetVersion) (offset fstart : Nat) (hash hash1 : BitVec 32) :
    (padBv v offset fstart hash hash1).toNat = offsetPad v offset fstart hash.toNat hash1.toNat := by
  cases v <;> simp only [padBv, offsetPad]
  · rw [toNat_rotl32 _ _ (by rw [toNat_and31]; omega), toNat_and31, toNat_base]
  · rw [toNat_rotl32 _ _ (by rw [toNat_and31]; omega), toNat_and31, BitVec.toNat_xor, toNat_base,
      BitVec.toNat_mul, BitVec.toNat_xor]
    rfl
  · rw [toNat_rotl32 _ _ (by rw [toNat_and31]; omega), toNat_and31, BitVec.toNat_xor, toNat_base,
      BitVec.toNat_mul, BitVec.toNat_xor]
    rfl
  · rw [toNat_rotl32 _ _ (by rw [toNat_and31]; omega), toNat_and31, BitVec.toNat_xor, BitVec.toNat_xor,
      toNat_base, BitVec.toNat_mul, BitVec.toNat_xor, BitVec.toNat_xor, BitVec.toNat_add, BitVec.toNat_mul,
      BitVec.toNat_xor, BitVec.toNat_xor, BitVec.toNat_xor (mixKmst1199 _), toNat_mix, BitVec.toNat_xor,
      BitVec.toNat_xor, offsetBase_mod]
    rfl
  · rw [toNat_rotl32 _ _ (by omega), BitVec.toNat_xor, BitVec.toNat_xor,
      toNat_base, BitVec.toNat_mul, BitVec.toNat_add, BitVec.toNat_mul,
      BitVec.toNat_xor, BitVec.toNat_xor, BitVec.toNat_xor, offsetBase_mod]
    rfl

theorem and_mask64 (x : BitVec 64) : x &&& 0xFFFFFFFF#64 = (x.setWidth 32).setWidth 64 := by
  apply BitVec.eq_of_toNat_eq
  rw [BitVec.toNat_and, BitVec.toNat_setWidth, BitVec.toNat_setWidth]
  rw [show (0xFFFFFFFF#64).toNat = 2 ^ 32 - 1 from rfl, Nat.and_two_pow_sub_one_eq_mod]
  omega

theorem lo_sub (a b : BitVec 64) : (a - b).setWidth 32 = a.setWidth 32 - b.setWidth 32 := by
  apply BitVec.eq_of_toNat_eq
  simp only [BitVec.toNat_setWidth, BitVec.toNat_sub]
  have := a.isLt
  have := b.isLt
  omega

theorem lo_mul (a b : BitVec 64) : (a * b).setWidth 32 = a.setWidth 32 * b.setWidth 32 := by
  apply BitVec.eq_of_toNat_eq
  simp only [BitVec.toNat_setWidth, BitVec.toNat_mul]
  rw [Nat.mod_mod_of_dvd _ (by decide), Nat.mul_mod]

theorem lo_add (a b : BitVec 64) : (a + b).setWidth 32 = a.setWidth 32 + b.setWidth 32 := by
  apply BitVec.eq_of_toNat_eq
  simp only [BitVec.toNat_setWidth, BitVec.toNat_add]
  omega

theorem lo_ofNat (n : Nat) : (BitVec.ofNat 64 n).setWidth 32 = BitVec.ofNat 32 n := by
  apply BitVec.eq_of_toNat_eq
  simp only [BitVec.toNat_setWidth, BitVec.toNat_ofNat]
  omega

theorem lo_up (a : BitVec 32) : (a.setWidth 64).setWidth 32 = a := by
  apply BitVec.eq_of_toNat_eq
  simp only [BitVec.toNat_setWidth]
  have := a.isLt
  omega

theorem lo_sext (a : BitVec 32) : (a.signExtend 64).setWidth 32 = a := by
  ext i hi
  rw [BitVec.getElem_setWidth, BitVec.getLsbD_signExtend, if_pos hi, BitVec.getLsbD_eq_getElem hi]
  simp
  omega

theorem xor_ones (a : BitVec 32) : a ^^^ 0xFFFFFFFF#32 = ~~~a := by
  rw [show (0xFFFFFFFF#32) = BitVec.allOnes 32 from rfl, BitVec.xor_allOnes]

theorem readWzOffset_pad (mode : Mode) (h : Header) (m : OffsetMeta) (hf : h.fstart < 2 ^ 63) :
    readWzOffset mode h m = .ok ((padBv .pkg1 m.offset h.fstart m.hash32 h.hash1u32 ^^^ m.encrypted) +
      BitVec.ofNat 32 (2 * h.fstart)).toNat := by
  unfold readWzOffset
  dsimp only
  rw [if_neg (by rintro ⟨_, hx⟩; omega)]
  congr 1
  simp only [and_mask64, BitVec.truncate_eq_setWidth, lo_add, lo_mul, lo_sub, lo_up, lo_sext, lo_ofNat,
    BitVec.setWidth_xor]
  rw [BitVec.toNat_setWidth, Nat.mod_eq_of_lt (Nat.lt_trans (BitVec.isLt _) (by decide))]
  simp only [xor_ones, padBv]
  congr 2
  apply BitVec.eq_of_toNat_eq
  simp only [BitVec.toNat_mul, BitVec.toNat_ofNat]
  omega

theorem calc_pad (v : OffsetVersion) (mode : Mode) (h : Header) (m : OffsetMeta) (hf : h.fstart < 2 ^ 63) :
    v.calc mode h m = .ok ((padBv v m.offset h.fstart m.hash32 h.hash1u32 ^^^
      (if v = .pkg1 ∨ v = .pkg2V1 then m.encrypted else ~~~m.encrypted)) +
      BitVec.ofNat 32 (if v = .pkg1 then 2 * h.fstart else h.fstart)).toNat := by
  cases v
  · simp only [OffsetVersion.calc, true_or, if_true]
    exact readWzOffset_pad mode h m hf
  all_goals rfl

end Wz
