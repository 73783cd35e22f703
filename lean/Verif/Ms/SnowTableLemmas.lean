import Verif.Ms.SnowModel
import Verif.Ms.SnowSpec
/-!
# The tables of Snow2 are those of the standard
-/

set_option autoImplicit false

namespace Wz.Snow

open Wz.Spec.Snow

theorem tables_full : alphaMulTable.length = 256 ∧ alphaInvMulTable.length = 256 ∧ t0Table.length = 256 ∧ t1Table.length = 256 ∧
    t2Table.length = 256 ∧ t3Table.length = 256 := by decide +kernel

/-- a statement on bytes from one on numbers -/
theorem bytes_of_nats {P : BitVec 8 → Prop} (h : ∀ n, n < 256 → P (BitVec.ofNat 8 n)) (b : BitVec 8) : P b := by
  have := h b.toNat b.isLt
  rwa [BitVec.ofNat_toNat, BitVec.setWidth_eq] at this

/-- the powers of `β` that are used -/
theorem beta_powers : gpow betaPoly 2 23 = 0xE1 ∧ gpow betaPoly 2 245 = 0x9F ∧ gpow betaPoly 2 48 = 0xCF ∧ gpow betaPoly 2 239 = 0x13 := by
  decide +kernel

theorem alpha_table (c : BitVec 8) :
    look alphaMulTable c.toNat = pack (timesBeta 23 c) (timesBeta 245 c) (timesBeta 48 c) (timesBeta 239 c) := by
  unfold timesBeta
  rw [beta_powers.1, beta_powers.2.1, beta_powers.2.2.1, beta_powers.2.2.2]
  have h : ∀ n, n < 256 → look alphaMulTable (BitVec.ofNat 8 n).toNat =
      pack (BitVec.ofNat 8 (gmul betaPoly (BitVec.ofNat 8 n).toNat 0xE1)) (BitVec.ofNat 8 (gmul betaPoly (BitVec.ofNat 8 n).toNat 0x9F))
        (BitVec.ofNat 8 (gmul betaPoly (BitVec.ofNat 8 n).toNat 0xCF)) (BitVec.ofNat 8 (gmul betaPoly (BitVec.ofNat 8 n).toNat 0x13)) := by
    decide +kernel
  exact bytes_of_nats (P := fun c => look alphaMulTable c.toNat = pack (BitVec.ofNat 8 (gmul betaPoly c.toNat 0xE1))
    (BitVec.ofNat 8 (gmul betaPoly c.toNat 0x9F)) (BitVec.ofNat 8 (gmul betaPoly c.toNat 0xCF)) (BitVec.ofNat 8 (gmul betaPoly c.toNat 0x13))) h c

/-- the inverse table against the other one -/
theorem inv_table (c : BitVec 8) :
    (look alphaMulTable c.toNat >>> 8) ^^^ look alphaInvMulTable (look alphaMulTable c.toNat &&& 0xff#32).toNat = pack c 0 0 0 := by
  have h : ∀ n, n < 256 → (look alphaMulTable (BitVec.ofNat 8 n).toNat >>> 8) ^^^
      look alphaInvMulTable (look alphaMulTable (BitVec.ofNat 8 n).toNat &&& 0xff#32).toNat = pack (BitVec.ofNat 8 n) 0 0 0 := by
    decide +kernel
  exact bytes_of_nats (P := fun c => (look alphaMulTable c.toNat >>> 8) ^^^
      look alphaInvMulTable (look alphaMulTable c.toNat &&& 0xff#32).toNat = pack c 0 0 0) h c

theorem inv_table' (c : BitVec 8) :
    (look alphaInvMulTable c.toNat <<< 8) ^^^ look alphaMulTable (look alphaInvMulTable c.toNat >>> 24).toNat = pack 0 0 0 c := by
  have h : ∀ n, n < 256 → (look alphaInvMulTable (BitVec.ofNat 8 n).toNat <<< 8) ^^^
      look alphaMulTable (look alphaInvMulTable (BitVec.ofNat 8 n).toNat >>> 24).toNat = pack 0 0 0 (BitVec.ofNat 8 n) := by
    decide +kernel
  exact bytes_of_nats (P := fun c => (look alphaInvMulTable c.toNat <<< 8) ^^^
      look alphaMulTable (look alphaInvMulTable c.toNat >>> 24).toNat = pack 0 0 0 c) h c

/-- inverses in the field of AES -/
def invList : List Nat := [
  0, 1, 141, 246, 203, 82, 123, 209, 232, 79, 41, 192, 176, 225, 229, 199, 116, 180, 170, 75, 153, 43, 96, 95, 88, 63, 253, 204, 255, 64, 238, 178,
  58, 110, 90, 241, 85, 77, 168, 201, 193, 10, 152, 21, 48, 68, 162, 194, 44, 69, 146, 108, 243, 57, 102, 66, 242, 53, 32, 111, 119, 187, 89, 25,
  29, 254, 55, 103, 45, 49, 245, 105, 167, 100, 171, 19, 84, 37, 233, 9, 237, 92, 5, 202, 76, 36, 135, 191, 24, 62, 34, 240, 81, 236, 97, 23,
  22, 94, 175, 211, 73, 166, 54, 67, 244, 71, 145, 223, 51, 147, 33, 59, 121, 183, 151, 133, 16, 181, 186, 60, 182, 112, 208, 6, 161, 250, 129, 130,
  131, 126, 127, 128, 150, 115, 190, 86, 155, 158, 149, 217, 247, 2, 185, 164, 222, 106, 50, 109, 216, 138, 132, 114, 42, 20, 159, 136, 249, 220, 137, 154,
  251, 124, 46, 195, 143, 184, 101, 72, 38, 200, 18, 74, 206, 231, 210, 98, 12, 224, 31, 239, 17, 117, 120, 113, 165, 142, 118, 61, 189, 188, 134, 87,
  11, 40, 47, 163, 218, 212, 228, 15, 169, 39, 83, 4, 27, 252, 172, 230, 122, 7, 174, 99, 197, 219, 226, 234, 148, 139, 196, 213, 157, 248, 144, 107,
  177, 13, 214, 235, 198, 14, 207, 173, 8, 78, 215, 227, 93, 80, 30, 179, 91, 35, 56, 52, 104, 70, 3, 140, 221, 156, 125, 160, 205, 26, 65, 28]

/-- the S-box the tables are made with: one byte of `SNOW_T0` -/
def sboxOf (c : BitVec 8) : BitVec 8 := byteOf 1 (look t0Table c.toNat)

theorem sbox_ok : IsSbox sboxOf := by
  have h : ∀ n, n < 256 → ((n = 0 ∧ invList.getD n 0 = 0) ∨ gmul aesPoly n (invList.getD n 0) = 1) ∧ invList.getD n 0 < 256 ∧
      sboxOf (BitVec.ofNat 8 n) = affine (BitVec.ofNat 8 (invList.getD n 0)) := by
    decide +kernel
  intro x
  obtain ⟨h1, h2, h3⟩ := h x.toNat x.isLt
  refine ⟨BitVec.ofNat 8 (invList.getD x.toNat 0), ?_, ?_⟩
  · rw [BitVec.toNat_ofNat, Nat.mod_eq_of_lt h2]
    rcases h1 with ⟨ha, hb⟩ | h1
    · exact .inl ⟨BitVec.eq_of_toNat_eq ha, by rw [hb]⟩
    · exact .inr h1
  · rw [BitVec.ofNat_toNat, BitVec.setWidth_eq] at h3
    exact h3

theorem t0_table (c : BitVec 8) : look t0Table c.toNat = pack (mul3 (sboxOf c)) (sboxOf c) (sboxOf c) (mul2 (sboxOf c)) := by
  have h : ∀ n, n < 256 → look t0Table (BitVec.ofNat 8 n).toNat = pack (mul3 (sboxOf (BitVec.ofNat 8 n))) (sboxOf (BitVec.ofNat 8 n)) (sboxOf (BitVec.ofNat 8 n)) (mul2 (sboxOf (BitVec.ofNat 8 n))) := by
    decide +kernel
  exact bytes_of_nats (P := fun c => look t0Table c.toNat = pack (mul3 (sboxOf c)) (sboxOf c) (sboxOf c) (mul2 (sboxOf c))) h c

theorem t1_table (c : BitVec 8) : look t1Table c.toNat = pack (sboxOf c) (sboxOf c) (mul2 (sboxOf c)) (mul3 (sboxOf c)) := by
  have h : ∀ n, n < 256 → look t1Table (BitVec.ofNat 8 n).toNat = pack (sboxOf (BitVec.ofNat 8 n)) (sboxOf (BitVec.ofNat 8 n)) (mul2 (sboxOf (BitVec.ofNat 8 n))) (mul3 (sboxOf (BitVec.ofNat 8 n))) := by
    decide +kernel
  exact bytes_of_nats (P := fun c => look t1Table c.toNat = pack (sboxOf c) (sboxOf c) (mul2 (sboxOf c)) (mul3 (sboxOf c))) h c

theorem t2_table (c : BitVec 8) : look t2Table c.toNat = pack (sboxOf c) (mul2 (sboxOf c)) (mul3 (sboxOf c)) (sboxOf c) := by
  have h : ∀ n, n < 256 → look t2Table (BitVec.ofNat 8 n).toNat = pack (sboxOf (BitVec.ofNat 8 n)) (mul2 (sboxOf (BitVec.ofNat 8 n))) (mul3 (sboxOf (BitVec.ofNat 8 n))) (sboxOf (BitVec.ofNat 8 n)) := by
    decide +kernel
  exact bytes_of_nats (P := fun c => look t2Table c.toNat = pack (sboxOf c) (mul2 (sboxOf c)) (mul3 (sboxOf c)) (sboxOf c)) h c

theorem t3_table (c : BitVec 8) : look t3Table c.toNat = pack (mul2 (sboxOf c)) (mul3 (sboxOf c)) (sboxOf c) (sboxOf c) := by
  have h : ∀ n, n < 256 → look t3Table (BitVec.ofNat 8 n).toNat = pack (mul2 (sboxOf (BitVec.ofNat 8 n))) (mul3 (sboxOf (BitVec.ofNat 8 n))) (sboxOf (BitVec.ofNat 8 n)) (sboxOf (BitVec.ofNat 8 n)) := by
    decide +kernel
  exact bytes_of_nats (P := fun c => look t3Table c.toNat = pack (mul2 (sboxOf c)) (mul3 (sboxOf c)) (sboxOf c) (sboxOf c)) h c

end Wz.Snow
