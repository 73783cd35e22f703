import Verif.Keys.Props
/-!
# The published key formulas

C15 with the arithmetic of the two PKG2 key formulas written out on plain numbers and bytes, and C07 for
the script decryptor.
-/

set_option autoImplicit false

namespace Wz.Spec

/-- the 32-bit mixing step on numbers: fold the upper half in, multiply, fold by fifteen, multiply, fold the
upper half in -/
def mixNumber (x : Nat) : Nat :=
  let a := x ^^^ (x / 65536)
  let b := a * 2146121005 % 4294967296
  let c := b ^^^ (b / 32768)
  let d := c * 2221713035 % 4294967296
  d ^^^ (d / 65536)

/-- byte `i`, counted from the lowest, of a number of 64 bits -/
def byteAt64 (x : BitVec 64) (i : Nat) : Nat := x.toNat / 256 ^ i % 256

/-- the mask of the 64-bit formula, lowest byte first -/
def mask1202 : List Nat := [223, 211, 127, 49, 238, 127, 181, 102]

/-- the AES key of the default user key: eight bytes, each followed by three zeros -/
def defaultAesKey : Bytes :=
  [0x13, 0x08, 0x06, 0xB4, 0x1B, 0x0F, 0x33, 0x52].flatMap fun b => [BitVec.ofNat 8 b, 0#8, 0#8, 0#8]

end Wz.Spec

namespace Wz.Props
open Wz Wz.Spec

private theorem fold_number (x : BitVec 32) (k n : Nat) (h : 2 ^ k = n) : (x ^^^ (x >>> k)).toNat = x.toNat ^^^ (x.toNat / n) := by
  rw [BitVec.toNat_xor, BitVec.toNat_ushiftRight, Nat.shiftRight_eq_div_pow, h]

private theorem times_number (x m : BitVec 32) (n : Nat) (h : m.toNat = n) : (x * m).toNat = x.toNat * n % 4294967296 := by
  rw [BitVec.toNat_mul, h]

private theorem mix_general (x m1 m2 : BitVec 32) (n1 n2 : Nat) (h1 : m1.toNat = n1) (h2 : m2.toNat = n2) (mix : Nat → Nat)
    (hm : ∀ x, mix x = (
      let a := x ^^^ (x / 65536)
      let b := a * n1 % 4294967296
      let c := b ^^^ (b / 32768)
      let d := c * n2 % 4294967296
      d ^^^ (d / 65536))) (y : BitVec 32)
    (hy : y = (
      let key := x ^^^ (x >>> 16)
      let key := key * m1
      let key := key ^^^ (key >>> 15)
      let key := key * m2
      key ^^^ (key >>> 16))) : y.toNat = mix x.toNat := by
  rw [hm, hy]
  dsimp only
  rw [fold_number _ 16 65536 rfl, times_number _ m2 n2 h2, fold_number _ 15 32768 rfl, times_number _ m1 n1 h1, fold_number _ 16 65536 rfl]

theorem mix_number (x : BitVec 32) : (mixKmst1199 x).toNat = mixNumber x.toNat :=
  mix_general x 0x7FEB352D#32 0x846CA68B#32 2146121005 2221713035 (by decide) (by decide) mixNumber (fun _ => rfl) _ rfl

/-- C15: the 32-bit key is the mixed mix of the two hashes and the two constants, in plain numbers. -/
theorem C15_kmst1199_formula (hash1 v : BitVec 32) :
    (kmst1199Key hash1 v).toNat = mixNumber (mixNumber (hash1.toNat ^^^ v.toNat ^^^ 1833712426) ^^^ 1330426698) := by
  unfold kmst1199Key
  rw [mix_number, BitVec.toNat_xor, mix_number, BitVec.toNat_xor, BitVec.toNat_xor, BitVec.toNat_ofNat, BitVec.toNat_ofNat]

example : (kmst1199Key 0x12345678#32 0x9ABC#32).toNat = mixNumber (mixNumber (305419896 ^^^ 39612 ^^^ 1833712426) ^^^ 1330426698) ∧
    mixNumber 1 = 1753845952 := by decide +kernel

/-- C15: every byte of the 64-bit key is the byte of the stored hash, the byte of the version hash and the
byte of the mask, xored. -/
theorem C15_kmst1202_formula (hash1 v : BitVec 64) (i : Nat) (hi : i < 8) :
    ∃ m, mask1202[i]? = some m ∧ byteAt64 (kmst1202Key hash1 v) i = byteAt64 hash1 i ^^^ byteAt64 v i ^^^ m := by
  have key : ∀ (a b : Nat), (a ^^^ b) / 256 ^ i % 256 = (a / 256 ^ i % 256) ^^^ (b / 256 ^ i % 256) := by
    intro a b
    rw [show 256 ^ i = 2 ^ (8 * i) by rw [show (256 : Nat) = 2 ^ 8 from rfl, Nat.pow_mul], show (256 : Nat) = 2 ^ 8 from rfl,
      ← Nat.shiftRight_eq_div_pow, ← Nat.shiftRight_eq_div_pow, ← Nat.shiftRight_eq_div_pow,
      Nat.shiftRight_xor_distrib, Nat.xor_mod_two_pow]
  refine ⟨0x66B57FEE317FD3DF / 256 ^ i % 256, ?_, ?_⟩
  · have : ∀ j < 8, mask1202[j]? = some (0x66B57FEE317FD3DF / 256 ^ j % 256) := by decide
    exact this i hi
  · unfold byteAt64 kmst1202Key
    rw [BitVec.toNat_xor, BitVec.toNat_xor, key, key, BitVec.toNat_ofNat]

example : (List.range 8).map (byteAt64 (kmst1202Key 0x0102030405060708#64 0xFF#64)) = [40, 212, 121, 52, 234, 124, 183, 103] := by
  decide +kernel

/-- C07: the decryptor made for scripts decrypts, whatever was asked of it before, by xoring with the stream
of the initialisation vector B9 7D 63 E9 under the default key. -/
theorem C07_script_decryptor (aes : Aes) (ha : aes.Sized) (ops : List KeyOp) (data : Bytes) :
    (Ecb.newLua.bind fun d => (getDecryptSlice aes (ops.foldl (KeyOp.after aes) d) data).map Prod.fst) =
      .ok (xorStream (stream aes defaultAesKey [0xB9#8, 0x7D#8, 0x63#8, 0xE9#8]) data) := by
  have hn : Ecb.newLua = .ok (Ecb.new [0xB9#8, 0x7D#8, 0x63#8, 0xE9#8] defaultAesKey) := by decide +kernel
  rw [hn]
  show (getDecryptSlice aes (ops.foldl (KeyOp.after aes) (Ecb.new _ _)) data).map Prod.fst = _
  rw [C07_decrypt_after_history aes ha _ _ rfl]
  rfl

/-- C07: it is not a decryptor that leaves data alone: with a cipher whose stream has a byte that is not
zero at `i`, byte `i` changes. -/
theorem C07_script_changes (aes : Aes) (ha : aes.Sized) (ops : List KeyOp) (data out : Bytes) (i : Nat) (b : Byte)
    (hb : data[i]? = some b) (hs : stream aes defaultAesKey [0xB9#8, 0x7D#8, 0x63#8, 0xE9#8] i ≠ 0#8)
    (h : (Ecb.newLua.bind fun d => (getDecryptSlice aes (ops.foldl (KeyOp.after aes) d) data).map Prod.fst) = .ok out) :
    out[i]? ≠ some b := by
  rw [C07_script_decryptor aes ha] at h
  cases h
  simp only [xorStream, List.getElem?_mapIdx, hb, Option.map_some]
  intro he
  injection he with he
  apply hs
  have := congrArg (b ^^^ ·) he
  simpa [← BitVec.xor_assoc] using this

example : ∃ (aes : Aes), aes.Sized ∧ stream aes defaultAesKey [0xB9#8, 0x7D#8, 0x63#8, 0xE9#8] 3 ≠ 0#8 :=
  ⟨fun _ _ => List.replicate 16 7#8, by simp [Aes.Sized], by decide⟩

end Wz.Props
