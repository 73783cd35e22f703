import Verif.Version.Pkg2Lemmas
import Verif.Version.Pkg2Spec
/-!
# The generators against the equations
-/

set_option autoImplicit false

namespace Wz

namespace Pkg2

/-! ### the verifiers decide the equations -/

theorem and_31 (t : BitVec 32) : (t &&& 0x1f#32).toNat = t.toNat % 32 := by
  rw [BitVec.toNat_and]; exact Nat.and_two_pow_sub_one_eq_mod t.toNat 5

theorem and_15 (t : BitVec 32) : (t &&& 0xf#32).toNat = t.toNat % 16 := by
  rw [BitVec.toNat_and]; exact Nat.and_two_pow_sub_one_eq_mod t.toNat 4

theorem and_16 (t : BitVec 32) : t &&& 0xFFFF#32 = BitVec.ofNat 32 (t.toNat % 65536) := by
  apply BitVec.eq_of_toNat_eq
  rw [BitVec.toNat_and, BitVec.toNat_ofNat]
  have h : t.toNat &&& 0xFFFF % 2 ^ 32 = t.toNat % 65536 := Nat.and_two_pow_sub_one_eq_mod t.toNat 16
  rw [BitVec.toNat_ofNat, h]
  refine (Nat.mod_eq_of_lt ?_).symm
  have := Nat.mod_lt t.toNat (show 65536 > 0 by omega)
  omega

theorem xor_eq_iff {n : Nat} (a b c : BitVec n) : a ^^^ b = c ↔ a = b ^^^ c := by
  constructor
  · intro h; rw [← h, BitVec.xor_comm a b, ← BitVec.xor_assoc, BitVec.xor_self, BitVec.zero_xor]
  · intro h; rw [h, BitVec.xor_assoc, BitVec.xor_comm c b, ← BitVec.xor_assoc, BitVec.xor_self, BitVec.zero_xor]

theorem not_eq_iff {n : Nat} (a b : BitVec n) : ~~~a = b ↔ a = ~~~b := by
  constructor
  · intro h; rw [← h, BitVec.not_not]
  · intro h; rw [h, BitVec.not_not]

theorem verifyV1_iff (h1 h2 t : BitVec 32) : verifyV1 h1 h2 t = true ↔ Spec.Solves1 h1 h2 t := by
  unfold verifyV1 Spec.Solves1
  rw [beq_iff_eq, BitVec.xor_comm, xor_eq_iff]

theorem verifyV2_iff (h1 h2 t : BitVec 32) : verifyV2 h1 h2 t = true ↔ Spec.Solves2 h1 h2 t := by
  unfold verifyV2 Spec.Solves2
  dsimp only
  rw [beq_iff_eq, and_31, xor_eq_iff]
  rfl

theorem verifyV3_iff (h1 h2 t : BitVec 32) : verifyV3 h1 h2 t = true ↔ Spec.Solves3 h1 h2 t := by
  unfold verifyV3 Spec.Solves3
  dsimp only
  rw [beq_iff_eq, and_15, and_15, not_eq_iff, xor_eq_iff, xor_eq_iff, ← BitVec.xor_assoc]
  rfl

theorem mixV4_eq (h1 t : BitVec 32) : mixV4 h1 t = Spec.word4 h1 t := by
  unfold mixV4 Spec.word4
  dsimp only
  rw [and_15, and_15, and_16]
  rfl

theorem verifyV4_iff (h1 h2 t : BitVec 32) : verifyV4 h1 h2 t = true ↔ Spec.Solves4 h1 h2 t := by
  unfold verifyV4 Spec.Solves4
  rw [beq_iff_eq, mixV4_eq, ← not_eq_iff]
  exact eq_comm

theorem verifyV5_iff (h1 h2 t : BitVec 32) : verifyV5 h1 h2 t = true ↔ Spec.Solves5 h1 h2 t := by
  unfold verifyV5 Spec.Solves5
  rw [beq_iff_eq, mixV4_eq]
  exact eq_comm

theorem verifyV6_iff (h1 h2 t : BitVec 64) : verifyV6 h1 h2 t = true ↔ Spec.Solves6 h1 h2 t := by
  unfold verifyV6 Spec.Solves6
  rw [beq_iff_eq, BitVec.xor_comm _ t, xor_eq_iff]
  show _ ↔ t = (h1 ^^^ h2) ^^^ verifyKeyV6
  exact Iff.rfl

/-! ### the searches -/

theorem lowBits_of_mod {t : BitVec 32} {k : Nat} (s : Nat) (h : t.toNat % 2 ^ k = s) (i : Nat) (hi : i < k) :
    t.getLsbD i = (BitVec.ofNat 32 s).getLsbD i := by
  rw [← h]
  by_cases h32 : i < 32
  · rw [BitVec.getLsbD_ofNat, decide_eq_true h32, Bool.true_and, Nat.testBit_mod_two_pow, decide_eq_true hi, Bool.true_and]
    rfl
  · rw [BitVec.getLsbD_of_ge _ _ (by omega), BitVec.getLsbD_of_ge _ _ (by omega)]

theorem mod_of_lowBits {t : BitVec 32} {k s : Nat} (hk : k ≤ 32) (hs : s < 2 ^ k)
    (h : ∀ i, i < k → t.getLsbD i = (BitVec.ofNat 32 s).getLsbD i) : t.toNat % 2 ^ k = s := by
  apply Nat.eq_of_testBit_eq
  intro i
  rw [Nat.testBit_mod_two_pow]
  by_cases hi : i < k
  · have := h i hi
    rw [BitVec.getLsbD_ofNat, decide_eq_true (show i < 32 by omega), Bool.true_and] at this
    rw [decide_eq_true hi, Bool.true_and]
    exact this
  · rw [decide_eq_false hi, Bool.false_and, Nat.testBit_lt_two_pow]
    exact Nat.lt_of_lt_of_le hs (Nat.pow_le_pow_right (by omega) (by omega))

theorem genV2_spec (h1 h2 : BitVec 32) : (genV2 h1 h2).Nodup ∧ ∀ t, t ∈ genV2 h1 h2 ↔
    Spec.Solves2 h1 h2 t ∧ (t.toNat % 32 = 0 → t = 0#32) := by
  obtain ⟨news, hn, hnd, hm⟩ := fold_runs (infoV2 h1 h2) 32
  have hg : genV2 h1 h2 = news := hn
  rw [hg]
  have hlow : ∀ s t, s < 32 → (∀ i, i < 32 → LowBit (infoV2 h1 h2 s) t i) → t.toNat % 32 = s := by
    intro s t hs h
    exact mod_of_lowBits (k := 5) (by omega) hs fun i hi => h i (by omega) hi
  refine ⟨hnd fun s s' t hs hs' h h' => ?_, fun t => ?_⟩
  · rw [← hlow s t hs h, ← hlow s' t hs' h']
  · rw [hm]
    constructor
    · rintro ⟨s, hs, hall, hval⟩
      have hsol := (verifyV2_iff h1 h2 t).mp hval
      have hmod := hlow s t hs fun i hi => (hall i hi).1
      refine ⟨hsol, fun h0 => ?_⟩
      refine zero_of_ok (infoV2 h1 h2 s) t (fun i hi => (hall i hi).2) ?_ ?_
      · show (h1 ^^^ (t + verifyKey)).rotateLeft s = t ^^^ h2
        rw [← hmod]; exact hsol
      · show s % 32 = 0
        omega
    · rintro ⟨hsol, hz⟩
      refine ⟨t.toNat % 32, Nat.mod_lt _ (by omega), ?_, (verifyV2_iff h1 h2 t).mpr hsol⟩
      have hl : ∀ i, i < 32 → LowBit (infoV2 h1 h2 (t.toNat % 32)) t i := fun i _ hi =>
        lowBits_of_mod (k := 5) _ rfl i hi
      have hok := ok_of_solution (infoV2 h1 h2 (t.toNat % 32)) t hl (show (5 : Nat) ≤ 32 by omega) hsol (by
        show t.toNat % 32 % 32 ≠ 0 ∨ _
        by_cases h : t.toNat % 32 = 0
        · exact .inr (hz h)
        · exact .inl (by omega))
      exact fun i hi => ⟨hl i hi, hok i hi⟩

theorem genV3_spec (h1 h2 : BitVec 32) : (genV3 h1 h2).Nodup ∧ ∀ t, t ∈ genV3 h1 h2 ↔
    Spec.Solves3 h1 h2 t ∧ (t.toNat % 16 = 0 → h1.toNat % 16 = 0 → t = 0#32) := by
  obtain ⟨news, hn, hnd, hm⟩ := fold_runs (infoV3 h1 h2) 16
  have hg : genV3 h1 h2 = news := hn
  rw [hg]
  have hlow : ∀ s t, s < 16 → (∀ i, i < 32 → LowBit (infoV3 h1 h2 s) t i) → t.toNat % 16 = s := by
    intro s t hs h
    exact mod_of_lowBits (k := 4) (by omega) hs fun i hi => h i (by omega) hi
  have hS : ∀ s, (infoV3 h1 h2 s).s = s + h1.toNat % 16 := fun s => by
    show s + (h1 &&& 0xf#32).toNat = _
    rw [and_15]
  have hT : ∀ t, t ^^^ h1 ^^^ ~~~h2 = t ^^^ (~~~h2 ^^^ h1) := fun t => by
    rw [BitVec.xor_assoc, BitVec.xor_comm h1]
  refine ⟨hnd fun s s' t hs hs' h h' => ?_, fun t => ?_⟩
  · rw [← hlow s t hs h, ← hlow s' t hs' h']
  · rw [hm]
    constructor
    · rintro ⟨s, hs, hall, hval⟩
      have hsol := (verifyV3_iff h1 h2 t).mp hval
      have hmod := hlow s t hs fun i hi => (hall i hi).1
      refine ⟨hsol, fun h0 h00 => ?_⟩
      refine zero_of_ok (infoV3 h1 h2 s) t (fun i hi => (hall i hi).2) ?_ ?_
      · rw [hS]
        show (h1 ^^^ (t + verifyKey)).rotateLeft (s + h1.toNat % 16) = t ^^^ (~~~h2 ^^^ h1)
        rw [← hT, ← hmod]; exact hsol
      · rw [hS]; omega
    · rintro ⟨hsol, hz⟩
      refine ⟨t.toNat % 16, Nat.mod_lt _ (by omega), ?_, (verifyV3_iff h1 h2 t).mpr hsol⟩
      have hl : ∀ i, i < 32 → LowBit (infoV3 h1 h2 (t.toNat % 16)) t i := fun i _ hi =>
        lowBits_of_mod (k := 4) _ rfl i hi
      have hok := ok_of_solution (infoV3 h1 h2 (t.toNat % 16)) t hl (show (4 : Nat) ≤ 32 by omega) (by
        rw [hS]
        show (h1 ^^^ (t + verifyKey)).rotateLeft (t.toNat % 16 + h1.toNat % 16) = t ^^^ (~~~h2 ^^^ h1)
        rw [← hT]; exact hsol) (by
        rw [hS]
        by_cases h : t.toNat % 16 = 0 ∧ h1.toNat % 16 = 0
        · exact .inr (hz h.1 h.2)
        · exact .inl (by omega))
      exact fun i hi => ⟨hl i hi, hok i hi⟩

theorem bruteForce_spec (h1 h2 : BitVec 32) (ver : BitVec 32 → BitVec 32 → BitVec 32 → Bool) :
    (bruteForce h1 h2 ver).Nodup ∧
    ∀ t, t ∈ bruteForce h1 h2 ver ↔ ver h1 h2 t = true ∧ t.toNat ≠ 2 ^ 32 - 1 := by
  unfold bruteForce
  generalize hN : (2 : Nat) ^ 32 - 1 = N
  have hlt : N < 2 ^ 32 := by rw [← hN]; exact Nat.sub_lt (Nat.two_pow_pos 32) (by omega)
  have hmax : ∀ t : BitVec 32, t.toNat ≤ N := fun t => by
    rw [← hN]; exact Nat.le_sub_one_of_lt t.isLt
  constructor
  · refine List.Pairwise.filter _ ?_
    rw [List.pairwise_map]
    refine List.Pairwise.imp_of_mem ?_ List.nodup_range
    intro a b ha hb hne he
    rw [List.mem_range] at ha hb
    have := congrArg BitVec.toNat he
    rw [BitVec.toNat_ofNat, BitVec.toNat_ofNat, Nat.mod_eq_of_lt (by omega), Nat.mod_eq_of_lt (by omega)] at this
    exact hne this
  · intro t
    rw [List.mem_filter, List.mem_map]
    constructor
    · rintro ⟨⟨a, ha, rfl⟩, hv⟩
      rw [List.mem_range] at ha
      refine ⟨hv, ?_⟩
      rw [BitVec.toNat_ofNat, Nat.mod_eq_of_lt (by omega)]
      omega
    · rintro ⟨hv, hne⟩
      have := hmax t
      exact ⟨⟨t.toNat, List.mem_range.mpr (by omega), by rw [BitVec.ofNat_toNat, BitVec.setWidth_eq]⟩, hv⟩

end Pkg2

end Wz
