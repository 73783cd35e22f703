import Verif.Ms.SnowTableLemmas
/-!
# The clocking of Snow2 against the standard
-/

set_option autoImplicit false

namespace Wz.Snow

open Wz.Spec.Snow

/-! ## words and bytes -/

theorem pack_bytes (w : W32) : w = pack (byteOf 3 w) (byteOf 2 w) (byteOf 1 w) (byteOf 0 w) := by
  apply BitVec.eq_of_getLsbD_eq
  intro i hi
  simp only [pack, byteOf, BitVec.getLsbD_append, BitVec.getLsbD_extractLsb']
  by_cases h1 : i < 8
  · simp [h1]
  · by_cases h2 : i < 16
    · simp [h1, show i - 8 < 8 by omega, show 8 + (i - 8) = i by omega]
    · by_cases h3 : i < 24
      · simp [h1, show ¬ i - 8 < 8 by omega, show i - 8 - 8 < 8 by omega, show 16 + (i - 8 - 8) = i by omega]
      · simp [h1, show ¬ i - 8 < 8 by omega, show ¬ i - 8 - 8 < 8 by omega, show i - 8 - 8 - 8 < 8 by omega, show 24 + (i - 8 - 8 - 8) = i by omega]

theorem pack_xor (a b c d a' b' c' d' : BitVec 8) :
    pack a b c d ^^^ pack a' b' c' d' = pack (a ^^^ a') (b ^^^ b') (c ^^^ c') (d ^^^ d') := by
  apply BitVec.eq_of_getLsbD_eq
  intro i hi
  simp only [pack, BitVec.getLsbD_xor, BitVec.getLsbD_append]
  repeat' split
  all_goals rfl

theorem byteOf_pack (a b c d : BitVec 8) :
    byteOf 0 (pack a b c d) = d ∧ byteOf 1 (pack a b c d) = c ∧ byteOf 2 (pack a b c d) = b ∧ byteOf 3 (pack a b c d) = a := by
  refine ⟨?_, ?_, ?_, ?_⟩ <;> apply BitVec.eq_of_getLsbD_eq <;> intro i hi <;>
    simp only [pack, byteOf, BitVec.getLsbD_append, BitVec.getLsbD_extractLsb']
  · simp [hi]
  · simp [hi]
  · simp [hi, show ¬ 16 + i < 8 by omega, show ¬ 16 + i - 8 < 8 by omega, show 16 + i - 8 - 8 = i by omega]
  · simp [hi, show ¬ 24 + i < 8 by omega, show ¬ 24 + i - 8 < 8 by omega, show ¬ 24 + i - 8 - 8 < 8 by omega, show 24 + i - 8 - 8 - 8 = i by omega]

theorem shl_pack (w : W32) : w <<< 8 = pack (byteOf 2 w) (byteOf 1 w) (byteOf 0 w) 0#8 := by
  apply BitVec.eq_of_getLsbD_eq
  intro i hi
  simp only [pack, byteOf, BitVec.getLsbD_append, BitVec.getLsbD_extractLsb', BitVec.getLsbD_shiftLeft]
  by_cases h1 : i < 8
  · simp [h1]
  · by_cases h2 : i < 16
    · simp [hi, h1, show i - 8 < 8 by omega]
    · by_cases h3 : i < 24
      · simp [hi, h1, show ¬ i - 8 < 8 by omega, show i - 8 - 8 < 8 by omega, show 8 + (i - 8 - 8) = i - 8 by omega]
      · simp [hi, h1, show ¬ i - 8 < 8 by omega, show ¬ i - 8 - 8 < 8 by omega, show i - 8 - 8 - 8 < 8 by omega, show 16 + (i - 8 - 8 - 8) = i - 8 by omega]

theorem shr_pack (w : W32) : w >>> 8 = pack 0#8 (byteOf 3 w) (byteOf 2 w) (byteOf 1 w) := by
  apply BitVec.eq_of_getLsbD_eq
  intro i hi
  simp only [pack, byteOf, BitVec.getLsbD_append, BitVec.getLsbD_extractLsb', BitVec.getLsbD_ushiftRight]
  by_cases h1 : i < 8
  · simp [h1]
  · by_cases h2 : i < 16
    · simp [h1, show i - 8 < 8 by omega, show 16 + (i - 8) = 8 + i by omega]
    · by_cases h3 : i < 24
      · simp [h1, show ¬ i - 8 < 8 by omega, show i - 8 - 8 < 8 by omega, show 24 + (i - 8 - 8) = 8 + i by omega]
      · simp [h1, show ¬ i - 8 < 8 by omega, show ¬ i - 8 - 8 < 8 by omega, BitVec.getLsbD_of_ge w (8 + i) (by omega)]

theorem byte_eq_byteOf (n : Nat) (w : W32) : byte n w = (byteOf n w).toNat := by
  have h : ((w >>> (n * 8)) &&& 0xFF#32) = (byteOf n w).setWidth 32 := by
    apply BitVec.eq_of_getLsbD_eq
    intro i hi
    have hff : (0xFF#32).getLsbD i = decide (i < 8) := by
      revert i; decide
    simp only [byteOf, BitVec.getLsbD_and, BitVec.getLsbD_ushiftRight, hff, BitVec.getLsbD_setWidth, BitVec.getLsbD_extractLsb']
    simp [hi, Nat.mul_comm n 8, Bool.and_comm]
  unfold byte
  rw [h, BitVec.toNat_setWidth]
  exact Nat.mod_eq_of_lt (Nat.lt_trans (byteOf n w).isLt (by decide))

theorem low_byte (w : W32) : (w &&& 0xff#32).toNat = (byteOf 0 w).toNat := by
  rw [← byte_eq_byteOf]
  unfold byte
  simp

theorem high_byte (w : W32) : (w >>> 24).toNat = (byteOf 3 w).toNat := by
  rw [← byte_eq_byteOf]
  unfold byte
  have h : (w >>> 24) &&& 0xFF#32 = w >>> 24 := by
    apply BitVec.eq_of_getLsbD_eq
    intro i hi
    have hff : (0xFF#32).getLsbD i = decide (i < 8) := by revert i; decide
    simp only [BitVec.getLsbD_and, BitVec.getLsbD_ushiftRight, hff]
    by_cases h : i < 8
    · simp [h]
    · simp [h, BitVec.getLsbD_of_ge w (24 + i) (by omega)]
  rw [h]

/-! ## the maps -/

theorem aMul_eq (w : W32) : aMul w = timesAlpha w := by
  unfold aMul timesAlpha
  rw [high_byte, alpha_table, shl_pack, pack_xor]
  simp

theorem mix_eq (w : W32) : mix w = subMix sboxOf w := by
  unfold mix subMix
  simp only [byte_eq_byteOf, t0_table, t1_table, t2_table, t3_table, pack_xor]

theorem ainv_aMul (w : W32) : ainvMul (aMul w) = w := by
  unfold ainvMul aMul
  rw [high_byte, low_byte]
  have hlow : byteOf 0 ((w <<< 8) ^^^ look alphaMulTable (byteOf 3 w).toNat) = byteOf 0 (look alphaMulTable (byteOf 3 w).toNat) := by
    rw [shl_pack, pack_bytes (look alphaMulTable (byteOf 3 w).toNat), pack_xor]
    simp [byteOf_pack]
  have ht := inv_table (byteOf 3 w)
  rw [low_byte] at ht
  rw [hlow, BitVec.ushiftRight_xor_distrib, BitVec.xor_assoc, ht, shl_pack, shr_pack]
  simp only [byteOf_pack, pack_xor]
  simpa using (pack_bytes w).symm

theorem aMul_ainv (w : W32) : aMul (ainvMul w) = w := by
  unfold ainvMul aMul
  rw [low_byte, high_byte]
  have hhigh : byteOf 3 ((w >>> 8) ^^^ look alphaInvMulTable (byteOf 0 w).toNat) = byteOf 3 (look alphaInvMulTable (byteOf 0 w).toNat) := by
    rw [shr_pack, pack_bytes (look alphaInvMulTable (byteOf 0 w).toNat), pack_xor]
    simp [byteOf_pack]
  have ht := inv_table' (byteOf 0 w)
  rw [high_byte] at ht
  rw [hhigh, BitVec.shiftLeft_xor_distrib, BitVec.xor_assoc, ht, shr_pack, shl_pack]
  simp only [byteOf_pack, pack_xor]
  simpa using (pack_bytes w).symm

/-- the maps of the program -/
def maps : Maps := ⟨ainvMul, sboxOf⟩

theorem maps_ok : maps.Ok := by
  refine ⟨fun w => ⟨?_, ?_⟩, sbox_ok⟩
  · show ainvMul (timesAlpha w) = w
    rw [← aMul_eq, ainv_aMul]
  · show timesAlpha (ainvMul w) = w
    rw [← aMul_eq, aMul_ainv]

/-! ## the clocking -/

/-- the state when cell 0 is the oldest -/
def view0 (c : Ctx) : St := ⟨[c.s0, c.s1, c.s2, c.s3, c.s4, c.s5, c.s6, c.s7, c.s8, c.s9, c.s10, c.s11, c.s12, c.s13, c.s14, c.s15], c.r1, c.r2⟩
/-- the state when cell 1 is the oldest -/
def view1 (c : Ctx) : St := ⟨[c.s1, c.s2, c.s3, c.s4, c.s5, c.s6, c.s7, c.s8, c.s9, c.s10, c.s11, c.s12, c.s13, c.s14, c.s15, c.s0], c.r1, c.r2⟩
/-- the state when cell 2 is the oldest -/
def view2 (c : Ctx) : St := ⟨[c.s2, c.s3, c.s4, c.s5, c.s6, c.s7, c.s8, c.s9, c.s10, c.s11, c.s12, c.s13, c.s14, c.s15, c.s0, c.s1], c.r1, c.r2⟩
/-- the state when cell 3 is the oldest -/
def view3 (c : Ctx) : St := ⟨[c.s3, c.s4, c.s5, c.s6, c.s7, c.s8, c.s9, c.s10, c.s11, c.s12, c.s13, c.s14, c.s15, c.s0, c.s1, c.s2], c.r1, c.r2⟩
/-- the state when cell 4 is the oldest -/
def view4 (c : Ctx) : St := ⟨[c.s4, c.s5, c.s6, c.s7, c.s8, c.s9, c.s10, c.s11, c.s12, c.s13, c.s14, c.s15, c.s0, c.s1, c.s2, c.s3], c.r1, c.r2⟩
/-- the state when cell 5 is the oldest -/
def view5 (c : Ctx) : St := ⟨[c.s5, c.s6, c.s7, c.s8, c.s9, c.s10, c.s11, c.s12, c.s13, c.s14, c.s15, c.s0, c.s1, c.s2, c.s3, c.s4], c.r1, c.r2⟩
/-- the state when cell 6 is the oldest -/
def view6 (c : Ctx) : St := ⟨[c.s6, c.s7, c.s8, c.s9, c.s10, c.s11, c.s12, c.s13, c.s14, c.s15, c.s0, c.s1, c.s2, c.s3, c.s4, c.s5], c.r1, c.r2⟩
/-- the state when cell 7 is the oldest -/
def view7 (c : Ctx) : St := ⟨[c.s7, c.s8, c.s9, c.s10, c.s11, c.s12, c.s13, c.s14, c.s15, c.s0, c.s1, c.s2, c.s3, c.s4, c.s5, c.s6], c.r1, c.r2⟩
/-- the state when cell 8 is the oldest -/
def view8 (c : Ctx) : St := ⟨[c.s8, c.s9, c.s10, c.s11, c.s12, c.s13, c.s14, c.s15, c.s0, c.s1, c.s2, c.s3, c.s4, c.s5, c.s6, c.s7], c.r1, c.r2⟩
/-- the state when cell 9 is the oldest -/
def view9 (c : Ctx) : St := ⟨[c.s9, c.s10, c.s11, c.s12, c.s13, c.s14, c.s15, c.s0, c.s1, c.s2, c.s3, c.s4, c.s5, c.s6, c.s7, c.s8], c.r1, c.r2⟩
/-- the state when cell 10 is the oldest -/
def view10 (c : Ctx) : St := ⟨[c.s10, c.s11, c.s12, c.s13, c.s14, c.s15, c.s0, c.s1, c.s2, c.s3, c.s4, c.s5, c.s6, c.s7, c.s8, c.s9], c.r1, c.r2⟩
/-- the state when cell 11 is the oldest -/
def view11 (c : Ctx) : St := ⟨[c.s11, c.s12, c.s13, c.s14, c.s15, c.s0, c.s1, c.s2, c.s3, c.s4, c.s5, c.s6, c.s7, c.s8, c.s9, c.s10], c.r1, c.r2⟩
/-- the state when cell 12 is the oldest -/
def view12 (c : Ctx) : St := ⟨[c.s12, c.s13, c.s14, c.s15, c.s0, c.s1, c.s2, c.s3, c.s4, c.s5, c.s6, c.s7, c.s8, c.s9, c.s10, c.s11], c.r1, c.r2⟩
/-- the state when cell 13 is the oldest -/
def view13 (c : Ctx) : St := ⟨[c.s13, c.s14, c.s15, c.s0, c.s1, c.s2, c.s3, c.s4, c.s5, c.s6, c.s7, c.s8, c.s9, c.s10, c.s11, c.s12], c.r1, c.r2⟩
/-- the state when cell 14 is the oldest -/
def view14 (c : Ctx) : St := ⟨[c.s14, c.s15, c.s0, c.s1, c.s2, c.s3, c.s4, c.s5, c.s6, c.s7, c.s8, c.s9, c.s10, c.s11, c.s12, c.s13], c.r1, c.r2⟩
/-- the state when cell 15 is the oldest -/
def view15 (c : Ctx) : St := ⟨[c.s15, c.s0, c.s1, c.s2, c.s3, c.s4, c.s5, c.s6, c.s7, c.s8, c.s9, c.s10, c.s11, c.s12, c.s13, c.s14], c.r1, c.r2⟩

theorem init0_view (c : Ctx) : view1 (init0 c) = (view0 c).initStep maps := by
  simp only [view1, init0, view0, St.initStep, St.step, St.fsm, St.at, maps, ← mix_eq, ← aMul_eq, List.getD_cons_zero,
    List.getD_cons_succ, List.drop_succ_cons, List.drop_zero, List.cons_append, List.nil_append, BitVec.add_comm]

theorem gen0_view (c : Ctx) : view1 (gen0 c) = (view0 c).step maps 0#32 := by
  simp only [view1, gen0, view0, St.step, St.at, maps, ← mix_eq, ← aMul_eq, List.getD_cons_zero,
    List.getD_cons_succ, List.drop_succ_cons, List.drop_zero, List.cons_append, List.nil_append, BitVec.xor_zero]

theorem out0_view (c : Ctx) : out0 c = (view1 c).fsm ^^^ (view1 c).at 0 := by
  simp only [out0, view1, St.fsm, St.at, List.getD_cons_zero, List.getD_cons_succ, BitVec.add_comm]

theorem init1_view (c : Ctx) : view2 (init1 c) = (view1 c).initStep maps := by
  simp only [view2, init1, view1, St.initStep, St.step, St.fsm, St.at, maps, ← mix_eq, ← aMul_eq, List.getD_cons_zero,
    List.getD_cons_succ, List.drop_succ_cons, List.drop_zero, List.cons_append, List.nil_append, BitVec.add_comm]

theorem gen1_view (c : Ctx) : view2 (gen1 c) = (view1 c).step maps 0#32 := by
  simp only [view2, gen1, view1, St.step, St.at, maps, ← mix_eq, ← aMul_eq, List.getD_cons_zero,
    List.getD_cons_succ, List.drop_succ_cons, List.drop_zero, List.cons_append, List.nil_append, BitVec.xor_zero]

theorem out1_view (c : Ctx) : out1 c = (view2 c).fsm ^^^ (view2 c).at 0 := by
  simp only [out1, view2, St.fsm, St.at, List.getD_cons_zero, List.getD_cons_succ, BitVec.add_comm]

theorem init2_view (c : Ctx) : view3 (init2 c) = (view2 c).initStep maps := by
  simp only [view3, init2, view2, St.initStep, St.step, St.fsm, St.at, maps, ← mix_eq, ← aMul_eq, List.getD_cons_zero,
    List.getD_cons_succ, List.drop_succ_cons, List.drop_zero, List.cons_append, List.nil_append, BitVec.add_comm]

theorem gen2_view (c : Ctx) : view3 (gen2 c) = (view2 c).step maps 0#32 := by
  simp only [view3, gen2, view2, St.step, St.at, maps, ← mix_eq, ← aMul_eq, List.getD_cons_zero,
    List.getD_cons_succ, List.drop_succ_cons, List.drop_zero, List.cons_append, List.nil_append, BitVec.xor_zero]

theorem out2_view (c : Ctx) : out2 c = (view3 c).fsm ^^^ (view3 c).at 0 := by
  simp only [out2, view3, St.fsm, St.at, List.getD_cons_zero, List.getD_cons_succ, BitVec.add_comm]

theorem init3_view (c : Ctx) : view4 (init3 c) = (view3 c).initStep maps := by
  simp only [view4, init3, view3, St.initStep, St.step, St.fsm, St.at, maps, ← mix_eq, ← aMul_eq, List.getD_cons_zero,
    List.getD_cons_succ, List.drop_succ_cons, List.drop_zero, List.cons_append, List.nil_append, BitVec.add_comm]

theorem gen3_view (c : Ctx) : view4 (gen3 c) = (view3 c).step maps 0#32 := by
  simp only [view4, gen3, view3, St.step, St.at, maps, ← mix_eq, ← aMul_eq, List.getD_cons_zero,
    List.getD_cons_succ, List.drop_succ_cons, List.drop_zero, List.cons_append, List.nil_append, BitVec.xor_zero]

theorem out3_view (c : Ctx) : out3 c = (view4 c).fsm ^^^ (view4 c).at 0 := by
  simp only [out3, view4, St.fsm, St.at, List.getD_cons_zero, List.getD_cons_succ, BitVec.add_comm]

theorem init4_view (c : Ctx) : view5 (init4 c) = (view4 c).initStep maps := by
  simp only [view5, init4, view4, St.initStep, St.step, St.fsm, St.at, maps, ← mix_eq, ← aMul_eq, List.getD_cons_zero,
    List.getD_cons_succ, List.drop_succ_cons, List.drop_zero, List.cons_append, List.nil_append, BitVec.add_comm]

theorem gen4_view (c : Ctx) : view5 (gen4 c) = (view4 c).step maps 0#32 := by
  simp only [view5, gen4, view4, St.step, St.at, maps, ← mix_eq, ← aMul_eq, List.getD_cons_zero,
    List.getD_cons_succ, List.drop_succ_cons, List.drop_zero, List.cons_append, List.nil_append, BitVec.xor_zero]

theorem out4_view (c : Ctx) : out4 c = (view5 c).fsm ^^^ (view5 c).at 0 := by
  simp only [out4, view5, St.fsm, St.at, List.getD_cons_zero, List.getD_cons_succ, BitVec.add_comm]

theorem init5_view (c : Ctx) : view6 (init5 c) = (view5 c).initStep maps := by
  simp only [view6, init5, view5, St.initStep, St.step, St.fsm, St.at, maps, ← mix_eq, ← aMul_eq, List.getD_cons_zero,
    List.getD_cons_succ, List.drop_succ_cons, List.drop_zero, List.cons_append, List.nil_append, BitVec.add_comm]

theorem gen5_view (c : Ctx) : view6 (gen5 c) = (view5 c).step maps 0#32 := by
  simp only [view6, gen5, view5, St.step, St.at, maps, ← mix_eq, ← aMul_eq, List.getD_cons_zero,
    List.getD_cons_succ, List.drop_succ_cons, List.drop_zero, List.cons_append, List.nil_append, BitVec.xor_zero]

theorem out5_view (c : Ctx) : out5 c = (view6 c).fsm ^^^ (view6 c).at 0 := by
  simp only [out5, view6, St.fsm, St.at, List.getD_cons_zero, List.getD_cons_succ, BitVec.add_comm]

theorem init6_view (c : Ctx) : view7 (init6 c) = (view6 c).initStep maps := by
  simp only [view7, init6, view6, St.initStep, St.step, St.fsm, St.at, maps, ← mix_eq, ← aMul_eq, List.getD_cons_zero,
    List.getD_cons_succ, List.drop_succ_cons, List.drop_zero, List.cons_append, List.nil_append, BitVec.add_comm]

theorem gen6_view (c : Ctx) : view7 (gen6 c) = (view6 c).step maps 0#32 := by
  simp only [view7, gen6, view6, St.step, St.at, maps, ← mix_eq, ← aMul_eq, List.getD_cons_zero,
    List.getD_cons_succ, List.drop_succ_cons, List.drop_zero, List.cons_append, List.nil_append, BitVec.xor_zero]

theorem out6_view (c : Ctx) : out6 c = (view7 c).fsm ^^^ (view7 c).at 0 := by
  simp only [out6, view7, St.fsm, St.at, List.getD_cons_zero, List.getD_cons_succ, BitVec.add_comm]

theorem init7_view (c : Ctx) : view8 (init7 c) = (view7 c).initStep maps := by
  simp only [view8, init7, view7, St.initStep, St.step, St.fsm, St.at, maps, ← mix_eq, ← aMul_eq, List.getD_cons_zero,
    List.getD_cons_succ, List.drop_succ_cons, List.drop_zero, List.cons_append, List.nil_append, BitVec.add_comm]

theorem gen7_view (c : Ctx) : view8 (gen7 c) = (view7 c).step maps 0#32 := by
  simp only [view8, gen7, view7, St.step, St.at, maps, ← mix_eq, ← aMul_eq, List.getD_cons_zero,
    List.getD_cons_succ, List.drop_succ_cons, List.drop_zero, List.cons_append, List.nil_append, BitVec.xor_zero]

theorem out7_view (c : Ctx) : out7 c = (view8 c).fsm ^^^ (view8 c).at 0 := by
  simp only [out7, view8, St.fsm, St.at, List.getD_cons_zero, List.getD_cons_succ, BitVec.add_comm]

theorem init8_view (c : Ctx) : view9 (init8 c) = (view8 c).initStep maps := by
  simp only [view9, init8, view8, St.initStep, St.step, St.fsm, St.at, maps, ← mix_eq, ← aMul_eq, List.getD_cons_zero,
    List.getD_cons_succ, List.drop_succ_cons, List.drop_zero, List.cons_append, List.nil_append, BitVec.add_comm]

theorem gen8_view (c : Ctx) : view9 (gen8 c) = (view8 c).step maps 0#32 := by
  simp only [view9, gen8, view8, St.step, St.at, maps, ← mix_eq, ← aMul_eq, List.getD_cons_zero,
    List.getD_cons_succ, List.drop_succ_cons, List.drop_zero, List.cons_append, List.nil_append, BitVec.xor_zero]

theorem out8_view (c : Ctx) : out8 c = (view9 c).fsm ^^^ (view9 c).at 0 := by
  simp only [out8, view9, St.fsm, St.at, List.getD_cons_zero, List.getD_cons_succ, BitVec.add_comm]

theorem init9_view (c : Ctx) : view10 (init9 c) = (view9 c).initStep maps := by
  simp only [view10, init9, view9, St.initStep, St.step, St.fsm, St.at, maps, ← mix_eq, ← aMul_eq, List.getD_cons_zero,
    List.getD_cons_succ, List.drop_succ_cons, List.drop_zero, List.cons_append, List.nil_append, BitVec.add_comm]

theorem gen9_view (c : Ctx) : view10 (gen9 c) = (view9 c).step maps 0#32 := by
  simp only [view10, gen9, view9, St.step, St.at, maps, ← mix_eq, ← aMul_eq, List.getD_cons_zero,
    List.getD_cons_succ, List.drop_succ_cons, List.drop_zero, List.cons_append, List.nil_append, BitVec.xor_zero]

theorem out9_view (c : Ctx) : out9 c = (view10 c).fsm ^^^ (view10 c).at 0 := by
  simp only [out9, view10, St.fsm, St.at, List.getD_cons_zero, List.getD_cons_succ, BitVec.add_comm]

theorem init10_view (c : Ctx) : view11 (init10 c) = (view10 c).initStep maps := by
  simp only [view11, init10, view10, St.initStep, St.step, St.fsm, St.at, maps, ← mix_eq, ← aMul_eq, List.getD_cons_zero,
    List.getD_cons_succ, List.drop_succ_cons, List.drop_zero, List.cons_append, List.nil_append, BitVec.add_comm]

theorem gen10_view (c : Ctx) : view11 (gen10 c) = (view10 c).step maps 0#32 := by
  simp only [view11, gen10, view10, St.step, St.at, maps, ← mix_eq, ← aMul_eq, List.getD_cons_zero,
    List.getD_cons_succ, List.drop_succ_cons, List.drop_zero, List.cons_append, List.nil_append, BitVec.xor_zero]

theorem out10_view (c : Ctx) : out10 c = (view11 c).fsm ^^^ (view11 c).at 0 := by
  simp only [out10, view11, St.fsm, St.at, List.getD_cons_zero, List.getD_cons_succ, BitVec.add_comm]

theorem init11_view (c : Ctx) : view12 (init11 c) = (view11 c).initStep maps := by
  simp only [view12, init11, view11, St.initStep, St.step, St.fsm, St.at, maps, ← mix_eq, ← aMul_eq, List.getD_cons_zero,
    List.getD_cons_succ, List.drop_succ_cons, List.drop_zero, List.cons_append, List.nil_append, BitVec.add_comm]

theorem gen11_view (c : Ctx) : view12 (gen11 c) = (view11 c).step maps 0#32 := by
  simp only [view12, gen11, view11, St.step, St.at, maps, ← mix_eq, ← aMul_eq, List.getD_cons_zero,
    List.getD_cons_succ, List.drop_succ_cons, List.drop_zero, List.cons_append, List.nil_append, BitVec.xor_zero]

theorem out11_view (c : Ctx) : out11 c = (view12 c).fsm ^^^ (view12 c).at 0 := by
  simp only [out11, view12, St.fsm, St.at, List.getD_cons_zero, List.getD_cons_succ, BitVec.add_comm]

theorem init12_view (c : Ctx) : view13 (init12 c) = (view12 c).initStep maps := by
  simp only [view13, init12, view12, St.initStep, St.step, St.fsm, St.at, maps, ← mix_eq, ← aMul_eq, List.getD_cons_zero,
    List.getD_cons_succ, List.drop_succ_cons, List.drop_zero, List.cons_append, List.nil_append, BitVec.add_comm]

theorem gen12_view (c : Ctx) : view13 (gen12 c) = (view12 c).step maps 0#32 := by
  simp only [view13, gen12, view12, St.step, St.at, maps, ← mix_eq, ← aMul_eq, List.getD_cons_zero,
    List.getD_cons_succ, List.drop_succ_cons, List.drop_zero, List.cons_append, List.nil_append, BitVec.xor_zero]

theorem out12_view (c : Ctx) : out12 c = (view13 c).fsm ^^^ (view13 c).at 0 := by
  simp only [out12, view13, St.fsm, St.at, List.getD_cons_zero, List.getD_cons_succ, BitVec.add_comm]

theorem init13_view (c : Ctx) : view14 (init13 c) = (view13 c).initStep maps := by
  simp only [view14, init13, view13, St.initStep, St.step, St.fsm, St.at, maps, ← mix_eq, ← aMul_eq, List.getD_cons_zero,
    List.getD_cons_succ, List.drop_succ_cons, List.drop_zero, List.cons_append, List.nil_append, BitVec.add_comm]

theorem gen13_view (c : Ctx) : view14 (gen13 c) = (view13 c).step maps 0#32 := by
  simp only [view14, gen13, view13, St.step, St.at, maps, ← mix_eq, ← aMul_eq, List.getD_cons_zero,
    List.getD_cons_succ, List.drop_succ_cons, List.drop_zero, List.cons_append, List.nil_append, BitVec.xor_zero]

theorem out13_view (c : Ctx) : out13 c = (view14 c).fsm ^^^ (view14 c).at 0 := by
  simp only [out13, view14, St.fsm, St.at, List.getD_cons_zero, List.getD_cons_succ, BitVec.add_comm]

theorem init14_view (c : Ctx) : view15 (init14 c) = (view14 c).initStep maps := by
  simp only [view15, init14, view14, St.initStep, St.step, St.fsm, St.at, maps, ← mix_eq, ← aMul_eq, List.getD_cons_zero,
    List.getD_cons_succ, List.drop_succ_cons, List.drop_zero, List.cons_append, List.nil_append, BitVec.add_comm]

theorem gen14_view (c : Ctx) : view15 (gen14 c) = (view14 c).step maps 0#32 := by
  simp only [view15, gen14, view14, St.step, St.at, maps, ← mix_eq, ← aMul_eq, List.getD_cons_zero,
    List.getD_cons_succ, List.drop_succ_cons, List.drop_zero, List.cons_append, List.nil_append, BitVec.xor_zero]

theorem out14_view (c : Ctx) : out14 c = (view15 c).fsm ^^^ (view15 c).at 0 := by
  simp only [out14, view15, St.fsm, St.at, List.getD_cons_zero, List.getD_cons_succ, BitVec.add_comm]

theorem init15_view (c : Ctx) : view0 (init15 c) = (view15 c).initStep maps := by
  simp only [view0, init15, view15, St.initStep, St.step, St.fsm, St.at, maps, ← mix_eq, ← aMul_eq, List.getD_cons_zero,
    List.getD_cons_succ, List.drop_succ_cons, List.drop_zero, List.cons_append, List.nil_append, BitVec.add_comm]

theorem gen15_view (c : Ctx) : view0 (gen15 c) = (view15 c).step maps 0#32 := by
  simp only [view0, gen15, view15, St.step, St.at, maps, ← mix_eq, ← aMul_eq, List.getD_cons_zero,
    List.getD_cons_succ, List.drop_succ_cons, List.drop_zero, List.cons_append, List.nil_append, BitVec.xor_zero]

theorem out15_view (c : Ctx) : out15 c = (view0 c).fsm ^^^ (view0 c).at 0 := by
  simp only [out15, view0, St.fsm, St.at, List.getD_cons_zero, List.getD_cons_succ, BitVec.add_comm]

end Wz.Snow
