import Verif.Mode.Rel
/-!
# The reader with and without overflow checks
-/

set_option autoImplicit false

namespace Wz
variable {b : Bytes} {k k2 : Nat → Byte}

theorem skip_ag (n : Nat) : AgR b k k2 (Rd.skip n) (Rd.skip n) := by
  intro c
  unfold Rd.skip
  dsimp only
  rcases addU_ag c.pos n with h | h
  · rw [h]; exact .inl rfl
  · rw [h]; exact .inr rfl
macro_rules | `(tactic| ag_step) => `(tactic| with_reducible exact skip_ag _)

theorem readLE_ag (w : Nat) : AgR b k k2 (Rd.readLE w) (Rd.readLE w) := by
  intro c
  unfold Rd.readLE
  dsimp only
  rcases addU_ag c.pos w with h | h
  · rw [h]; exact .inl rfl
  · rw [h]; exact .inr rfl
macro_rules | `(tactic| ag_step) => `(tactic| with_reducible exact readLE_ag _)

theorem readInt_ag (w : Nat) : AgR b k k2 (Rd.readInt w) (Rd.readInt w) := by unfold Rd.readInt; ag
macro_rules | `(tactic| ag_step) => `(tactic| with_reducible exact readInt_ag _)

theorem readU8_ag : AgR b k k2 Rd.readU8 Rd.readU8 := readLE_ag 1
macro_rules | `(tactic| ag_step) => `(tactic| with_reducible exact readU8_ag)

theorem readU16_ag : AgR b k k2 Rd.readU16 Rd.readU16 := readLE_ag 2
macro_rules | `(tactic| ag_step) => `(tactic| with_reducible exact readU16_ag)

theorem readU32_ag : AgR b k k2 Rd.readU32 Rd.readU32 := readLE_ag 4
macro_rules | `(tactic| ag_step) => `(tactic| with_reducible exact readU32_ag)

theorem readU64_ag : AgR b k k2 Rd.readU64 Rd.readU64 := readLE_ag 8
macro_rules | `(tactic| ag_step) => `(tactic| with_reducible exact readU64_ag)

theorem readI8_ag : AgR b k k2 Rd.readI8 Rd.readI8 := readInt_ag 1
macro_rules | `(tactic| ag_step) => `(tactic| with_reducible exact readI8_ag)

theorem readI16_ag : AgR b k k2 Rd.readI16 Rd.readI16 := readInt_ag 2
macro_rules | `(tactic| ag_step) => `(tactic| with_reducible exact readI16_ag)

theorem readI32_ag : AgR b k k2 Rd.readI32 Rd.readI32 := readInt_ag 4
macro_rules | `(tactic| ag_step) => `(tactic| with_reducible exact readI32_ag)

theorem readI64_ag : AgR b k k2 Rd.readI64 Rd.readI64 := readInt_ag 8
macro_rules | `(tactic| ag_step) => `(tactic| with_reducible exact readI64_ag)

theorem readWzInt_ag : AgR b k k2 Rd.readWzInt Rd.readWzInt := by unfold Rd.readWzInt; ag
macro_rules | `(tactic| ag_step) => `(tactic| with_reducible exact readWzInt_ag)

theorem readWzInt64_ag : AgR b k k2 Rd.readWzInt64 Rd.readWzInt64 := by unfold Rd.readWzInt64; ag
macro_rules | `(tactic| ag_step) => `(tactic| with_reducible exact readWzInt64_ag)

theorem decryptSlice_ag (ks : Nat → Byte) (p n : Nat) : AgE (decryptSlice .checked b ks p n) (decryptSlice .wrap b ks p n) := by
  unfold decryptSlice; ag
macro_rules | `(tactic| ag_step) => `(tactic| with_reducible exact decryptSlice_ag _ _ _)

theorem resolveUnicodeRaw_ag (ks : Nat → Byte) (p n : Nat) : AgE (resolveUnicodeRaw .checked b ks p n) (resolveUnicodeRaw .wrap b ks p n) := by
  unfold resolveUnicodeRaw; ag
macro_rules | `(tactic| ag_step) => `(tactic| with_reducible exact resolveUnicodeRaw_ag _ _ _)

theorem resolveAsciiRaw_ag (ks : Nat → Byte) (p n : Nat) : AgE (resolveAsciiRaw .checked b ks p n) (resolveAsciiRaw .wrap b ks p n) := by
  unfold resolveAsciiRaw; ag
macro_rules | `(tactic| ag_step) => `(tactic| with_reducible exact resolveAsciiRaw_ag _ _ _)

theorem resolvePkg2DirRaw_ag (ks : Nat → Byte) (p n : Nat) : AgE (resolvePkg2DirRaw .checked b ks p n) (resolvePkg2DirRaw .wrap b ks p n) := by
  unfold resolvePkg2DirRaw; ag
macro_rules | `(tactic| ag_step) => `(tactic| with_reducible exact resolvePkg2DirRaw_ag _ _ _)

theorem resolveMeta_ag (ty : StrType) (p n : Nat) : AgE (resolveMeta ⟨.checked, b, k, k2⟩ ty p n) (resolveMeta ⟨.wrap, b, k, k2⟩ ty p n) := by
  cases ty <;> unfold resolveMeta <;> ag
macro_rules | `(tactic| ag_step) => `(tactic| with_reducible exact resolveMeta_ag _ _ _)

theorem tryResolveMeta_ag (ty : StrType) (p n : Nat) : AgE (tryResolveMeta ⟨.checked, b, k, k2⟩ ty p n) (tryResolveMeta ⟨.wrap, b, k, k2⟩ ty p n) := by
  cases ty <;> unfold tryResolveMeta <;> ag
macro_rules | `(tactic| ag_step) => `(tactic| with_reducible exact tryResolveMeta_ag _ _ _)

theorem readUnicodeStrLen_ag (n : Int) : AgR b k k2 (Rd.readUnicodeStrLen n) (Rd.readUnicodeStrLen n) := by unfold Rd.readUnicodeStrLen; ag
macro_rules | `(tactic| ag_step) => `(tactic| with_reducible exact readUnicodeStrLen_ag _)

theorem readAsciiStrLen_ag (n : Int) : AgR b k k2 (Rd.readAsciiStrLen n) (Rd.readAsciiStrLen n) := by unfold Rd.readAsciiStrLen; ag
macro_rules | `(tactic| ag_step) => `(tactic| with_reducible exact readAsciiStrLen_ag _)

theorem readUnicodeString_ag (n : Int) : AgR b k k2 (Rd.readUnicodeString n) (Rd.readUnicodeString n) := by unfold Rd.readUnicodeString; ag
macro_rules | `(tactic| ag_step) => `(tactic| with_reducible exact readUnicodeString_ag _)

theorem readAsciiString_ag (n : Int) : AgR b k k2 (Rd.readAsciiString n) (Rd.readAsciiString n) := by unfold Rd.readAsciiString; ag
macro_rules | `(tactic| ag_step) => `(tactic| with_reducible exact readAsciiString_ag _)

theorem readWzString_ag : AgR b k k2 Rd.readWzString Rd.readWzString := by unfold Rd.readWzString; ag
macro_rules | `(tactic| ag_step) => `(tactic| with_reducible exact readWzString_ag)

theorem readWzStringMeta_ag : AgR b k k2 Rd.readWzStringMeta Rd.readWzStringMeta := by unfold Rd.readWzStringMeta; ag
macro_rules | `(tactic| ag_step) => `(tactic| with_reducible exact readWzStringMeta_ag)

theorem readWzStringMetaAt_ag (o : Nat) : AgR b k k2 (Rd.readWzStringMetaAt o) (Rd.readWzStringMetaAt o) := by
  intro c
  unfold Rd.readWzStringMetaAt
  dsimp only
  rcases readWzStringMeta_ag (b := b) (k := k) (k2 := k2) ⟨o, c.pos⟩ with h | h
  · exact .inl h
  · rw [h]; exact .inr rfl
macro_rules | `(tactic| ag_step) => `(tactic| with_reducible exact readWzStringMetaAt_ag _)

theorem readWzStringAtOffset_ag (o : Nat) : AgR b k k2 (Rd.readWzStringAtOffset o) (Rd.readWzStringAtOffset o) := by
  intro c
  unfold Rd.readWzStringAtOffset
  dsimp only
  rcases readWzString_ag (b := b) (k := k) (k2 := k2) ⟨o, c.pos⟩ with h | h
  · exact .inl h
  · rw [h]; exact .inr rfl
macro_rules | `(tactic| ag_step) => `(tactic| with_reducible exact readWzStringAtOffset_ag _)

theorem pkg2Len_ag (n : Nat) (x : Int) : AgR b k k2 (Rd.pkg2Len n x) (Rd.pkg2Len n x) := by
  unfold Rd.pkg2Len
  refine .getEnv (.bind (.lift (negI_ag _ _)) fun v => .ite (fun _ => .pure _) fun _ => ?_)
  exact fun c => .inl rfl
macro_rules | `(tactic| ag_step) => `(tactic| with_reducible exact pkg2Len_ag _ _)

theorem readPkg2DirMeta_ag (w : Nat) : AgR b k k2 (Rd.readPkg2DirMeta w) (Rd.readPkg2DirMeta w) := by unfold Rd.readPkg2DirMeta; ag
macro_rules | `(tactic| ag_step) => `(tactic| with_reducible exact readPkg2DirMeta_ag _)

theorem readWzStringPkg2Dir_ag : AgR b k k2 Rd.readWzStringPkg2Dir Rd.readWzStringPkg2Dir := by unfold Rd.readWzStringPkg2Dir; ag
macro_rules | `(tactic| ag_step) => `(tactic| with_reducible exact readWzStringPkg2Dir_ag)

theorem readWzStringBlock_ag (o : Nat) : AgR b k k2 (Rd.readWzStringBlock o) (Rd.readWzStringBlock o) := by unfold Rd.readWzStringBlock; ag
macro_rules | `(tactic| ag_step) => `(tactic| with_reducible exact readWzStringBlock_ag _)

theorem readWzStringBlockMeta_ag (o : Nat) : AgR b k k2 (Rd.readWzStringBlockMeta o) (Rd.readWzStringBlockMeta o) := by unfold Rd.readWzStringBlockMeta; ag
macro_rules | `(tactic| ag_step) => `(tactic| with_reducible exact readWzStringBlockMeta_ag _)

end Wz
