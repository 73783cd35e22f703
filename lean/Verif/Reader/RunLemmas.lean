import Verif.Reader.LazyLemmas
/-! Helper lemmas: running the string readers over stored strings; `from_str`. -/

set_option autoImplicit false
variable {α β γ : Type}

namespace Wz
open Spec

theorem eagerAsc_cipher {e : Env} {c : Cur} {s : List Char} (hs : ∀ ch ∈ s, ch.toNat < 128)
    (h : Holds e.buf c.pos (cipherAscii e.ks (s.map fun ch => BitVec.ofNat 8 ch.toNat)))
    (hb : e.buf.length < 2 ^ 63) :
    (eagerAscTail s.length).run e c = (.ok s, { c with pos := c.pos + s.length }) := by
  have hle := h.le
  have hl : (cipherAscii e.ks (s.map fun ch => BitVec.ofNat 8 ch.toNat)).length = s.length := by
    simp [cipherAscii]
  rw [hl] at hle
  unfold eagerAscTail
  have hu : asUsize (s.length : Int) = s.length := by unfold asUsize; omega
  dsimp only
  rw [hu]
  split
  · rename_i h0
    have : s = [] := List.length_eq_zero_iff.mp h0
    subst this; rfl
  · rw [Rd.bind_ok (Rd.getEnv_run _ _), Rd.bind_ok (Rd.getPos_run _ _)]
    have : resolveMeta e .ascii c.pos s.length = .ok s := by
      simp only [resolveMeta]
      rw [resolveAscii_cipher h (by simp) hb]
      show Except.ok _ = Except.ok _
      rw [utf8Lossy_ascii hs]
    rw [this, Rd.bind_ok (Rd.lift_run _ _ _), Rd.bind_ok (Rd.skip_run (by omega))]
    rfl

theorem eagerUni_cipher {e : Env} {c : Cur} {us : List (BitVec 16)} (hn : us.length < 2 ^ 30)
    (h : Holds e.buf c.pos (cipherUnicode e.ks us)) (hb : e.buf.length < 2 ^ 63) :
    (eagerUniTail us.length).run e c = (.ok (utf16Lossy us), { c with pos := c.pos + 2 * us.length }) := by
  have hle := h.le
  have hl : (cipherUnicode e.ks us).length = 2 * us.length := by
    simp [cipherUnicode]
  rw [hl] at hle
  unfold eagerUniTail
  split
  · rename_i h0
    have : us = [] := List.length_eq_zero_iff.mp (by omega)
    subst this; rfl
  · rw [Rd.bind_ok (Rd.getEnv_run _ _)]
    have hm : mulI32 e.mode us.length 2 = .ok (us.length * 2) := by
      unfold mulI32; rw [if_pos (by omega)]
    rw [hm, Rd.bind_ok (Rd.lift_run _ _ _), Rd.bind_ok (Rd.getPos_run _ _)]
    have hu : asUsize (us.length * 2 : Int) = 2 * us.length := by unfold asUsize; omega
    have : resolveMeta e .unicode c.pos (2 * us.length) = .ok (utf16Lossy us) := by
      simp only [resolveMeta]
      rw [resolveUnicode_cipher h rfl hb]
      rfl
    simp only [hu, this]
    rw [Rd.bind_ok (Rd.lift_run _ _ _), Rd.bind_ok (Rd.skip_run (by omega))]
    rfl

theorem readWzString_enc {e : Env} {c : Cur} {s : List Char} {bs : Bytes} (h : IsWzString e.ks s bs)
    (hh : Holds e.buf c.pos bs) (hb : e.buf.length < 2 ^ 63) :
    Rd.readWzString.run e c = (.ok s, { c with pos := c.pos + bs.length }) := by
  rw [readWzString_eq]
  cases h with
  | empty hs =>
    subst hs
    rw [Rd.bind_ok (Rd.readI8_run hh hb)]
    rfl
  | ascii len hs hlen =>
    have hr := hh.right
    have hlenH := hh.left
    cases hlen with
    | short h1 h2 =>
      have ht : (byteOf (-(s.length : Int))).toInt = -s.length := toInt_byteOf (by omega) (by omega)
      rw [Rd.bind_ok (Rd.readI8_run hlenH hb), ht]
      rw [if_neg (by omega), if_neg (by omega), if_neg (by omega), if_neg (by omega), Int.neg_neg]
      rw [eagerAsc_cipher hs hr hb]
      simp [cipherAscii]; omega
    | long hn =>
      have hl4 := hlenH.tail
      have ht : (0x80#8 : Byte).toInt = -128 := by decide
      rw [Rd.bind_ok (Rd.readI8_run hlenH.head hb), ht]
      rw [if_neg (by omega), if_neg (by omega), if_neg (by omega), if_pos rfl]
      have h4 : Rd.readI32.run e { c with pos := c.pos + 1 } =
          (.ok (s.length : Int), { c with pos := c.pos + 1 + 4 }) := by
        unfold Rd.readI32
        apply Rd.readInt_enc (w := 4) (v := s.length) _ (by omega) (by omega) (by omega) hb
        rw [unsign_nat (by omega)]; exact hl4
      rw [Rd.bind_ok h4]
      rw [eagerAsc_cipher hs (by simpa [Nat.add_assoc] using hr) hb]
      simp [cipherAscii]; omega
  | unicode len hlen =>
    have hr := hh.right
    have hlenH := hh.left
    cases hlen with
    | short h1 h2 =>
      have ht : (byteOf ((utf16EncStr s).length : Int)).toInt = (utf16EncStr s).length :=
        toInt_byteOf (by omega) (by omega)
      rw [Rd.bind_ok (Rd.readI8_run hlenH hb), ht]
      rw [if_neg (by omega), if_neg (by omega), if_pos (by omega)]
      rw [eagerUni_cipher (by omega) hr hb, utf16Lossy_encStr]
      simp [cipherUnicode]; omega
    | long hn =>
      have hl4 := hlenH.tail
      have ht : (0x7F#8 : Byte).toInt = 127 := by decide
      rw [Rd.bind_ok (Rd.readI8_run hlenH.head hb), ht]
      rw [if_neg (by omega), if_pos rfl]
      have h4 : Rd.readI32.run e { c with pos := c.pos + 1 } =
          (.ok ((utf16EncStr s).length : Int), { c with pos := c.pos + 1 + 4 }) := by
        unfold Rd.readI32
        apply Rd.readInt_enc (w := 4) (v := (utf16EncStr s).length) _ (by omega) (by omega) (by omega) hb
        rw [unsign_nat (by omega)]; exact hl4
      rw [Rd.bind_ok h4]
      rw [eagerUni_cipher (by omega) (by simpa [Nat.add_assoc] using hr) hb, utf16Lossy_encStr]
      simp [cipherUnicode]; omega

/-! ### String blocks -/

theorem block_tail_eager {e : Env} {c c' : Cur} {o : Nat} {s : List Char} :
    (Rd.readWzStringAtOffset o).run e c = (.ok s, c') ↔
      (∃ c2, Rd.readWzString.run e { pos := o, saved := c.pos } = (.ok s, c2)) ∧
        c' = { pos := c.pos, saved := c.pos } := by
  have hk := Rd.KeepsSaved.readWzString e { pos := o, saved := c.pos }
  show (((Rd.readWzString).run e { pos := o, saved := c.pos }).1, _) = _ ↔ _
  cases hr : Rd.readWzString.run e { pos := o, saved := c.pos } with
  | mk r c2 =>
    rw [hr] at hk
    simp only [] at hk
    constructor
    · intro h
      simp only [Prod.mk.injEq] at h
      refine ⟨⟨c2, by rw [h.1]⟩, ?_⟩
      rw [← h.2, ← hk]
    · rintro ⟨⟨c3, h⟩, rfl⟩
      simp only [Prod.mk.injEq] at h ⊢
      refine ⟨h.1, ?_⟩
      rw [← hk]

/-- resolve metadata on the current reader -/
def resolveHere (m : StrMeta) : Rd (List Char) := do
  let e ← Rd.getEnv
  Rd.lift (resolveMeta e m.ty m.offset m.length)

theorem resolveHere_run (m : StrMeta) (e : Env) (c : Cur) :
    (resolveHere m).run e c = (resolveMeta e m.ty m.offset m.length, c) := rfl

theorem lazyString_def : lazyString = Rd.readWzStringMeta >>= resolveHere := rfl

theorem block_tail_lazy {e : Env} {c c' : Cur} {o : Nat} {s : List Char} :
    (Rd.readWzStringMetaAt o >>= resolveHere).run e c = (.ok s, c') ↔
      (∃ c2, lazyString.run e { pos := o, saved := c.pos } = (.ok s, c2)) ∧
        c' = { pos := c.pos, saved := c.pos } := by
  have hk := Rd.KeepsSaved.readWzStringMeta e { pos := o, saved := c.pos }
  rw [lazyString_def, Rd.bind_run, Rd.bind_run]
  have hdef : (Rd.readWzStringMetaAt o).run e c =
    ((Rd.readWzStringMeta.run e { pos := o, saved := c.pos }).1,
      { (Rd.readWzStringMeta.run e { pos := o, saved := c.pos }).2 with
        pos := (Rd.readWzStringMeta.run e { pos := o, saved := c.pos }).2.saved }) := rfl
  rw [hdef]
  cases hr : Rd.readWzStringMeta.run e { pos := o, saved := c.pos } with
  | mk r c2 =>
    rw [hr] at hk
    simp only [] at hk
    cases r with
    | error x =>
      simp
    | ok m =>
      simp only [resolveHere_run, Prod.mk.injEq]
      constructor
      · intro h
        refine ⟨⟨c2, h.1, rfl⟩, ?_⟩
        rw [← h.2, ← hk]
      · rintro ⟨⟨c3, h⟩, rfl⟩
        refine ⟨h.1, ?_⟩
        rw [← hk]

/-! ### from_str -/

theorem encryptStr_ascii (ks : Nat → Byte) {s : List Char} (hs : ∀ c ∈ s, c.toNat < 128) :
    encryptStr ks s .ascii = cipherAscii ks (s.map fun c => BitVec.ofNat 8 c.toNat) := by
  unfold encryptStr cipherAscii
  rw [ascii_bytes hs]
  apply List.ext_getElem
  · simp
  · intro i h1 h2
    simp [BitVec.xor_assoc, Nat.add_comm]

theorem xor_add_disjoint (k1 k2 : Byte) :
    (k1.setWidth 16 ^^^ (k2.setWidth 16 <<< 8)).toNat = k1.toNat + 256 * k2.toNat := by
  have h1 := k1.isLt
  have h2 := k2.isLt
  rw [BitVec.toNat_xor, BitVec.toNat_shiftLeft, BitVec.toNat_setWidth, BitVec.toNat_setWidth]
  rw [Nat.mod_eq_of_lt (by omega), Nat.mod_eq_of_lt (a := k2.toNat) (by omega), Nat.shiftLeft_eq]
  rw [Nat.mod_eq_of_lt (by omega)]
  rw [show k1.toNat + 256 * k2.toNat = 2 ^ 8 * k2.toNat + k1.toNat by omega,
    Nat.two_pow_add_eq_or_of_lt (by omega)]
  apply Nat.eq_of_testBit_eq
  intro i
  rw [Nat.testBit_xor, Nat.testBit_or, Nat.mul_comm (k2.toNat)]
  by_cases hi : i < 8
  · rw [Nat.testBit_two_pow_mul]
    simp [show ¬ 8 ≤ i by omega]
  · rw [Nat.testBit_lt_two_pow (x := k1.toNat) (i := i) (Nat.lt_of_lt_of_le h1 (Nat.pow_le_pow_right (by omega) (by omega)))]
    simp

theorem toLE2_xor (b : BitVec 16) (k1 k2 : Byte) :
    toLE 2 (b ^^^ (k1.setWidth 16 ^^^ (k2.setWidth 16 <<< 8))).toNat
      = [BitVec.ofNat 8 b.toNat ^^^ k1, BitVec.ofNat 8 (b.toNat / 256) ^^^ k2] := by
  have hk := xor_add_disjoint k1 k2
  have h1 := k1.isLt
  have h2 := k2.isLt
  have hb := b.isLt
  rw [BitVec.toNat_xor, hk]
  simp only [toLE]
  have key1 : ∀ a c : Nat, (a ^^^ c) % 256 = (a % 256) ^^^ (c % 256) := by
    intro a c
    exact Nat.xor_mod_two_pow (n := 8)
  have key2 : ∀ a c : Nat, (a ^^^ c) / 256 = (a / 256) ^^^ (c / 256) := by
    intro a c
    exact Nat.xor_div_two_pow (n := 8)
  congr 1
  · apply BitVec.eq_of_toNat_eq
    rw [BitVec.toNat_ofNat, BitVec.toNat_xor, BitVec.toNat_ofNat, show 2 ^ 8 = 256 from rfl, key1]
    congr 1
    omega
  · congr 1
    apply BitVec.eq_of_toNat_eq
    rw [BitVec.toNat_ofNat, BitVec.toNat_xor, BitVec.toNat_ofNat, show 2 ^ 8 = 256 from rfl, key2, key1]
    congr 1
    omega

theorem mapIdx_append_shift {α β : Type} (f : Nat → α → β) (a b : List α) :
    (a ++ b).mapIdx f = a.mapIdx f ++ b.mapIdx (fun i => f (i + a.length)) := by
  rw [List.mapIdx_append]

/-- unit-wise encryption equals byte-wise encryption -/
theorem enc_units_eq (ks : Nat → Byte) (us : List (BitVec 16)) :
    (us.mapIdx fun i b => toLE 2 (b ^^^ ((ks (i * 2)).setWidth 16 ^^^ ((ks (i * 2 + 1)).setWidth 16 <<< 8))).toNat).flatten
      = (unitBytes us).mapIdx fun j b => b ^^^ ks j := by
  induction us generalizing ks with
  | nil => rfl
  | cons u us ih =>
    rw [List.mapIdx_cons, List.flatten_cons]
    have : unitBytes (u :: us) = [BitVec.ofNat 8 u.toNat, BitVec.ofNat 8 (u.toNat / 256)] ++ unitBytes us := by
      simp [unitBytes, toLE]
    rw [this, mapIdx_append_shift, toLE2_xor]
    have := ih (fun i => ks (i + 2))
    congr 1
    have e1 : ∀ i, (i + 1) * 2 = i * 2 + 2 := by intro i; omega
    have e2 : ∀ i, (i + 1) * 2 + 1 = i * 2 + 1 + 2 := by intro i; omega
    simp only [e1, e2]
    exact this

theorem encryptStr_unicode (ks : Nat → Byte) (s : List Char) :
    encryptStr ks s .unicode = cipherUnicode ks (utf16EncStr s) := by
  unfold cipherUnicode
  rw [← enc_units_eq, List.mapIdx_mapIdx]
  show List.flatten _ = List.flatten _
  congr 2
  funext i b
  simp only [Function.comp, BitVec.xor_assoc, Nat.add_comm]

theorem utf16Enc_length_bmp {c : Char} (h : c.toNat < 0x10000) : (utf16Enc c).length = 1 := by
  simp [utf16Enc, h]

theorem utf16EncStr_length_bmp {s : List Char} (h : ∀ c ∈ s, c.toNat < 0x10000) :
    (utf16EncStr s).length = s.length := by
  induction s with
  | nil => rfl
  | cons c s ih =>
    simp only [utf16EncStr, List.flatMap_cons, List.length_append, List.length_cons] at *
    rw [ih fun x hx => h x (by simp [hx]), utf16Enc_length_bmp (h c (by simp))]
    omega

theorem utf16EncStr_length_ge (s : List Char) : s.length ≤ (utf16EncStr s).length := by
  induction s with
  | nil => simp
  | cons c s ih =>
    simp only [utf16EncStr, List.flatMap_cons, List.length_append, List.length_cons] at *
    have : 1 ≤ (utf16Enc c).length := by unfold utf16Enc; split <;> simp
    omega

theorem char_ofNat_lt {n : Nat} (h : n < 0x10000) : (Char.ofNat n).toNat < 0x10000 := by
  unfold Char.ofNat
  split
  · simpa [Char.toNat, Char.ofNatAux] using h
  · decide

/-- decoding `k` units into `k` characters never produced a surrogate pair -/
theorem utf16Dec_length (us : List (BitVec 16)) : (utf16Dec us).length ≤ us.length ∧
    ((utf16Dec us).length = us.length → ∀ o ∈ utf16Dec us, ∀ c, o = some c → c.toNat < 0x10000) := by
  fun_induction utf16Dec us with
  | case1 => simp
  | case2 u rest h ih =>
    refine ⟨by simp [ih.1], fun hl o ho c hc => ?_⟩
    simp only [List.length_cons] at hl
    rcases List.mem_cons.mp ho with rfl | ho
    · cases hc
    · exact ih.2 (by omega) o ho c hc
  | case3 u h1 h2 => simp
  | case4 u h1 h2 v rest' h3 ih =>
    simp only [List.length_cons]
    exact ⟨by omega, fun hl => by omega⟩
  | case5 u h1 h2 v rest' h3 ih =>
    refine ⟨by simpa using ih.1, fun hl o ho c hc => ?_⟩
    simp only [List.length_cons] at hl
    rcases List.mem_cons.mp ho with rfl | ho
    · cases hc
    · exact ih.2 (by simp only [List.length_cons]; omega) o ho c hc
  | case6 u rest h1 h2 ih =>
    refine ⟨by simp [ih.1], fun hl o ho c hc => ?_⟩
    simp only [List.length_cons] at hl
    rcases List.mem_cons.mp ho with rfl | ho
    · cases hc; exact char_ofNat_lt u.isLt
    · exact ih.2 (by omega) o ho c hc

theorem utf16Lossy_same_length {us : List (BitVec 16)} {s : List Char} (h : utf16Lossy us = s)
    (hl : us.length = s.length) : ∀ c ∈ s, c.toNat < 0x10000 := by
  intro c hc
  rw [← h] at hc
  unfold utf16Lossy at hc
  obtain ⟨o, ho, rfl⟩ := List.mem_map.mp hc
  have hlen : (utf16Dec us).length = us.length := by
    rw [hl, ← h]; simp [utf16Lossy]
  cases o with
  | none => decide
  | some c => exact (utf16Dec_length us).2 hlen _ ho c rfl

theorem unitBytes_take (us : List (BitVec 16)) (n : Nat) :
    (unitBytes us).take (2 * n) = unitBytes (us.take n) := by
  induction n generalizing us with
  | zero => simp [unitBytes]
  | succ n ih =>
    cases us with
    | nil => simp [unitBytes]
    | cons u us =>
      have h1 : ∀ v vs, unitBytes (v :: vs) = toLE 2 v.toNat ++ unitBytes vs := by
        intro v vs; simp [unitBytes]
      rw [List.take_succ_cons, h1, h1, List.take_append]
      simp only [length_toLE]
      rw [show 2 * (n + 1) - 2 = 2 * n by omega, ih, List.take_of_length_le (by simp; omega)]

theorem take_mapIdx {α β : Type} (f : Nat → α → β) (l : List α) (n : Nat) :
    (l.mapIdx f).take n = (l.take n).mapIdx f := by
  apply List.ext_getElem
  · simp
  · intro i h1 h2; simp

theorem cipherUnicode_take (ks : Nat → Byte) (us : List (BitVec 16)) (n : Nat) :
    (cipherUnicode ks us).take (2 * n) = cipherUnicode ks (us.take n) := by
  unfold cipherUnicode
  rw [take_mapIdx, unitBytes_take, take_mapIdx]

theorem cipherPkg2_take (ks : Nat → Byte) (us : List (BitVec 16)) (n : Nat) :
    (cipherPkg2 ks us).take (2 * n) = cipherPkg2 ks (us.take n) := by
  unfold cipherPkg2
  rw [take_mapIdx, unitBytes_take]

end Wz
