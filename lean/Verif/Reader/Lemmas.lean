import Verif.Reader.Model
import Verif.Reader.Spec
import Verif.Text.Lemmas
/-! Helper lemmas about the reader. -/

set_option autoImplicit false
variable {α β γ : Type}

namespace Wz
open Spec

theorem Rd.bind_run {m : Rd α} {f : α → Rd β} {e : Env} {c : Cur} :
    (m >>= f).run e c = match m.run e c with
      | (.ok a, c') => (f a).run e c'
      | (.error x, c') => (.error x, c') := rfl

theorem Rd.bind_ok {m : Rd α} {f : α → Rd β} {e : Env} {c c' : Cur} {a : α}
    (h : m.run e c = (.ok a, c')) : (m >>= f).run e c = (f a).run e c' := by
  rw [Rd.bind_run, h]

theorem Rd.bind_err {m : Rd α} {f : α → Rd β} {e : Env} {c c' : Cur} {x : Err}
    (h : m.run e c = (.error x, c')) : (m >>= f).run e c = (.error x, c') := by
  rw [Rd.bind_run, h]

@[simp] theorem Rd.pure_run (a : α) (e : Env) (c : Cur) : (Pure.pure a : Rd α).run e c = (.ok a, c) := rfl
@[simp] theorem Rd.lift_run (x : Except Err α) (e : Env) (c : Cur) : (Rd.lift x).run e c = (x, c) := rfl
@[simp] theorem Rd.getEnv_run (e : Env) (c : Cur) : Rd.getEnv.run e c = (.ok e, c) := rfl
@[simp] theorem Rd.getPos_run (e : Env) (c : Cur) : Rd.getPos.run e c = (.ok c.pos, c) := rfl
@[simp] theorem Rd.seek_run (p : Nat) (e : Env) (c : Cur) : (Rd.seek p).run e c = (.ok (), { c with pos := p }) := rfl
@[simp] theorem Rd.fail_run (x : Err) (e : Env) (c : Cur) : (Rd.fail x : Rd α).run e c = (.error x, c) := rfl

theorem Rd.readLE_def (w : Nat) (e : Env) (c : Cur) : (Rd.readLE w).run e c =
    match addU e.mode c.pos w with
    | .ok p => (readAt e.buf w c.pos, { c with pos := p })
    | .error x => (.error x, c) := rfl

theorem Rd.skip_def (n : Nat) (e : Env) (c : Cur) : (Rd.skip n).run e c =
    match addU e.mode c.pos n with
    | .ok p => (.ok (), { c with pos := p })
    | .error x => (.error x, c) := rfl

theorem Spec.Holds.le {buf : Bytes} {p : Nat} {bs : Bytes} (h : Holds buf p bs) :
    p + bs.length ≤ buf.length := by
  obtain ⟨pre, post, rfl, rfl⟩ := h
  simp

theorem Spec.Holds.slice {buf : Bytes} {p : Nat} {bs : Bytes} (h : Holds buf p bs) :
    (buf.drop p).take bs.length = bs := by
  obtain ⟨pre, post, rfl, rfl⟩ := h
  simp

theorem Spec.Holds.of_slice {buf : Bytes} {p n : Nat} (h : p + n ≤ buf.length) :
    Holds buf p ((buf.drop p).take n) := by
  refine ⟨buf.take p, (buf.drop p).drop n, ?_, by simp; omega⟩
  rw [List.append_assoc, List.take_append_drop, List.take_append_drop]

theorem Spec.Holds.left {buf : Bytes} {p : Nat} {a b : Bytes} (h : Holds buf p (a ++ b)) :
    Holds buf p a := by
  obtain ⟨pre, post, rfl, rfl⟩ := h
  exact ⟨pre, b ++ post, by simp, rfl⟩

theorem Spec.Holds.right {buf : Bytes} {p : Nat} {a b : Bytes} (h : Holds buf p (a ++ b)) :
    Holds buf (p + a.length) b := by
  obtain ⟨pre, post, rfl, rfl⟩ := h
  exact ⟨pre ++ a, post, by simp, by simp⟩

theorem Spec.Holds.head {buf : Bytes} {p : Nat} {a : Byte} {b : Bytes} (h : Holds buf p (a :: b)) :
    Holds buf p [a] := Holds.left (a := [a]) h

theorem Spec.Holds.tail {buf : Bytes} {p : Nat} {a : Byte} {b : Bytes} (h : Holds buf p (a :: b)) :
    Holds buf (p + 1) b := Holds.right (a := [a]) h

theorem Spec.Holds.nil {buf : Bytes} {p : Nat} (h : p ≤ buf.length) : Holds buf p [] :=
  ⟨buf.take p, buf.drop p, by simp, by simp [h]⟩

theorem readAt_holds {buf : Bytes} {p : Nat} {bs : Bytes} {w : Nat} (h : Holds buf p bs)
    (hw : bs.length = w) : readAt buf w p = .ok (leNat bs) := by
  subst hw
  unfold readAt
  rw [if_pos h.le, h.slice]

theorem readAt_ok_iff {buf : Bytes} {p w v : Nat} :
    readAt buf w p = .ok v ↔ ∃ bs, Holds buf p bs ∧ bs.length = w ∧ leNat bs = v := by
  constructor
  · intro h
    unfold readAt at h
    split at h
    · rename_i hl
      refine ⟨_, Holds.of_slice hl, by simp; omega, by simpa using h⟩
    · cases h
  · rintro ⟨bs, h, hw, rfl⟩
    exact readAt_holds h hw

theorem Rd.readLE_run {e : Env} {c : Cur} {bs : Bytes} {w : Nat} (h : Holds e.buf c.pos bs)
    (hw : bs.length = w) (hb : e.buf.length < 2 ^ 63) :
    (Rd.readLE w).run e c = (.ok (leNat bs), { c with pos := c.pos + w }) := by
  rw [Rd.readLE_def]
  have := h.le
  rw [addU_ok (by omega), readAt_holds h hw]

theorem Rd.readInt_run {e : Env} {c : Cur} {bs : Bytes} {w : Nat} (h : Holds e.buf c.pos bs)
    (hw : bs.length = w) (hb : e.buf.length < 2 ^ 63) :
    (Rd.readInt w).run e c = (.ok (signed (8 * w) (leNat bs)), { c with pos := c.pos + w }) := by
  unfold Rd.readInt
  rw [Rd.bind_ok (Rd.readLE_run h hw hb)]
  rfl

theorem Rd.skip_run {e : Env} {c : Cur} {n : Nat} (h : c.pos + n < 2 ^ 64) :
    (Rd.skip n).run e c = (.ok (), { c with pos := c.pos + n }) := by
  rw [Rd.skip_def]
  rw [addU_ok h]

/-- a signed byte read returns the number of the byte -/
theorem signed_byte (b : Byte) : signed 8 (leNat [b]) = b.toInt := by
  simp [signed, leNat]

theorem toInt_byteOf {v : Int} (h0 : -128 ≤ v) (h1 : v < 128) : (byteOf v).toInt = v := by
  unfold byteOf
  rw [BitVec.toInt_ofInt]
  apply Int.bmod_eq_of_le <;> omega

theorem Rd.readI8_run {e : Env} {c : Cur} {b : Byte} (h : Holds e.buf c.pos [b])
    (hb : e.buf.length < 2 ^ 63) :
    Rd.readI8.run e c = (.ok b.toInt, { c with pos := c.pos + 1 }) := by
  unfold Rd.readI8
  rw [Rd.readInt_run (w := 1) h rfl hb, signed_byte]

theorem Rd.readU8_run {e : Env} {c : Cur} {b : Byte} (h : Holds e.buf c.pos [b])
    (hb : e.buf.length < 2 ^ 63) :
    Rd.readU8.run e c = (.ok b.toNat, { c with pos := c.pos + 1 }) := by
  unfold Rd.readU8
  rw [Rd.readLE_run (w := 1) h rfl hb]; simp [leNat]

theorem signed_toLE {w : Nat} (hw : 0 < w) {v : Int} (h0 : -2 ^ (8 * w - 1) ≤ v)
    (h1 : v < 2 ^ (8 * w - 1)) : signed (8 * w) (leNat (toLE w (unsign (8 * w) v))) = v := by
  rw [leNat_toLE]
  have h := unsign_lt (8 * w) v
  rw [show (256:Nat) ^ w = 2 ^ (8 * w) by rw [Nat.pow_mul], Nat.mod_eq_of_lt h]
  exact signed_unsign (by omega) h0 h1

theorem Rd.readInt_enc {e : Env} {c : Cur} {w : Nat} {v : Int}
    (h : Holds e.buf c.pos (toLE w (unsign (8 * w) v))) (hw : 0 < w)
    (h0 : -2 ^ (8 * w - 1) ≤ v) (h1 : v < 2 ^ (8 * w - 1)) (hb : e.buf.length < 2 ^ 63) :
    (Rd.readInt w).run e c = (.ok v, { c with pos := c.pos + w }) := by
  rw [Rd.readInt_run h (by simp) hb, signed_toLE hw h0 h1]

theorem unsign_nat {bits n : Nat} (h : n < 2 ^ bits) : unsign bits (n : Int) = n := by
  unfold unsign
  rw [Int.emod_eq_of_lt (by omega) (by exact_mod_cast h)]
  simp

end Wz

namespace Wz
open Spec

/-! ### Saved position is not disturbed -/

/-- the operation leaves the save slot alone -/
def Rd.KeepsSaved (m : Rd α) : Prop := ∀ e c, (m.run e c).2.saved = c.saved

theorem Rd.KeepsSaved.bind {m : Rd α} {f : α → Rd β} (hm : Rd.KeepsSaved m)
    (hf : ∀ a, Rd.KeepsSaved (f a)) : Rd.KeepsSaved (m >>= f) := by
  intro e c
  rw [Rd.bind_run]
  have := hm e c
  cases h : m.run e c with
  | mk r c' =>
    rw [h] at this
    cases r with
    | ok a => exact (hf a e c').trans this
    | error x => exact this

theorem Rd.KeepsSaved.pure (a : α) : Rd.KeepsSaved (Pure.pure a : Rd α) := fun _ _ => rfl
theorem Rd.KeepsSaved.lift (x : Except Err α) : Rd.KeepsSaved (Rd.lift x) := fun _ _ => rfl
theorem Rd.KeepsSaved.fail (x : Err) : Rd.KeepsSaved (Rd.fail x : Rd α) := fun _ _ => rfl
theorem Rd.KeepsSaved.getEnv : Rd.KeepsSaved Rd.getEnv := fun _ _ => rfl
theorem Rd.KeepsSaved.getPos : Rd.KeepsSaved Rd.getPos := fun _ _ => rfl
theorem Rd.KeepsSaved.skip (n : Nat) : Rd.KeepsSaved (Rd.skip n) := by
  intro e c; rw [Rd.skip_def]; split <;> rfl
theorem Rd.KeepsSaved.readLE (w : Nat) : Rd.KeepsSaved (Rd.readLE w) := by
  intro e c; rw [Rd.readLE_def]; split <;> rfl
theorem Rd.KeepsSaved.readInt (w : Nat) : Rd.KeepsSaved (Rd.readInt w) :=
  .bind (.readLE w) fun _ => .pure _

theorem Rd.KeepsSaved.readWzStringMeta : Rd.KeepsSaved Rd.readWzStringMeta := by
  unfold Rd.readWzStringMeta
  refine .bind (.readInt 1) fun small => ?_
  split
  · exact .pure _
  · split
    · exact .bind (.readInt 4) fun _ => .bind .getEnv fun _ => .bind (.lift _) fun _ =>
        .bind .getPos fun _ => .bind (.skip _) fun _ => .pure _
    · exact .bind .getEnv fun _ => .bind (.lift _) fun _ =>
        .bind .getPos fun _ => .bind (.skip _) fun _ => .pure _
  · split
    · exact .bind (.readInt 4) fun _ => .bind .getPos fun _ => .bind (.skip _) fun _ => .pure _
    · exact .bind .getPos fun _ => .bind (.skip _) fun _ => .pure _
  · exact .fail _

theorem Rd.KeepsSaved.readWzString : Rd.KeepsSaved Rd.readWzString := by
  unfold Rd.readWzString
  refine .bind (.readInt 1) fun small => ?_
  split
  · exact .pure _
  · unfold Rd.readUnicodeString Rd.readUnicodeStrLen
    refine .bind ?_ fun l => ?_
    · split
      · exact .readInt 4
      · exact .pure _
    · dsimp only
      split
      · exact .pure _
      · exact .bind .getEnv fun _ => .bind (.lift _) fun _ => .bind .getPos fun _ =>
          .bind (.lift _) fun _ => .bind (.skip _) fun _ => .pure _
  · unfold Rd.readAsciiString Rd.readAsciiStrLen
    refine .bind ?_ fun l => ?_
    · split
      · exact .readInt 4
      · exact .pure _
    · dsimp only
      split
      · exact .pure _
      · exact .bind .getEnv fun _ => .bind .getPos fun _ =>
          .bind (.lift _) fun _ => .bind (.skip _) fun _ => .pure _
  · exact .fail _

/-! ### xor with a stream -/

theorem xor_cancel_left {n : Nat} (y z : BitVec n) : y ^^^ (y ^^^ z) = z := by
  rw [← BitVec.xor_assoc]; simp

theorem decryptWith_invol (ks : Nat → Byte) (bs : Bytes) : decryptWith ks (decryptWith ks bs) = bs := by
  unfold decryptWith
  apply List.ext_getElem
  · simp
  · intro i h1 h2
    simp [BitVec.xor_assoc]

@[simp] theorem length_decryptWith (ks : Nat → Byte) (bs : Bytes) :
    (decryptWith ks bs).length = bs.length := by simp [decryptWith]

theorem sliceOrError_holds {buf bs : Bytes} {p : Nat} (h : Holds buf p bs) :
    sliceOrError buf p (p + bs.length) = .ok bs := by
  unfold sliceOrError
  rw [if_pos ⟨by omega, h.le⟩]
  have := h.slice
  rw [show p + bs.length - p = bs.length by omega, this]

theorem decryptSlice_holds {m : Mode} {buf bs : Bytes} {p n : Nat} {ks : Nat → Byte}
    (h : Holds buf p bs) (hn : bs.length = n) (hb : buf.length < 2 ^ 63) :
    decryptSlice m buf ks p n = .ok (decryptWith ks bs) := by
  subst hn
  unfold decryptSlice
  have := h.le
  rw [addU_ok (by omega)]
  show (sliceOrError buf p (p + bs.length) >>= _) = _
  rw [sliceOrError_holds h]
  rfl

theorem resolveAscii_cipher {m : Mode} {buf bs : Bytes} {p n : Nat} {ks : Nat → Byte}
    (h : Holds buf p (cipherAscii ks bs)) (hn : bs.length = n) (hb : buf.length < 2 ^ 63) :
    resolveAsciiRaw m buf ks p n = .ok bs := by
  unfold resolveAsciiRaw
  rw [decryptSlice_holds h (by simpa [cipherAscii] using hn) hb]
  show Except.ok _ = Except.ok _
  congr 1
  apply List.ext_getElem
  · simp [cipherAscii]
  · intro i h1 h2
    simp only [cipherAscii, decryptWith, asciiChar, List.getElem_mapIdx]
    rw [show BitVec.ofNat 8 (0xAA + i) = BitVec.ofNat 8 i + 0xAA#8 by
      rw [BitVec.ofNat_add, BitVec.add_comm]]
    generalize bs[i] = x
    generalize ks i = y
    generalize BitVec.ofNat 8 i + 0xAA#8 = z
    simp only [BitVec.xor_assoc, xor_cancel_left, BitVec.xor_self, BitVec.xor_zero]

theorem units_unitBytes (us : List (BitVec 16)) : units (unitBytes us) = .ok us := by
  induction us with
  | nil => rfl
  | cons u us ih =>
    have : unitBytes (u :: us) = BitVec.ofNat 8 u.toNat :: BitVec.ofNat 8 (u.toNat / 256) :: unitBytes us := by
      simp [unitBytes, toLE]
    rw [this, units, ih]
    show Except.ok _ = Except.ok _
    congr 2
    apply BitVec.eq_of_toNat_eq
    have := u.isLt
    simp only [BitVec.toNat_ofNat]
    omega

@[simp] theorem length_unitBytes (us : List (BitVec 16)) : (unitBytes us).length = 2 * us.length := by
  induction us with
  | nil => rfl
  | cons u us ih =>
    simp only [unitBytes, List.flatMap_cons, List.length_append, length_toLE, List.length_cons] at *
    omega

theorem resolveUnicode_cipher {m : Mode} {buf : Bytes} {us : List (BitVec 16)} {p n : Nat}
    {ks : Nat → Byte} (h : Holds buf p (cipherUnicode ks us)) (hn : 2 * us.length = n)
    (hb : buf.length < 2 ^ 63) : resolveUnicodeRaw m buf ks p n = .ok us := by
  unfold resolveUnicodeRaw
  have hc : cipherUnicode ks us = decryptWith ks (unitBytes (us.mapIdx fun i u => u ^^^ BitVec.ofNat 16 (0xAAAA + i))) := rfl
  rw [decryptSlice_holds h (by rw [hc]; simpa using hn) hb, hc, decryptWith_invol]
  show (units _ >>= _) = _
  rw [units_unitBytes]
  show Except.ok _ = Except.ok _
  congr 1
  apply List.ext_getElem
  · simp
  · intro i h1 h2
    simp only [unicodeChar, List.getElem_mapIdx]
    rw [show BitVec.ofNat 16 (0xAAAA + i) = BitVec.ofNat 16 i + 0xAAAA#16 by
      rw [BitVec.ofNat_add, BitVec.add_comm]]
    simp [BitVec.xor_assoc]

theorem resolvePkg2_cipher {m : Mode} {buf : Bytes} {us : List (BitVec 16)} {p n : Nat}
    {ks : Nat → Byte} (h : Holds buf p (cipherPkg2 ks us)) (hn : 2 * us.length = n)
    (hb : buf.length < 2 ^ 63) : resolvePkg2DirRaw m buf ks p n = .ok us := by
  unfold resolvePkg2DirRaw
  have hc : cipherPkg2 ks us = decryptWith ks (unitBytes us) := rfl
  rw [decryptSlice_holds h (by rw [hc]; simpa using hn) hb, hc, decryptWith_invol]
  exact units_unitBytes us

theorem ascii_bytes {s : List Char} (h : ∀ c ∈ s, c.toNat < 128) :
    utf8EncStr s = s.map fun c => BitVec.ofNat 8 c.toNat := by
  induction s with
  | nil => rfl
  | cons c s ih =>
    simp only [utf8EncStr, List.flatMap_cons, List.map_cons] at *
    rw [ih fun x hx => h x (by simp [hx])]
    have : utf8Enc c = [BitVec.ofNat 8 c.toNat] := by
      have := h c (by simp)
      simp [utf8Enc, this]
    rw [this]; rfl

theorem utf8Lossy_ascii {s : List Char} (h : ∀ c ∈ s, c.toNat < 128) :
    utf8Lossy (s.map fun c => BitVec.ofNat 8 c.toNat) = s := by
  rw [← ascii_bytes h, utf8Lossy_encStr]

end Wz
