import Verif.Reader.Lemmas
/-! Helper lemmas: eager and lazy string reading. -/

set_option autoImplicit false
variable {α β γ : Type}

namespace Wz
open Spec

theorem decryptSlice_ok {m : Mode} {buf d : Bytes} {ks : Nat → Byte} {p n : Nat}
    (h : decryptSlice m buf ks p n = .ok d) (hb : buf.length < 2 ^ 63) (hn : n < 2 ^ 64) :
    p + n ≤ buf.length := by
  unfold decryptSlice addU at h
  by_cases hs : p + n < 2 ^ 64
  · rw [if_pos hs] at h
    have h : (sliceOrError buf p (p + n) >>= fun s => Except.ok (decryptWith ks s)) = .ok d := h
    unfold sliceOrError at h
    split at h
    · rename_i h'; exact h'.2
    · cases h
  · rw [if_neg hs] at h
    cases m with
    | checked => cases h
    | wrap =>
      have h : (sliceOrError buf p ((p + n) % 2 ^ 64) >>= fun s => Except.ok (decryptWith ks s)) = .ok d := h
      unfold sliceOrError at h
      split at h
      · rename_i h'
        by_cases hp : p < 2 ^ 64
        · omega
        · omega
      · cases h

theorem resolveUnicodeRaw_ok {m : Mode} {buf : Bytes} {us : List (BitVec 16)} {ks : Nat → Byte} {p n : Nat}
    (h : resolveUnicodeRaw m buf ks p n = .ok us) (hb : buf.length < 2 ^ 63) (hn : n < 2 ^ 64) :
    p + n ≤ buf.length := by
  unfold resolveUnicodeRaw at h
  cases hd : decryptSlice m buf ks p n with
  | ok d => exact decryptSlice_ok hd hb hn
  | error x => rw [hd] at h; cases h

theorem resolveAsciiRaw_ok {m : Mode} {buf : Bytes} {us : Bytes} {ks : Nat → Byte} {p n : Nat}
    (h : resolveAsciiRaw m buf ks p n = .ok us) (hb : buf.length < 2 ^ 63) (hn : n < 2 ^ 64) :
    p + n ≤ buf.length := by
  unfold resolveAsciiRaw at h
  cases hd : decryptSlice m buf ks p n with
  | ok d => exact decryptSlice_ok hd hb hn
  | error x => rw [hd] at h; cases h

theorem resolvePkg2DirRaw_ok {m : Mode} {buf : Bytes} {us : List (BitVec 16)} {ks : Nat → Byte} {p n : Nat}
    (h : resolvePkg2DirRaw m buf ks p n = .ok us) (hb : buf.length < 2 ^ 63) (hn : n < 2 ^ 64) :
    p + n ≤ buf.length := by
  unfold resolvePkg2DirRaw at h
  cases hd : decryptSlice m buf ks p n with
  | ok d => exact decryptSlice_ok hd hb hn
  | error x => rw [hd] at h; cases h

theorem resolveMeta_ok {e : Env} {ty : StrType} {p n : Nat} {s : List Char} (hty : ty ≠ .empty)
    (h : resolveMeta e ty p n = .ok s) (hb : e.buf.length < 2 ^ 63) (hn : n < 2 ^ 64) :
    p + n ≤ e.buf.length := by
  unfold resolveMeta at h
  cases ty with
  | empty => exact absurd rfl hty
  | unicode =>
    cases hd : resolveUnicodeRaw e.mode e.buf e.ks p n with
    | ok d => exact resolveUnicodeRaw_ok hd hb hn
    | error x => simp only [hd] at h; cases h
  | ascii =>
    cases hd : resolveAsciiRaw e.mode e.buf e.ks p n with
    | ok d => exact resolveAsciiRaw_ok hd hb hn
    | error x => simp only [hd] at h; cases h
  | pkg2Dir =>
    cases hd : resolvePkg2DirRaw e.mode e.buf e.ks2 p n with
    | ok d => exact resolvePkg2DirRaw_ok hd hb hn
    | error x => simp only [hd] at h; cases h

theorem decryptSlice_zero {m : Mode} {buf : Bytes} {ks : Nat → Byte} {p : Nat} (hp : p ≤ buf.length)
    (hb : buf.length < 2 ^ 63) : decryptSlice m buf ks p 0 = .ok [] := by
  have := decryptSlice_holds (m := m) (ks := ks) (Holds.nil hp) rfl hb
  exact this

theorem resolveMeta_zero {e : Env} {ty : StrType} {p : Nat} (hp : p ≤ e.buf.length)
    (hb : e.buf.length < 2 ^ 63) : resolveMeta e ty p 0 = .ok [] := by
  cases ty with
  | empty => rfl
  | unicode =>
    simp only [resolveMeta, resolveUnicodeRaw, decryptSlice_zero hp hb]; rfl
  | ascii =>
    simp only [resolveMeta, resolveAsciiRaw, decryptSlice_zero hp hb]; rfl
  | pkg2Dir =>
    simp only [resolveMeta, resolvePkg2DirRaw, decryptSlice_zero hp hb]; rfl

/-- a successful read tells where the cursor was and is -/
theorem Rd.readInt_ok {e : Env} {c c' : Cur} {w : Nat} {v : Int} (h : (Rd.readInt w).run e c = (.ok v, c'))
    (hb : e.buf.length < 2 ^ 63) :
    c.pos + w ≤ e.buf.length ∧ c' = { c with pos := c.pos + w } ∧
      v = signed (8 * w) (leNat ((e.buf.drop c.pos).take w)) := by
  unfold Rd.readInt at h
  rw [Rd.bind_run] at h
  rw [Rd.readLE_def] at h
  by_cases hs : c.pos + w ≤ e.buf.length
  · rw [addU_ok (by omega)] at h
    simp only [readAt, if_pos hs, Rd.pure_run, Prod.mk.injEq, Except.ok.injEq] at h
    exact ⟨hs, h.2.symm, h.1.symm⟩
  · exfalso
    unfold addU at h
    split at h
    · rename_i v' c1 heq
      split at heq
      · simp [readAt, hs] at heq
      · simp at heq
    · cases h

theorem Rd.readInt_err {e : Env} {c : Cur} {w : Nat} (h : ¬ c.pos + w ≤ e.buf.length) :
    ∃ x c', (Rd.readInt w).run e c = (.error x, c') := by
  unfold Rd.readInt
  rw [Rd.bind_run]
  rw [Rd.readLE_def]
  split
  · rename_i heq
    split at heq
    · simp [readAt, h] at heq
    · cases heq
  · exact ⟨_, _, rfl⟩

theorem signed_range {bits v : Nat} (hb : 0 < bits) :
    -2 ^ (bits - 1) ≤ signed bits v ∧ signed bits v < 2 ^ (bits - 1) := by
  unfold signed
  constructor
  · exact BitVec.le_toInt _
  · exact BitVec.toInt_lt

end Wz
