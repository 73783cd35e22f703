import Verif.Reader.ShownSpec
import Verif.Reader.Reads
import Verif.Reader.OnlyLemmas
/-!
# Text that was read is what is stored
-/

set_option autoImplicit false

namespace Wz

open Spec

variable {α β : Type}

theorem Rd.bind_inv {m : Rd α} {f : α → Rd β} {e : Env} {c c' : Cur} {b : β} (h : (m >>= f).run e c = (.ok b, c')) :
    ∃ a c1, m.run e c = (.ok a, c1) ∧ (f a).run e c1 = (.ok b, c') := by
  rw [Rd.bind_run] at h
  cases hr : m.run e c with
  | mk r c1 =>
    rw [hr] at h
    cases r with
    | error x => cases h
    | ok a => exact ⟨a, c1, rfl, h⟩

theorem Rd.lift_inv {x : Except Err α} {e : Env} {c c' : Cur} {b : α} (h : (Rd.lift x).run e c = (.ok b, c')) :
    x = .ok b ∧ c' = c := by
  rw [Rd.lift_run] at h
  cases h
  exact ⟨rfl, rfl⟩

theorem Rd.skip_inv {n : Nat} {e : Env} {c c' : Cur} (hm : e.mode = .checked) (h : (Rd.skip n).run e c = (.ok (), c')) :
    c' = { c with pos := c.pos + n } := by
  rw [Rd.skip_def, hm] at h
  unfold addU at h
  split at h
  · rename_i h2
    split at h2
    · cases h2; cases h; rfl
    · cases h2
  · cases h

/-- a 32-bit number that was read: its bytes are there -/
theorem i32_held {e : Env} {c c' : Cur} {l : Int} (hb : e.buf.length < 2 ^ 63) (h : Rd.readI32.run e c = (.ok l, c')) :
    c' = { c with pos := c.pos + 4 } ∧ c.pos + 4 ≤ e.buf.length ∧ -2 ^ 31 ≤ l ∧ l < 2 ^ 31 ∧
      Holds e.buf c.pos (toLE 4 (asU32 l)) := by
  obtain ⟨hp, hc, hv⟩ := Rd.readInt_ok h hb
  have hr := signed_range (bits := 8 * 4) (v := leNat ((e.buf.drop c.pos).take 4)) (by omega)
  rw [← hv] at hr
  refine ⟨hc, hp, by simpa using hr.1, by simpa using hr.2, ?_⟩
  have hh := Holds.of_slice hp
  have hlen : ((e.buf.drop c.pos).take 4).length = 4 := by simp; omega
  have h2 := toLE_leNat ((e.buf.drop c.pos).take 4)
  rw [hlen] at h2
  have hlt := leNat_lt ((e.buf.drop c.pos).take 4)
  rw [hlen] at hlt
  have h3 : asU32 l = leNat ((e.buf.drop c.pos).take 4) := by
    rw [hv]
    unfold signed asU32
    rw [BitVec.toInt_eq_toNat_cond]
    simp only [BitVec.toNat_ofNat]
    split <;> omega
  rw [h3, h2]
  exact hh

/-- a signed byte that was read is there -/
theorem i8_held {e : Env} {c c' : Cur} {v : Int} (hb : e.buf.length < 2 ^ 63) (h : Rd.readI8.run e c = (.ok v, c')) :
    c' = { c with pos := c.pos + 1 } ∧ c.pos + 1 ≤ e.buf.length ∧ -128 ≤ v ∧ v < 128 ∧ Holds e.buf c.pos [byteOf v] := by
  obtain ⟨hp, hc, hv⟩ := Rd.readInt_ok h hb
  obtain ⟨b, hbb, hh⟩ := byte_at hp
  rw [hbb, show 8 * 1 = 8 from rfl, signed_byte] at hv
  have hge : -128 ≤ b.toInt := BitVec.le_toInt b
  have hlt : b.toInt < 128 := BitVec.toInt_lt
  have hbv : b = byteOf v := by
    apply BitVec.eq_of_toInt_eq
    rw [toInt_byteOf (by omega) (by omega), hv]
  rw [hbv] at hh
  exact ⟨hc, hp, by omega, by omega, hh⟩

theorem Holds.cons_of {buf : Bytes} {p : Nat} {b : Byte} {r : Bytes} (h1 : Holds buf p [b]) (h2 : Holds buf (p + 1) r) :
    Holds buf p (b :: r) := h1.append (b := r) h2

/-- the text of an ASCII description -/
theorem asciiIs {e : Env} {p n : Nat} {s : List Char} (hb : e.buf.length < 2 ^ 63) (hn : n < 2 ^ 64)
    (h : resolveMeta e .ascii p n = .ok s) :
    ∃ bs : Bytes, bs.length = n ∧ s = utf8Lossy bs ∧ Holds e.buf p (cipherAscii e.ks bs) := by
  unfold resolveMeta at h
  dsimp only at h
  rcases hr2 : resolveAsciiRaw e.mode e.buf e.ks p n with x | bs
  · rw [hr2] at h; cases h
  rw [hr2] at h
  have h3 := Except.ok.inj (show Except.ok _ = Except.ok _ from h)
  obtain ⟨h4, h5⟩ := cipherAscii_of_read hb hn hr2
  exact ⟨bs, h4, h3.symm, h5⟩

theorem unicodeIs {e : Env} {p n : Nat} {s : List Char} (hb : e.buf.length < 2 ^ 63) (hn : n < 2 ^ 64)
    (h : resolveMeta e .unicode p n = .ok s) :
    ∃ us : List (BitVec 16), 2 * us.length = n ∧ s = utf16Lossy us ∧ Holds e.buf p (cipherUnicode e.ks us) := by
  unfold resolveMeta at h
  dsimp only at h
  rcases hr2 : resolveUnicodeRaw e.mode e.buf e.ks p n with x | us
  · rw [hr2] at h; cases h
  rw [hr2] at h
  have h3 := Except.ok.inj (show Except.ok _ = Except.ok _ from h)
  obtain ⟨h4, h5⟩ := cipherUnicode_of_read hb hn hr2
  exact ⟨us, h4, h3.symm, h5⟩

theorem cipherPkg2_of_read {m : Mode} {buf : Bytes} {us : List (BitVec 16)} {ks2 : Nat → Byte} {p n : Nat}
    (hb : buf.length < 2 ^ 63) (hle : p + n ≤ buf.length)
    (h : resolvePkg2DirRaw m buf ks2 p n = .ok us) : 2 * us.length = n ∧ Holds buf p (cipherPkg2 ks2 us) := by
  have hh := Holds.of_slice hle
  have hl : ((buf.drop p).take n).length = n := by simp; omega
  unfold resolvePkg2DirRaw at h
  rw [decryptSlice_holds hh hl hb] at h
  replace h : units (decryptWith ks2 ((buf.drop p).take n)) = .ok us := h
  have h3 := units_ok _ _ h
  have hlen : 2 * us.length = n := by
    have := congrArg List.length h3
    rw [length_decryptWith, hl, length_unitBytes] at this
    exact this.symm
  refine ⟨hlen, ?_⟩
  have : cipherPkg2 ks2 us = (buf.drop p).take n := by
    have hc : cipherPkg2 ks2 us = decryptWith ks2 (unitBytes us) := rfl
    rw [hc, ← h3, decryptWith_invol]
  rw [this]
  exact hh

theorem pkg2Is {e : Env} {p n : Nat} {s : List Char} (hb : e.buf.length < 2 ^ 63) (hn : n < 2 ^ 64)
    (h : resolveMeta e .pkg2Dir p n = .ok s) :
    ∃ us : List (BitVec 16), 2 * us.length = n ∧ s = utf16Lossy us ∧ Holds e.buf p (cipherPkg2 e.ks2 us) := by
  have hle := resolveMeta_ok (by simp) h hb hn
  unfold resolveMeta at h
  dsimp only at h
  rcases hr2 : resolvePkg2DirRaw e.mode e.buf e.ks2 p n with x | us
  · rw [hr2] at h; cases h
  rw [hr2] at h
  have h3 := Except.ok.inj (show Except.ok _ = Except.ok _ from h)
  obtain ⟨h4, h5⟩ := cipherPkg2_of_read hb hle hr2
  exact ⟨us, h4, h3.symm, h5⟩

theorem length_cipherAscii' (ks : Nat → Byte) (bs : Bytes) : (cipherAscii ks bs).length = bs.length := by
  simp [cipherAscii]

theorem length_cipherUnicode' (ks : Nat → Byte) (us : List (BitVec 16)) : (cipherUnicode ks us).length = 2 * us.length := by
  have : cipherUnicode ks us = decryptWith ks (unitBytes (us.mapIdx fun i u => u ^^^ BitVec.ofNat 16 (0xAAAA + i))) := rfl
  rw [this, length_decryptWith, length_unitBytes, List.length_mapIdx]

theorem length_cipherPkg2' (ks : Nat → Byte) (us : List (BitVec 16)) : (cipherPkg2 ks us).length = 2 * us.length := by
  have : cipherPkg2 ks us = decryptWith ks (unitBytes us) := rfl
  rw [this, length_decryptWith, length_unitBytes]

theorem mulU32_checked {a b r : Nat} (h : mulU32 .checked a b = .ok r) : r = a * b ∧ a * b < 2 ^ 32 := by
  unfold mulU32 at h
  split at h
  · cases h; exact ⟨rfl, by assumption⟩
  · cases h

/-- A text that is shown for a description that was read is stored there. -/
theorem strMeta_shown {e : Env} {c c' : Cur} {m : StrMeta} {s : List Char} (hb : e.buf.length < 2 ^ 63)
    (hm : e.mode = .checked) (h : Rd.readWzStringMeta.run e c = (.ok m, c')) (hs : m.Is e s) :
    ∃ nm, ShownAs e.ks s nm ∧ Holds e.buf c.pos nm ∧ (c'.pos = c.pos + nm.length ∨ e.buf.length < c'.pos) := by
  unfold Rd.readWzStringMeta at h
  obtain ⟨small, c1, h1, h⟩ := Rd.bind_inv h
  obtain ⟨rfl, hp1, hlo, hhi, hh⟩ := i8_held hb h1
  unfold StrMeta.Is at hs
  unfold strType at h
  by_cases hz : small = 0
  · rw [if_pos hz] at h
    cases h
    have : s = [] := (Except.ok.inj hs).symm
    rw [hz] at hh
    exact ⟨_, .empty this, hh, .inl rfl⟩
  rw [if_neg hz] at h
  by_cases hpos : small > 0
  · rw [if_pos hpos] at h
    by_cases h127 : small = 127
    · simp only [if_pos h127] at h
      obtain ⟨l, c2, h2, h⟩ := Rd.bind_inv h
      obtain ⟨rfl, hp2, hl0, hl1, hh2⟩ := i32_held hb h2
      obtain ⟨e', c3, h3, h⟩ := Rd.bind_inv h
      cases h3
      obtain ⟨len, c4, h4, h⟩ := Rd.bind_inv h
      obtain ⟨h4', rfl⟩ := Rd.lift_inv h4
      rw [hm] at h4'
      obtain ⟨rfl, hlt⟩ := mulU32_checked h4'
      obtain ⟨p, c5, h5, h⟩ := Rd.bind_inv h
      cases h5
      obtain ⟨u, c6, h6, h⟩ := Rd.bind_inv h
      have h7 := Rd.skip_inv hm h6
      cases h
      subst h7
      dsimp only at hs
      obtain ⟨us, g1, g2, g3⟩ := unicodeIs hb (by omega) hs
      have g4 : us.length = asU32 l := by omega
      refine ⟨_, .unicodeLong us (by omega) g2, ?_, ?_⟩
      · rw [h127] at hh
        refine (Holds.cons_of hh (by rw [g4]; exact hh2)).append ?_
        simp only [List.length_cons, length_toLE]
        exact g3
      · left
        simp only [List.length_append, List.length_cons, length_toLE, length_cipherUnicode']
        omega
    · simp only [if_neg h127] at h
      obtain ⟨e', c3, h3, h⟩ := Rd.bind_inv h
      cases h3
      obtain ⟨len, c4, h4, h⟩ := Rd.bind_inv h
      obtain ⟨h4', rfl⟩ := Rd.lift_inv h4
      rw [hm] at h4'
      obtain ⟨rfl, hlt⟩ := mulU32_checked h4'
      obtain ⟨p, c5, h5, h⟩ := Rd.bind_inv h
      cases h5
      obtain ⟨u, c6, h6, h⟩ := Rd.bind_inv h
      have h7 := Rd.skip_inv hm h6
      cases h
      subst h7
      dsimp only at hs
      obtain ⟨us, g1, g2, g3⟩ := unicodeIs hb (by omega) hs
      have g5 : asU32 small = small.toNat := asU32_nonneg (by omega) (by omega)
      have g4 : (us.length : Int) = small := by omega
      refine ⟨_, .unicodeShort us (by omega) (by omega) g2, ?_, ?_⟩
      · rw [g4]; exact Holds.cons_of hh g3
      · left
        simp only [List.length_cons, length_cipherUnicode']
        omega
  · rw [if_neg hpos] at h
    by_cases h128 : small = -128
    · simp only [if_pos h128] at h
      obtain ⟨l, c2, h2, h⟩ := Rd.bind_inv h
      obtain ⟨rfl, hp2, hl0, hl1, hh2⟩ := i32_held hb h2
      obtain ⟨p, c5, h5, h⟩ := Rd.bind_inv h
      cases h5
      obtain ⟨u, c6, h6, h⟩ := Rd.bind_inv h
      have h7 := Rd.skip_inv hm h6
      cases h
      subst h7
      dsimp only at hs
      have hlt := asU32_lt l
      obtain ⟨bs, g1, g2, g3⟩ := asciiIs hb (by omega) hs
      refine ⟨_, .asciiLong bs (by omega) g2, ?_, ?_⟩
      · rw [h128] at hh
        refine (Holds.cons_of hh (by rw [g1]; exact hh2)).append ?_
        simp only [List.length_cons, length_toLE]
        exact g3
      · simp only [List.length_append, List.length_cons, length_toLE, length_cipherAscii']
        unfold asUsize
        unfold asU32 at g1
        omega
    · simp only [if_neg h128] at h
      obtain ⟨p, c5, h5, h⟩ := Rd.bind_inv h
      cases h5
      obtain ⟨u, c6, h6, h⟩ := Rd.bind_inv h
      have h7 := Rd.skip_inv hm h6
      cases h
      subst h7
      dsimp only at hs
      have g5 : asU32 (-small) = (-small).toNat := asU32_nonneg (by omega) (by omega)
      obtain ⟨bs, g1, g2, g3⟩ := asciiIs hb (by omega) hs
      have g4 : -(bs.length : Int) = small := by omega
      refine ⟨_, .asciiShort bs (by omega) (by omega) g2, ?_, ?_⟩
      · rw [g4]; exact Holds.cons_of hh g3
      · left
        simp only [List.length_cons, length_cipherAscii']
        omega

/-- the same for the first name of a PKG2 directory -/
theorem pkg2Meta_shown {e : Env} {c c' : Cur} {m : StrMeta} {s : List Char} {w : Nat} (hw : w = 1 ∨ w = 2)
    (hb : e.buf.length < 2 ^ 63) (hm : e.mode = .checked) (h : (Rd.readPkg2DirMeta w).run e c = (.ok m, c'))
    (hs : m.Is e s) :
    ∃ nm, ShownAs2 w e.ks2 s nm ∧ Holds e.buf c.pos nm ∧ c'.pos = c.pos + nm.length := by
  unfold Rd.readPkg2DirMeta at h
  obtain ⟨len, c1, h1, h⟩ := Rd.bind_inv h
  obtain ⟨hp, rfl, hv⟩ := Rd.readInt_ok h1 hb
  have hh := Holds.of_slice hp
  have hlen : ((e.buf.drop c.pos).take w).length = w := by simp; omega
  have h2 := toLE_leNat ((e.buf.drop c.pos).take w)
  rw [hlen] at h2
  have hlt := leNat_lt ((e.buf.drop c.pos).take w)
  rw [hlen] at hlt
  have hu : unsign (8 * w) len = leNat ((e.buf.drop c.pos).take w) := by
    rw [hv]
    rcases hw with rfl | rfl <;>
    · unfold signed unsign
      rw [BitVec.toInt_eq_toNat_cond]
      simp only [BitVec.toNat_ofNat]
      split <;> omega
  have hr := signed_range (bits := 8 * w) (v := leNat ((e.buf.drop c.pos).take w)) (by omega)
  rw [← hv] at hr
  rw [← h2, ← hu] at hh
  unfold StrMeta.Is at hs
  by_cases hz : len ≥ 0
  · rw [if_pos hz] at h
    cases h
    have : s = [] := (Except.ok.inj hs).symm
    refine ⟨_, .empty (unsign (8 * w) len) ?_ this, hh, by simp [length_toLE]⟩
    rcases hw with rfl | rfl <;> (unfold unsign; omega)
  rw [if_neg hz] at h
  obtain ⟨n, c2, h3, h⟩ := Rd.bind_inv h
  obtain ⟨p, c3, h4, h⟩ := Rd.bind_inv h
  cases h4
  obtain ⟨u, c4, h5, h⟩ := Rd.bind_inv h
  have h6 := Rd.skip_inv hm h5
  cases h
  subst h6
  have hn : n = len.natAbs * 2 ∧ c2 = { c with pos := c.pos + w } ∧ -2 ^ (8 * w - 1) < len := by
    unfold Rd.pkg2Len at h3
    obtain ⟨e', c5, h7, h3⟩ := Rd.bind_inv h3
    cases h7
    obtain ⟨k, c5, h7, h3⟩ := Rd.bind_inv h3
    obtain ⟨h8, rfl⟩ := Rd.lift_inv h7
    unfold negI at h8
    rw [hm] at h8
    split at h8
    · cases h8
    · rename_i hne
      cases h8
      have : asUsize (-len) = len.natAbs := by unfold asUsize; rcases hw with rfl | rfl <;> omega
      rw [this] at h3
      rw [if_pos (by rcases hw with rfl | rfl <;> omega)] at h3
      cases h3
      exact ⟨rfl, rfl, by rcases hw with rfl | rfl <;> omega⟩
  obtain ⟨rfl, rfl, hgt⟩ := hn
  have hmod : len.natAbs * 2 % 2 ^ 32 = len.natAbs * 2 := by rcases hw with rfl | rfl <;> omega
  dsimp only at hs
  rw [hmod] at hs
  obtain ⟨us, g1, g2, g3⟩ := pkg2Is hb (by rcases hw with rfl | rfl <;> omega) hs
  have g4 : -(us.length : Int) = len := by omega
  refine ⟨_, .units us (by omega) (by rcases hw with rfl | rfl <;> omega) g2, ?_, ?_⟩
  · rw [g4]
    refine hh.append ?_
    rw [length_toLE]
    exact g3
  · simp only [List.length_append, length_toLE, length_cipherPkg2']
    omega

end Wz
