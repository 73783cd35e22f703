import Verif.Property.TakenSpec
import Verif.Property.TreeLemmas
import Verif.Directory.FoundLemmas
/-!
# What was read is what the bytes are taken for
-/

set_option autoImplicit false

namespace Wz

open Spec

/-! ### texts -/

theorem mulI32_checked {a b r : Int} (h : mulI32 .checked a b = .ok r) : r = a * b ∧ -2 ^ 31 ≤ a * b ∧ a * b < 2 ^ 31 := by
  unfold mulI32 at h
  split at h
  · cases h; rename_i hh; exact ⟨rfl, hh⟩
  · cases h

theorem addU_inv {a b r : Nat} (h : addU .checked a b = .ok r) : r = a + b ∧ a + b < 2 ^ 64 := by
  unfold addU at h
  split at h
  · cases h; exact ⟨rfl, by assumption⟩
  · cases h

/-- the text read at once -/
theorem readWzString_inv {e : Env} {c c' : Cur} {s : List Char} (hb : e.buf.length < 2 ^ 63) (hm : e.mode = .checked)
    (h : Rd.readWzString.run e c = (.ok s, c')) :
    ∃ bs, TextIs e.ks s bs ∧ Holds e.buf c.pos bs ∧ c'.pos = c.pos + bs.length := by
  unfold Rd.readWzString at h
  obtain ⟨small, c1, h1, h⟩ := Rd.bind_inv h
  obtain ⟨rfl, hp1, hlo, hhi, hh⟩ := i8_held hb h1
  unfold strType at h
  by_cases hz : small = 0
  · rw [if_pos hz] at h
    cases h
    rw [hz] at hh
    exact ⟨_, .empty rfl, hh, rfl⟩
  rw [if_neg hz] at h
  by_cases hpos : small > 0
  · rw [if_pos hpos] at h
    replace h : (Rd.readUnicodeString small).run e { c with pos := c.pos + 1 } = (.ok s, c') := h
    unfold Rd.readUnicodeString at h
    obtain ⟨len, c2, h2, h⟩ := Rd.bind_inv h
    -- the length
    have key : ∃ lb : Bytes, (∀ n : Nat, (n : Int) = len → n < 2 ^ 30 → IsUnicodeLen n lb) ∧ Holds e.buf c.pos lb ∧
        c2.pos = c.pos + lb.length ∧ c.pos + lb.length ≤ e.buf.length := by
      unfold Rd.readUnicodeStrLen at h2
      by_cases h127 : small = 127
      · rw [if_pos h127] at h2
        obtain ⟨rfl, hp2, hl0, hl1, hh2⟩ := i32_held hb h2
        rw [h127] at hh
        refine ⟨0x7F#8 :: toLE 4 (asU32 len), ?_, Holds.cons_of hh hh2, by simp, by simpa using hp2⟩
        intro n hn hlt
        have : asU32 len = n := by rw [asU32_nonneg (by omega) (by omega)]; omega
        rw [this]
        exact .long hlt
      · rw [if_neg h127] at h2
        cases h2
        refine ⟨[byteOf small], ?_, hh, rfl, hp1⟩
        intro n hn _
        rw [← hn]
        exact .short (by omega) (by omega)
    obtain ⟨lb, k1, k2, k3, k4⟩ := key
    by_cases hz2 : len = 0
    · rw [if_pos hz2] at h
      cases h
      refine ⟨lb ++ cipherUnicode e.ks [], .unicode [] lb (k1 0 (by simpa using hz2.symm) (by omega)) rfl, ?_, ?_⟩
      · have : cipherUnicode e.ks [] = [] := rfl
        rw [this, List.append_nil]; exact k2
      · have : cipherUnicode e.ks [] = [] := rfl
        rw [this, List.append_nil]; exact k3
    rw [if_neg hz2] at h
    obtain ⟨e', c3, h3, h⟩ := Rd.bind_inv h
    cases h3
    obtain ⟨len2, c4, h4, h⟩ := Rd.bind_inv h
    obtain ⟨h4', rfl⟩ := Rd.lift_inv h4
    rw [hm] at h4'
    obtain ⟨rfl, hlt0, hlt1⟩ := mulI32_checked h4'
    obtain ⟨p, c5, h5, h⟩ := Rd.bind_inv h
    cases h5
    obtain ⟨s', c6, h6, h⟩ := Rd.bind_inv h
    obtain ⟨h6', hc6⟩ := Rd.lift_inv h6
    rw [hc6] at h
    obtain ⟨u, c7, h7, h⟩ := Rd.bind_inv h
    have h8 := Rd.skip_inv hm h7
    cases h
    subst h8
    have hsz : asUsize (len * 2) < 2 ^ 64 := by unfold asUsize; omega
    obtain ⟨us, g1, g2, g3⟩ := unicodeIs hb hsz h6'
    have hle := g3.le
    rw [length_cipherUnicode'] at hle
    have hl : (us.length : Int) = len := by
      unfold asUsize at g1
      omega
    refine ⟨lb ++ cipherUnicode e.ks us, .unicode us lb (k1 _ hl (by omega)) g2, k2.append (by rw [← k3]; exact g3), ?_⟩
    rw [List.length_append, length_cipherUnicode', g1, ← Nat.add_assoc, ← k3]
  · rw [if_neg hpos] at h
    replace h : (Rd.readAsciiString small).run e { c with pos := c.pos + 1 } = (.ok s, c') := h
    unfold Rd.readAsciiString at h
    obtain ⟨len, c2, h2, h⟩ := Rd.bind_inv h
    have key : ∃ lb : Bytes, (∀ n : Nat, (n : Int) = len → IsAsciiLen n lb) ∧ Holds e.buf c.pos lb ∧
        c2.pos = c.pos + lb.length ∧ c.pos + lb.length ≤ e.buf.length ∧ -2 ^ 31 ≤ len ∧ len < 2 ^ 31 := by
      unfold Rd.readAsciiStrLen at h2
      by_cases h128 : small = -128
      · rw [if_pos h128] at h2
        obtain ⟨rfl, hp2, hl0, hl1, hh2⟩ := i32_held hb h2
        rw [h128] at hh
        refine ⟨0x80#8 :: toLE 4 (asU32 len), ?_, Holds.cons_of hh hh2, by simp, by simpa using hp2, hl0, hl1⟩
        intro n hn
        have : asU32 len = n := by rw [asU32_nonneg (by omega) (by omega)]; omega
        rw [this]
        exact .long (by omega)
      · rw [if_neg h128] at h2
        cases h2
        refine ⟨[byteOf small], ?_, hh, rfl, hp1, by omega, by omega⟩
        intro n hn
        rw [show small = -(n : Int) by omega]
        exact .short (by omega) (by omega)
    obtain ⟨lb, k1, k2, k3, k4, k5, k6⟩ := key
    dsimp only at h
    by_cases hz2 : asUsize len = 0
    · rw [if_pos hz2] at h
      cases h
      have hl0 : len = 0 := by unfold asUsize at hz2; omega
      refine ⟨lb ++ cipherAscii e.ks [], .ascii [] lb (k1 0 (by simpa using hl0.symm)) rfl, ?_, ?_⟩
      · have : cipherAscii e.ks [] = [] := rfl
        rw [this, List.append_nil]; exact k2
      · have : cipherAscii e.ks [] = [] := rfl
        rw [this, List.append_nil]; exact k3
    rw [if_neg hz2] at h
    obtain ⟨e', c3, h3, h⟩ := Rd.bind_inv h
    cases h3
    obtain ⟨p, c5, h5, h⟩ := Rd.bind_inv h
    cases h5
    obtain ⟨s', c6, h6, h⟩ := Rd.bind_inv h
    obtain ⟨h6', hc6⟩ := Rd.lift_inv h6
    rw [hc6] at h
    obtain ⟨u, c7, h7, h⟩ := Rd.bind_inv h
    have h8 := Rd.skip_inv hm h7
    cases h
    subst h8
    have hsz : asUsize len < 2 ^ 64 := by unfold asUsize; omega
    obtain ⟨bs, g1, g2, g3⟩ := asciiIs hb hsz h6'
    have hle := g3.le
    rw [length_cipherAscii'] at hle
    have hl : (bs.length : Int) = len := by
      unfold asUsize at g1
      omega
    refine ⟨lb ++ cipherAscii e.ks bs, .ascii bs lb (k1 _ hl) g2, k2.append (by rw [← k3]; exact g3), ?_⟩
    rw [List.length_append, length_cipherAscii', g1, ← Nat.add_assoc, ← k3]

theorem eagerAsc_bytes {e : Env} {c : Cur} {bs : Bytes} (h : Holds e.buf c.pos (cipherAscii e.ks bs))
    (hb : e.buf.length < 2 ^ 63) :
    (eagerAscTail bs.length).run e c = (.ok (utf8Lossy bs), { c with pos := c.pos + bs.length }) := by
  have hle := h.le
  rw [length_cipherAscii'] at hle
  unfold eagerAscTail
  have hu : asUsize (bs.length : Int) = bs.length := by unfold asUsize; omega
  dsimp only
  rw [hu]
  split
  · rename_i h0
    have : bs = [] := List.length_eq_zero_iff.mp h0
    subst this; rfl
  · rw [Rd.bind_ok (Rd.getEnv_run _ _), Rd.bind_ok (Rd.getPos_run _ _)]
    have : resolveMeta e .ascii c.pos bs.length = .ok (utf8Lossy bs) := by
      simp only [resolveMeta]
      rw [resolveAscii_cipher h rfl hb]
      rfl
    rw [this, Rd.bind_ok (Rd.lift_run _ _ _), Rd.bind_ok (Rd.skip_run (by omega))]
    rfl

/-- and read from there -/
theorem Spec.TextIs.reads {e : Env} {p : Nat} {s : List Char} {bs : Bytes} (h : TextIs e.ks s bs) (hh : Holds e.buf p bs)
    (hb : e.buf.length < 2 ^ 63) : Rd.readWzString.Reads e p s (p + bs.length) := by
  intro c hc
  subst hc
  refine ⟨{ c with pos := c.pos + bs.length }, ?_, rfl⟩
  rw [readWzString_eq]
  cases h with
  | empty hs =>
    subst hs
    rw [Rd.bind_ok (Rd.readI8_run hh hb)]
    rfl
  | ascii bs lb hlen hs =>
    subst hs
    have hr := hh.right
    have hlenH := hh.left
    rw [List.length_append, length_cipherAscii']
    cases hlen with
    | short h1 h2 =>
      have ht : (byteOf (-(bs.length : Int))).toInt = -bs.length := toInt_byteOf (by omega) (by omega)
      rw [Rd.bind_ok (Rd.readI8_run hlenH hb), ht]
      rw [if_neg (by omega), if_neg (by omega), if_neg (by omega), if_neg (by omega), Int.neg_neg]
      rw [eagerAsc_bytes hr hb]
      simp; omega
    | long hn =>
      have hl4 := hlenH.tail
      have ht : (0x80#8 : Byte).toInt = -128 := by decide
      rw [Rd.bind_ok (Rd.readI8_run hlenH.head hb), ht]
      rw [if_neg (by omega), if_neg (by omega), if_neg (by omega), if_pos rfl]
      have h4 : Rd.readI32.run e { c with pos := c.pos + 1 } =
          (.ok (bs.length : Int), { c with pos := c.pos + 1 + 4 }) := by
        unfold Rd.readI32
        apply Rd.readInt_enc (w := 4) (v := bs.length) _ (by omega) (by omega) (by omega) hb
        rw [unsign_nat (by omega)]; exact hl4
      rw [Rd.bind_ok h4]
      rw [eagerAsc_bytes (by simpa [Nat.add_assoc] using hr) hb]
      simp; omega
  | unicode us lb hlen hs =>
    subst hs
    have hr := hh.right
    have hlenH := hh.left
    rw [List.length_append, length_cipherUnicode']
    cases hlen with
    | short h1 h2 =>
      have ht : (byteOf (us.length : Int)).toInt = us.length := toInt_byteOf (by omega) (by omega)
      rw [Rd.bind_ok (Rd.readI8_run hlenH hb), ht]
      rw [if_neg (by omega), if_neg (by omega), if_pos (by omega)]
      rw [eagerUni_cipher (by omega) hr hb]
      simp; omega
    | long hn =>
      have hl4 := hlenH.tail
      have ht : (0x7F#8 : Byte).toInt = 127 := by decide
      rw [Rd.bind_ok (Rd.readI8_run hlenH.head hb), ht]
      rw [if_neg (by omega), if_pos rfl]
      have h4 : Rd.readI32.run e { c with pos := c.pos + 1 } =
          (.ok (us.length : Int), { c with pos := c.pos + 1 + 4 }) := by
        unfold Rd.readI32
        apply Rd.readInt_enc (w := 4) (v := us.length) _ (by omega) (by omega) (by omega) hb
        rw [unsign_nat (by omega)]; exact hl4
      rw [Rd.bind_ok h4]
      rw [eagerUni_cipher (by omega) (by simpa [Nat.add_assoc] using hr) hb]
      simp; omega

/-! ### descriptions of texts -/

theorem skip_fits {n : Nat} {e : Env} {c c' : Cur} (hm : e.mode = .checked) (h : (Rd.skip n).run e c = (.ok (), c')) :
    c' = { c with pos := c.pos + n } ∧ c.pos + n < 2 ^ 64 := by
  refine ⟨Rd.skip_inv hm h, ?_⟩
  rw [Rd.skip_def, hm] at h
  by_cases hn : c.pos + n < 2 ^ 64
  · exact hn
  · rw [show addU .checked c.pos n = .error .panicOverflow by unfold addU; rw [if_neg hn]] at h
    cases h

theorem announced_of_read {e : Env} {c c' : Cur} {m : StrMeta} (hb : e.buf.length < 2 ^ 63)
    (hm : e.mode = .checked) (h : Rd.readWzStringMeta.run e c = (.ok m, c')) :
    ∃ lb, Announced c.pos lb m c'.pos ∧ Holds e.buf c.pos lb := by
  unfold Rd.readWzStringMeta at h
  obtain ⟨small, c1, h1, h⟩ := Rd.bind_inv h
  obtain ⟨rfl, hp1, hlo, hhi, hh⟩ := i8_held hb h1
  unfold strType at h
  by_cases hz : small = 0
  · rw [if_pos hz] at h
    cases h
    rw [hz] at hh
    exact ⟨_, .empty, hh⟩
  rw [if_neg hz] at h
  by_cases hpos : small > 0
  · rw [if_pos hpos] at h
    by_cases h127 : small = 127
    · simp only [if_pos h127] at h
      obtain ⟨l, c2, h2, h⟩ := Rd.bind_inv h
      obtain ⟨rfl, hp2, hl0, hl1, hh2⟩ := i32_held hb h2
      obtain ⟨e', c3, h3, h⟩ := Rd.bind_inv h
      cases h3
      obtain ⟨len, c4, h4, h⟩ := Rd.bind_inv h
      obtain ⟨h4', rfl⟩ := Rd.lift_inv h4
      rw [hm] at h4'
      obtain ⟨rfl, hlt⟩ := mulU32_checked h4'
      obtain ⟨p, c5, h5, h⟩ := Rd.bind_inv h
      cases h5
      obtain ⟨u, c6, h6, h⟩ := Rd.bind_inv h
      have h7 := Rd.skip_inv hm h6
      cases h
      subst h7
      rw [h127] at hh
      refine ⟨_, ?_, Holds.cons_of hh hh2⟩
      have := Announced.unicodeLong (p := c.pos) (asU32 l) (by omega)
      rw [Nat.mul_comm 2] at this
      exact this
    · simp only [if_neg h127] at h
      obtain ⟨e', c3, h3, h⟩ := Rd.bind_inv h
      cases h3
      obtain ⟨len, c4, h4, h⟩ := Rd.bind_inv h
      obtain ⟨h4', rfl⟩ := Rd.lift_inv h4
      rw [hm] at h4'
      obtain ⟨rfl, hlt⟩ := mulU32_checked h4'
      obtain ⟨p, c5, h5, h⟩ := Rd.bind_inv h
      cases h5
      obtain ⟨u, c6, h6, h⟩ := Rd.bind_inv h
      have h7 := Rd.skip_inv hm h6
      cases h
      subst h7
      have g5 : (asU32 small : Int) = small := by rw [asU32_nonneg (by omega) (by omega)]; omega
      rw [← g5] at hh
      refine ⟨_, ?_, hh⟩
      have := Announced.unicodeShort (p := c.pos) (asU32 small) (by omega) (by omega)
      rw [Nat.mul_comm 2] at this
      exact this
  · rw [if_neg hpos] at h
    by_cases h128 : small = -128
    · simp only [if_pos h128] at h
      obtain ⟨l, c2, h2, h⟩ := Rd.bind_inv h
      obtain ⟨rfl, hp2, hl0, hl1, hh2⟩ := i32_held hb h2
      obtain ⟨p, c5, h5, h⟩ := Rd.bind_inv h
      cases h5
      obtain ⟨u, c6, h6, h⟩ := Rd.bind_inv h
      obtain ⟨h7, h8⟩ := skip_fits hm h6
      cases h
      subst h7
      rw [h128] at hh
      exact ⟨_, Announced.asciiLong l hl0 hl1 h8, Holds.cons_of hh hh2⟩
    · simp only [if_neg h128] at h
      obtain ⟨p, c5, h5, h⟩ := Rd.bind_inv h
      cases h5
      obtain ⟨u, c6, h6, h⟩ := Rd.bind_inv h
      have h7 := Rd.skip_inv hm h6
      cases h
      subst h7
      have g5 : (asU32 (-small) : Int) = -small := by rw [asU32_nonneg (by omega) (by omega)]; omega
      rw [show small = -(asU32 (-small) : Int) by omega] at hh
      exact ⟨_, Announced.asciiShort (asU32 (-small)) (by omega) (by omega), hh⟩

theorem Spec.Announced.reads {e : Env} {p q : Nat} {lb : Bytes} {m : StrMeta} (h : Announced p lb m q) (hh : Holds e.buf p lb)
    (hb : e.buf.length < 2 ^ 63) : Rd.readWzStringMeta.Reads e p m q := by
  intro c hc
  subst hc
  refine ⟨{ c with pos := q }, ?_, rfl⟩
  have hle := hh.le
  unfold Rd.readWzStringMeta
  cases h with
  | empty =>
    rw [Rd.bind_ok (Rd.readI8_run hh hb)]
    rfl
  | asciiShort n h1 h2 =>
    have ht : (byteOf (-(n : Int))).toInt = -n := toInt_byteOf (by omega) (by omega)
    rw [Rd.bind_ok (Rd.readI8_run hh hb), ht]
    unfold strType
    rw [if_neg (by omega), if_neg (by omega)]
    simp only [if_neg (show ¬ (-(n : Int) = -128) by omega), Int.neg_neg]
    rw [asU32_nonneg (by omega) (by omega), Int.toNat_natCast, Rd.bind_ok (Rd.getPos_run _ _), Rd.bind_ok (Rd.skip_run (by simp at hle ⊢; omega))]
    rfl
  | asciiLong l h1 h2 h3 =>
    have ht : (0x80#8 : Byte).toInt = -128 := by decide
    rw [Rd.bind_ok (Rd.readI8_run hh.head hb), ht]
    unfold strType
    rw [if_neg (by omega), if_neg (by omega)]
    simp only [if_true]
    have h4 : Rd.readI32.run e { c with pos := c.pos + 1 } = (.ok l, { c with pos := c.pos + 1 + 4 }) := by
      unfold Rd.readI32
      exact Rd.readInt_enc (w := 4) (v := l) hh.tail (by omega) (by omega) (by omega) hb
    rw [Rd.bind_ok h4, Rd.bind_ok (Rd.getPos_run _ _), Rd.bind_ok (Rd.skip_run (by exact h3))]
    rfl
  | unicodeShort n h1 h2 =>
    have ht : (byteOf (n : Int)).toInt = n := toInt_byteOf (by omega) (by omega)
    rw [Rd.bind_ok (Rd.readI8_run hh hb), ht]
    unfold strType
    rw [if_neg (by omega), if_pos (by omega)]
    simp only [if_neg (show ¬ ((n : Int) = 127) by omega)]
    rw [Rd.bind_ok (Rd.getEnv_run _ _), asU32_nonneg (by omega) (by omega), Int.toNat_natCast,
      show mulU32 e.mode n 2 = .ok (n * 2) by unfold mulU32; rw [if_pos (by omega)], Rd.bind_ok (Rd.lift_run _ _ _),
      Rd.bind_ok (Rd.getPos_run _ _), Rd.bind_ok (Rd.skip_run (by simp at hle ⊢; omega)), Nat.mul_comm n 2]
    rfl
  | unicodeLong n h1 =>
    have ht : (0x7F#8 : Byte).toInt = 127 := by decide
    rw [Rd.bind_ok (Rd.readI8_run hh.head hb), ht]
    unfold strType
    rw [if_neg (by omega), if_pos (by omega)]
    simp only [if_true]
    have h4 : Rd.readI32.run e { c with pos := c.pos + 1 } = (.ok (n : Int), { c with pos := c.pos + 1 + 4 }) := by
      unfold Rd.readI32
      refine Rd.readInt_enc (w := 4) (v := n) ?_ (by omega) (by omega) (by omega) hb
      rw [unsign_nat (by omega)]; exact hh.tail
    rw [Rd.bind_ok h4, Rd.bind_ok (Rd.getEnv_run _ _), asU32_nonneg (by omega) (by omega), Int.toNat_natCast,
      show mulU32 e.mode n 2 = .ok (n * 2) by unfold mulU32; rw [if_pos (by omega)], Rd.bind_ok (Rd.lift_run _ _ _),
      Rd.bind_ok (Rd.getPos_run _ _), Rd.bind_ok (Rd.skip_run (by simp at hle ⊢; omega)), Nat.mul_comm n 2]
    rfl

/-! ### blocks -/

theorem stringAt_inv {e : Env} {c c' : Cur} {o : Nat} {s : List Char} (h : (Rd.readWzStringAtOffset o).run e c = (.ok s, c')) :
    c'.pos = c.pos ∧ ∃ c2, Rd.readWzString.run e ⟨o, c.pos⟩ = (.ok s, c2) := by
  have hs := Rd.KeepsSaved.readWzString e ⟨o, c.pos⟩
  unfold Rd.readWzStringAtOffset at h
  dsimp only at h
  cases hr : Rd.readWzString.run e ⟨o, c.pos⟩ with
  | mk r c2 =>
    rw [hr] at h hs
    cases r with
    | error y => cases h
    | ok a =>
      cases h
      exact ⟨hs, c2, rfl⟩

/-- a text stored elsewhere lies behind `o` -/
theorem elsewhere_pos {e : Env} {o r : Nat} {a : Int} {bs : Bytes} (hb : e.buf.length < 2 ^ 63) (h0 : -2 ^ 31 ≤ a) (h1 : a < 2 ^ 31)
    (h : addU .checked o (asUsize a) = .ok r) (hh : Holds e.buf r bs) (hne : bs ≠ []) :
    ∃ n : Nat, n < 2 ^ 31 ∧ asU32 a = n ∧ r = o + n := by
  obtain ⟨rfl, hlt⟩ := addU_inv h
  have hle := hh.le
  have hl : 0 < bs.length := List.length_pos_iff.mpr hne
  have ha : 0 ≤ a := by
    apply Classical.byContradiction
    intro hn
    unfold asUsize at hle
    omega
  refine ⟨a.toNat, by omega, asU32_nonneg ha (by omega), ?_⟩
  rw [asUsize_nonneg ha (by omega)]

theorem byte_cases (t : Byte) : (t.toNat = 0 ∨ t.toNat = 0x73) ∧ (t = 0x00#8 ∨ t = 0x73#8) ∨
    ¬ (t.toNat = 0 ∨ t.toNat = 0x73) ∧ (t.toNat = 1 ∨ t.toNat = 0x1B) ∧ (t = 0x01#8 ∨ t = 0x1B#8) ∨
    ¬ (t.toNat = 0 ∨ t.toNat = 0x73) ∧ ¬ (t.toNat = 1 ∨ t.toNat = 0x1B) ∧ t ∉ [0x00#8, 0x73#8, 0x01#8, 0x1B#8] := by
  simp only [marker_toNat (t := t) (k := 0) (by omega), marker_toNat (t := t) (k := 0x73) (by omega),
    marker_toNat (t := t) (k := 1) (by omega), marker_toNat (t := t) (k := 0x1B) (by omega), List.mem_cons, List.not_mem_nil, or_false]
  by_cases h1 : t = 0x00#8 ∨ t = 0x73#8
  · exact .inl ⟨h1, h1⟩
  · by_cases h2 : t = 0x01#8 ∨ t = 0x1B#8
    · exact .inr (.inl ⟨h1, h2, h2⟩)
    · refine .inr (.inr ⟨h1, h2, ?_⟩)
      rintro (h | h | h | h)
      · exact h1 (.inl h)
      · exact h1 (.inr h)
      · exact h2 (.inl h)
      · exact h2 (.inr h)

theorem Spec.TextIs.ne_nil {ks : Nat → Byte} {s : List Char} {bs : Bytes} (h : TextIs ks s bs) : bs ≠ [] := by
  cases h with
  | empty => simp
  | ascii bs lb h _ => cases h <;> simp
  | unicode us lb h _ => cases h <;> simp

theorem Spec.Announced.ne_nil {p q : Nat} {lb : Bytes} {m : StrMeta} (h : Announced p lb m q) : lb ≠ [] := by
  cases h <;> simp

theorem textBlock_of_read {e : Env} {c c' : Cur} {o : Nat} {s : List Char} (hb : e.buf.length < 2 ^ 63) (hm : e.mode = .checked)
    (h : (Rd.readWzStringBlock o).run e c = (.ok s, c')) : TextBlock e o c.pos s c'.pos := by
  unfold Rd.readWzStringBlock at h
  obtain ⟨v, c1, h1, h⟩ := Rd.bind_inv h
  obtain ⟨t, rfl, rfl, ht⟩ := byte_held hm h1
  rcases byte_cases t with ⟨g1, g2⟩ | ⟨g0, g1, g2⟩ | ⟨g0, g1, g2⟩
  · rw [if_pos g1] at h
    obtain ⟨bs, k1, k2, k3⟩ := readWzString_inv hb hm h
    rw [show c'.pos = c.pos + (1 + bs.length) by rw [k3]; simp only; omega]
    exact .inline _ t s bs g2 k1 (Holds.cons_of ht k2)
  · rw [if_neg g0, if_pos g1] at h
    obtain ⟨a, c2, h2, h⟩ := Rd.bind_inv h
    obtain ⟨rfl, hp2, hl0, hl1, hh2⟩ := i32_held hb h2
    obtain ⟨e', c3, h3, h⟩ := Rd.bind_inv h
    cases h3
    obtain ⟨r, c4, h4, h⟩ := Rd.bind_inv h
    obtain ⟨h4', hc4⟩ := Rd.lift_inv h4
    rw [hm] at h4'
    obtain ⟨k1, c5, k2⟩ := stringAt_inv h
    obtain ⟨bs, k3, k4, k5⟩ := readWzString_inv hb hm k2
    obtain ⟨n, j1, j2, rfl⟩ := elsewhere_pos hb hl0 hl1 h4' k4 k3.ne_nil
    rw [show c'.pos = c.pos + 5 by rw [k1, hc4]]
    rw [j2] at hh2
    exact .elsewhere _ t n s bs g2 j1 k3 (Holds.cons_of ht hh2) k4
  · rw [if_neg g0, if_neg g1] at h
    cases h
    exact .absent _ t g2 ht

theorem metaBlock_of_read {e : Env} {c c' : Cur} {o : Nat} {m : StrMeta} (hb : e.buf.length < 2 ^ 63) (hm : e.mode = .checked)
    (h : (Rd.readWzStringBlockMeta o).run e c = (.ok m, c')) : MetaBlock e o c.pos m c'.pos := by
  unfold Rd.readWzStringBlockMeta at h
  obtain ⟨v, c1, h1, h⟩ := Rd.bind_inv h
  obtain ⟨t, rfl, rfl, ht⟩ := byte_held hm h1
  rcases byte_cases t with ⟨g1, g2⟩ | ⟨g0, g1, g2⟩ | ⟨g0, g1, g2⟩
  · rw [if_pos g1] at h
    obtain ⟨lb, k1, k2⟩ := announced_of_read hb hm h
    exact .inline _ _ t m lb g2 k1 (Holds.cons_of ht k2)
  · rw [if_neg g0, if_pos g1] at h
    obtain ⟨a, c2, h2, h⟩ := Rd.bind_inv h
    obtain ⟨rfl, hp2, hl0, hl1, hh2⟩ := i32_held hb h2
    obtain ⟨e', c3, h3, h⟩ := Rd.bind_inv h
    cases h3
    obtain ⟨r, c4, h4, h⟩ := Rd.bind_inv h
    obtain ⟨h4', hc4⟩ := Rd.lift_inv h4
    rw [hm] at h4'
    obtain ⟨k1, c5, k2⟩ := metaAt_inv h
    obtain ⟨lb, k3, k4⟩ := announced_of_read hb hm k2
    obtain ⟨n, j1, j2, rfl⟩ := elsewhere_pos hb hl0 hl1 h4' k4 k3.ne_nil
    rw [show c'.pos = c.pos + 5 by rw [k1, hc4]]
    rw [j2] at hh2
    exact .elsewhere _ _ t n m lb g2 j1 k3 (Holds.cons_of ht hh2) k4
  · rw [if_neg g0, if_neg g1] at h
    cases h
    exact .absent _ t g2 ht

theorem Spec.TextBlock.reads {e : Env} {o p q : Nat} {s : List Char} (h : TextBlock e o p s q)
    (hb : e.buf.length < 2 ^ 63) : (Rd.readWzStringBlock o).Reads e p s q := by
  unfold Rd.readWzStringBlock
  cases h with
  | inline t _ bs ht hs hh =>
    refine .bind (.readU8 hh.head hb) ?_
    have : t.toNat = 0 ∨ t.toNat = 0x73 := by rcases ht with rfl | rfl <;> decide
    rw [if_pos this, ← Nat.add_assoc]
    exact hs.reads hh.tail hb
  | elsewhere t n _ bs ht hn hs hh hs2 =>
    refine .bind (.readU8 hh.head hb) ?_
    have hnn : ¬ (t.toNat = 0 ∨ t.toNat = 0x73) := by rcases ht with rfl | rfl <;> decide
    have hp : t.toNat = 1 ∨ t.toNat = 0x1B := by rcases ht with rfl | rfl <;> decide
    rw [if_neg hnn, if_pos hp]
    have hle := hs2.le
    refine .bind (readI32_nat hh.tail hn hb) (.bind .getEnv (.bind (a := o + n) (.lift ?_) ?_))
    · rw [asUsize_nonneg (by omega) (by omega)]
      exact addU_ok (by simp; omega)
    · intro c hc
      obtain ⟨c2, h1, h2⟩ := hs.reads hs2 hb ⟨o + n, c.pos⟩ rfl
      refine ⟨{ c2 with pos := c2.saved }, ?_, ?_⟩
      · unfold Rd.readWzStringAtOffset
        dsimp only
        rw [h1]
      · have h3 := Rd.KeepsSaved.readWzString e ⟨o + n, c.pos⟩
        rw [h1] at h3
        exact h3.trans hc
  | absent t ht hh =>
    refine .bind (.readU8 hh hb) ?_
    rcases byte_cases t with ⟨_, g⟩ | ⟨_, _, g⟩ | ⟨g0, g1, _⟩
    · rcases g with rfl | rfl <;> simp at ht
    · rcases g with rfl | rfl <;> simp at ht
    · rw [if_neg g0, if_neg g1]
      exact .pure _

theorem Spec.MetaBlock.reads {e : Env} {o p q : Nat} {m : StrMeta} (h : MetaBlock e o p m q)
    (hb : e.buf.length < 2 ^ 63) : (Rd.readWzStringBlockMeta o).Reads e p m q := by
  unfold Rd.readWzStringBlockMeta
  cases h with
  | inline _ t _ lb ht hs hh =>
    refine .bind (.readU8 hh.head hb) ?_
    have : t.toNat = 0 ∨ t.toNat = 0x73 := by rcases ht with rfl | rfl <;> decide
    rw [if_pos this]
    exact hs.reads hh.tail hb
  | elsewhere _ t n _ lb ht hn hs hh hs2 =>
    refine .bind (.readU8 hh.head hb) ?_
    have hnn : ¬ (t.toNat = 0 ∨ t.toNat = 0x73) := by rcases ht with rfl | rfl <;> decide
    have hp : t.toNat = 1 ∨ t.toNat = 0x1B := by rcases ht with rfl | rfl <;> decide
    rw [if_neg hnn, if_pos hp]
    have hle := hs2.le
    refine .bind (readI32_nat hh.tail hn hb) (.bind .getEnv (.bind (a := o + n) (.lift ?_) (.metaAt (hs.reads hs2 hb))))
    rw [asUsize_nonneg (by omega) (by omega)]
    exact addU_ok (by simp; omega)
  | absent t ht hh =>
    refine .bind (.readU8 hh hb) ?_
    rcases byte_cases t with ⟨_, g⟩ | ⟨_, _, g⟩ | ⟨g0, g1, _⟩
    · rcases g with rfl | rfl <;> simp at ht
    · rcases g with rfl | rfl <;> simp at ht
    · rw [if_neg g0, if_neg g1]
      exact .pure _

end Wz
