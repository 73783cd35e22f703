import Verif.Reader.RunLemmas
/-! Helper lemmas: what has to be stored when an ASCII text was read. -/

set_option autoImplicit false
variable {α β γ : Type}

namespace Wz
open Spec

theorem toNat_ofNat_char {n : Nat} (h : n < 0xD800 ∨ (0xDFFF < n ∧ n < 0x110000)) : (Char.ofNat n).toNat = n := by
  have hv : n.isValidChar := by unfold Nat.isValidChar; omega
  unfold Char.ofNat
  rw [dif_pos hv]
  rfl

theorem ok3_bounds {a b : Nat} (h : ok3 a b = true) : (a = 0xE0 ∧ 0xA0 ≤ b ∧ b < 0xC0) ∨ (0xE1 ≤ a ∧ a ≤ 0xEC ∧ 0x80 ≤ b ∧ b < 0xC0) ∨
    (a = 0xED ∧ 0x80 ≤ b ∧ b < 0xA0) ∨ (0xEE ≤ a ∧ a ≤ 0xEF ∧ 0x80 ≤ b ∧ b < 0xC0) := by
  simp only [ok3, Bool.or_eq_true, Bool.and_eq_true, beq_iff_eq, decide_eq_true_eq] at h
  omega

theorem ok4_bounds {a b : Nat} (h : ok4 a b = true) : (a = 0xF0 ∧ 0x90 ≤ b ∧ b < 0xC0) ∨ (0xF1 ≤ a ∧ a ≤ 0xF3 ∧ 0x80 ≤ b ∧ b < 0xC0) ∨
    (a = 0xF4 ∧ 0x80 ≤ b ∧ b < 0x90) := by
  simp only [ok4, Bool.or_eq_true, Bool.and_eq_true, beq_iff_eq, decide_eq_true_eq] at h
  omega

theorem isCont_bounds {b : Nat} (h : isCont b = true) : 0x80 ≤ b ∧ b < 0xC0 := by
  simpa [isCont] using h

theorem utf8Step_ascii {b : Byte} {rest : Bytes} {c : Char} (h : (utf8Step b rest).1 = some c) (hc : c.toNat < 128) :
    b = BitVec.ofNat 8 c.toNat ∧ (utf8Step b rest).2 = rest := by
  have key : ∀ n : Nat, some (Char.ofNat n) = some c → n < 0xD800 ∨ (0xDFFF < n ∧ n < 0x110000) → 128 ≤ n → False := by
    intro n h1 h2 h3
    cases h1
    rw [toNat_ofNat_char h2] at hc
    omega
  have hb : b.toNat < 256 := b.isLt
  unfold utf8Step at h ⊢
  dsimp only at h ⊢
  by_cases h0 : b.toNat < 0x80
  · rw [if_pos h0] at h ⊢
    cases h
    refine ⟨?_, rfl⟩
    rw [toNat_ofNat_char (by omega)]
    simp
  · exfalso
    rw [if_neg h0] at h
    by_cases h1 : 0xC2 ≤ b.toNat ∧ b.toNat ≤ 0xDF
    · rw [if_pos h1] at h
      cases rest with
      | nil => cases h
      | cons b1 r1 =>
        dsimp only at h
        by_cases h2 : isCont b1.toNat = true
        · rw [if_pos h2] at h
          have := isCont_bounds h2
          exact key _ h (by omega) (by omega)
        · rw [if_neg h2] at h; cases h
    · rw [if_neg h1] at h
      by_cases h2 : 0xE0 ≤ b.toNat ∧ b.toNat ≤ 0xEF
      · rw [if_pos h2] at h
        cases rest with
        | nil => cases h
        | cons b1 r1 =>
          dsimp only at h
          by_cases h3 : ok3 b.toNat b1.toNat = true
          · rw [if_pos h3] at h
            cases r1 with
            | nil => cases h
            | cons b2 r2 =>
              dsimp only at h
              by_cases h4 : isCont b2.toNat = true
              · rw [if_pos h4] at h
                have := isCont_bounds h4
                have := ok3_bounds h3
                exact key _ h (by omega) (by omega)
              · rw [if_neg h4] at h; cases h
          · rw [if_neg h3] at h; cases h
      · rw [if_neg h2] at h
        by_cases h3 : 0xF0 ≤ b.toNat ∧ b.toNat ≤ 0xF4
        · rw [if_pos h3] at h
          cases rest with
          | nil => cases h
          | cons b1 r1 =>
            dsimp only at h
            by_cases h4 : ok4 b.toNat b1.toNat = true
            · rw [if_pos h4] at h
              cases r1 with
              | nil => cases h
              | cons b2 r2 =>
                dsimp only at h
                by_cases h5 : isCont b2.toNat = true
                · rw [if_pos h5] at h
                  cases r2 with
                  | nil => cases h
                  | cons b3 r3 =>
                    dsimp only at h
                    by_cases h6 : isCont b3.toNat = true
                    · rw [if_pos h6] at h
                      have := isCont_bounds h5
                      have := isCont_bounds h6
                      have := ok4_bounds h4
                      exact key _ h (by omega) (by omega)
                    · rw [if_neg h6] at h; cases h
                · rw [if_neg h5] at h; cases h
            · rw [if_neg h4] at h; cases h
        · rw [if_neg h3] at h; cases h

theorem replacement_big : ¬ replacement.toNat < 128 := by decide

/-- the only bytes that decode to an ASCII text are its own -/
theorem utf8Lossy_only : ∀ (s : List Char) (bs : Bytes), utf8Lossy bs = s → (∀ c ∈ s, c.toNat < 128) →
    bs = s.map fun c => BitVec.ofNat 8 c.toNat := by
  intro s
  induction s with
  | nil =>
    intro bs h _
    cases bs with
    | nil => rfl
    | cons b r => rw [utf8Lossy, utf8Dec_cons] at h; cases h
  | cons c s ih =>
    intro bs h hs
    cases bs with
    | nil => cases h
    | cons b r =>
      rw [utf8Lossy, utf8Dec_cons, List.map_cons] at h
      have h1 := (List.cons.inj h).1
      have h2 := (List.cons.inj h).2
      rcases hr : (utf8Step b r).1 with _ | x
      · rw [hr] at h1
        dsimp only at h1
        exact absurd (h1 ▸ hs c (by simp)) replacement_big
      · rw [hr] at h1
        dsimp only at h1
        subst h1
        obtain ⟨e1, e2⟩ := utf8Step_ascii hr (hs x (by simp))
        rw [e2] at h2
        rw [List.map_cons, ← e1, ih r h2 (fun d hd => hs d (by simp [hd]))]

/-- the only units that decode to an ASCII text are its own -/
theorem utf16Lossy_only : ∀ (s : List Char) (us : List (BitVec 16)), utf16Lossy us = s → (∀ c ∈ s, c.toNat < 128) →
    us = utf16EncStr s := by
  intro s
  induction s with
  | nil =>
    intro us h _
    cases us with
    | nil => rfl
    | cons u r =>
      exfalso
      unfold utf16Lossy at h
      have : utf16Dec (u :: r) ≠ [] := by
        unfold utf16Dec
        split
        · simp
        · split
          · split
            · simp
            · split <;> simp
          · simp
      exact this (List.map_eq_nil_iff.mp h)
  | cons c s ih =>
    intro us h hs
    cases us with
    | nil => cases h
    | cons u r =>
      have hu : u.toNat < 65536 := u.isLt
      unfold utf16Lossy utf16Dec at h
      by_cases h1 : isLow u = true
      · rw [if_pos h1] at h
        exact absurd ((show replacement = c from (List.cons.inj h).1) ▸ hs c (by simp)) replacement_big
      · rw [if_neg h1] at h
        by_cases h2 : isHigh u = true
        · exfalso
          rw [if_pos h2] at h
          cases r with
          | nil => exact absurd ((show replacement = c from (List.cons.inj h).1) ▸ hs c (by simp)) replacement_big
          | cons v r' =>
            dsimp only at h
            by_cases h3 : isLow v = true
            · rw [if_pos h3] at h
              have h4 := (List.cons.inj h).1
              dsimp only at h4
              have h5 := hs c (by simp)
              simp only [isHigh, isLow, Bool.and_eq_true, decide_eq_true_eq] at h2 h3
              rw [← h4, toNat_ofNat_char (by omega)] at h5
              omega
            · rw [if_neg h3] at h
              exact absurd ((show replacement = c from (List.cons.inj h).1) ▸ hs c (by simp)) replacement_big
        · rw [if_neg h2, List.map_cons] at h
          have h4 := (List.cons.inj h).1
          dsimp only at h4
          have h5 := (List.cons.inj h).2
          simp only [isHigh, isLow, Bool.and_eq_true, decide_eq_true_eq] at h1 h2
          rw [utf16EncStr, List.flatMap_cons, ← utf16EncStr, ← ih r h5 (fun d hd => hs d (by simp [hd]))]
          have hc : c.toNat = u.toNat := by rw [← h4, toNat_ofNat_char (by omega)]
          unfold utf16Enc
          rw [hc, if_pos hu]
          simp

/-- decrypting and masking again gives back what was stored -/
theorem cipherAscii_of_read {m : Mode} {buf bs : Bytes} {ks : Nat → Byte} {p n : Nat} (hb : buf.length < 2 ^ 63) (hn : n < 2 ^ 64)
    (h : resolveAsciiRaw m buf ks p n = .ok bs) : bs.length = n ∧ Holds buf p (cipherAscii ks bs) := by
  have hle := resolveAsciiRaw_ok h hb hn
  have hh := Holds.of_slice hle
  have hl : ((buf.drop p).take n).length = n := by simp; omega
  unfold resolveAsciiRaw at h
  rw [decryptSlice_holds hh hl hb] at h
  have h2 := Except.ok.inj (show Except.ok _ = Except.ok _ from h)
  refine ⟨by rw [← h2]; simp [hl], ?_⟩
  have : cipherAscii ks bs = (buf.drop p).take n := by
    rw [← h2]
    apply List.ext_getElem
    · simp [cipherAscii]
    · intro i h3 h4
      simp only [cipherAscii, decryptWith, asciiChar, List.getElem_mapIdx]
      rw [show BitVec.ofNat 8 (0xAA + i) = BitVec.ofNat 8 i + 0xAA#8 by
        rw [BitVec.ofNat_add, BitVec.add_comm]]
      simp only [BitVec.xor_assoc, xor_cancel_left, BitVec.xor_self, BitVec.xor_zero]
  rw [this]
  exact hh

theorem units_ok : ∀ (d : Bytes) (us : List (BitVec 16)), units d = .ok us → d = unitBytes us
  | [], us, h => by cases h; rfl
  | [_], us, h => by cases h
  | a :: b :: r, us, h => by
    unfold units at h
    rcases hr : units r with x | vs
    · rw [hr] at h; cases h
    · rw [hr] at h
      have h2 := Except.ok.inj (show Except.ok _ = Except.ok _ from h)
      rw [← h2, units_ok r vs hr]
      have ha : a.toNat < 256 := a.isLt
      have hb : b.toNat < 256 := b.isLt
      show a :: b :: unitBytes vs = toLE 2 _ ++ unitBytes vs
      have : toLE 2 (BitVec.ofNat 16 (a.toNat + 256 * b.toNat)).toNat = [a, b] := by
        have h3 : (BitVec.ofNat 16 (a.toNat + 256 * b.toNat)).toNat = a.toNat + 256 * b.toNat := by
          simp; omega
        rw [h3]
        simp only [toLE, List.cons.injEq, and_true]
        constructor
        · apply BitVec.eq_of_toNat_eq; simp; omega
        · apply BitVec.eq_of_toNat_eq; simp; omega
      rw [this]
      rfl

theorem cipherUnicode_of_read {m : Mode} {buf : Bytes} {us : List (BitVec 16)} {ks : Nat → Byte} {p n : Nat} (hb : buf.length < 2 ^ 63) (hn : n < 2 ^ 64)
    (h : resolveUnicodeRaw m buf ks p n = .ok us) : 2 * us.length = n ∧ Holds buf p (cipherUnicode ks us) := by
  have hle := resolveUnicodeRaw_ok h hb hn
  have hh := Holds.of_slice hle
  have hl : ((buf.drop p).take n).length = n := by simp; omega
  unfold resolveUnicodeRaw at h
  rw [decryptSlice_holds hh hl hb] at h
  replace h : (units (decryptWith ks ((buf.drop p).take n)) >>= fun us => Except.ok (us.mapIdx fun i u => unicodeChar u i)) = .ok us := h
  rcases hu : units (decryptWith ks ((buf.drop p).take n)) with x | vs
  · rw [hu] at h; cases h
  rw [hu] at h
  have h2 := Except.ok.inj (show Except.ok _ = Except.ok _ from h)
  have h3 := units_ok _ _ hu
  have hlen : 2 * vs.length = n := by
    have := congrArg List.length h3
    rw [length_decryptWith, hl, length_unitBytes] at this
    exact this.symm
  refine ⟨by rw [← h2]; simpa using hlen, ?_⟩
  have : cipherUnicode ks us = (buf.drop p).take n := by
    have hc : cipherUnicode ks us = decryptWith ks (unitBytes (us.mapIdx fun i u => u ^^^ BitVec.ofNat 16 (0xAAAA + i))) := rfl
    have hm : (us.mapIdx fun i u => u ^^^ BitVec.ofNat 16 (0xAAAA + i)) = vs := by
      rw [← h2]
      apply List.ext_getElem
      · simp
      · intro i h1 h2
        simp only [unicodeChar, List.getElem_mapIdx]
        rw [show BitVec.ofNat 16 (0xAAAA + i) = BitVec.ofNat 16 i + 0xAAAA#16 by
          rw [BitVec.ofNat_add, BitVec.add_comm]]
        simp [BitVec.xor_assoc]
    rw [hc, hm, ← h3, decryptWith_invol]
  rw [this]
  exact hh

theorem eagerAsc_only {e : Env} {c c' : Cur} {l : Int} {s : List Char} (hb : e.buf.length < 2 ^ 63) (hp : c.pos ≤ e.buf.length)
    (h0 : -2 ^ 31 ≤ l) (h1 : l < 2 ^ 31) (hs : ∀ ch ∈ s, ch.toNat < 128) (h : (eagerAscTail l).run e c = (.ok s, c')) :
    l = s.length ∧ Holds e.buf c.pos (cipherAscii e.ks (s.map fun ch => BitVec.ofNat 8 ch.toNat)) := by
  unfold eagerAscTail at h
  dsimp only at h
  by_cases hz : asUsize l = 0
  · rw [if_pos hz] at h
    cases h
    refine ⟨?_, Holds.nil hp⟩
    unfold asUsize at hz
    simp only [List.length_nil]
    omega
  · rw [if_neg hz, Rd.bind_ok (Rd.getEnv_run _ _), Rd.bind_ok (Rd.getPos_run _ _), Rd.bind_run] at h
    simp only [Rd.lift_run] at h
    rcases hr : resolveMeta e .ascii c.pos (asUsize l) with x | s'
    · rw [hr] at h; cases h
    have hle := resolveMeta_ok (by simp) hr hb (asUsize_lt _)
    rw [hr] at h
    dsimp only at h
    rw [Rd.bind_ok (Rd.skip_run (by omega))] at h
    cases h
    have hl := asUsize_le (show asUsize l ≤ e.buf.length by omega) hb (by omega) (by omega)
    unfold resolveMeta at hr
    dsimp only at hr
    rcases hr2 : resolveAsciiRaw e.mode e.buf e.ks c.pos (asUsize l) with x | bs
    · rw [hr2] at hr; cases hr
    rw [hr2] at hr
    have h3 := Except.ok.inj (show Except.ok _ = Except.ok _ from hr)
    obtain ⟨h4, h5⟩ := cipherAscii_of_read hb (asUsize_lt _) hr2
    have h6 := utf8Lossy_only s bs h3 hs
    rw [h6] at h4 h5
    refine ⟨?_, h5⟩
    simp only [List.length_map] at h4
    have := hl.2
    omega

theorem eagerUni_only {e : Env} {c c' : Cur} {l : Int} {s : List Char} (hb : e.buf.length < 2 ^ 63) (hp : c.pos ≤ e.buf.length)
    (hm : e.mode = .checked ∨ (0 ≤ l ∧ l < 2 ^ 30)) (h0 : -2 ^ 31 ≤ l) (h1 : l < 2 ^ 31) (hs : ∀ ch ∈ s, ch.toNat < 128) (h : (eagerUniTail l).run e c = (.ok s, c')) :
    l = (utf16EncStr s).length ∧ (utf16EncStr s).length < 2 ^ 30 ∧ Holds e.buf c.pos (cipherUnicode e.ks (utf16EncStr s)) := by
  unfold eagerUniTail at h
  by_cases hz : l = 0
  · rw [if_pos hz] at h
    cases h
    exact ⟨by rw [hz]; rfl, by decide, Holds.nil hp⟩
  · rw [if_neg hz, Rd.bind_ok (Rd.getEnv_run _ _), Rd.bind_run] at h
    simp only [Rd.lift_run] at h
    rcases hk : mulI32 e.mode l 2 with x | r
    · rw [hk] at h; cases h
    rw [hk] at h
    dsimp only at h
    rw [Rd.bind_ok (Rd.getPos_run _ _), Rd.bind_run] at h
    simp only [Rd.lift_run] at h
    rcases hr : resolveMeta e .unicode c.pos (asUsize r) with x | s'
    · rw [hr] at h; cases h
    have hle := resolveMeta_ok (by simp) hr hb (asUsize_lt _)
    rw [hr] at h
    dsimp only at h
    rw [Rd.bind_ok (Rd.skip_run (by omega))] at h
    cases h
    have hrr : r = l * 2 ∧ -2 ^ 31 ≤ r ∧ r < 2 ^ 31 := by
      unfold mulI32 at hk
      rcases hm with hm | hm
      · rw [hm] at hk
        split at hk
        · cases hk; rename_i hh; exact ⟨rfl, hh⟩
        · cases hk
      · rw [if_pos (by omega)] at hk
        cases hk
        omega
    have hl := asUsize_le (show asUsize r ≤ e.buf.length by omega) hb (by omega) (by omega)
    unfold resolveMeta at hr
    dsimp only at hr
    rcases hr2 : resolveUnicodeRaw e.mode e.buf e.ks c.pos (asUsize r) with x | us
    · rw [hr2] at hr; cases hr
    rw [hr2] at hr
    have h3 := Except.ok.inj (show Except.ok _ = Except.ok _ from hr)
    obtain ⟨h4, h5⟩ := cipherUnicode_of_read hb (asUsize_lt _) hr2
    have h6 := utf16Lossy_only s us h3 hs
    rw [h6] at h4 h5
    have := hl.2
    refine ⟨by omega, by omega, h5⟩

theorem byte_at {buf : Bytes} {p : Nat} (h : p + 1 ≤ buf.length) :
    ∃ b, (buf.drop p).take 1 = [b] ∧ Holds buf p [b] := by
  obtain ⟨b, hb⟩ : ∃ b, (buf.drop p).take 1 = [b] := by
    apply List.length_eq_one_iff.mp; simp; omega
  exact ⟨b, hb, hb ▸ Holds.of_slice h⟩

theorem Spec.Holds.append {buf : Bytes} {p : Nat} {a b : Bytes} (h1 : Holds buf p a) (h2 : Holds buf (p + a.length) b) :
    Holds buf p (a ++ b) := by
  obtain ⟨pre, post, e1, l1⟩ := h1
  obtain ⟨pre2, post2, e2, l2⟩ := h2
  refine ⟨pre, post2, ?_, l1⟩
  have h3 : pre ++ a = pre2 := by
    have h4 : (pre ++ a ++ post).take (p + a.length) = (pre2 ++ b ++ post2).take (p + a.length) := by rw [← e1, ← e2]
    rwa [List.take_left' (by simp [l1]), List.append_assoc, List.take_left' l2] at h4
  rw [e2, ← h3]
  simp [List.append_assoc]

theorem i32_at {e : Env} {c c' : Cur} {l : Int} (hb : e.buf.length < 2 ^ 63) (h : Rd.readI32.run e c = (.ok l, c')) :
    c' = { c with pos := c.pos + 4 } ∧ c.pos + 4 ≤ e.buf.length ∧ -2 ^ 31 ≤ l ∧ l < 2 ^ 31 ∧
      (∀ n : Nat, l = n → Holds e.buf c.pos (toLE 4 n)) := by
  obtain ⟨hp, hc, hv⟩ := Rd.readInt_ok h hb
  have hr := signed_range (bits := 8 * 4) (v := leNat ((e.buf.drop c.pos).take 4)) (by omega)
  rw [← hv] at hr
  refine ⟨hc, hp, by simpa using hr.1, by simpa using hr.2, fun n hn => ?_⟩
  have hh := Holds.of_slice hp
  have hlen : ((e.buf.drop c.pos).take 4).length = 4 := by simp; omega
  have h2 := toLE_leNat ((e.buf.drop c.pos).take 4)
  rw [hlen] at h2
  have hlt := leNat_lt ((e.buf.drop c.pos).take 4)
  rw [hlen] at hlt
  have h3 : leNat ((e.buf.drop c.pos).take 4) = n := by
    have h4 : signed 32 (leNat ((e.buf.drop c.pos).take 4)) = (n : Int) := by rw [← hn, hv]
    unfold signed at h4
    have h5 : n < 2 ^ 31 := by have := hr.2; rw [hn] at this; simp at this; omega
    rw [BitVec.toInt_eq_toNat_cond] at h4
    simp only [BitVec.toNat_ofNat] at h4
    split at h4 <;> omega
  rw [← h3, h2]
  exact hh

/-- If an ASCII text was read, it is stored there in one of the legal forms.  (Without overflow checks there is one
more form: a length of UTF-16 units that is too large by 2^31.) -/
theorem readWzString_only {e : Env} {c c' : Cur} {s : List Char} (hb : e.buf.length < 2 ^ 63) (hm : e.mode = .checked)
    (hs : ∀ ch ∈ s, ch.toNat < 128) (h : Rd.readWzString.run e c = (.ok s, c')) :
    ∃ bs, IsWzString e.ks s bs ∧ Holds e.buf c.pos bs := by
  rw [readWzString_eq, Rd.bind_run] at h
  rcases hr : Rd.readI8.run e c with ⟨r, c1⟩
  rw [hr] at h
  cases r with
  | error x => cases h
  | ok small =>
    dsimp only at h
    obtain ⟨hp, hc1, hv⟩ := Rd.readInt_ok hr hb
    obtain ⟨b, hbb, hh⟩ := byte_at hp
    rw [hbb, show 8 * 1 = 8 from rfl, signed_byte] at hv
    have hge : -128 ≤ b.toInt := BitVec.le_toInt b
    have hlt : b.toInt < 128 := BitVec.toInt_lt
    have hbv : ∀ v : Int, small = v → -128 ≤ v → v < 128 → b = byteOf v := by
      intro v h1 h2 h3
      apply BitVec.eq_of_toInt_eq
      rw [toInt_byteOf h2 h3, ← h1, hv]
    have hpos : c1.pos = c.pos + 1 := by rw [hc1]
    have hp1 : c1.pos ≤ e.buf.length := by omega
    by_cases hz : small = 0
    · rw [if_pos hz] at h
      cases h
      refine ⟨_, .empty rfl, ?_⟩
      have := hbv 0 hz (by omega) (by omega)
      rw [this] at hh
      exact hh
    rw [if_neg hz] at h
    by_cases h127 : small = 127
    · rw [if_pos h127, Rd.bind_run] at h
      rcases hr4 : Rd.readI32.run e c1 with ⟨r4, c2⟩
      rw [hr4] at h
      cases r4 with
      | error x => cases h
      | ok l =>
        dsimp only at h
        obtain ⟨h2, h3, h4, h5, h6⟩ := i32_at hb hr4
        have hp2 : c2.pos = c.pos + 5 := by rw [h2]; simp only; omega
        obtain ⟨g1, g2, g3⟩ := eagerUni_only hb (by rw [h2]; exact h3) (.inl hm) h4 h5 hs h
        refine ⟨_, .unicode _ (.long g2), ?_⟩
        have hb1 := hbv 127 h127 (by omega) (by omega)
        rw [show (byteOf 127 : Byte) = 0x7F#8 from by decide] at hb1
        rw [hb1] at hh
        have g4 := h6 _ g1
        rw [hpos] at g4
        have g5 : Holds e.buf c.pos (0x7F#8 :: toLE 4 (utf16EncStr s).length) := hh.append (b := toLE 4 (utf16EncStr s).length) g4
        refine g5.append ?_
        have hx : c.pos + (0x7F#8 :: toLE 4 (utf16EncStr s).length).length = c2.pos := by
          rw [hp2, List.length_cons, length_toLE]
        rw [hx]
        exact g3
    rw [if_neg h127] at h
    by_cases hpo : 0 < small
    · rw [if_pos hpo] at h
      obtain ⟨g1, g2, g3⟩ := eagerUni_only hb hp1 (.inl hm) (by omega) (by omega) hs h
      refine ⟨_, .unicode _ (.short (by omega) (by omega)), ?_⟩
      have hb1 := hbv _ g1 (by omega) (by omega)
      rw [hb1] at hh
      refine hh.append ?_
      rw [hpos] at g3
      exact g3
    rw [if_neg hpo] at h
    by_cases h128 : small = -128
    · rw [if_pos h128, Rd.bind_run] at h
      rcases hr4 : Rd.readI32.run e c1 with ⟨r4, c2⟩
      rw [hr4] at h
      cases r4 with
      | error x => cases h
      | ok l =>
        dsimp only at h
        obtain ⟨h2, h3, h4, h5, h6⟩ := i32_at hb hr4
        have hp2 : c2.pos = c.pos + 5 := by rw [h2]; simp only; omega
        obtain ⟨g1, g3⟩ := eagerAsc_only hb (by rw [h2]; exact h3) h4 h5 hs h
        refine ⟨_, .ascii _ hs (.long (by omega)), ?_⟩
        have hb1 := hbv (-128) h128 (by omega) (by omega)
        rw [show (byteOf (-128) : Byte) = 0x80#8 from by decide] at hb1
        rw [hb1] at hh
        have g4 := h6 _ g1
        rw [hpos] at g4
        have g5 : Holds e.buf c.pos (0x80#8 :: toLE 4 s.length) := hh.append (b := toLE 4 s.length) g4
        refine g5.append ?_
        have hx : c.pos + (0x80#8 :: toLE 4 s.length).length = c2.pos := by
          rw [hp2, List.length_cons, length_toLE]
        rw [hx]
        exact g3
    rw [if_neg h128] at h
    obtain ⟨g1, g3⟩ := eagerAsc_only hb hp1 (by omega) (by omega) hs h
    refine ⟨_, .ascii _ hs (.short (by omega) (by omega)), ?_⟩
    have hb1 := hbv (-(s.length : Int)) (by omega) (by omega) (by omega)
    rw [hb1] at hh
    refine hh.append ?_
    rw [hpos] at g3
    exact g3

end Wz
