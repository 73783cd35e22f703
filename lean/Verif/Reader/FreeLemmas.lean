import Verif.Reader.FreeModel
import Verif.Reader.FreeSpec
import Verif.Reader.OnlyLemmas

/-! # Lemmas for C60 -/

set_option autoImplicit false

namespace Wz
open Spec

theorem Spec.Holds.drop {buf bs : Bytes} {p o : Nat} (h : Holds buf (p + o) bs) : Holds (buf.drop p) o bs := by
  obtain ⟨pre, post, rfl, e⟩ := h
  refine ⟨pre.drop p, post, ?_, by simp; omega⟩
  rw [List.append_assoc, List.drop_append_of_le_length (by omega), List.append_assoc]

theorem freeInt_drop {w : Nat} (hw : 0 < w) (buf : Bytes) (p q : Nat) : freeInt w (buf.drop p) q = freeInt w buf (p + q) := by
  unfold freeInt readAt
  rw [List.length_drop, List.drop_drop]
  by_cases h : p + q + w ≤ buf.length
  · rw [if_pos h, if_pos (by omega)]
  · rw [if_neg h, if_neg (by omega)]

theorem freeInt_holds {w : Nat} {buf bs : Bytes} {p : Nat} (h : Holds buf p bs) (hw : bs.length = w) :
    freeInt w buf p = .ok (signed (8 * w) (leNat bs)) := by
  unfold freeInt; rw [readAt_holds h hw]; rfl

theorem freeInt_byte {buf : Bytes} {p : Nat} {b : Byte} (h : Holds buf p [b]) : freeInt 1 buf p = .ok b.toInt := by
  rw [freeInt_holds (w := 1) h rfl]; exact congrArg Except.ok (signed_byte b)

theorem freeInt_four {buf : Bytes} {p : Nat} {v : Int} (h : Holds buf p (toLE 4 (unsign 32 v))) (h0 : -2 ^ 31 ≤ v)
    (h1 : v < 2 ^ 31) : freeInt 4 buf p = .ok v := by
  rw [freeInt_holds h (by simp)]
  exact congrArg Except.ok (signed_toLE (w := 4) (by decide) h0 h1)

theorem freeInt_short {w : Nat} {buf : Bytes} {p : Nat} (h : buf.length < p + w) : freeInt w buf p = .error .read := by
  unfold freeInt readAt; rw [if_neg (by omega)]; rfl

/-! ### units -/

theorem addI32_ok {m : Mode} {a b : Int} (h0 : -2 ^ 31 ≤ a + b) (h1 : a + b < 2 ^ 31) : addInt32 m a b = .ok (a + b) := by
  unfold addInt32; rw [if_pos ⟨h0, h1⟩]

theorem index_unit {m : Mode} {o i : Nat} (h : o + 2 * i < 2 ^ 31) :
    ∃ j p, mulI32 m i 2 = .ok j ∧ addInt32 m j o = .ok p ∧ asUsize p = o + 2 * i := by
  refine ⟨(i : Int) * 2, (i : Int) * 2 + o, ?_, addI32_ok (by omega) (by omega), ?_⟩
  · unfold mulI32; rw [if_pos (by omega)]
  · rw [asUsize_nonneg (by omega) (by omega)]; omega

theorem freeUnit_ok {m : Mode} {buf : Bytes} {o i v : Nat} (h : o + 2 * i < 2 ^ 31) (hr : readAt buf 2 (o + 2 * i) = .ok v) :
    freeUnit m buf o i = .ok (unicodeChar (BitVec.ofNat 16 v) i) := by
  obtain ⟨j, p, h1, h2, h3⟩ := index_unit (m := m) h
  unfold freeUnit
  rw [h1]
  show (addInt32 m j o >>= _) = _
  rw [h2]
  show (orPanic (readAt buf 2 (asUsize p)) >>= _) = _
  rw [h3, hr]
  rfl

theorem freeUnit_cut {m : Mode} {buf : Bytes} {o i : Nat} {e : Err} (h : o + 2 * i < 2 ^ 31)
    (hr : readAt buf 2 (o + 2 * i) = .error e) : freeUnit m buf o i = .error .panicUnwrap := by
  obtain ⟨j, p, h1, h2, h3⟩ := index_unit (m := m) h
  unfold freeUnit
  rw [h1]
  show (addInt32 m j o >>= _) = _
  rw [h2]
  show (orPanic (readAt buf 2 (asUsize p)) >>= _) = _
  rw [h3, hr]
  rfl

theorem leNat_unit (u : BitVec 16) : BitVec.ofNat 16 (leNat (toLE 2 u.toNat)) = u := by
  rw [leNat_toLE]
  apply BitVec.eq_of_toNat_eq
  have := u.isLt
  simp only [BitVec.toNat_ofNat]
  omega

theorem freeUnits_ok {m : Mode} {buf : Bytes} {o : Nat} (hb : buf.length < 2 ^ 31) : ∀ (vs : List (BitVec 16)) (i : Nat),
    Holds buf (o + 2 * i) (unitBytes vs) →
    freeUnits m buf o vs.length i = .ok (vs.mapIdx fun j v => unicodeChar v (i + j))
  | [], i, _ => rfl
  | v :: vs, i, h => by
    have h1 : Holds buf (o + 2 * i) (toLE 2 v.toNat ++ unitBytes vs) := h
    have hle := h1.le
    simp only [List.length_append, length_toLE] at hle
    have h2 := h1.right
    rw [length_toLE, show o + 2 * i + 2 = o + 2 * (i + 1) by omega] at h2
    have ih := freeUnits_ok (m := m) hb vs (i + 1) h2
    rw [List.length_cons, freeUnits, freeUnit_ok (by omega) (readAt_holds h1.left (length_toLE 2 _)), ih]
    rw [leNat_unit, List.mapIdx_cons]
    simp only [bind, Except.bind, pure, Except.pure]
    simp only [Nat.add_zero, Except.ok.injEq, List.cons.injEq, true_and]
    exact congrArg (fun f => List.mapIdx f vs) (funext fun j => funext fun w => by
      rw [show i + 1 + j = i + (j + 1) by omega])

theorem freeUnits_cut {m : Mode} {buf : Bytes} {o : Nat} (hb : buf.length < 2 ^ 31) : ∀ (n i : Nat), o + 2 * i < 2 ^ 31 →
    0 < n → buf.length < o + 2 * (i + n) → freeUnits m buf o n i = .error .panicUnwrap
  | 0, i, _, h, _ => by omega
  | n + 1, i, hi, _, h => by
    rw [freeUnits]
    by_cases hr : o + 2 * i + 2 ≤ buf.length
    · have : readAt buf 2 (o + 2 * i) = .ok (leNat ((buf.drop (o + 2 * i)).take 2)) := by unfold readAt; rw [if_pos hr]
      rw [freeUnit_ok hi this, freeUnits_cut (o := o) hb n (i + 1) (by omega) (by omega) (by omega)]
      rfl
    · have : readAt buf 2 (o + 2 * i) = .error .read := by unfold readAt; rw [if_neg hr]
      rw [freeUnit_cut hi this]
      rfl

theorem unitBytes_surj : ∀ (n : Nat) (bs : Bytes), bs.length = 2 * n → ∃ vs, vs.length = n ∧ unitBytes vs = bs
  | 0, bs, h => ⟨[], rfl, by cases bs with | nil => rfl | cons => simp at h⟩
  | n + 1, [], h => by simp at h
  | n + 1, [_], h => by simp at h; omega
  | n + 1, a :: b :: r, h => by
    obtain ⟨vs, h1, h2⟩ := unitBytes_surj n r (by simp only [List.length_cons] at h; omega)
    refine ⟨BitVec.ofNat 16 (a.toNat + 256 * b.toNat) :: vs, by simp [h1], ?_⟩
    show toLE 2 _ ++ unitBytes vs = _
    rw [h2]
    have ha := a.isLt
    have hb := b.isLt
    have : (BitVec.ofNat 16 (a.toNat + 256 * b.toNat)).toNat = a.toNat + 256 * b.toNat := by
      rw [BitVec.toNat_ofNat]; omega
    rw [this]
    have e1 : BitVec.ofNat 8 (a.toNat + 256 * b.toNat) = a := by
      apply BitVec.eq_of_toNat_eq; simp only [BitVec.toNat_ofNat]; omega
    have e2 : BitVec.ofNat 8 ((a.toNat + 256 * b.toNat) / 256) = b := by
      apply BitVec.eq_of_toNat_eq; simp only [BitVec.toNat_ofNat]; omega
    simp [toLE, e1, e2]

theorem mask16 (us : List (BitVec 16)) :
    ((us.mapIdx fun i u => u ^^^ BitVec.ofNat 16 (0xAAAA + i)).mapIdx fun j v => unicodeChar v j) = us := by
  apply List.ext_getElem
  · simp
  · intro i h1 h2
    simp only [unicodeChar, List.getElem_mapIdx]
    rw [show BitVec.ofNat 16 (0xAAAA + i) = BitVec.ofNat 16 i + 0xAAAA#16 by
      rw [BitVec.ofNat_add, BitVec.add_comm]]
    simp [BitVec.xor_assoc]

theorem mapIdx_xor_zero (bs : Bytes) : (bs.mapIdx fun _ b => b ^^^ 0#8) = bs := by
  apply List.ext_getElem
  · simp
  · intro i h1 h2; simp

theorem cipherUnicode_zero (us : List (BitVec 16)) :
    cipherUnicode (fun _ => 0#8) us = unitBytes (us.mapIdx fun i u => u ^^^ BitVec.ofNat 16 (0xAAAA + i)) :=
  mapIdx_xor_zero _

theorem cipherUnicode_surj {n : Nat} {bs : Bytes} (h : bs.length = 2 * n) :
    ∃ us, us.length = n ∧ cipherUnicode (fun _ => 0#8) us = bs := by
  obtain ⟨vs, h1, h2⟩ := unitBytes_surj n bs h
  refine ⟨vs.mapIdx fun j v => unicodeChar v j, by simp [h1], ?_⟩
  rw [cipherUnicode_zero, ← h2]
  congr 1
  apply List.ext_getElem
  · simp
  · intro i h1 h2
    simp only [unicodeChar, List.getElem_mapIdx]
    rw [show BitVec.ofNat 16 (0xAAAA + i) = BitVec.ofNat 16 i + 0xAAAA#16 by
      rw [BitVec.ofNat_add, BitVec.add_comm]]
    simp [BitVec.xor_assoc]

/-! ### characters -/

theorem index_char {m : Mode} {o i : Nat} (h : o + i < 2 ^ 31) :
    ∃ p, addInt32 m i o = .ok p ∧ asUsize p = o + i := by
  refine ⟨(i : Int) + o, addI32_ok (by omega) (by omega), ?_⟩
  rw [asUsize_nonneg (by omega) (by omega)]; omega

theorem freeChar_ok {m : Mode} {buf : Bytes} {o i v : Nat} (h : o + i < 2 ^ 31) (hr : readAt buf 1 (o + i) = .ok v) :
    freeChar m buf o i = .ok (asciiChar (BitVec.ofNat 8 v) i) := by
  obtain ⟨p, h2, h3⟩ := index_char (m := m) h
  unfold freeChar
  rw [h2]
  show (orPanic (readAt buf 1 (asUsize p)) >>= _) = _
  rw [h3, hr]
  rfl

theorem freeChar_cut {m : Mode} {buf : Bytes} {o i : Nat} {e : Err} (h : o + i < 2 ^ 31)
    (hr : readAt buf 1 (o + i) = .error e) : freeChar m buf o i = .error .panicUnwrap := by
  obtain ⟨p, h2, h3⟩ := index_char (m := m) h
  unfold freeChar
  rw [h2]
  show (orPanic (readAt buf 1 (asUsize p)) >>= _) = _
  rw [h3, hr]
  rfl

theorem freeChars_ok {m : Mode} {buf : Bytes} {o : Nat} (hb : buf.length < 2 ^ 31) : ∀ (vs : Bytes) (i : Nat),
    Holds buf (o + i) vs → freeChars m buf o vs.length i = .ok (vs.mapIdx fun j v => asciiChar v (i + j))
  | [], i, _ => rfl
  | v :: vs, i, h => by
    have hle := h.le
    simp only [List.length_cons] at hle
    have h2 := h.tail
    rw [show o + i + 1 = o + (i + 1) by omega] at h2
    have ih := freeChars_ok (m := m) hb vs (i + 1) h2
    rw [List.length_cons, freeChars, freeChar_ok (by omega) (readAt_holds (w := 1) h.head rfl), ih]
    show Except.ok _ = Except.ok _
    rw [List.mapIdx_cons]
    have : BitVec.ofNat 8 (leNat [v]) = v := by simp [leNat]
    simp only [Nat.add_zero, this, Except.ok.injEq, List.cons.injEq, true_and]
    congr 1
    funext j v
    rw [show i + 1 + j = i + (j + 1) by omega]

theorem freeChars_cut {m : Mode} {buf : Bytes} {o : Nat} (hb : buf.length < 2 ^ 31) : ∀ (n i : Nat), o + i < 2 ^ 31 →
    0 < n → buf.length < o + (i + n) → freeChars m buf o n i = .error .panicUnwrap
  | 0, i, _, h, _ => by omega
  | n + 1, i, hi, _, h => by
    rw [freeChars]
    by_cases hr : o + i + 1 ≤ buf.length
    · have : readAt buf 1 (o + i) = .ok (leNat ((buf.drop (o + i)).take 1)) := by unfold readAt; rw [if_pos hr]
      rw [freeChar_ok hi this, freeChars_cut (o := o) hb n (i + 1) (by omega) (by omega) (by omega)]
      rfl
    · have : readAt buf 1 (o + i) = .error .read := by unfold readAt; rw [if_neg hr]
      rw [freeChar_cut hi this]
      rfl

theorem mask8 (bs : Bytes) : ((cipherAscii (fun _ => 0#8) bs).mapIdx fun j v => asciiChar v j) = bs := by
  apply List.ext_getElem
  · simp [cipherAscii]
  · intro i h1 h2
    simp only [cipherAscii, asciiChar, List.getElem_mapIdx]
    rw [show BitVec.ofNat 8 (0xAA + i) = BitVec.ofNat 8 i + 0xAA#8 by
      rw [BitVec.ofNat_add, BitVec.add_comm]]
    simp [BitVec.xor_assoc]

theorem cipherAscii_surj (bs : Bytes) : ∃ us : Bytes, us.length = bs.length ∧ cipherAscii (fun _ => 0#8) us = bs := by
  refine ⟨bs.mapIdx fun j v => asciiChar v j, by simp, ?_⟩
  apply List.ext_getElem
  · simp [cipherAscii]
  · intro i h1 h2
    simp only [cipherAscii, asciiChar, List.getElem_mapIdx]
    rw [show BitVec.ofNat 8 (0xAA + i) = BitVec.ofNat 8 i + 0xAA#8 by
      rw [BitVec.ofNat_add, BitVec.add_comm]]
    simp [BitVec.xor_assoc]

/-! ### the head -/

/-- what `freeWzString` does behind the head -/
def freeBody (m : Mode) (buf : Bytes) (wide : Bool) (o n : Nat) : Except Err (List Char) :=
  if wide then (freeUnits m buf o n 0).map utf16Lossy else (freeChars m buf o n 0).map utf8Lossy

theorem free_head {m : Mode} {buf : Bytes} {p start : Nat} {wide : Bool} {n : Int} (h : TextHead buf p wide n start) :
    p + 1 ≤ start ∧ start ≤ buf.length ∧ start ≤ p + 5 ∧
    freeWzString m (buf.drop p) = if n = 0 then .ok [] else freeBody m (buf.drop (p + 1)) wide (start - (p + 1)) n.toNat := by
  have unfold1 : ∀ b : Byte, Holds buf p [b] → freeWzString m (buf.drop p) =
      if b.toInt = 0 then .ok [] else if b.toInt > 0 then freeUnicodeString m (buf.drop (p + 1)) b.toInt
      else freeAsciiString m (buf.drop (p + 1)) b.toInt := by
    intro b hb
    unfold freeWzString
    rw [freeInt_drop (by decide), Nat.add_zero, freeInt_byte hb, List.drop_drop]
    rfl
  cases h with
  | unicode v hh h1 h2 =>
    refine ⟨by omega, by have := hh.le; simp at this; omega, by omega, ?_⟩
    rw [unfold1 _ hh, toInt_byteOf (by omega) (by omega), if_neg (by omega), if_pos (by omega), if_neg (by omega)]
    unfold freeUnicodeString freeBody
    rw [if_neg (by omega)]
    show (if n = 0 then _ else _) = _
    rw [if_neg (by omega), Nat.sub_self]
    show _ = Except.map _ _
    cases freeUnits m (buf.drop (p + 1)) 0 n.toNat 0 <;> rfl
  | longUnicode v hh h1 h2 =>
    refine ⟨by omega, by have := hh.le; simp at this; omega, by omega, ?_⟩
    rw [unfold1 _ hh.head, show (0x7F#8).toInt = 127 from rfl, if_neg (by decide), if_pos (by decide)]
    unfold freeUnicodeString freeBody
    rw [if_pos rfl, freeInt_drop (by decide), Nat.add_zero, freeInt_four hh.tail h1 h2]
    show (if n = 0 then _ else _) = _
    by_cases h0 : n = 0
    · rw [if_pos h0, if_pos h0]; rfl
    · rw [if_neg h0, if_neg h0, show p + 5 - (p + 1) = 4 by omega]
      show _ = Except.map _ (freeUnits m (buf.drop (p + 1)) 4 n.toNat 0)
      cases freeUnits m (buf.drop (p + 1)) 4 n.toNat 0 <;> rfl
  | ascii v hh h1 h2 =>
    refine ⟨by omega, by have := hh.le; simp at this; omega, by omega, ?_⟩
    rw [unfold1 _ hh, toInt_byteOf (by omega) (by omega), if_neg (by omega), if_neg (by omega), if_neg (by omega)]
    unfold freeAsciiString freeBody
    rw [if_neg (by omega), Int.neg_neg]
    show (if n = 0 then _ else _) = _
    rw [if_neg (by omega), Nat.sub_self]
    show _ = Except.map _ _
    cases freeChars m (buf.drop (p + 1)) 0 n.toNat 0 <;> rfl
  | longAscii v hh h1 h2 =>
    refine ⟨by omega, by have := hh.le; simp at this; omega, by omega, ?_⟩
    rw [unfold1 _ hh.head, show (0x80#8).toInt = -128 from rfl, if_neg (by decide), if_neg (by decide)]
    unfold freeAsciiString freeBody
    rw [if_pos rfl, freeInt_drop (by decide), Nat.add_zero, freeInt_four hh.tail h1 h2]
    show (if n = 0 then _ else _) = _
    by_cases h0 : n = 0
    · rw [if_pos h0, if_pos h0]; rfl
    · rw [if_neg h0, if_neg h0, show p + 5 - (p + 1) = 4 by omega]
      show _ = Except.map _ (freeChars m (buf.drop (p + 1)) 4 n.toNat 0)
      cases freeChars m (buf.drop (p + 1)) 4 n.toNat 0 <;> rfl

theorem freeBody_ok {m : Mode} {buf : Bytes} {p start n : Nat} {wide : Bool} {t : List Char} (hb : buf.length < 2 ^ 31)
    (hp : p ≤ start) (h : TextData buf start wide n t) : freeBody m (buf.drop p) wide (start - p) n = .ok t := by
  have hd : (buf.drop p).length < 2 ^ 31 := by rw [List.length_drop]; omega
  cases h with
  | unicode us hh =>
    rw [cipherUnicode_zero] at hh
    have h1 : Holds (buf.drop p) (start - p + 2 * 0) _ := Holds.drop (p := p) (o := start - p) (by
      rw [Nat.add_sub_cancel' hp]; exact hh)
    have := freeUnits_ok (m := m) hd _ 0 h1
    rw [List.length_mapIdx] at this
    unfold freeBody
    rw [if_pos rfl, this]
    simp only [Nat.zero_add, mask16]
    rfl
  | ascii bs hh =>
    have h1 : Holds (buf.drop p) (start - p + 0) _ := Holds.drop (p := p) (o := start - p) (by
      rw [Nat.add_sub_cancel' hp]; exact hh)
    have := freeChars_ok (m := m) hd _ 0 h1
    simp only [cipherAscii, List.length_mapIdx] at this
    unfold freeBody
    rw [if_neg (by decide), this]
    have e := mask8 bs
    simp only [cipherAscii] at e
    simp only [Nat.zero_add, e]
    rfl

theorem freeBody_cut {m : Mode} {buf : Bytes} {o n : Nat} {wide : Bool} (hb : buf.length < 2 ^ 31) (ho : o ≤ 4) (hn : 0 < n)
    (hc : buf.length < o + textSize wide n) : freeBody m buf wide o n = .error .panicUnwrap := by
  unfold freeBody
  cases wide with
  | true => rw [if_pos rfl, freeUnits_cut hb n 0 (by omega) hn (by simpa [textSize] using hc)]; rfl
  | false => rw [if_neg (by decide), freeChars_cut hb n 0 (by omega) hn (by simpa [textSize] using hc)]; rfl

theorem textData_exists {buf : Bytes} {start n : Nat} (wide : Bool) (h : start + textSize wide n ≤ buf.length) :
    ∃ t, TextData buf start wide n t := by
  cases wide with
  | true =>
    have hh := Holds.of_slice (n := 2 * n) (show start + 2 * n ≤ buf.length by simpa [textSize] using h)
    obtain ⟨us, h1, h2⟩ := cipherUnicode_surj (n := n) (bs := (buf.drop start).take (2 * n))
      (by have : start + 2 * n ≤ buf.length := by simpa [textSize] using h
          simp; omega)
    rw [← h2] at hh
    exact ⟨_, h1 ▸ TextData.unicode us hh⟩
  | false =>
    have hh := Holds.of_slice (n := n) (show start + n ≤ buf.length by simpa [textSize] using h)
    obtain ⟨us, h1, h2⟩ := cipherAscii_surj ((buf.drop start).take n)
    rw [← h2] at hh
    have : us.length = n := by
      have : start + n ≤ buf.length := by simpa [textSize] using h
      rw [h1]; simp; omega
    exact ⟨_, this ▸ TextData.ascii us hh⟩

theorem textData_size {buf : Bytes} {start n : Nat} {wide : Bool} {t : List Char} (h : TextData buf start wide n t) :
    start + textSize wide n ≤ buf.length := by
  cases h with
  | unicode us hh =>
    have := hh.le
    rw [cipherUnicode_zero, length_unitBytes, List.length_mapIdx] at this
    simpa [textSize] using this
  | ascii bs hh =>
    have := hh.le
    simpa [cipherAscii, textSize] using this

theorem unsign_signed32 {v : Nat} (h : v < 2 ^ 32) : unsign 32 (signed 32 v) = v := by
  unfold unsign signed
  rw [BitVec.toInt_eq_toNat_bmod, BitVec.toNat_ofNat, Nat.mod_eq_of_lt h, Int.bmod_def]
  split <;> omega

/-- the head of a text is of one kind -/
theorem head_cases (buf : Bytes) (p : Nat) :
    HeadCut buf p ∨ Holds buf p [0#8] ∨ ∃ wide n start, TextHead buf p wide n start := by
  by_cases hp : buf.length ≤ p
  · exact .inl (.inl hp)
  · have hb := Holds.of_slice (buf := buf) (p := p) (n := 1) (by omega)
    obtain ⟨b, e⟩ : ∃ b, (buf.drop p).take 1 = [b] := by
      have hl : ((buf.drop p).take 1).length = 1 := by simp; omega
      generalize (buf.drop p).take 1 = l at hl
      match l, hl with
      | [b], _ => exact ⟨b, rfl⟩
    rw [e] at hb
    have four : p + 5 ≤ buf.length → ∃ v : Int, -2 ^ 31 ≤ v ∧ v < 2 ^ 31 ∧ Holds buf p (b :: toLE 4 (unsign 32 v)) := by
      intro h5
      have h1 := Holds.of_slice (buf := buf) (p := p + 1) (n := 4) (by omega)
      have hl : ((buf.drop (p + 1)).take 4).length = 4 := by simp; omega
      have hlt : leNat ((buf.drop (p + 1)).take 4) < 2 ^ 32 := by
        have := leNat_lt ((buf.drop (p + 1)).take 4)
        rw [hl] at this
        exact this
      have hr := signed_range (bits := 32) (v := leNat ((buf.drop (p + 1)).take 4)) (by decide)
      refine ⟨signed 32 (leNat ((buf.drop (p + 1)).take 4)), hr.1, hr.2, ?_⟩
      rw [unsign_signed32 hlt]
      have e4 := toLE_leNat ((buf.drop (p + 1)).take 4)
      rw [hl] at e4
      rw [e4]
      have h5 := Holds.of_slice (buf := buf) (p := p) (n := 5) (by omega)
      have : (buf.drop p).take 5 = b :: (buf.drop (p + 1)).take 4 := by
        rw [show (5 : Nat) = 1 + 4 from rfl, List.take_add, e, List.drop_drop]
        rfl
      rwa [this] at h5
    have hr : -128 ≤ b.toInt ∧ b.toInt ≤ 127 := by
      have := BitVec.toInt_lt (x := b)
      have := BitVec.le_toInt (x := b)
      simp at *
      omega
    have hbo : byteOf b.toInt = b := by unfold byteOf; simp
    by_cases h0 : b.toInt = 0
    · have : b = 0#8 := by rw [← hbo, h0]; rfl
      exact .inr (.inl (this ▸ hb))
    by_cases h127 : b.toInt = 127
    · have hbe : b = 0x7F#8 := by rw [← hbo, h127]; rfl
      subst hbe
      by_cases h5 : p + 5 ≤ buf.length
      · obtain ⟨v, h1, h2, h3⟩ := four h5
        exact .inr (.inr ⟨_, _, _, .longUnicode v h3 h1 h2⟩)
      · exact .inl (.inr ⟨by omega, .inl hb⟩)
    by_cases h128 : b.toInt = -128
    · have hbe : b = 0x80#8 := by rw [← hbo, h128]; rfl
      subst hbe
      by_cases h5 : p + 5 ≤ buf.length
      · obtain ⟨v, h1, h2, h3⟩ := four h5
        exact .inr (.inr ⟨_, _, _, .longAscii v h3 h1 h2⟩)
      · exact .inl (.inr ⟨by omega, .inr hb⟩)
    by_cases hpos : 0 < b.toInt
    · exact .inr (.inr ⟨_, _, _, .unicode b.toInt (by rw [hbo]; exact hb) (by omega) (by omega)⟩)
    · refine .inr (.inr ⟨_, _, _, .ascii (-b.toInt) ?_ (by omega) (by omega)⟩)
      rw [Int.neg_neg, hbo]
      exact hb

theorem free_cut {m : Mode} {buf : Bytes} {p : Nat} (h : HeadCut buf p) : freeWzString m (buf.drop p) = .error .read := by
  unfold freeWzString
  rw [freeInt_drop (by decide), Nat.add_zero]
  rcases h with h | ⟨hl, h | h⟩
  · rw [freeInt_short (by omega)]; rfl
  · rw [freeInt_byte h, List.drop_drop]
    show freeUnicodeString m (buf.drop (p + 1)) 127 = _
    unfold freeUnicodeString
    rw [if_pos rfl, freeInt_drop (by decide), Nat.add_zero, freeInt_short (by omega)]
    rfl
  · rw [freeInt_byte h, List.drop_drop]
    show freeAsciiString m (buf.drop (p + 1)) (-128) = _
    unfold freeAsciiString
    rw [if_pos rfl, freeInt_drop (by decide), Nat.add_zero, freeInt_short (by omega)]
    rfl

theorem free_zero {m : Mode} {buf : Bytes} {p : Nat} (h : Holds buf p [0#8]) : freeWzString m (buf.drop p) = .ok [] := by
  unfold freeWzString
  rw [freeInt_drop (by decide), Nat.add_zero, freeInt_byte h]
  rfl

theorem free_negative {m : Mode} {buf : Bytes} {p : Nat} (h : NegativeAt buf p) : freeWzString m (buf.drop p) = .ok [] := by
  obtain ⟨wide, n, start, hh, hn⟩ := h
  rw [(free_head hh).2.2.2, if_neg (by omega), show n.toNat = 0 by omega]
  unfold freeBody
  cases wide <;> rfl

theorem free_text {m : Mode} {buf : Bytes} {p : Nat} {t : List Char} (hb : buf.length < 2 ^ 31) (h : PlainTextAt buf p t) :
    freeWzString m (buf.drop p) = .ok t := by
  rcases h with ⟨h, rfl⟩ | ⟨wide, n, start, hh, hn, hd⟩
  · exact free_zero h
  · rw [(free_head hh).2.2.2]
    split
    · rename_i h0
      subst h0
      have : ∀ {k : Nat}, k = 0 → TextData buf start wide k t → t = [] := by
        intro k hk hd
        cases hd with
        | unicode us _ => cases us with | nil => rfl | cons => simp at hk
        | ascii bs _ => cases bs with | nil => rfl | cons => simp at hk
      rw [this rfl hd]
    · exact freeBody_ok hb (free_head (m := m) hh).1 hd

theorem free_text_cut {m : Mode} {buf : Bytes} {p : Nat} (hb : buf.length < 2 ^ 31) (h : CutAt buf p) :
    freeWzString m (buf.drop p) = .error .panicUnwrap := by
  obtain ⟨wide, n, start, hh, hn, hc⟩ := h
  obtain ⟨h1, h2, h3, h4⟩ := free_head (m := m) hh
  rw [h4, if_neg (by omega)]
  exact freeBody_cut (by rw [List.length_drop]; omega) (by omega) (by omega) (by rw [List.length_drop]; omega)

/-- one of five things starts at a position -/
theorem text_cases (buf : Bytes) (p : Nat) : HeadCut buf p ∨ (∃ t, PlainTextAt buf p t) ∨ NegativeAt buf p ∨ CutAt buf p := by
  rcases head_cases buf p with h | h | ⟨wide, n, start, h⟩
  · exact .inl h
  · exact .inr (.inl ⟨[], .inl ⟨h, rfl⟩⟩)
  · by_cases hn : n < 0
    · exact .inr (.inr (.inl ⟨_, _, _, h, hn⟩))
    · by_cases hs : start + textSize wide n.toNat ≤ buf.length
      · obtain ⟨t, ht⟩ := textData_exists wide hs
        exact .inr (.inl ⟨t, .inr ⟨_, _, _, h, by omega, ht⟩⟩)
      · refine .inr (.inr (.inr ⟨_, _, _, h, ?_, by omega⟩))
        apply Classical.byContradiction
        intro h0
        have : n.toNat = 0 := by omega
        rw [this] at hs
        have := (free_head (m := .checked) h).2.1
        cases wide <;> simp [textSize] at hs <;> omega

/-! ### the cursor reader -/

theorem reader_head {e : Env} {c : Cur} {wide : Bool} {n : Int} {start : Nat} (hb : e.buf.length < 2 ^ 63)
    (h : TextHead e.buf c.pos wide n start) :
    Rd.readWzString.run e c = (if wide then eagerUniTail n else eagerAscTail n).run e { c with pos := start } := by
  rw [readWzString_eq]
  cases h with
  | unicode v hh h1 h2 =>
    rw [Rd.bind_ok (Rd.readI8_run hh hb), toInt_byteOf (by omega) (by omega), if_neg (by omega), if_neg (by omega),
      if_pos (by omega)]
    rfl
  | longUnicode v hh h1 h2 =>
    rw [Rd.bind_ok (Rd.readI8_run hh.head hb), show (0x7F#8).toInt = 127 from rfl, if_neg (by decide), if_pos rfl, show Rd.readI32 = Rd.readInt 4 from rfl,
      Rd.bind_ok (Rd.readInt_enc (w := 4) (v := n) (c := { c with pos := c.pos + 1 }) hh.tail (by decide) h1 h2 hb)]
    rfl
  | ascii v hh h1 h2 =>
    rw [Rd.bind_ok (Rd.readI8_run hh hb), toInt_byteOf (by omega) (by omega), if_neg (by omega), if_neg (by omega),
      if_neg (by omega), if_neg (by omega), Int.neg_neg]
    rfl
  | longAscii v hh h1 h2 =>
    rw [Rd.bind_ok (Rd.readI8_run hh.head hb), show (0x80#8).toInt = -128 from rfl, if_neg (by decide), if_neg (by decide),
      if_neg (by decide), if_pos rfl, show Rd.readI32 = Rd.readInt 4 from rfl,
      Rd.bind_ok (Rd.readInt_enc (w := 4) (v := n) (c := { c with pos := c.pos + 1 }) hh.tail (by decide) h1 h2 hb)]
    rfl

theorem textData_nil {buf : Bytes} {start : Nat} {wide : Bool} (h : start ≤ buf.length) : TextData buf start wide 0 [] := by
  cases wide with
  | true => exact TextData.unicode [] (Holds.nil h)
  | false => exact TextData.ascii [] (Holds.nil h)

theorem uniTail_text {e : Env} {c : Cur} {n : Int} {t : List Char} (hk : e.ks = fun _ => 0#8) (hb : e.buf.length < 2 ^ 31)
    (hn : 0 ≤ n) (h : TextData e.buf c.pos true n.toNat t) : ((eagerUniTail n).run e c).1 = .ok t := by
  have hs := textData_size h
  simp only [textSize, if_true] at hs
  generalize hN : n.toNat = N at h hs
  cases h with
  | unicode us hh =>
    unfold eagerUniTail
    by_cases h0 : n = 0
    · rw [if_pos h0]
      have : us = [] := by cases us with | nil => rfl | cons => simp at hN; omega
      subst this
      rfl
    · have hm : mulI32 e.mode n 2 = .ok (n * 2) := by unfold mulI32; rw [if_pos (by omega)]
      have ha : asUsize (n * 2) = 2 * us.length := by rw [asUsize_nonneg (by omega) (by omega)]; omega
      have hr : resolveMeta e .unicode c.pos (asUsize (n * 2)) = .ok (utf16Lossy us) := by
        unfold resolveMeta
        dsimp only
        rw [hk, resolveUnicode_cipher hh ha.symm (by omega)]
        rfl
      rw [if_neg h0, Rd.bind_ok (Rd.getEnv_run _ _), hm, Rd.bind_ok (Rd.lift_run _ _ _)]
      dsimp only
      rw [Rd.bind_ok (Rd.getPos_run _ _), hr, Rd.bind_ok (Rd.lift_run _ _ _),
        Rd.bind_ok (Rd.skip_run (by rw [ha]; omega))]
      rfl

theorem ascTail_text {e : Env} {c : Cur} {n : Int} {t : List Char} (hk : e.ks = fun _ => 0#8) (hb : e.buf.length < 2 ^ 31)
    (hn : 0 ≤ n) (h : TextData e.buf c.pos false n.toNat t) : ((eagerAscTail n).run e c).1 = .ok t := by
  have hs := textData_size h
  simp only [textSize, if_neg (by decide : ¬ (false = true))] at hs
  generalize hN : n.toNat = N at h hs
  cases h with
  | ascii bs hh =>
    unfold eagerAscTail
    have ha : asUsize n = bs.length := by rw [asUsize_nonneg (by omega) (by omega)]; omega
    dsimp only
    by_cases h0 : asUsize n = 0
    · rw [if_pos h0]
      have : bs = [] := by cases bs with | nil => rfl | cons => simp at ha; omega
      subst this
      rfl
    · have hr : resolveMeta e .ascii c.pos (asUsize n) = .ok (utf8Lossy bs) := by
        unfold resolveMeta
        dsimp only
        rw [hk, resolveAscii_cipher hh ha.symm (by omega)]
        rfl
      rw [if_neg h0, Rd.bind_ok (Rd.getEnv_run _ _)]
      rw [Rd.bind_ok (Rd.getPos_run _ _), hr, Rd.bind_ok (Rd.lift_run _ _ _),
        Rd.bind_ok (Rd.skip_run (by rw [ha]; omega))]
      rfl

theorem uniTail_only {e : Env} {c c' : Cur} {n : Int} {t : List Char} (hk : e.ks = fun _ => 0#8) (hb : e.buf.length < 2 ^ 31)
    (hm : e.mode = .checked) (h0 : -2 ^ 31 ≤ n) (h1 : n < 2 ^ 31) (hp : c.pos ≤ e.buf.length)
    (h : (eagerUniTail n).run e c = (.ok t, c')) : 0 ≤ n ∧ TextData e.buf c.pos true n.toNat t := by
  unfold eagerUniTail at h
  by_cases hz : n = 0
  · rw [if_pos hz] at h
    cases h
    subst hz
    exact ⟨by omega, textData_nil hp⟩
  · rw [if_neg hz, Rd.bind_ok (Rd.getEnv_run _ _), Rd.bind_run] at h
    simp only [Rd.lift_run] at h
    rcases hk2 : mulI32 e.mode n 2 with x | r
    · rw [hk2] at h; cases h
    rw [hk2] at h
    dsimp only at h
    rw [Rd.bind_ok (Rd.getPos_run _ _), Rd.bind_run] at h
    simp only [Rd.lift_run] at h
    rcases hr : resolveMeta e .unicode c.pos (asUsize r) with x | s'
    · rw [hr] at h; cases h
    have hle := resolveMeta_ok (by simp) hr (by omega) (asUsize_lt _)
    rw [hr] at h
    dsimp only at h
    rw [Rd.bind_ok (Rd.skip_run (by omega))] at h
    cases h
    have hrr : r = n * 2 ∧ -2 ^ 31 ≤ r ∧ r < 2 ^ 31 := by
      unfold mulI32 at hk2
      rw [hm] at hk2
      split at hk2
      · cases hk2; rename_i hh; exact ⟨rfl, hh⟩
      · cases hk2
    have hl := asUsize_le (show asUsize r ≤ e.buf.length by omega) (by omega) (by omega) (by omega)
    unfold resolveMeta at hr
    dsimp only at hr
    rcases hu : resolveUnicodeRaw e.mode e.buf e.ks c.pos (asUsize r) with x | us
    · rw [hu] at hr; cases hr
    rw [hu] at hr
    have hh := cipherUnicode_of_read (by omega) (asUsize_lt _) hu
    rw [hk] at hh
    have ht : t = utf16Lossy us := by
      have := Except.ok.inj hr
      exact this.symm
    have hn : n.toNat = us.length := by omega
    refine ⟨by omega, ?_⟩
    rw [hn, ht]
    exact TextData.unicode us hh.2

theorem ascTail_only {e : Env} {c c' : Cur} {n : Int} {t : List Char} (hk : e.ks = fun _ => 0#8) (hb : e.buf.length < 2 ^ 31)
    (h0 : -2 ^ 31 ≤ n) (h1 : n < 2 ^ 31) (hp : c.pos ≤ e.buf.length)
    (h : (eagerAscTail n).run e c = (.ok t, c')) : 0 ≤ n ∧ TextData e.buf c.pos false n.toNat t := by
  unfold eagerAscTail at h
  dsimp only at h
  by_cases hz : asUsize n = 0
  · rw [if_pos hz] at h
    cases h
    have : n = 0 := by unfold asUsize at hz; omega
    subst this
    exact ⟨by omega, textData_nil hp⟩
  · rw [if_neg hz, Rd.bind_ok (Rd.getEnv_run _ _)] at h
    rw [Rd.bind_ok (Rd.getPos_run _ _), Rd.bind_run] at h
    simp only [Rd.lift_run] at h
    rcases hr : resolveMeta e .ascii c.pos (asUsize n) with x | s'
    · rw [hr] at h; cases h
    have hle := resolveMeta_ok (by simp) hr (by omega) (asUsize_lt _)
    rw [hr] at h
    dsimp only at h
    rw [Rd.bind_ok (Rd.skip_run (by omega))] at h
    cases h
    have hl := asUsize_le (show asUsize n ≤ e.buf.length by omega) (by omega) (by omega) (by omega)
    unfold resolveMeta at hr
    dsimp only at hr
    rcases hu : resolveAsciiRaw e.mode e.buf e.ks c.pos (asUsize n) with x | bs
    · rw [hu] at hr; cases hr
    rw [hu] at hr
    have hh := cipherAscii_of_read (by omega) (asUsize_lt _) hu
    rw [hk] at hh
    have ht : t = utf8Lossy bs := by
      have := Except.ok.inj hr
      exact this.symm
    have hn : n.toNat = bs.length := by omega
    refine ⟨by omega, ?_⟩
    rw [hn, ht]
    exact TextData.ascii bs hh.2

theorem head_range {buf : Bytes} {p start : Nat} {wide : Bool} {n : Int} (h : TextHead buf p wide n start) :
    -2 ^ 31 ≤ n ∧ n < 2 ^ 31 := by
  cases h with
  | unicode v _ h1 h2 => omega
  | longUnicode v _ h1 h2 => exact ⟨h1, h2⟩
  | ascii v _ h1 h2 => omega
  | longAscii v _ h1 h2 => exact ⟨h1, h2⟩

theorem reader_cut {e : Env} {c : Cur} (hb : e.buf.length < 2 ^ 63) (h : HeadCut e.buf c.pos) :
    ∃ x c', Rd.readWzString.run e c = (.error x, c') := by
  rw [readWzString_eq]
  rcases h with h | ⟨hl, h | h⟩
  · obtain ⟨x, c', hx⟩ := Rd.readInt_err (e := e) (c := c) (w := 1) (by omega)
    exact ⟨x, c', Rd.bind_err hx⟩
  · rw [Rd.bind_ok (Rd.readI8_run h hb), show (0x7F#8).toInt = 127 from rfl, if_neg (by decide), if_pos rfl]
    obtain ⟨x, c', hx⟩ := Rd.readInt_err (e := e) (c := { c with pos := c.pos + 1 }) (w := 4) (by dsimp only; omega)
    exact ⟨x, c', Rd.bind_err hx⟩
  · rw [Rd.bind_ok (Rd.readI8_run h hb), show (0x80#8).toInt = -128 from rfl, if_neg (by decide), if_neg (by decide),
      if_neg (by decide), if_pos rfl]
    obtain ⟨x, c', hx⟩ := Rd.readInt_err (e := e) (c := { c with pos := c.pos + 1 }) (w := 4) (by dsimp only; omega)
    exact ⟨x, c', Rd.bind_err hx⟩

theorem reader_text {e : Env} {c : Cur} {t : List Char} (hk : e.ks = fun _ => 0#8) (hb : e.buf.length < 2 ^ 31)
    (h : PlainTextAt e.buf c.pos t) : (Rd.readWzString.run e c).1 = .ok t := by
  rcases h with ⟨h, rfl⟩ | ⟨wide, n, start, hh, hn, hd⟩
  · rw [readWzString_eq, Rd.bind_ok (Rd.readI8_run h (by omega))]
    rfl
  · rw [reader_head (by omega) hh]
    cases wide with
    | true => exact uniTail_text (c := { c with pos := start }) hk hb hn hd
    | false => exact ascTail_text (c := { c with pos := start }) hk hb hn hd

theorem reader_only {e : Env} {c c' : Cur} {t : List Char} (hk : e.ks = fun _ => 0#8) (hb : e.buf.length < 2 ^ 31)
    (hm : e.mode = .checked) (h : Rd.readWzString.run e c = (.ok t, c')) : PlainTextAt e.buf c.pos t := by
  rcases head_cases e.buf c.pos with hc | hc | ⟨wide, n, start, hh⟩
  · obtain ⟨x, c', hx⟩ := reader_cut (by omega) hc
    rw [hx] at h
    cases h
  · rw [readWzString_eq, Rd.bind_ok (Rd.readI8_run hc (by omega))] at h
    have : t = [] := by
      have := congrArg Prod.fst h
      exact (Except.ok.inj this).symm
    exact .inl ⟨hc, this⟩
  · obtain ⟨h0, h1⟩ := head_range hh
    have hs := (free_head (m := .checked) hh).2.1
    rw [reader_head (by omega) hh] at h
    cases wide with
    | true =>
      obtain ⟨a, b⟩ := uniTail_only (c := { c with pos := start }) hk hb hm h0 h1 hs h
      exact .inr ⟨_, _, _, hh, a, b⟩
    | false =>
      obtain ⟨a, b⟩ := ascTail_only (c := { c with pos := start }) hk hb h0 h1 hs h
      exact .inr ⟨_, _, _, hh, a, b⟩

/-! ### numbers and bytes -/

theorem freeInt_run {w : Nat} (e : Env) (c : Cur) (h : c.pos + w < 2 ^ 64) :
    (Rd.readInt w).run e c = (freeInt w e.buf c.pos, { c with pos := c.pos + w }) := by
  unfold Rd.readInt freeInt
  rw [Rd.bind_run, Rd.readLE_def, addU_ok h]
  dsimp only
  cases readAt e.buf w c.pos <;> rfl

theorem freeWzInt_run {w : Nat} (e : Env) (off : Option Nat) (s : Nat) (h : off.getD 0 + 1 + w < 2 ^ 64) :
    freeWzInt e.mode w e.buf off =
      ((Rd.readI8 >>= fun small => if small = -128 then Rd.readInt w else Pure.pure small).run e ⟨off.getD 0, s⟩).1 := by
  unfold freeWzInt
  rw [Rd.bind_run, show Rd.readI8 = Rd.readInt 1 from rfl, freeInt_run e ⟨off.getD 0, s⟩ (by dsimp only; omega)]
  dsimp only
  cases freeInt 1 e.buf (off.getD 0) with
  | error x => rfl
  | ok b =>
    simp only [bind, Except.bind, pure, Except.pure]
    by_cases hb : b = -128
    · rw [if_pos hb, if_pos hb, addU_ok (by omega), freeInt_run e ⟨off.getD 0 + 1, s⟩ h]
    · rw [if_neg hb, if_neg hb]
      rfl

theorem freeBytes_ok {m : Mode} {buf : Bytes} {off n i : Nat} (h : off + i + n ≤ buf.length) (hb : buf.length < 2 ^ 64) :
    freeBytes m buf off n i = .ok ((buf.drop (off + i)).take n) := by
  induction n generalizing i with
  | zero => simp [freeBytes]
  | succ n ih =>
    unfold freeBytes
    rw [addU_ok (by omega)]
    simp only [bind, Except.bind, pure, Except.pure]
    rw [List.getElem?_eq_getElem (by omega)]
    dsimp only
    rw [ih (by omega), List.drop_eq_getElem_cons (show off + i < buf.length by omega)]
    rfl

theorem freeBytes_cut {m : Mode} {buf : Bytes} {off n i : Nat} (h : buf.length < off + i + n) (hn : 0 < n)
    (hs : off + i + n < 2 ^ 64) : freeBytes m buf off n i = .error .panicIndex := by
  induction n generalizing i with
  | zero => omega
  | succ n ih =>
    unfold freeBytes
    rw [addU_ok (by omega)]
    simp only [bind, Except.bind, pure, Except.pure]
    cases hg : buf[off + i]? with
    | none => rfl
    | some b =>
      have : off + i < buf.length := (List.getElem?_eq_some_iff.1 hg).1
      dsimp only
      rw [ih (by omega) (by omega) (by omega)]

/-! ### blocks -/

theorem freeNat_byte {buf : Bytes} {p : Nat} {b : Byte} (h : Holds buf p [b]) : freeNat 1 buf p = .ok b.toNat := by
  unfold freeNat
  rw [readAt_holds (w := 1) h rfl]
  simp [leNat]

theorem textAt_lt {buf : Bytes} {p : Nat} {t : List Char} (h : PlainTextAt buf p t) : p < buf.length := by
  rcases h with ⟨h, _⟩ | ⟨wide, n, start, hh, _, _⟩
  · have := h.le; simp only [List.length_singleton] at this; omega
  · have := free_head (m := .checked) hh; omega

end Wz
