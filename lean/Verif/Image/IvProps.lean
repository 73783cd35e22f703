import Verif.Image.KeyFree
/-!
# Property C47: the IV of an image
-/

set_option autoImplicit false

namespace Wz.Spec

/-- `x` is the first element of the list with the property -/
def FirstOf {α : Type} (l : List α) (p : α → Prop) (x : α) : Prop := ∃ l1 l2, l = l1 ++ x :: l2 ∧ p x ∧ ∀ y ∈ l1, ¬ p y

/-- the IVs tried, in their order: GMS, EMS, none (BMS) -/
def ivOrder : List Bytes := [[0x4D#8, 0x23#8, 0xC7#8, 0x2B#8], [0xB9#8, 0x7D#8, 0x63#8, 0xE9#8], [0#8, 0#8, 0#8, 0#8]]

end Wz.Spec

namespace Wz.Props
open Spec

/-- C47, verification, in any build: an image with `Property` encrypted under the IV is accepted. -/
theorem C47_verify_accepts (m : Mode) (ks : Bytes → Nat → Byte) (buf iv : Bytes) (hb : buf.length < 2 ^ 63) (h : ImageOf (ks iv) buf) :
    verifyImgIv m ks buf iv = .ok true := by
  obtain ⟨bs, h1, h2⟩ := h
  have := readWzString_enc (e := ⟨m, buf, ks iv, ks iv⟩) (c := ⟨1, 0⟩) h1 h2 hb
  unfold verifyImgIv
  rw [this]
  rfl

/-- C47, verification, with overflow checks: nothing else is accepted. -/
theorem C47_verify_iff (ks : Bytes → Nat → Byte) (buf iv : Bytes) (hb : buf.length < 2 ^ 63) :
    verifyImgIv .checked ks buf iv = .ok true ↔ ImageOf (ks iv) buf := by
  refine ⟨fun h => ?_, C47_verify_accepts .checked ks buf iv hb⟩
  unfold verifyImgIv at h
  rcases hr : Rd.readWzString.run ⟨.checked, buf, ks iv, ks iv⟩ ⟨1, 0⟩ with ⟨r, c'⟩
  rw [hr] at h
  cases r with
  | error x =>
    dsimp only at h
    split at h <;> cases h
  | ok s =>
    have hs : s = "Property".toList := of_decide_eq_true (Except.ok.inj h)
    subst hs
    exact readWzString_only (e := ⟨.checked, buf, ks iv, ks iv⟩) hb rfl (by decide) hr

/-- the bytes of `Property` as UTF-16 with the length `-2^31 + 8`, twice which is 16 in 32 bits -/
def wrapImg : Bytes := [0x73#8, 0x7F#8, 8#8, 0#8, 0#8, 0x80#8] ++
  ("Property".toList.mapIdx fun i c => toLE 2 (BitVec.ofNat 16 c.toNat ^^^ BitVec.ofNat 16 (0xAAAA + i)).toNat).flatten

/-- C47 is violated without overflow checks: a text with the length `-2^31 + 8` passes for `Property`. -/
theorem C47_wrap_accepts_negative_length :
    verifyImgIv .wrap (fun _ _ => 0#8) wrapImg [0#8, 0#8, 0#8, 0#8] = .ok true ∧ verifyImgIv .checked (fun _ _ => 0#8) wrapImg [0#8, 0#8, 0#8, 0#8] = .error .panicOverflow ∧
      ¬ ImageOf (fun _ => 0#8) wrapImg := by
  have h : verifyImgIv .checked (fun _ _ => 0#8) wrapImg [0#8, 0#8, 0#8, 0#8] = .error .panicOverflow := by decide +kernel
  refine ⟨by decide +kernel, h, fun hi => ?_⟩
  have := (C47_verify_iff (fun _ _ => 0#8) wrapImg [0#8, 0#8, 0#8, 0#8] (by decide)).mpr hi
  rw [this] at h
  cases h

/-- verification under one IV panics if and only if it does under another -/
theorem verify_keyFree (m : Mode) (ks : Bytes → Nat → Byte) (buf iv iv' : Bytes) (x : Err) (h : verifyImgIv m ks buf iv = .error x) :
    verifyImgIv m ks buf iv' = .error x := by
  unfold verifyImgIv at h ⊢
  have hk := readWzString_keyFree m buf (ks iv) (ks iv) (ks iv') (ks iv') ⟨1, 0⟩
  cases hr : (Rd.readWzString.run ⟨m, buf, ks iv, ks iv⟩ ⟨1, 0⟩).1 with
  | ok s => rw [hr] at h; cases h
  | error y =>
    rw [outcome_error hk hr]
    rw [hr] at h
    exact h

theorem guessLoop_some (ks : Bytes → Nat → Byte) (buf : Bytes) (hb : buf.length < 2 ^ 63) (vs : List MapleVersion) (iv : Bytes) :
    guessImgLoop .checked ks buf vs = .ok (some iv) ↔ FirstOf (vs.map ivOfVersion) (fun iv => ImageOf (ks iv) buf) iv := by
  induction vs with
  | nil =>
    refine ⟨fun h => (nomatch h), ?_⟩
    rintro ⟨l1, l2, h, _⟩
    cases l1 <;> cases h
  | cons v vs ih =>
    show (verifyImgIv .checked ks buf (ivOfVersion v) >>= fun ok => if ok then pure (some (ivOfVersion v)) else guessImgLoop .checked ks buf vs) = _ ↔ _
    have hv := C47_verify_iff ks buf (ivOfVersion v) hb
    cases hr : verifyImgIv .checked ks buf (ivOfVersion v) with
    | error x =>
      refine ⟨fun h => (nomatch h), ?_⟩
      rintro ⟨l1, l2, _, h1, _⟩
      have h2 := (C47_verify_iff ks buf iv hb).mpr h1
      rw [verify_keyFree .checked ks buf (ivOfVersion v) iv x hr] at h2
      cases h2
    | ok b =>
      cases b with
      | true =>
        have himg := hv.mp hr
        constructor
        · intro h
          have : some (ivOfVersion v) = some iv := Except.ok.inj h
          cases this
          exact ⟨[], _, rfl, himg, fun _ h => nomatch h⟩
        · rintro ⟨l1, l2, h1, h2, h3⟩
          cases l1 with
          | nil =>
            have : ivOfVersion v = iv := (List.cons.inj h1).1
            rw [← this]
            rfl
          | cons a l1 =>
            have : ivOfVersion v = a := (List.cons.inj h1).1
            exact absurd himg (this ▸ h3 a (.head _))
      | false =>
        have himg : ¬ ImageOf (ks (ivOfVersion v)) buf := fun h => by
          have := hv.mpr h
          rw [hr] at this
          cases this
        show guessImgLoop .checked ks buf vs = _ ↔ _
        rw [ih]
        constructor
        · rintro ⟨l1, l2, h1, h2, h3⟩
          refine ⟨ivOfVersion v :: l1, l2, by rw [List.map_cons, h1]; rfl, h2, ?_⟩
          intro y hy
          cases hy with
          | head => exact himg
          | tail _ hy => exact h3 y hy
        · rintro ⟨l1, l2, h1, h2, h3⟩
          cases l1 with
          | nil =>
            have : ivOfVersion v = iv := (List.cons.inj h1).1
            exact absurd h2 (this ▸ himg)
          | cons a l1 => exact ⟨l1, l2, (List.cons.inj h1).2, h2, fun y hy => h3 y (.tail _ hy)⟩

/-- C47: the IV guessed is the first in the order for which the image starts with `Property`, and if there is one it is
guessed. -/
theorem C47_guess_first (ks : Bytes → Nat → Byte) (buf iv : Bytes) (hb : buf.length < 2 ^ 63) :
    guessImgIv .checked ks buf = .ok (some iv) ↔ Holds buf 0 [0x73#8] ∧ FirstOf ivOrder (fun iv => ImageOf (ks iv) buf) iv := by
  cases buf with
  | nil => exact ⟨fun h => (nomatch h), fun h => absurd h.1.le (by decide)⟩
  | cons b rest =>
    unfold guessImgIv
    dsimp only
    by_cases h : b = 0x73#8
    · rw [if_neg (not_not_intro h), guessLoop_some ks (b :: rest) hb]
      subst h
      exact ⟨fun h => ⟨⟨[], rest, rfl, rfl⟩, h⟩, fun h => h.2⟩
    · rw [if_pos h]
      refine ⟨fun h => (nomatch h), fun h' => absurd ?_ h⟩
      obtain ⟨pre, post, h1, h2⟩ := h'.1
      cases pre with
      | nil => exact (List.cons.inj h1).1
      | cons _ _ => cases h2

theorem guessLoop_none (ks : Bytes → Nat → Byte) (buf : Bytes) (hb : buf.length < 2 ^ 63) (m : Mode) (vs : List MapleVersion)
    (h : guessImgLoop m ks buf vs = .ok none) : ∀ iv ∈ vs.map ivOfVersion, ¬ ImageOf (ks iv) buf := by
  induction vs with
  | nil => exact fun _ h => nomatch h
  | cons v vs ih =>
    replace h : (verifyImgIv m ks buf (ivOfVersion v) >>= fun ok => if ok then pure (some (ivOfVersion v)) else guessImgLoop m ks buf vs) = _ := h
    have hv := C47_verify_accepts m ks buf (ivOfVersion v) hb
    cases hr : verifyImgIv m ks buf (ivOfVersion v) with
    | error x => rw [hr] at h; cases h
    | ok b =>
      rw [hr] at h hv
      cases b with
      | true => cases h
      | false =>
        intro iv hiv
        cases hiv with
        | head => exact fun hi => nomatch hv hi
        | tail _ hiv => exact ih h iv hiv

/-- C47: if nothing is guessed, then nothing matches: the first byte is another one or the image starts with `Property`
under none of the IVs.  In any build. -/
theorem C47_guess_none (m : Mode) (ks : Bytes → Nat → Byte) (buf : Bytes) (hb : buf.length < 2 ^ 63) (h : guessImgIv m ks buf = .ok none) :
    ¬ Holds buf 0 [0x73#8] ∨ ∀ iv ∈ ivOrder, ¬ ImageOf (ks iv) buf := by
  cases buf with
  | nil => cases h
  | cons b rest =>
    unfold guessImgIv at h
    dsimp only at h
    by_cases hb' : b = 0x73#8
    · rw [if_neg (not_not_intro hb')] at h
      exact .inr (guessLoop_none ks (b :: rest) hb m _ h)
    · refine .inl fun h' => hb' ?_
      obtain ⟨pre, post, h1, h2⟩ := h'
      cases pre with
      | nil => exact (List.cons.inj h1).1
      | cons _ _ => cases h2

/-- C47: an image with another first byte is not guessed, and this is no panic. -/
theorem C47_other_first_byte (m : Mode) (ks : Bytes → Nat → Byte) (b : Byte) (rest : Bytes) (h : b ≠ 0x73#8) : guessImgIv m ks (b :: rest) = .ok none :=
  if_pos h

/-- C47 is violated by an empty image: a panic instead of a rejection, in any build. -/
theorem C47_empty_panics (m : Mode) (ks : Bytes → Nat → Byte) : guessImgIv m ks [] = .error .panicIndex := rfl

/-- C47 is violated, with overflow checks, by a text with an extended length of `2^30` or more: a panic. -/
theorem C47_long_text_panics (ks : Bytes → Nat → Byte) (l : Nat) (rest : Bytes) (h1 : 2 ^ 30 ≤ l) (h2 : l < 2 ^ 31) (hb : rest.length < 2 ^ 62) :
    guessImgIv .checked ks (0x73#8 :: 0x7F#8 :: (toLE 4 l ++ rest)) = .error .panicOverflow := by
  have hlen : (0x73#8 :: 0x7F#8 :: (toLE 4 l ++ rest) : Bytes).length < 2 ^ 63 := by
    simp only [List.length_cons, List.length_append, length_toLE]; omega
  have : verifyImgIv .checked ks (0x73#8 :: 0x7F#8 :: (toLE 4 l ++ rest)) (ivOfVersion .gms) = .error .panicOverflow := by
    unfold verifyImgIv
    have hr : (Rd.readWzString.run ⟨.checked, 0x73#8 :: 0x7F#8 :: (toLE 4 l ++ rest), ks (ivOfVersion .gms), ks (ivOfVersion .gms)⟩ ⟨1, 0⟩).1 = .error .panicOverflow := by
      unfold Rd.readWzString
      rw [Rd.bind_ok (Rd.readI8_run (b := 0x7F#8) ⟨[0x73#8], toLE 4 l ++ rest, rfl, rfl⟩ hlen), show (0x7F#8).toInt = 127 from rfl]
      show ((Rd.readUnicodeString 127).run _ _).1 = _
      unfold Rd.readUnicodeString Rd.readUnicodeStrLen
      rw [if_pos rfl]
      have h4 := Rd.Reads.readInt_enc (e := ⟨.checked, 0x73#8 :: 0x7F#8 :: (toLE 4 l ++ rest), ks (ivOfVersion .gms), ks (ivOfVersion .gms)⟩) (w := 4) (v := (l : Int)) (p := 2)
        (by omega) (by show -2 ^ 31 ≤ (l : Int); omega) (by show (l : Int) < 2 ^ 31; omega) ⟨[0x73#8, 0x7F#8], rest, by rw [show unsign (8 * 4) (l : Int) = l by unfold unsign; omega]; simp, rfl⟩ hlen
      obtain ⟨c2, e2, r2⟩ := runBind (f := _) h4 (show (⟨2, 0⟩ : Cur).pos = 2 from rfl)
      refine (congrArg Prod.fst r2).trans ?_
      rw [if_neg (by omega), Rd.bind_ok (Rd.getEnv_run _ _)]
      refine runErr ?_
      rw [Rd.lift_run]
      unfold mulI32
      rw [if_neg (by omega)]
    rw [hr]
    rfl
  show (verifyImgIv .checked ks _ (ivOfVersion .gms) >>= _) = _
  rw [this]
  rfl

/-- C47: opening an image file gives the IV that was asked for, if the image starts with `Property` under it, and
otherwise the error `WrongVersion`; without a wish it gives the guessed IV, and if there is none the error
`UnableToGuessVersion`.  The image is the whole file.  (Panics are those above.) -/
theorem C47_open_image (ks : Bytes → Nat → Byte) (name : List Char) (buf iv : Bytes) (hb : buf.length < 2 ^ 63) (r : Img × Bytes) :
    (imgFromFile .checked ks name buf (some iv) = .ok r ↔ ImageOf (ks iv) buf ∧ r = (⟨name, 0, buf.length⟩, iv)) ∧
      (imgFromFile .checked ks name buf none = .ok r ↔ Holds buf 0 [0x73#8] ∧ FirstOf ivOrder (fun iv => ImageOf (ks iv) buf) r.2 ∧ r.1 = ⟨name, 0, buf.length⟩) := by
  constructor
  · show (verifyImgIv .checked ks buf iv >>= fun ok => if ok then pure ((⟨name, 0, buf.length⟩, iv) : Img × Bytes) else throw (.lib "WrongVersion")) = _ ↔ _
    rw [← C47_verify_iff ks buf iv hb]
    cases verifyImgIv .checked ks buf iv with
    | error x => exact ⟨fun h => (nomatch h), fun h => (nomatch h.1)⟩
    | ok b =>
      cases b with
      | true => exact ⟨fun h => ⟨rfl, (Except.ok.inj h).symm⟩, fun h => by rw [h.2]; rfl⟩
      | false => exact ⟨fun h => (nomatch h), fun h => (nomatch h.1)⟩
  · rw [← and_assoc, ← C47_guess_first ks buf r.2 hb]
    unfold imgFromFile
    dsimp only
    cases guessImgIv .checked ks buf with
    | error x => exact ⟨fun h => (nomatch h), fun h => (nomatch h.1)⟩
    | ok o =>
      cases o with
      | none => exact ⟨fun h => (nomatch h), fun h => (nomatch h.1)⟩
      | some iv' =>
        obtain ⟨i, v⟩ := r
        constructor
        · intro h
          have := Except.ok.inj h
          cases this
          exact ⟨rfl, rfl⟩
        · rintro ⟨h1, h2⟩
          cases h1
          cases h2
          rfl

/-- C47: the errors of opening. -/
theorem C47_open_image_errors (m : Mode) (ks : Bytes → Nat → Byte) (name : List Char) (buf iv : Bytes) :
    (verifyImgIv m ks buf iv = .ok false → imgFromFile m ks name buf (some iv) = .error (.lib "WrongVersion")) ∧
      (guessImgIv m ks buf = .ok none → imgFromFile m ks name buf none = .error (.lib "UnableToGuessVersion")) := by
  constructor
  · intro h
    show (verifyImgIv m ks buf iv >>= fun ok => if ok then pure ((⟨name, 0, buf.length⟩, iv) : Img × Bytes) else throw (.lib "WrongVersion")) = _
    rw [h]
    rfl
  · intro h
    unfold imgFromFile
    dsimp only
    rw [h]
    rfl

/-! ### Cases that meet the hypotheses -/

/-- a key stream that differs for the IVs -/
def ivStream : Bytes → Nat → Byte := fun iv i => iv.getD (i % 4) 0#8

/-- `Property` encrypted under an IV -/
def ivImg (iv : Bytes) : Bytes := 0x73#8 :: 0xF8#8 ::
  ("Property".toList.mapIdx fun i c => BitVec.ofNat 8 c.toNat ^^^ BitVec.ofNat 8 (0xAA + i) ^^^ ivStream iv i)

example : guessImgIv .checked ivStream (ivImg [0x4D#8, 0x23#8, 0xC7#8, 0x2B#8]) = .ok (some [0x4D#8, 0x23#8, 0xC7#8, 0x2B#8]) := by decide +kernel
example : guessImgIv .wrap ivStream (ivImg [0xB9#8, 0x7D#8, 0x63#8, 0xE9#8]) = .ok (some [0xB9#8, 0x7D#8, 0x63#8, 0xE9#8]) := by decide +kernel
example : guessImgIv .wrap ivStream (ivImg [0#8, 0#8, 0#8, 0#8]) = .ok (some [0#8, 0#8, 0#8, 0#8]) := by decide +kernel
example : guessImgIv .wrap ivStream (ivImg [1#8, 0#8, 0#8, 0#8]) = .ok none := by decide +kernel
example : ImageOf (ivStream [1#8, 2#8, 3#8, 4#8]) (ivImg [1#8, 2#8, 3#8, 4#8]) :=
  (C47_verify_iff ivStream _ [1#8, 2#8, 3#8, 4#8] (by decide)).mp (by decide +kernel)
example : guessImgIv .checked ivStream (0x73#8 :: 0x7F#8 :: (toLE 4 (2 ^ 30) ++ [])) = .error .panicOverflow :=
  C47_long_text_panics ivStream (2 ^ 30) [] (by decide) (by decide) (by decide)

end Wz.Props
