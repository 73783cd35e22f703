import Verif.File.IvLemmas

/-!
# C56: the IV found for an archive
-/

set_option autoImplicit false

namespace Wz

open Spec

theorem guessFileIvLoop_first {m : Mode} {st : Bytes → Nat → Byte} {buf : Bytes} {P : Bytes → Prop} : ∀ (vs : List MapleVersion),
    (∀ v ∈ vs, ∃ b, verifyFileIv m st buf (ivOfVersion v) = .ok b ∧ (b = true ↔ P (ivOfVersion v))) →
    ∃ r, guessFileIvLoop m st buf vs = .ok r ∧ FirstIn P (vs.map ivOfVersion) r
  | [], _ => ⟨none, rfl, .none⟩
  | v :: vs, h => by
    obtain ⟨b, h1, h2⟩ := h v (by simp)
    unfold guessFileIvLoop
    rw [h1]
    cases b with
    | true => exact ⟨_, rfl, .hit _ _ (h2.mp rfl)⟩
    | false =>
      obtain ⟨r, h3, h4⟩ := guessFileIvLoop_first vs fun u hu => h u (by simp [hu])
      exact ⟨r, h3, .miss _ _ _ (fun hh => by cases h2.mpr hh) h4⟩

end Wz

namespace Wz.Props

open Wz Wz.Spec

/-- C56: an IV is accepted for an archive if and only if the first name is some text (UTF-8, or UTF-16 in the form of two bytes a unit)
under the key of that IV. -/
theorem C56_verify (m : Mode) (st : Bytes → Nat → Byte) (buf iv : Bytes) (h : Header) (k : Nat) (count : Int) (t : Byte) (n p : Nat)
    (form : NameForm) (hb : buf.length < 2 ^ 63) (hh : Header.readFromBuf buf = .ok (h, k))
    (hf : FirstName buf h.dataStart count t n form p) (ht : PlainType t) (hc : CountFits h.ident count) :
    ∃ b, verifyFileIv m st buf iv = .ok b ∧ (b = true ↔ TextAt buf p n form (streamOfIv st iv)) := by
  obtain ⟨h1, h2, h3⟩ := firstName_reads (e := (fileIvKey st iv).env m buf) hb hf ht hc
  have hd : form ≠ .dir := by obtain ⟨_, _, _, h, _⟩ := hf; exact h.not_dir
  rw [← headerOf_ok hh] at h1
  exact ⟨_, verifyFileIv_eq hb h2 (by omega : n < 2 ^ 32) hd h1, by simp⟩

/-- C56: the IV found is the first of no encryption, GMS and EMS under which the first name is some text, and none if there is none. -/
theorem C56_guess (m : Mode) (st : Bytes → Nat → Byte) (buf : Bytes) (h : Header) (k : Nat) (count : Int) (t : Byte) (n p : Nat)
    (form : NameForm) (hb : buf.length < 2 ^ 63) (hh : Header.readFromBuf buf = .ok (h, k))
    (hf : FirstName buf h.dataStart count t n form p) (ht : PlainType t) (hc : CountFits h.ident count) :
    ∃ r, guessFileIv m st buf = .ok r ∧
      FirstIn (fun iv => TextAt buf p n form (streamOfIv st iv)) [plainIv, ivOfGms, ivOfEms] r :=
  guessFileIvLoop_first [.bms, .gms, .ems] fun v _ => C56_verify m st buf (ivOfVersion v) h k count t n p form hb hh hf ht hc

/-- C56: for an archive whose first name is any text, written under one of the three IVs, an IV is found, and with it the first name
is a text. -/
theorem C56_found (m : Mode) (st : Bytes → Nat → Byte) (buf iv : Bytes) (h : Header) (k : Nat) (count : Int) (t : Byte) (p : Nat)
    (form : NameForm) (s : List Char) (hb : buf.length < 2 ^ 63) (hh : Header.readFromBuf buf = .ok (h, k))
    (hf : FirstName buf h.dataStart count t (textLen s form) form p) (ht : PlainType t) (hc : CountFits h.ident count)
    (hi : iv ∈ [plainIv, ivOfGms, ivOfEms]) (hw : Holds buf p (textBytes (streamOfIv st iv) s form)) :
    verifyFileIv m st buf iv = .ok true ∧
    ∃ iv', guessFileIv m st buf = .ok (some iv') ∧
      FirstIn (fun iv => TextAt buf p (textLen s form) form (streamOfIv st iv)) [plainIv, ivOfGms, ivOfEms] (some iv') := by
  have ht' : TextAt buf p (textLen s form) form (streamOfIv st iv) := ⟨s, rfl, hw⟩
  constructor
  · obtain ⟨b, h1, h2⟩ := C56_verify m st buf iv h k count t _ p form hb hh hf ht hc
    rw [h1, h2.mpr ht']
  · obtain ⟨r, h1, h2⟩ := C56_guess m st buf h k count t _ p form hb hh hf ht hc
    obtain ⟨iv', rfl⟩ := FirstIn.some_of_mem hi ht' h2
    exact ⟨iv', h1, h2⟩

/-- C56, in part: an archive whose first name is written under an IV is recognised, if no IV tried before it makes a text of the name.
(Missing: this condition, which `C56_wide_counterexample` shows to be needed.) -/
theorem C56_right_iv_partial (m : Mode) (st : Bytes → Nat → Byte) (buf iv : Bytes) (h : Header) (k : Nat) (count : Int) (t : Byte) (p : Nat)
    (form : NameForm) (s : List Char) (before after : List Bytes) (hb : buf.length < 2 ^ 63) (hh : Header.readFromBuf buf = .ok (h, k))
    (hf : FirstName buf h.dataStart count t (textLen s form) form p) (ht : PlainType t) (hc : CountFits h.ident count)
    (hi : [plainIv, ivOfGms, ivOfEms] = before ++ iv :: after) (hw : Holds buf p (textBytes (streamOfIv st iv) s form))
    (hno : ∀ iv' ∈ before, ¬TextAt buf p (textLen s form) form (streamOfIv st iv')) :
    guessFileIv m st buf = .ok (some iv) := by
  obtain ⟨r, h1, h2⟩ := C56_guess m st buf h k count t _ p form hb hh hf ht hc
  rw [h1]
  rw [hi] at h2
  have : ∀ (as : List Bytes), (∀ a ∈ as, ¬TextAt buf p (textLen s form) form (streamOfIv st a)) →
      FirstIn (fun iv => TextAt buf p (textLen s form) form (streamOfIv st iv)) (as ++ iv :: after) (some iv) := by
    intro as
    induction as with
    | nil => intro _; exact .hit _ _ ⟨s, rfl, hw⟩
    | cons a as ih => intro h; exact .miss _ _ _ (h a (by simp)) (ih fun b hb => h b (by simp [hb]))
  rw [FirstIn.det h2 (this before hno)]

/-- C56: what opening an archive accepts as key (ASCII names) is accepted here as well. -/
theorem C56_weaker (m : Mode) (st : Bytes → Nat → Byte) (buf iv : Bytes) (h : Header) (k : Nat) (count : Int) (t : Byte) (n p : Nat)
    (form : NameForm) (hb : buf.length < 2 ^ 63) (hh : Header.readFromBuf buf = .ok (h, k))
    (hf : FirstName buf h.dataStart count t n form p) (ht : PlainType t) (hc : CountFits h.ident count)
    (hv : verifyKey m buf (ivKey st iv) = .ok true) : verifyFileIv m st buf iv = .ok true := by
  obtain ⟨b, h1, h2⟩ := C56_verify m st buf iv h k count t n p form hb hh hf ht hc
  rw [h1]
  congr 1
  apply h2.mpr
  obtain ⟨h4, h5, h6⟩ := firstName_meta (m := m) hb hf ht hc
  have hd : form ≠ .dir := by obtain ⟨_, _, _, h, _⟩ := hf; exact h.not_dir
  unfold verifyKey at hv
  rw [headerOf_ok hh, h4] at hv
  dsimp only at hv
  rw [verifyMeta_eq (ivKey st iv) hb h5 (by omega : n < 2 ^ 32)] at hv
  have hn : NameAt buf p n form ((ivKey st iv).used form) := by simpa using hv
  have := textAt_of_name hn
  cases form with
  | narrow => exact this
  | wide => exact this
  | dir => exact absurd rfl hd

/-- C56: an ASCII name of one byte a character is accepted with every key that has the same top bits as the right one, as far as the
name goes; for a name of one character with no other. -/
theorem C56_narrow (m : Mode) (st : Bytes → Nat → Byte) (buf iv iv' : Bytes) (h : Header) (k : Nat) (count : Int) (t : Byte) (p : Nat)
    (s : List Char) (hb : buf.length < 2 ^ 63) (hh : Header.readFromBuf buf = .ok (h, k))
    (hf : FirstName buf h.dataStart count t s.length .narrow p) (ht : PlainType t) (hc : CountFits h.ident count)
    (hs : ∀ c ∈ s, c.toNat < 128) (hw : Holds buf p (nameBytes (streamOfIv st iv) s .narrow)) :
    ((∀ i < s.length, top (streamOfIv st iv i) = top (streamOfIv st iv' i)) → verifyFileIv m st buf iv' = .ok true) ∧
    (s.length = 1 → top (streamOfIv st iv 0) ≠ top (streamOfIv st iv' 0) → verifyFileIv m st buf iv' = .ok false) := by
  obtain ⟨b, h1, h2⟩ := C56_verify m st buf iv' h k count t _ p .narrow hb hh hf ht hc
  have hn := narrow_of_narrow (ks' := streamOfIv st iv') hs hw
  rw [h1]
  constructor
  · intro ha
    rw [h2.mpr (textAt_of_name (hn.mpr ha))]
  · intro hl hne
    cases b with
    | false => rfl
    | true =>
      exfalso
      obtain ⟨s', e1, e2⟩ := h2.mp rfl
      have e1' : (utf8EncStr s').length = 1 := by rw [← hl]; exact e1
      have hlen : s'.length = 1 ∧ ∀ c ∈ s', c.toNat < 128 := by
        cases s' with
        | nil => cases e1'
        | cons c r =>
          have hc1 : (utf8Enc c).length = 1 ∧ (utf8EncStr r).length = 0 := by
            have hpos : 1 ≤ (utf8Enc c).length := by
              unfold utf8Enc
              dsimp only
              split
              · simp
              · split
                · simp
                · split <;> simp
            simp only [utf8EncStr, List.flatMap_cons, List.length_append] at e1' ⊢
            omega
          have hr : r = [] := by
            cases r with
            | nil => rfl
            | cons d r =>
              exfalso
              have hpos : 1 ≤ (utf8Enc d).length := by
                unfold utf8Enc
                dsimp only
                split
                · simp
                · split
                  · simp
                  · split <;> simp
              have := hc1.2
              simp only [utf8EncStr, List.flatMap_cons, List.length_append] at this
              omega
          subst hr
          refine ⟨rfl, ?_⟩
          intro d hd
          have hd : d = c := by simpa using hd
          subst hd
          have := hc1.1
          unfold utf8Enc at this
          dsimp only at this
          split at this
          · omega
          · split at this
            · simp at this
            · split at this <;> simp at this
      have hna : NameAt buf p s.length .narrow (streamOfIv st iv') := by
        refine ⟨s', hlen.2, by omega, ?_⟩
        have e2' : Holds buf p (cipherAscii (streamOfIv st iv') (utf8EncStr s')) := e2
        rw [ascii_bytes hlen.2] at e2'
        exact e2'
      exact hne (hn.mp hna 0 (by omega))

/-- C56 does not hold for names of two bytes a character: an ASCII name written under any key is a text under another key too, if no
two bytes of the keys at odd places differ by a value from `D8` to `DF`. -/
theorem C56_wide (m : Mode) (st : Bytes → Nat → Byte) (buf iv iv' : Bytes) (h : Header) (k : Nat) (count : Int) (t : Byte) (p : Nat)
    (s : List Char) (hb : buf.length < 2 ^ 63) (hh : Header.readFromBuf buf = .ok (h, k))
    (hf : FirstName buf h.dataStart count t s.length .wide p) (ht : PlainType t) (hc : CountFits h.ident count)
    (hs : ∀ c ∈ s, c.toNat < 128) (hw : Holds buf p (nameBytes (streamOfIv st iv) s .wide))
    (hk : ∀ i < s.length, ¬SurrogateHalf (streamOfIv st iv (2 * i + 1) ^^^ streamOfIv st iv' (2 * i + 1))) :
    verifyFileIv m st buf iv' = .ok true := by
  obtain ⟨b, h1, h2⟩ := C56_verify m st buf iv' h k count t _ p .wide hb hh hf ht hc
  rw [h1, h2.mpr (wide_text_other hs hw hk)]

/-- C56 does not hold: so such a name is taken for one without encryption, whatever key it was written under. -/
theorem C56_wide_taken_for_plain (m : Mode) (st : Bytes → Nat → Byte) (buf : Bytes) (h : Header) (k : Nat) (count : Int) (t : Byte) (p : Nat)
    (s : List Char) (ks : Nat → Byte) (hb : buf.length < 2 ^ 63) (hh : Header.readFromBuf buf = .ok (h, k))
    (hf : FirstName buf h.dataStart count t s.length .wide p) (ht : PlainType t) (hc : CountFits h.ident count)
    (hs : ∀ c ∈ s, c.toNat < 128) (hw : Holds buf p (nameBytes ks s .wide)) (hk : ∀ i < s.length, ¬SurrogateHalf (ks (2 * i + 1))) :
    guessFileIv m st buf = .ok (some plainIv) := by
  obtain ⟨r, h1, h2⟩ := C56_guess m st buf h k count t _ p .wide hb hh hf ht hc
  rw [h1]
  have ht0 : TextAt buf p s.length .wide (streamOfIv st plainIv) := by
    refine wide_text_other (ks := ks) hs hw fun i hi => ?_
    rw [show streamOfIv st plainIv (2 * i + 1) = 0#8 from rfl, BitVec.xor_zero]
    exact hk i hi
  rw [FirstIn.det h2 (.hit _ _ ht0)]

/-- C56: a PKG1 archive without entries, with an impossible number of entries or with an entry of another type at its beginning has no
IV, and none is accepted for it. -/
theorem C56_no_name (m : Mode) (st : Bytes → Nat → Byte) (buf : Bytes) (h : Header) (hk : Nat) (count : Int) (cb : Bytes)
    (hb : buf.length < 2 ^ 63) (hh : Header.readFromBuf buf = .ok (h, hk)) (hi : h.ident = .v1) (hw : IsWzInt 4 count cb)
    (hc : Holds buf h.dataStart cb ∧ ¬(1 ≤ count ∧ count ≤ 1000000) ∨
      ∃ t, Holds buf h.dataStart (cb ++ [t]) ∧ t ≠ 2#8 ∧ t ≠ 3#8 ∧ t ≠ 4#8) :
    (∀ iv, verifyFileIv m st buf iv = .ok false) ∧ guessFileIv m st buf = .ok none := by
  have hv : ∀ iv, verifyFileIv m st buf iv = .ok false := by
    intro iv
    have h1 := firstName_missing (e := (fileIvKey st iv).env m buf) hb hi hw hc ⟨0, 0⟩ rfl
    rw [← headerOf_ok hh] at h1
    unfold verifyFileIv
    dsimp only
    rw [h1]
    rfl
  refine ⟨hv, ?_⟩
  unfold guessFileIv
  simp only [guessFileIvLoop, hv]

/-- C56: an archive whose first name is empty is accepted with every IV, and taken for one without encryption. -/
theorem C56_empty_name (m : Mode) (st : Bytes → Nat → Byte) (buf : Bytes) (h : Header) (hk : Nat) (count : Int) (t : Byte) (cb : Bytes)
    (hb : buf.length < 2 ^ 63) (hh : Header.readFromBuf buf = .ok (h, hk)) (hw : IsWzInt 4 count cb)
    (hf : Holds buf h.dataStart (cb ++ [t] ++ [0#8])) (ht : PlainType t) (hc : CountFits h.ident count) :
    (∀ iv, verifyFileIv m st buf iv = .ok true) ∧ guessFileIv m st buf = .ok (some plainIv) := by
  have hv : ∀ iv, verifyFileIv m st buf iv = .ok true := by
    intro iv
    have e1 : Holds ((fileIvKey st iv).env m buf).buf h.dataStart cb := (hf.left).left
    have e2 : Holds ((fileIvKey st iv).env m buf).buf (h.dataStart + cb.length) [t] := (hf.left).right
    have e3 : Holds ((fileIvKey st iv).env m buf).buf (h.dataStart + cb.length + 1) [0#8] := by
      have := hf.right
      show Holds buf _ _
      simpa [Nat.add_assoc] using this
    obtain ⟨c, c1, c2⟩ := Rd.Reads.firstCount (h := h) (e := (fileIvKey st iv).env m buf) hc ht e2
    have h1 : ((Rd.firstName h).run ((fileIvKey st iv).env m buf) ⟨0, 0⟩).1 = .ok StrMeta.none := by
      refine Rd.Reads.fst (q := h.dataStart + cb.length + 1 + 1) (.bind .seek (.bind (.wzInt hw e1 hb) (.bind c1 ?_)))
      rw [if_neg c2]
      refine .bind (.readU8 e2 hb) ?_
      rcases ofByte_plain ht with h1 | h1 <;> rw [h1] <;> exact .emptyMeta e3 hb
    rw [← headerOf_ok hh] at h1
    unfold verifyFileIv
    dsimp only
    rw [h1]
    rfl
  refine ⟨hv, ?_⟩
  unfold guessFileIv
  simp only [guessFileIvLoop, hv]
  rfl

/-- C56 does not hold for a name whose length is stored as a negative number in the long form of two bytes a character: a build with
overflow checks panics, whatever the IV. -/
theorem C56_length_panics (st : Bytes → Nat → Byte) (buf : Bytes) (h : Header) (hk : Nat) (count : Int) (t : Byte) (cb : Bytes) (l : Int)
    (hb : buf.length < 2 ^ 63)
    (hh : Header.readFromBuf buf = .ok (h, hk)) (hw : IsWzInt 4 count cb) (hl : -2 ^ 31 ≤ l ∧ l < 0)
    (hf : Holds buf h.dataStart (cb ++ [t] ++ (0x7F#8 :: toLE 4 (unsign 32 l)))) (ht : PlainType t) (hc : CountFits h.ident count) :
    (∀ iv, verifyFileIv .checked st buf iv = .error .panicOverflow) ∧ guessFileIv .checked st buf = .error .panicOverflow := by
  have hv : ∀ iv, verifyFileIv .checked st buf iv = .error .panicOverflow := by
    intro iv
    have h2 := firstName_overflow (e := (fileIvKey st iv).env .checked buf) rfl hb hw hl hf ht hc ⟨0, 0⟩ rfl
    rw [← headerOf_ok hh] at h2
    unfold verifyFileIv
    dsimp only
    rw [h2]
    rfl
  refine ⟨hv, ?_⟩
  unfold guessFileIv
  simp only [guessFileIvLoop, hv]

end Wz.Props
