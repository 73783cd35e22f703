import Verif.File.GuessSpec
import Verif.Reader.OnlyLemmas
import Verif.Reader.Reads
import Verif.Text.Inverse
import Verif.Header.Props

/-!
# Lemmas about the key of an archive's names
-/

set_option autoImplicit false

namespace Wz

open Spec

theorem nameGuess_slice_err {m : Mode} {buf : Bytes} {ks : Nat → Byte} {p n : Nat} {x : Err} (hp : p ≤ buf.length)
    (hb : buf.length < 2 ^ 63) (hn : n < 2 ^ 33) (h : decryptSlice m buf ks p n = .error x) : x.isPanic = false := by
  unfold decryptSlice at h
  have ha : addU m p n = .ok (p + n) := by
    unfold addU
    rw [if_pos (by omega)]
  rw [ha] at h
  change (sliceOrError buf p (p + n) >>= fun s => Except.ok (decryptWith ks s)) = _ at h
  unfold sliceOrError at h
  split at h
  · cases h
  · cases h; rfl

theorem nameUnits_even : ∀ (n : Nat) (d : Bytes), d.length = 2 * n → ∃ us, units d = .ok us
  | 0, d, h => by
    have : d = [] := List.length_eq_zero_iff.mp (by omega)
    exact ⟨[], by rw [this]; rfl⟩
  | n + 1, [], h => by simp at h
  | n + 1, [_], h => by simp at h; omega
  | n + 1, a :: b :: r, h => by
    obtain ⟨us, hu⟩ := nameUnits_even n r (by simp at h; omega)
    exact ⟨_, by unfold units; rw [hu]; rfl⟩

theorem utf16Strict_lossy {us : List (BitVec 16)} {s : List Char} (h : utf16Strict us = .ok s) : utf16Lossy us = s := by
  unfold utf16Strict at h
  cases ha : allSome (utf16Dec us) with
  | none => rw [ha] at h; cases h
  | some t =>
    rw [ha] at h
    cases h
    unfold utf16Lossy
    rw [allSome_eq ha, List.map_map]
    exact List.map_id _

theorem utf16Strict_err {us : List (BitVec 16)} {x : Err} (h : utf16Strict us = .error x) : x.isPanic = false := by
  unfold utf16Strict at h
  split at h
  · cases h
  · cases h; rfl

theorem utf8Strict_err {bs : Bytes} {x : Err} (h : utf8Strict bs = .error x) : x.isPanic = false := by
  unfold utf8Strict at h
  split at h
  · cases h
  · cases h; rfl

theorem utf16EncStr_len_ascii {s : List Char} (h : ∀ c ∈ s, c.toNat < 128) : (utf16EncStr s).length = s.length :=
  utf16EncStr_length_bmp fun c hc => by have := h c hc; omega

/-- the kind of a stored text -/
def NameForm.ty : NameForm → StrType
  | .narrow => .ascii
  | .wide => .unicode
  | .dir => .pkg2Dir

/-- bytes of a name of `n` characters -/
def NameForm.size (n : Nat) : NameForm → Nat
  | .narrow => n
  | _ => 2 * n

/-- the key a decryptor uses for a form -/
def SKey.used (k : SKey) : NameForm → Nat → Byte
  | .dir => k.ks
  | _ => (keyForPlain k)

theorem SKey.env_ks (k : SKey) (m : Mode) (buf : Bytes) : (k.env m buf).ks = (keyForPlain k) := rfl

theorem name_reads {m : Mode} {buf : Bytes} {k : SKey} {p n : Nat} {form : NameForm} (hb : buf.length < 2 ^ 63)
    (h : NameAt buf p n form (k.used form)) :
    ∃ s, isAsciiStr s = true ∧ tryResolveMeta (k.env m buf) (NameForm.ty form) p (NameForm.size n form) = .ok s := by
  obtain ⟨s, h1, h2, h3⟩ := h
  refine ⟨s, by simpa [isAsciiStr] using h1, ?_⟩
  cases form with
  | narrow =>
    show (resolveAsciiRaw m buf (keyForPlain k) p n >>= utf8Strict) = _
    rw [resolveAscii_cipher (ks := keyForPlain k) (bs := s.map fun c => BitVec.ofNat 8 c.toNat) h3 (by simpa using h2) hb]
    show utf8Strict _ = _
    rw [← ascii_bytes h1, utf8Strict_encStr]
  | wide =>
    show (resolveUnicodeRaw m buf (keyForPlain k) p (2 * n) >>= utf16Strict) = _
    rw [resolveUnicode_cipher (ks := keyForPlain k) (us := utf16EncStr s) h3 (by rw [utf16EncStr_len_ascii h1, h2]) hb]
    exact utf16Strict_encStr s
  | dir =>
    show (resolvePkg2DirRaw m buf k.ks p (2 * n) >>= utf16Strict) = _
    rw [resolvePkg2_cipher (ks := k.ks) (us := utf16EncStr s) h3 (by rw [utf16EncStr_len_ascii h1, h2]) hb]
    exact utf16Strict_encStr s

theorem bind_ok {α β : Type} {x : Except Err α} {f : α → Except Err β} {b : β} (h : (x >>= f) = .ok b) :
    ∃ a, x = .ok a ∧ f a = .ok b := by
  cases x with
  | error e => cases h
  | ok a => exact ⟨a, rfl, h⟩

theorem bind_error {α β : Type} {x : Except Err α} {f : α → Except Err β} {e : Err} (h : (x >>= f) = .error e) :
    x = .error e ∨ ∃ a, x = .ok a ∧ f a = .error e := by
  cases x with
  | error e => cases h; exact .inl rfl
  | ok a => exact .inr ⟨a, rfl, h⟩

theorem name_only {m : Mode} {buf : Bytes} {k : SKey} {p n : Nat} {form : NameForm} {s : List Char} (hb : buf.length < 2 ^ 63)
    (hn : n < 2 ^ 32) (ha : isAsciiStr s = true)
    (h : tryResolveMeta (k.env m buf) (NameForm.ty form) p (NameForm.size n form) = .ok s) :
    NameAt buf p n form (k.used form) := by
  have hs : ∀ c ∈ s, c.toNat < 128 := by simpa [isAsciiStr] using ha
  cases form with
  | narrow =>
    obtain ⟨bs, h1, h2⟩ := bind_ok (show (resolveAsciiRaw m buf (keyForPlain k) p n >>= utf8Strict) = _ from h)
    obtain ⟨h3, h4⟩ := cipherAscii_of_read hb (by omega) h1
    have h5 := utf8Strict_inv h2
    rw [ascii_bytes hs] at h5
    exact ⟨s, hs, by rw [← h3, h5]; simp, by rw [h5] at h4; exact h4⟩
  | wide =>
    obtain ⟨us, h1, h2⟩ := bind_ok (show (resolveUnicodeRaw m buf (keyForPlain k) p (2 * n) >>= utf16Strict) = _ from h)
    obtain ⟨h3, h4⟩ := cipherUnicode_of_read hb (by omega) h1
    have h5 := utf16Lossy_only s us (utf16Strict_lossy h2) hs
    subst h5
    exact ⟨s, hs, by rw [utf16EncStr_len_ascii hs] at h3; omega, h4⟩
  | dir =>
    obtain ⟨us, h1, h2⟩ := bind_ok (show (resolvePkg2DirRaw m buf k.ks p (2 * n) >>= utf16Strict) = _ from h)
    have h5 := utf16Lossy_only s us (utf16Strict_lossy h2) hs
    obtain ⟨d, h6, h7⟩ := bind_ok (show (decryptSlice m buf k.ks p (2 * n) >>= units) = _ from h1)
    have hle := decryptSlice_ok h6 hb (by omega)
    have hh := Holds.of_slice hle
    have hl : ((buf.drop p).take (2 * n)).length = 2 * n := by simp; omega
    rw [decryptSlice_holds hh hl hb] at h6
    cases h6
    have h8 := units_ok _ _ h7
    have h9 : (buf.drop p).take (2 * n) = decryptWith k.ks (unitBytes us) := by rw [← h8, decryptWith_invol]
    subst h5
    refine ⟨s, hs, ?_, by rw [h9] at hh; exact hh⟩
    have := congrArg List.length h9
    rw [hl, length_decryptWith, length_unitBytes, utf16EncStr_len_ascii hs] at this
    omega

theorem name_err {m : Mode} {buf : Bytes} {k : SKey} {p n : Nat} {form : NameForm} {x : Err} (hb : buf.length < 2 ^ 63)
    (hp : p ≤ buf.length) (hn : n < 2 ^ 32)
    (h : tryResolveMeta (k.env m buf) (NameForm.ty form) p (NameForm.size n form) = .error x) : x.isPanic = false := by
  have hunits : ∀ (ks : Nat → Byte) (d : Bytes), decryptSlice m buf ks p (2 * n) = .ok d → ∃ us, units d = .ok us := by
    intro ks d hd
    have hle := decryptSlice_ok hd hb (by omega)
    have hh := Holds.of_slice hle
    have hl : ((buf.drop p).take (2 * n)).length = 2 * n := by simp; omega
    rw [decryptSlice_holds hh hl hb] at hd
    cases hd
    exact nameUnits_even n _ (by rw [length_decryptWith, hl])
  cases form with
  | narrow =>
    rcases bind_error (show (resolveAsciiRaw m buf (keyForPlain k) p n >>= utf8Strict) = _ from h) with h1 | ⟨bs, _, h2⟩
    · rcases bind_error (show (decryptSlice m buf (keyForPlain k) p n >>= fun d => Except.ok _) = _ from h1) with h1 | ⟨bs, _, h2⟩
      · exact nameGuess_slice_err hp hb (by omega) h1
      · cases h2
    · exact utf8Strict_err h2
  | wide =>
    rcases bind_error (show (resolveUnicodeRaw m buf (keyForPlain k) p (2 * n) >>= utf16Strict) = _ from h) with h1 | ⟨bs, _, h2⟩
    · rcases bind_error (show (decryptSlice m buf (keyForPlain k) p (2 * n) >>= fun d => units d >>= fun us => Except.ok _) = _ from h1)
        with h1 | ⟨d, h2, h3⟩
      · exact nameGuess_slice_err hp hb (by omega) h1
      · obtain ⟨us, hu⟩ := hunits _ _ h2
        rw [hu] at h3
        cases h3
    · exact utf16Strict_err h2
  | dir =>
    rcases bind_error (show (resolvePkg2DirRaw m buf k.ks p (2 * n) >>= utf16Strict) = _ from h) with h1 | ⟨bs, _, h2⟩
    · rcases bind_error (show (decryptSlice m buf k.ks p (2 * n) >>= units) = _ from h1)
        with h1 | ⟨d, h2, h3⟩
      · exact nameGuess_slice_err hp hb (by omega) h1
      · obtain ⟨us, hu⟩ := hunits _ _ h2
        rw [hu] at h3
        cases h3
    · exact utf16Strict_err h2

open Classical in
theorem verifyMeta_eq {m : Mode} {buf : Bytes} (k : SKey) {p n : Nat} {form : NameForm} (hb : buf.length < 2 ^ 63)
    (hp : p ≤ buf.length) (hn : n < 2 ^ 32) :
    verifyMeta m buf k ⟨p, NameForm.size n form, NameForm.ty form⟩ = .ok (decide (NameAt buf p n form (k.used form))) := by
  unfold verifyMeta
  dsimp only
  cases h : tryResolveMeta (k.env m buf) (NameForm.ty form) p (NameForm.size n form) with
  | error x =>
    dsimp only
    rw [name_err hb hp hn h]
    rw [decide_eq_false (fun hh => by
      obtain ⟨s, -, h2⟩ := name_reads (m := m) hb hh
      rw [h] at h2
      cases h2)]
    rfl
  | ok s =>
    dsimp only
    congr 1
    cases ha : isAsciiStr s with
    | true => rw [decide_eq_true (name_only hb hn ha h)]
    | false =>
      rw [decide_eq_false (fun hh => by
        obtain ⟨t, h1, h2⟩ := name_reads (m := m) hb hh
        rw [h] at h2
        cases h2
        rw [ha] at h1
        cases h1)]

theorem Rd.Reads.readI8 {e : Env} {p : Nat} {v : Int} (h0 : -128 ≤ v) (h1 : v < 128) (h : Holds e.buf p [byteOf v])
    (hb : e.buf.length < 2 ^ 63) : Rd.readI8.Reads e p v (p + 1) := by
  have he : [byteOf v] = toLE 1 (unsign (8 * 1) v) := by
    simp only [toLE, byteOf]
    congr 1
    apply BitVec.eq_of_toNat_eq
    simp only [BitVec.toNat_ofNat, BitVec.toNat_ofInt, unsign]
    omega
  rw [he] at h
  exact .readInt_enc (by omega) (by omega) (by omega) h hb

theorem Rd.Reads.readI32_nat {e : Env} {p n : Nat} (hn : n < 2 ^ 31) (h : Holds e.buf p (toLE 4 n))
    (hb : e.buf.length < 2 ^ 63) : Rd.readI32.Reads e p n (p + 4) := by
  have : unsign (8 * 4) (n : Int) = n := by unfold unsign; omega
  exact .readInt_enc (by omega) (by omega) (by omega) (by rw [this]; exact h) hb

theorem Spec.NameLen.small {n : Nat} {form : NameForm} {len : Bytes} (h : NameLen n form len) : n < 2 ^ 31 := by
  cases h with
  | narrow h => cases h <;> omega
  | wide h => cases h <;> omega

theorem Rd.Reads.nameMeta {e : Env} {p n : Nat} {form : NameForm} {len : Bytes} (hl : NameLen n form len)
    (h : Holds e.buf p len) (hb : e.buf.length < 2 ^ 63) :
    ∃ q, Rd.readWzStringMeta.Reads e p ⟨p + len.length, NameForm.size n form, NameForm.ty form⟩ q := by
  have hle := h.le
  cases hl with
  | narrow hl =>
    cases hl with
    | short h1 h2 =>
      refine ⟨p + 1 + n, .bind (.readI8 (by omega) (by omega) h hb) ?_⟩
      rw [show strType (-(n : Int)) = .ascii by unfold strType; rw [if_neg (by omega), if_neg (by omega)]]
      dsimp only
      rw [if_neg (by omega)]
      have ha : asU32 (- -(n : Int)) = n := by rw [asU32_nonneg (by omega) (by omega)]; omega
      rw [ha]
      exact .bind .getPos (.bind (.skip (by simp at hle; omega)) (.pure _))
    | long h1 =>
      refine ⟨p + 1 + 4 + n, .bind (.readI8 (v := -128) (by omega) (by omega) (show Holds e.buf p [byteOf (-128)] from h.left (a := [0x80#8])) hb) ?_⟩
      rw [show strType (-128 : Int) = .ascii from rfl]
      dsimp only
      rw [if_pos rfl]
      refine .bind (.readI32_nat h1 (h.right (a := [0x80#8])) hb) ?_
      have ha : asU32 (n : Int) = n := by rw [asU32_nonneg (by omega) (by omega)]; omega
      have hu : asUsize (n : Int) = n := by rw [asUsize_nonneg (by omega) (by omega)]; omega
      rw [ha, hu]
      refine .bind .getPos (.bind (.skip (by simp at hle; omega)) ?_)
      have : p + (0x80#8 :: toLE 4 n).length = p + 1 + 4 := by simp
      rw [this]
      exact .pure _
  | wide hl =>
    cases hl with
    | short h1 h2 =>
      refine ⟨p + 1 + 2 * n, .bind (.readI8 (by omega) (by omega) h hb) ?_⟩
      rw [show strType (n : Int) = .unicode by unfold strType; rw [if_neg (by omega), if_pos (by omega)]]
      dsimp only
      rw [if_neg (by omega)]
      have ha : asU32 (n : Int) = n := by rw [asU32_nonneg (by omega) (by omega)]; omega
      rw [ha]
      refine .bind .getEnv (.bind (a := 2 * n) (.lift ?_) (.bind .getPos (.bind (.skip (by simp at hle; omega)) (.pure _))))
      unfold mulU32
      rw [if_pos (by omega), Nat.mul_comm]
    | long h1 =>
      refine ⟨p + 1 + 4 + 2 * n, .bind (.readI8 (v := 127) (by omega) (by omega) (show Holds e.buf p [byteOf 127] from h.left (a := [0x7F#8])) hb) ?_⟩
      rw [show strType (127 : Int) = .unicode from rfl]
      dsimp only
      rw [if_pos rfl]
      refine .bind (.readI32_nat (by omega) (h.right (a := [0x7F#8])) hb) ?_
      have ha : asU32 (n : Int) = n := by rw [asU32_nonneg (by omega) (by omega)]; omega
      rw [ha]
      refine .bind .getEnv (.bind (a := 2 * n) (.lift ?_) (.bind .getPos (.bind (.skip (by simp at hle; omega)) ?_)))
      · unfold mulU32
        rw [if_pos (by omega), Nat.mul_comm]
      have : p + (0x7F#8 :: toLE 4 n).length = p + 1 + 4 := by simp
      rw [this]
      exact .pure _

theorem ofByte_plain {t : Byte} (h : PlainType t) :
    DirType.ofByte t.toNat = .dir ∨ DirType.ofByte t.toNat = .image := by
  rcases h with rfl | rfl
  · exact .inl rfl
  · exact .inr rfl

theorem Rd.Reads.firstCount {h : Header} {e : Env} {p : Nat} {count : Int} {t : Byte} (hc : CountFits h.ident count)
    (ht : PlainType t) (hh : Holds e.buf p [t]) :
    ∃ c, (Rd.firstCount h count).Reads e p c p ∧ c ≠ 0 := by
  unfold Rd.firstCount
  cases hi : h.ident with
  | v1 =>
    rw [hi] at hc
    have hc : 1 ≤ count ∧ count ≤ 1000000 := hc
    dsimp only
    rw [if_pos (by omega)]
    exact ⟨count, .pure _, by omega⟩
  | v2 =>
    dsimp only
    refine ⟨1, .bind .getPos (.bind (a := t.toNat) (q := p) ?_ ?_), by decide⟩
    · exact .bind .getEnv (.lift (by
        have := readAt_holds hh (w := 1) rfl
        rw [this]
        simp [leNat]))
    · rcases ofByte_plain ht with h1 | h1 <;> rw [h1] <;> exact .pure _
  | unknown =>
    rw [hi] at hc
    exact ⟨count, .pure _, hc⟩

theorem firstName_reads {h : Header} {e : Env} {count : Int} {t : Byte} {n p : Nat} {form : NameForm}
    (hb : e.buf.length < 2 ^ 63) (hf : FirstName e.buf h.dataStart count t n form p) (ht : PlainType t)
    (hc : CountFits h.ident count) :
    ((Rd.firstName h).run e ⟨0, 0⟩).1 = .ok ⟨p, NameForm.size n form, NameForm.ty form⟩ ∧ p ≤ e.buf.length ∧ n < 2 ^ 31 := by
  obtain ⟨cb, len, h1, h2, h3, h4⟩ := hf
  have hle := h3.le
  refine ⟨?_, by omega, h2.small⟩
  have e1 : Holds e.buf h.dataStart cb := (h3.left).left
  have e2 : Holds e.buf (h.dataStart + cb.length) [t] := (h3.left).right
  have e3 : Holds e.buf (h.dataStart + cb.length + 1) len := by
    have := h3.right
    simpa [Nat.add_assoc] using this
  obtain ⟨c, c1, c2⟩ := Rd.Reads.firstCount (h := h) (e := e) hc ht e2
  obtain ⟨q, hq⟩ := Rd.Reads.nameMeta h2 e3 hb
  have hp : h.dataStart + cb.length + 1 + len.length = p := by rw [h4]; simp; omega
  rw [hp] at hq
  refine Rd.Reads.fst (q := q) (.bind .seek (.bind (.wzInt h1 e1 hb) (.bind c1 ?_)))
  rw [if_neg c2]
  unfold Rd.firstNameTail
  refine .bind (.readU8 e2 hb) ?_
  rcases ofByte_plain ht with h1 | h1 <;> rw [h1] <;> exact hq

theorem firstName_meta {h : Header} {m : Mode} {buf : Bytes} {count : Int} {t : Byte} {n p : Nat} {form : NameForm}
    (hb : buf.length < 2 ^ 63) (hf : FirstName buf h.dataStart count t n form p) (ht : PlainType t)
    (hc : CountFits h.ident count) :
    ((Rd.firstName h).run (plainEnv m buf) ⟨0, 0⟩).1 = .ok ⟨p, NameForm.size n form, NameForm.ty form⟩ ∧ p ≤ buf.length ∧ n < 2 ^ 31 :=
  firstName_reads (e := plainEnv m buf) hb hf ht hc

theorem firstName2_other {h : Header} {e : Env} (hi : h.ident ≠ .v2) :
    ((Rd.firstName2 h).run e ⟨0, 0⟩).1 = .error (.lib "DecryptError") := by
  unfold Rd.firstName2
  rw [if_pos hi]
  rfl

/-- the shape of the PKG2 reading of the first name -/
theorem firstName2_meta {h : Header} {m : Mode} {buf : Bytes} {count : Int} {t : Byte} {cb : Bytes} {q : Nat} {sm : StrMeta}
    (hb : buf.length < 2 ^ 63) (hi : h.ident = .v2) (h1 : IsWzInt 4 count cb) (h3 : Holds buf h.dataStart (cb ++ [t])) (ht : t ≠ 128#8)
    (hm : (Rd.readPkg2DirMeta 1).Reads (plainEnv m buf) (h.dataStart + cb.length + 1) sm q) :
    ((Rd.firstName2 h).run (plainEnv m buf) ⟨0, 0⟩).1 = .ok sm := by
  unfold Rd.firstName2
  rw [if_neg (by rw [hi]; decide)]
  refine Rd.Reads.fst (q := q) (.bind .seek (.bind (.wzInt h1 h3.left hb) (.bind (.readU8 h3.right hb) ?_)))
  rw [if_neg (fun h : t.toNat = 128 => ht (BitVec.eq_of_toNat_eq h))]
  exact hm

theorem Rd.Reads.dirMeta {e : Env} {p n : Nat} (h1 : 1 ≤ n) (h2 : n ≤ 127) (h : Holds e.buf p [byteOf (-n)])
    (hb : e.buf.length < 2 ^ 63) :
    (Rd.readPkg2DirMeta 1).Reads e p ⟨p + 1, NameForm.size n .dir, NameForm.ty .dir⟩ (p + 1 + 2 * n) := by
  have hle := h.le
  simp at hle
  refine .bind (.readI8 (by omega) (by omega) h hb) ?_
  rw [if_neg (by omega)]
  refine .bind (a := 2 * n) (q := p + 1) ?_ ?_
  · unfold Rd.pkg2Len
    refine .bind .getEnv (.bind (a := (n : Int)) (.lift ?_) ?_)
    · unfold negI
      rw [if_neg (by omega)]; simp
    · rw [asUsize_nonneg (by omega) (by omega)]
      rw [if_pos (by simp; omega)]
      have : (n : Int).toNat * 2 = 2 * n := by simp; omega
      rw [this]
      exact .pure _
  · refine .bind .getPos (.bind (.skip (n := 2 * n) (by omega)) ?_)
    rw [Nat.mod_eq_of_lt (by omega)]
    exact .pure _

theorem Rd.Reads.dirMeta_none {e : Env} {p : Nat} {v : Int} (h1 : 0 ≤ v) (h2 : v ≤ 127) (h : Holds e.buf p [byteOf v])
    (hb : e.buf.length < 2 ^ 63) : (Rd.readPkg2DirMeta 1).Reads e p StrMeta.none (p + 1) := by
  refine .bind (.readI8 (by omega) (by omega) h hb) ?_
  rw [if_pos (by omega)]
  exact .pure _

end Wz
