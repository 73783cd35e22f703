import Verif.File.GuessProps
import Verif.File.GuessKeys

/-!
# C55: which key is found for archives written with a known key
-/

set_option autoImplicit false

namespace Wz

open Spec

theorem FirstIn.congr {α : Type} {P Q : α → Prop} {as : List α} {r : Option α} (h : ∀ a ∈ as, P a ↔ Q a) (hr : FirstIn P as r) :
    FirstIn Q as r := by
  induction as generalizing r with
  | nil => cases hr; exact .none
  | cons a as ih =>
    cases hr with
    | hit _ _ h1 => exact .hit _ _ ((h a (by simp)).mp h1)
    | miss _ _ _ h1 h2 => exact .miss _ _ _ (fun h3 => h1 ((h a (by simp)).mpr h3)) (ih (fun b hb => h b (by simp [hb])) h2)

theorem FirstIn.some_of_mem {α : Type} {P : α → Prop} {as : List α} {r : Option α} {a : α} (ha : a ∈ as) (hp : P a)
    (hr : FirstIn P as r) : ∃ b, r = some b := by
  induction as generalizing r with
  | nil => cases ha
  | cons b as ih =>
    cases hr with
    | hit => exact ⟨b, rfl⟩
    | miss _ _ _ h1 h2 =>
      rcases List.mem_cons.mp ha with rfl | h3
      · exact absurd hp h1
      · exact ih h3 h2

theorem readsAs_plain {st : Bytes → Nat → Byte} {buf : Bytes} {p n : Nat} {form : NameForm} {v : MapleVersion}
    (hv : v ∈ [MapleVersion.bms, .gms, .ems]) : ReadsAs st buf p n form v ↔ NameAt buf p n form (plainKey st v) := by
  have hv' : v = .bms ∨ v = .gms ∨ v = .ems := by simpa using hv
  rcases hv' with rfl | rfl | rfl <;> exact Iff.rfl

end Wz

namespace Wz.Props

open Wz Wz.Spec

/-- C55: for a PKG1 archive whose first name is an ASCII text of one byte a character, written with the key of one of the three versions,
a version is found: the first one whose key has the same top bits as the right one, as far as the name goes. -/
theorem C55_found_narrow (m : Mode) (st : Bytes → Nat → Byte) (buf : Bytes) (h : Header) (k : Nat) (count : Int) (t : Byte) (p : Nat)
    (s : List Char) (v : MapleVersion) (hb : buf.length < 2 ^ 63) (hh : Header.readFromBuf buf = .ok (h, k)) (hi : h.ident = .v1)
    (hf : FirstName buf h.dataStart count t s.length .narrow p) (ht : PlainType t) (hc : 1 ≤ count ∧ count ≤ 1000000)
    (hs : ∀ c ∈ s, c.toNat < 128) (hv : v ∈ [MapleVersion.bms, .gms, .ems]) (hw : Holds buf p (nameBytes (plainKey st v) s .narrow)) :
    ∃ u, guessKey m st buf = .ok (some u) ∧
      FirstIn (fun u => ∀ i < s.length, top (plainKey st v i) = top (plainKey st u i)) [.bms, .gms, .ems] (some u) := by
  obtain ⟨r, h1, h2⟩ := C55_guess_pkg1 m st buf h k count t s.length p .narrow hb hh hi hf ht hc
  have h3 := FirstIn.congr (fun u hu => (readsAs_plain hu).trans (narrow_of_narrow (ks' := plainKey st u) hs hw)) h2
  obtain ⟨u, rfl⟩ := FirstIn.some_of_mem hv (fun i _ => rfl) h3
  exact ⟨u, h1, h3⟩

/-- C55: with two bytes a character the keys have to agree in every second byte as well. -/
theorem C55_found_wide (m : Mode) (st : Bytes → Nat → Byte) (buf : Bytes) (h : Header) (k : Nat) (count : Int) (t : Byte) (p : Nat)
    (s : List Char) (v : MapleVersion) (hb : buf.length < 2 ^ 63) (hh : Header.readFromBuf buf = .ok (h, k))
    (hi : h.ident = .v1 ∧ 1 ≤ count ∧ count ≤ 1000000 ∨ h.ident = .v2)
    (hf : FirstName buf h.dataStart count t s.length .wide p) (ht : PlainType t)
    (hs : ∀ c ∈ s, c.toNat < 128) (hv : v ∈ [MapleVersion.bms, .gms, .ems]) (hw : Holds buf p (nameBytes (plainKey st v) s .wide)) :
    ∃ u, guessKey m st buf = .ok (some u) ∧
      FirstIn (fun u => ∀ i < s.length, top (plainKey st v (2 * i)) = top (plainKey st u (2 * i)) ∧
        plainKey st v (2 * i + 1) = plainKey st u (2 * i + 1)) [.bms, .gms, .ems] (some u) := by
  have hg : ∃ r, guessKey m st buf = .ok r ∧ FirstIn (ReadsAs st buf p s.length .wide) [.bms, .gms, .ems] r := by
    rcases hi with ⟨hi, hc⟩ | hi
    · exact C55_guess_pkg1 m st buf h k count t s.length p .wide hb hh hi hf ht hc
    · exact C55_guess_pkg2_wide m st buf h k count t s.length p hb hh hi hf ht
  obtain ⟨r, h1, h2⟩ := hg
  have h3 := FirstIn.congr (fun u hu => (readsAs_plain hu).trans (wide_of_wide (ks' := plainKey st u) hs hw)) h2
  obtain ⟨u, rfl⟩ := FirstIn.some_of_mem hv (fun i _ => ⟨rfl, rfl⟩) h3
  exact ⟨u, h1, h3⟩

/-- C55: a first name that is not an ASCII text is not recognised: the right key is not found, and if it is given by the caller, it is
not used. -/
theorem C55_other_text (m : Mode) (st : Bytes → Nat → Byte) (buf : Bytes) (h : Header) (hk : Nat) (count : Int) (t : Byte) (p : Nat)
    (s : List Char) (k : SKey) (iv : Option Bytes) (patch : Option Int) (hb : buf.length < 2 ^ 63)
    (hh : Header.readFromBuf buf = .ok (h, hk)) (hi : h.ident = .v1)
    (hf : FirstName buf h.dataStart count t (utf16EncStr s).length .wide p) (ht : PlainType t) (hc : 1 ≤ count ∧ count ≤ 1000000)
    (hs : ¬∀ c ∈ s, c.toNat < 128) (hp2 : k.pkg2 = false) (hw : Holds buf p (nameBytes k.ks s .wide)) :
    WFile.fromBuf m st buf (some k) iv patch = WFile.fromBuf m st buf none none patch ∧
    ∀ v, k.ks = plainKey st v → guessKey m st buf ≠ .ok (some v) := by
  have hno := wide_not_ascii hb rfl hs hw
  constructor
  · refine (C55_given_used m st buf h hk count t _ p .wide k iv patch hb hh hf ht (by rw [hi]; exact hc)).2 ?_
    unfold keyForPlain
    rw [hp2]
    exact hno
  · intro v hv hg
    obtain ⟨r, h1, h2⟩ := C55_guess_pkg1 m st buf h hk count t _ p .wide hb hh hi hf ht hc
    rw [hg] at h1
    cases h1
    have : ∀ {as : List MapleVersion} {u : MapleVersion}, FirstIn (ReadsAs st buf p (utf16EncStr s).length .wide) as (some u) →
        u ∈ as ∧ ReadsAs st buf p (utf16EncStr s).length .wide u := by
      intro as
      induction as with
      | nil => intro u h; cases h
      | cons a as ih =>
        intro u h
        cases h with
        | hit _ _ h => exact ⟨by simp, h⟩
        | miss _ _ _ _ h => exact ⟨by simp [(ih h).1], (ih h).2⟩
    obtain ⟨h3, h4⟩ := this h2
    rw [readsAs_plain h3, ← hv] at h4
    exact hno h4

/-- C55 does not hold for PKG2 archives: a first name written in the form of PKG2 directories under whatever key is taken for a name
without key, of one byte a character, if and only if the key's bytes have their top bits set (below 86 characters). -/
theorem C55_pkg2_taken_for_plain (m : Mode) (st : Bytes → Nat → Byte) (buf : Bytes) (h : Header) (k : Nat) (count : Int) (t : Byte) (p : Nat)
    (s : List Char) (ks2 : Nat → Byte) (hb : buf.length < 2 ^ 63) (hh : Header.readFromBuf buf = .ok (h, k)) (hi : h.ident = .v2)
    (hf : FirstShort buf h.dataStart count t s.length p) (ht : PlainType t)
    (hs : ∀ c ∈ s, c.toNat < 128) (hw : Holds buf p (nameBytes ks2 s .dir)) :
    guessKey m st buf = .ok (some .bms) ↔ ∀ i < s.length, (top (ks2 i) = true ↔ i < 86) := by
  obtain ⟨r, h1, h2⟩ := C55_guess_pkg2 m st buf h k count t s.length p hb hh hi hf ht
  have hn : s.length ≤ 127 := by obtain ⟨_, _, _, h3, _⟩ := hf; exact h3
  have hkey := narrow_of_dir (ks' := plainKey st .bms) hs hn hw
  have h0 : ∀ i, (top (ks2 i) ≠ top (plainKey st .bms i) ↔ i < 86) ↔ (top (ks2 i) = true ↔ i < 86) := by
    intro i
    have : top (plainKey st .bms i) = false := by show top 0#8 = false; decide
    rw [this]
    cases top (ks2 i) <;> simp
  simp only [h0] at hkey
  rw [h1, ← hkey]
  cases h2 with
  | hit _ _ h3 => exact ⟨fun _ => h3, fun _ => rfl⟩
  | miss _ _ _ h3 h4 =>
    refine ⟨fun h5 => ?_, fun h5 => absurd h5 h3⟩
    cases h5
    cases h4 with
    | miss _ _ _ _ h5 => cases h5 with
      | miss _ _ _ _ h6 => cases h6 with
        | miss _ _ _ _ h7 => cases h7

/-- C55: so an archive of KMST1198 whose first name has at most seven characters is taken for one without key. -/
theorem C55_kmst1198_short (m : Mode) (st : Bytes → Nat → Byte) (buf : Bytes) (h : Header) (k : Nat) (count : Int) (t : Byte) (p : Nat)
    (s : List Char) (hb : buf.length < 2 ^ 63) (hh : Header.readFromBuf buf = .ok (h, k)) (hi : h.ident = .v2)
    (hf : FirstShort buf h.dataStart count t s.length p) (ht : PlainType t)
    (hs : ∀ c ∈ s, c.toNat < 128) (hn : s.length ≤ 7) (hw : Holds buf p (nameBytes key1198 s .dir)) :
    guessKey m st buf = .ok (some .bms) := by
  rw [C55_pkg2_taken_for_plain m st buf h k count t p s key1198 hb hh hi hf ht hs hw]
  intro i hi
  have : ∀ i : Fin 7, top (key1198 i) = true := by decide
  exact ⟨fun _ => by omega, fun _ => this ⟨i, by omega⟩⟩

/-- C55: with more characters it is recognised, if the two other keys do not read the first half of the name's bytes as ASCII. -/
theorem C55_kmst1198_long (m : Mode) (st : Bytes → Nat → Byte) (buf : Bytes) (h : Header) (k : Nat) (count : Int) (t : Byte) (p : Nat)
    (s : List Char) (hb : buf.length < 2 ^ 63) (hh : Header.readFromBuf buf = .ok (h, k)) (hi : h.ident = .v2)
    (hf : FirstShort buf h.dataStart count t s.length p) (ht : PlainType t)
    (hs : ∀ c ∈ s, c.toNat < 128) (hn : 8 ≤ s.length) (hw : Holds buf p (nameBytes key1198 s .dir)) :
    ∃ v, guessKey m st buf = .ok (some v) ∧
      FirstIn (fun v => v = .kmst1198 ∨ ∀ i < s.length, (top (key1198 i) ≠ top (plainKey st v i) ↔ i < 86)) [.gms, .ems, .kmst1198] (some v) := by
  obtain ⟨r, h1, h2⟩ := C55_guess_pkg2 m st buf h k count t s.length p hb hh hi hf ht
  have hl : s.length ≤ 127 := by obtain ⟨_, _, _, h3, _⟩ := hf; exact h3
  have h8 : ¬ReadsAs st buf p s.length .narrow .bms := by
    intro hr
    have := (narrow_of_dir (ks' := plainKey st .bms) hs hl hw).mp hr 7 (by omega)
    exact absurd (this.mpr (by omega)) (by show ¬top (key1198 7) ≠ top 0#8; decide)
  have h3 : FirstIn (ReadsAs st buf p s.length .narrow) [.gms, .ems, .kmst1198] r := by
    cases h2 with
    | hit _ _ h => exact absurd h h8
    | miss _ _ _ _ h => exact h
  have h4 := FirstIn.congr (Q := fun v => v = .kmst1198 ∨ ∀ i < s.length, (top (key1198 i) ≠ top (plainKey st v i) ↔ i < 86)) (fun v hv => by
    have hv' : v = .gms ∨ v = .ems ∨ v = .kmst1198 := by simpa using hv
    rcases hv' with rfl | rfl | rfl
    · exact (narrow_of_dir (ks' := plainKey st .gms) hs hl hw).trans ⟨.inr, fun h => h.resolve_left (by decide)⟩
    · exact (narrow_of_dir (ks' := plainKey st .ems) hs hl hw).trans ⟨.inr, fun h => h.resolve_left (by decide)⟩
    · exact ⟨fun _ => .inl rfl, fun _ => ⟨s, hs, rfl, hw⟩⟩) h3
  obtain ⟨v, rfl⟩ := FirstIn.some_of_mem (a := MapleVersion.kmst1198) (by simp) (.inl rfl) h4
  exact ⟨v, h1, h4⟩

/-- C55 does not hold for given PKG2 decryptors: the right one is used only if its bytes have their top bits set as far as the
first name goes; otherwise it is dropped, and the file is opened as if no key was given. -/
theorem C55_given_pkg2 (m : Mode) (st : Bytes → Nat → Byte) (buf : Bytes) (h : Header) (hk : Nat) (count : Int) (t : Byte) (p : Nat)
    (s : List Char) (k : SKey) (iv : Option Bytes) (patch : Option Int) (hb : buf.length < 2 ^ 63)
    (hh : Header.readFromBuf buf = .ok (h, hk)) (hi : h.ident = .v2) (hf : FirstShort buf h.dataStart count t s.length p)
    (ht : PlainType t) (hs : ∀ c ∈ s, c.toNat < 128) (hp2 : k.pkg2 = true) (hw : Holds buf p (nameBytes k.ks s .dir)) :
    ((∀ i < s.length, (top (k.ks i) = true ↔ i < 86)) → ∃ f, WFile.fromBuf m st buf (some k) iv patch = .ok f ∧
      OpenedAs f m buf h (fun _ => 0#8) k.ks true true patch) ∧
    ((¬∀ i < s.length, (top (k.ks i) = true ↔ i < 86)) →
      WFile.fromBuf m st buf (some k) iv patch = WFile.fromBuf m st buf none none patch) := by
  have hn : s.length ≤ 127 := by obtain ⟨_, _, _, h3, _⟩ := hf; exact h3
  have hu := C55_given_used m st buf h hk count t s.length p .narrow k iv patch hb hh hf.name ht (by rw [hi]; trivial)
  have hz : keyForPlain k = fun _ => 0#8 := by unfold keyForPlain; rw [hp2]; rfl
  rw [hz, hp2] at hu
  have hkey := narrow_of_dir (ks' := fun _ => 0#8) hs hn hw
  have h0 : ∀ i, (top (k.ks i) ≠ top 0#8 ↔ i < 86) ↔ (top (k.ks i) = true ↔ i < 86) := by
    intro i
    have : top 0#8 = false := by decide
    rw [this]
    cases top (k.ks i) <;> simp
  simp only [h0] at hkey
  rw [hkey] at hu
  exact hu

end Wz.Props
