import Verif.File.GuessLemmas

/-!
# C55: the key of an archive's names
-/

set_option autoImplicit false

namespace Wz

open Spec

theorem key1198_stream : kmst1198Stream = key1198 := by
  funext i
  unfold kmst1198Stream key1198 Pkg2Dec.keyAt
  have h : i % 8 = 0 ∨ i % 8 = 1 ∨ i % 8 = 2 ∨ i % 8 = 3 ∨ i % 8 = 4 ∨ i % 8 = 5 ∨ i % 8 = 6 ∨ i % 8 = 7 := by omega
  rcases h with h | h | h | h | h | h | h | h <;> rw [h] <;> decide

theorem versionKey_used (st : Bytes → Nat → Byte) (v : MapleVersion) (form : NameForm) (hf : form ≠ .dir)
    (hv : v = .bms ∨ v = .gms ∨ v = .ems) : (versionKey st v).used form = plainKey st v := by
  rcases hv with rfl | rfl | rfl <;> cases form <;> first | rfl | exact absurd rfl hf

theorem headerOf_ok {buf : Bytes} {h : Header} {k : Nat} (hh : Header.readFromBuf buf = .ok (h, k)) : headerOf buf = h := by
  unfold headerOf
  rw [hh]

theorem guessLoop_first {m : Mode} {st : Bytes → Nat → Byte} {buf : Bytes} {sm : StrMeta} {P : MapleVersion → Prop} :
    ∀ (vs : List MapleVersion), (∀ v ∈ vs, (P v ∧ verifyMeta m buf (versionKey st v) sm = .ok true) ∨
      (¬P v ∧ verifyMeta m buf (versionKey st v) sm = .ok false)) →
    ∃ r, guessLoop m st buf sm vs = .ok r ∧ FirstIn P vs r
  | [], _ => ⟨none, rfl, .none⟩
  | v :: vs, h => by
    unfold guessLoop
    rcases h v (by simp) with ⟨h1, h2⟩ | ⟨h1, h2⟩
    · rw [h2]; exact ⟨some v, rfl, .hit _ _ h1⟩
    · rw [h2]
      obtain ⟨r, h3, h4⟩ := guessLoop_first vs fun u hu => h u (by simp [hu])
      exact ⟨r, h3, .miss _ _ _ h1 h4⟩

theorem guessAmong_first {m : Mode} {st : Bytes → Nat → Byte} {buf : Bytes} {p n : Nat} {form : NameForm}
    {P : MapleVersion → Prop} (hb : buf.length < 2 ^ 63) (hp : p ≤ buf.length) (hn : n < 2 ^ 32) (vs : List MapleVersion)
    (hP : ∀ v ∈ vs, P v ↔ NameAt buf p n form ((versionKey st v).used form)) :
    ∃ r, guessAmong m st buf ⟨p, NameForm.size n form, NameForm.ty form⟩ vs = .ok r ∧ FirstIn P vs r := by
  unfold guessAmong
  dsimp only
  rw [if_neg (by cases form <;> decide)]
  refine guessLoop_first vs fun v hv => ?_
  rw [verifyMeta_eq (versionKey st v) hb hp hn]
  by_cases h : NameAt buf p n form ((versionKey st v).used form)
  · exact .inl ⟨(hP v hv).mpr h, by simp [h]⟩
  · exact .inr ⟨fun hh => h ((hP v hv).mp hh), by simp [h]⟩

theorem FirstIn.append_none {α : Type} {P : α → Prop} {as bs : List α} {r : Option α} (h1 : FirstIn P as none)
    (h2 : FirstIn P bs r) : FirstIn P (as ++ bs) r := by
  induction as with
  | nil => exact h2
  | cons a as ih =>
    cases h1 with
    | miss _ _ _ h3 h4 => exact .miss _ _ _ h3 (ih h4)

theorem FirstIn.append_some {α : Type} {P : α → Prop} {as : List α} (bs : List α) {a : α} (h1 : FirstIn P as (some a)) :
    FirstIn P (as ++ bs) (some a) := by
  induction as with
  | nil => cases h1
  | cons b as ih =>
    cases h1 with
    | hit _ _ h => exact .hit _ _ h
    | miss _ _ _ h3 h4 => exact .miss _ _ _ h3 (ih h4)

theorem FirstIn.det {α : Type} {P : α → Prop} {as : List α} {r r' : Option α} (h1 : FirstIn P as r) (h2 : FirstIn P as r') :
    r = r' := by
  induction as with
  | nil => cases h1; cases h2; rfl
  | cons a as ih =>
    cases h1 with
    | hit _ _ h => cases h2 with
      | hit => rfl
      | miss _ _ _ h3 => exact absurd h h3
    | miss _ _ _ h3 h4 => cases h2 with
      | hit _ _ h => exact absurd h h3
      | miss _ _ _ _ h5 => exact ih h4 h5

/-- names of one or two bytes a character are stored in these forms only -/
theorem Spec.NameLen.not_dir {n : Nat} {form : NameForm} {len : Bytes} (h : NameLen n form len) : form ≠ .dir := by
  cases h <;> decide

theorem plain_first {m : Mode} {st : Bytes → Nat → Byte} {buf : Bytes} {p n : Nat} {form : NameForm} (hb : buf.length < 2 ^ 63)
    (hp : p ≤ buf.length) (hn : n < 2 ^ 32) (hf : form ≠ .dir) :
    ∃ r, guessAmong m st buf ⟨p, NameForm.size n form, NameForm.ty form⟩ [.bms, .gms, .ems] = .ok r ∧
      FirstIn (ReadsAs st buf p n form) [.bms, .gms, .ems] r := by
  refine guessAmong_first hb hp hn _ fun v hv => ?_
  have hv' : v = .bms ∨ v = .gms ∨ v = .ems := by simpa using hv
  rw [versionKey_used st v form hf hv']
  rcases hv' with rfl | rfl | rfl <;> exact Iff.rfl

theorem Spec.FirstShort.name {buf : Bytes} {start : Nat} {count : Int} {t : Byte} {n p : Nat} (h : FirstShort buf start count t n p) :
    FirstName buf start count t n .narrow p := by
  obtain ⟨cb, h1, h2, h3, h4, h5⟩ := h
  refine ⟨cb, [byteOf (-n)], h1, .narrow (.short h2 h3), ?_, by rw [h5]; simp [Nat.add_assoc]⟩
  rw [List.append_assoc]
  exact h4

theorem PlainType.ne128 {t : Byte} (h : PlainType t) : t ≠ 128#8 := by
  rcases h with rfl | rfl <;> decide

/-- what the search does once the first name is found -/
theorem guessKey_of {m : Mode} {st : Bytes → Nat → Byte} {buf : Bytes} {sm sm2 : StrMeta}
    (h1 : orNone ((Rd.firstName (headerOf buf)).run (plainEnv m buf) ⟨0, 0⟩).1 = .ok sm)
    (h2 : orNone ((Rd.firstName2 (headerOf buf)).run (plainEnv m buf) ⟨0, 0⟩).1 = .ok sm2) :
    guessKey m st buf = match guessAmong m st buf sm [.bms, .gms, .ems] with
      | .error x => .error x
      | .ok (some v) => .ok (some v)
      | .ok none => guessAmong m st buf sm2 [.kmst1198] := by
  unfold guessKey
  rw [h1]
  dsimp only
  cases guessAmong m st buf sm [.bms, .gms, .ems] with
  | error x => rfl
  | ok o => cases o with
    | some v => rfl
    | none =>
      dsimp only
      rw [h2]

theorem guess_plain {m : Mode} {st : Bytes → Nat → Byte} {buf : Bytes} {h : Header} {k : Nat} {count : Int} {t : Byte} {n p : Nat}
    {form : NameForm} (hb : buf.length < 2 ^ 63) (hh : Header.readFromBuf buf = .ok (h, k))
    (hf : FirstName buf h.dataStart count t n form p) (ht : PlainType t) (hc : CountFits h.ident count)
    (h2 : orNone ((Rd.firstName2 h).run (plainEnv m buf) ⟨0, 0⟩).1 = .ok StrMeta.none) :
    ∃ r, guessKey m st buf = .ok r ∧ FirstIn (ReadsAs st buf p n form) [.bms, .gms, .ems] r := by
  obtain ⟨h3, hp, hn⟩ := firstName_meta (m := m) hb hf ht hc
  have hd : form ≠ .dir := by obtain ⟨_, _, _, h, _⟩ := hf; exact h.not_dir
  obtain ⟨r, h4, h5⟩ := plain_first (m := m) (st := st) hb hp (by omega : n < 2 ^ 32) hd
  refine ⟨r, ?_, h5⟩
  rw [← headerOf_ok hh] at h2 h3
  rw [guessKey_of (by rw [h3]; rfl) h2, h4]
  cases r <;> rfl

end Wz

namespace Wz.Props

open Wz Wz.Spec

/-- C55: the key of a PKG1 archive's names is looked for with the name of its first entry.  Of the three known versions the first
one is taken with whose key the name is an ASCII text. -/
theorem C55_guess_pkg1 (m : Mode) (st : Bytes → Nat → Byte) (buf : Bytes) (h : Header) (k : Nat) (count : Int) (t : Byte) (n p : Nat)
    (form : NameForm) (hb : buf.length < 2 ^ 63) (hh : Header.readFromBuf buf = .ok (h, k)) (hi : h.ident = .v1)
    (hf : FirstName buf h.dataStart count t n form p) (ht : PlainType t) (hc : 1 ≤ count ∧ count ≤ 1000000) :
    ∃ r, guessKey m st buf = .ok r ∧ FirstIn (ReadsAs st buf p n form) [.bms, .gms, .ems] r :=
  guess_plain hb hh hf ht (by rw [hi]; exact hc) (by rw [firstName2_other (by rw [hi]; decide)]; rfl)

/-- C55: in a PKG2 archive KMST1198 is tried after them, if the length of the name is that of a PKG2 directory. -/
theorem C55_guess_pkg2 (m : Mode) (st : Bytes → Nat → Byte) (buf : Bytes) (h : Header) (k : Nat) (count : Int) (t : Byte) (n p : Nat)
    (hb : buf.length < 2 ^ 63) (hh : Header.readFromBuf buf = .ok (h, k)) (hi : h.ident = .v2)
    (hf : FirstShort buf h.dataStart count t n p) (ht : PlainType t) :
    ∃ r, guessKey m st buf = .ok r ∧ FirstIn (ReadsAs st buf p n .narrow) [.bms, .gms, .ems, .kmst1198] r := by
  obtain ⟨h3, hp, hn⟩ := firstName_meta (m := m) hb hf.name ht (by rw [hi]; trivial)
  obtain ⟨cb, c1, c2, c3, c4, c5⟩ := hf
  have c6 : Holds buf h.dataStart (cb ++ [t]) := by
    have : cb ++ [t, byteOf (-n)] = (cb ++ [t]) ++ [byteOf (-n)] := by simp
    rw [this] at c4
    exact c4.left
  have c7 : Holds buf (h.dataStart + cb.length + 1) [byteOf (-n)] := by
    have : cb ++ [t, byteOf (-n)] = (cb ++ [t]) ++ [byteOf (-n)] := by simp
    rw [this] at c4
    have := c4.right
    simpa [Nat.add_assoc] using this
  have hm := firstName2_meta (m := m) hb hi c1 c6 (PlainType.ne128 ht) (Rd.Reads.dirMeta c2 c3 c7 hb)
  have hq : h.dataStart + cb.length + 1 + 1 = p := by omega
  rw [hq] at hm
  obtain ⟨r, h4, h5⟩ := plain_first (m := m) (st := st) (form := .narrow) hb hp (by omega : n < 2 ^ 32) (by decide)
  obtain ⟨r2, h6, h7⟩ := guessAmong_first (m := m) (st := st) (form := .dir) (P := ReadsAs st buf p n .narrow) hb hp (by omega : n < 2 ^ 32)
    [.kmst1198] (fun v hv => by
      have : v = .kmst1198 := by simpa using hv
      subst this
      show NameAt _ _ _ _ _ ↔ NameAt _ _ _ _ kmst1198Stream
      rw [key1198_stream])
  rw [← headerOf_ok hh] at h3 hm
  rw [guessKey_of (by rw [h3]; rfl) (by rw [hm]; rfl), h4]
  cases r with
  | some v => exact ⟨some v, rfl, FirstIn.append_some [MapleVersion.kmst1198] h5⟩
  | none => exact ⟨r2, h6, FirstIn.append_none h5 h7⟩

/-- C55: a name of two bytes a character in a PKG2 archive is only tried with the other three. -/
theorem C55_guess_pkg2_wide (m : Mode) (st : Bytes → Nat → Byte) (buf : Bytes) (h : Header) (k : Nat) (count : Int) (t : Byte) (n p : Nat)
    (hb : buf.length < 2 ^ 63) (hh : Header.readFromBuf buf = .ok (h, k)) (hi : h.ident = .v2)
    (hf : FirstName buf h.dataStart count t n .wide p) (ht : PlainType t) :
    ∃ r, guessKey m st buf = .ok r ∧ FirstIn (ReadsAs st buf p n .wide) [.bms, .gms, .ems] r := by
  refine guess_plain hb hh hf ht (by rw [hi]; trivial) ?_
  obtain ⟨cb, len, h1, h2, h3, -⟩ := hf
  have h4 : ∃ v : Int, ∃ r, 0 ≤ v ∧ v ≤ 127 ∧ len = [byteOf v] ++ r := by
    cases h2 with
    | wide h2 => cases h2 with
      | short a b => exact ⟨n, [], by omega, by omega, rfl⟩
      | long a => exact ⟨127, _, by omega, by omega, rfl⟩
  obtain ⟨v, r, v1, v2, rfl⟩ := h4
  have c7 : Holds buf (h.dataStart + cb.length + 1) [byteOf v] := by
    have := h3.right.left
    simpa [Nat.add_assoc] using this
  rw [firstName2_meta (m := m) hb hi h1 h3.left (PlainType.ne128 ht) (Rd.Reads.dirMeta_none v1 v2 c7 hb)]
  rfl

/-! ## With which key the file is opened -/

/-- C55: a decryptor given by the caller is used if and only if it reads the first name as ASCII text; an IV given next to it does not
matter.  (`keyForPlain`: a PKG2 decryptor is checked as if it were none.) -/
theorem C55_given_used (m : Mode) (st : Bytes → Nat → Byte) (buf : Bytes) (h : Header) (hk : Nat) (count : Int) (t : Byte) (n p : Nat)
    (form : NameForm) (k : SKey) (iv : Option Bytes) (patch : Option Int) (hb : buf.length < 2 ^ 63)
    (hh : Header.readFromBuf buf = .ok (h, hk)) (hf : FirstName buf h.dataStart count t n form p) (ht : PlainType t)
    (hc : CountFits h.ident count) :
    (NameAt buf p n form (keyForPlain k) → ∃ f, WFile.fromBuf m st buf (some k) iv patch = .ok f ∧
      OpenedAs f m buf h (keyForPlain k) k.ks k.pkg2 true patch) ∧
    (¬NameAt buf p n form (keyForPlain k) →
      WFile.fromBuf m st buf (some k) iv patch = WFile.fromBuf m st buf none none patch) := by
  obtain ⟨h3, hp, hn⟩ := firstName_meta (m := m) hb hf ht hc
  have hd : form ≠ .dir := by obtain ⟨_, _, _, h, _⟩ := hf; exact h.not_dir
  have hu : k.used form = keyForPlain k := by cases form <;> first | rfl | exact absurd rfl hd
  have hv : verifyKey m buf k = verifyMeta m buf k ⟨p, NameForm.size n form, NameForm.ty form⟩ := by
    unfold verifyKey
    rw [headerOf_ok hh, h3]
  rw [verifyMeta_eq k hb hp (by omega : n < 2 ^ 32), hu] at hv
  constructor
  · intro hn
    simp only [hn, decide_true] at hv
    refine ⟨WFile.made m buf patch (some k), ?_, rfl, headerOf_ok hh, rfl, rfl, rfl, rfl, ?_⟩
    · unfold WFile.fromBuf openKey givenKey
      dsimp only
      rw [hv]
    · cases patch <;> rfl
  · intro hn
    simp only [hn, decide_false] at hv
    unfold WFile.fromBuf openKey givenKey
    dsimp only
    rw [hv]

/-- C55: an IV stands for the decryptor made from it. -/
theorem C55_given_iv (m : Mode) (st : Bytes → Nat → Byte) (buf : Bytes) (iv : Bytes) (patch : Option Int) :
    WFile.fromBuf m st buf none (some iv) patch = WFile.fromBuf m st buf (some (ivKey st iv)) none patch := rfl

/-- C55: without a given key the file is opened with the key that was found for its names … -/
theorem C55_found_used (m : Mode) (st : Bytes → Nat → Byte) (buf : Bytes) (h : Header) (k : Nat) (patch : Option Int) (r : Option MapleVersion)
    (hh : Header.readFromBuf buf = .ok (h, k)) (hr : guessKey m st buf = .ok r) :
    ∃ f, WFile.fromBuf m st buf none none patch = .ok f ∧
      (∀ v, r = some v → v = .bms ∨ v = .gms ∨ v = .ems → OpenedAs f m buf h (plainKey st v) (plainKey st v) false true patch) ∧
      (r = some .kmst1198 → OpenedAs f m buf h (fun _ => 0#8) key1198 true true patch) ∧
      (r = none → OpenedAs f m buf h (fun _ => 0#8) (fun _ => 0#8) true false patch) := by
  refine ⟨WFile.made m buf patch (r.map (versionKey st)), ?_, ?_, ?_, ?_⟩
  · unfold WFile.fromBuf openKey givenKey
    dsimp only
    rw [hr]
  · rintro v rfl hv
    refine ⟨?_, headerOf_ok hh, ?_, rfl, rfl, rfl, by cases patch <;> rfl⟩ <;> rcases hv with rfl | rfl | rfl <;> rfl
  · rintro rfl
    refine ⟨?_, headerOf_ok hh, rfl, rfl, rfl, rfl, by cases patch <;> rfl⟩
    show Env.mk m buf _ kmst1198Stream = _
    rw [key1198_stream]
    rfl
  · rintro rfl
    exact ⟨rfl, headerOf_ok hh, rfl, rfl, rfl, rfl, by cases patch <;> rfl⟩

/-- C55: and only these can be found. -/
theorem C55_found_known (m : Mode) (st : Bytes → Nat → Byte) (buf : Bytes) (v : MapleVersion) (h : guessKey m st buf = .ok (some v)) :
    v ∈ [MapleVersion.bms, .gms, .ems, .kmst1198] := by
  have hloop : ∀ (sm : StrMeta) (vs : List MapleVersion), guessAmong m st buf sm vs = .ok (some v) → v ∈ vs := by
    intro sm vs hg
    unfold guessAmong at hg
    split at hg
    · cases hg
    · induction vs with
      | nil => cases hg
      | cons u us ih =>
        unfold guessLoop at hg
        split at hg
        · cases hg
        · cases hg; simp
        · simp [ih hg]
  unfold guessKey at h
  split at h
  · cases h
  · split at h
    · cases h
    · rename_i hg
      cases h
      have := hloop _ _ hg
      simp only [List.mem_cons, List.not_mem_nil, or_false] at this ⊢
      rcases this with h | h | h <;> simp [h]
    · split at h
      · cases h
      · have := hloop _ _ h
        simp only [List.mem_cons, List.not_mem_nil, or_false] at this ⊢
        simp [this]

end Wz.Props
