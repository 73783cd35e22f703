import Verif.File.GuessKeyProps

/-!
# C55: archives in which no name can be found
-/

set_option autoImplicit false

namespace Wz

open Spec

/-- reading at `p` fails with `x` -/
def Rd.Fails {α : Type} (m : Rd α) (e : Env) (p : Nat) (x : Err) : Prop := ∀ c : Cur, c.pos = p → (m.run e c).1 = .error x

theorem Rd.Fails.fail {α : Type} {e : Env} {p : Nat} {x : Err} : (Rd.fail x : Rd α).Fails e p x := fun _ _ => rfl

theorem Rd.Fails.lift {α : Type} {e : Env} {p : Nat} {x : Err} {r : Except Err α} (h : r = .error x) : (Rd.lift r).Fails e p x :=
  fun c _ => by rw [Rd.lift_run, h]

theorem Rd.Fails.next {α β : Type} {m : Rd α} {f : α → Rd β} {e : Env} {p q : Nat} {a : α} {x : Err} (hm : m.Reads e p a q)
    (hf : (f a).Fails e q x) : (m >>= f).Fails e p x := by
  intro c hc
  obtain ⟨c1, h1, h2⟩ := hm c hc
  rw [Rd.bind_run, h1]
  exact hf c1 h2

theorem Rd.Fails.first {α β : Type} {m : Rd α} {f : α → Rd β} {e : Env} {p : Nat} {x : Err} (hm : m.Fails e p x) :
    (m >>= f).Fails e p x := by
  intro c hc
  have := hm c hc
  rw [Rd.bind_run]
  generalize m.run e c = r at this
  obtain ⟨r1, c1⟩ := r
  change r1 = _ at this
  subst this
  rfl

/-- what opening does when the first name cannot be found -/
theorem fromBuf_refused {m : Mode} {st : Bytes → Nat → Byte} {buf : Bytes} {x : Err}
    (h : ((Rd.firstName (headerOf buf)).run (plainEnv m buf) ⟨0, 0⟩).1 = .error x) (hx : x.isPanic = false) (k : SKey) (iv : Option Bytes)
    (patch : Option Int) : WFile.fromBuf m st buf (some k) iv patch = WFile.fromBuf m st buf none none patch := by
  have hv : verifyKey m buf k = .ok false := by
    unfold verifyKey
    rw [h]
    dsimp only
    rw [hx]
    rfl
  unfold WFile.fromBuf openKey givenKey
  dsimp only
  rw [hv]

theorem Rd.Reads.emptyMeta {e : Env} {p : Nat} (h : Holds e.buf p [0#8]) (hb : e.buf.length < 2 ^ 63) :
    Rd.readWzStringMeta.Reads e p StrMeta.none (p + 1) := by
  refine .bind (.readI8 (v := 0) (by omega) (by omega) (show Holds e.buf p [byteOf 0] from h) hb) ?_
  exact .pure _

theorem guess_nothing {m : Mode} {st : Bytes → Nat → Byte} {buf : Bytes}
    (h1 : orNone ((Rd.firstName (headerOf buf)).run (plainEnv m buf) ⟨0, 0⟩).1 = .ok StrMeta.none)
    (h2 : orNone ((Rd.firstName2 (headerOf buf)).run (plainEnv m buf) ⟨0, 0⟩).1 = .ok StrMeta.none) :
    guessKey m st buf = .ok none := by
  rw [guessKey_of h1 h2]
  rfl

theorem firstName_missing {e : Env} {h : Header} {count : Int} {cb : Bytes} (hb : e.buf.length < 2 ^ 63) (hi : h.ident = .v1)
    (hw : IsWzInt 4 count cb)
    (hc : Holds e.buf h.dataStart cb ∧ ¬(1 ≤ count ∧ count ≤ 1000000) ∨
      ∃ t, Holds e.buf h.dataStart (cb ++ [t]) ∧ t ≠ 2#8 ∧ t ≠ 3#8 ∧ t ≠ 4#8) :
    (Rd.firstName h).Fails e 0 (.lib "DecryptError") := by
  have h0 : Holds e.buf h.dataStart cb := by
    rcases hc with ⟨h1, _⟩ | ⟨t, h1, _⟩
    · exact h1
    · exact h1.left
  refine .next .seek (.next (.wzInt hw h0 hb) ?_)
  unfold Rd.firstCount
  rw [hi]
  dsimp only
  by_cases hr : 0 ≤ count ∧ count ≤ 1000000
  · rw [if_pos hr]
    refine .next (.pure _) ?_
    by_cases hz : count = 0
    · rw [if_pos hz]; exact .fail
    · rw [if_neg hz]
      rcases hc with ⟨_, h1⟩ | ⟨t, h1, h2, h3, h4⟩
      · exact absurd ⟨by omega, hr.2⟩ h1
      · refine .next (.readU8 h1.right hb) ?_
        have e2 : t.toNat ≠ 2 := fun hx => h2 (BitVec.eq_of_toNat_eq hx)
        have e3 : t.toNat ≠ 3 := fun hx => h3 (BitVec.eq_of_toNat_eq hx)
        have e4 : t.toNat ≠ 4 := fun hx => h4 (BitVec.eq_of_toNat_eq hx)
        unfold DirType.ofByte
        rw [if_neg e2, if_neg e3, if_neg e4]
        by_cases e1 : t.toNat = 1
        · rw [if_pos e1]; exact .fail
        · rw [if_neg e1]; exact .fail
  · rw [if_neg hr]
    exact .first .fail

theorem firstName_overflow {e : Env} {h : Header} {count : Int} {t : Byte} {cb : Bytes} {l : Int} (hm0 : e.mode = .checked)
    (hb : e.buf.length < 2 ^ 63) (hw : IsWzInt 4 count cb) (hl : -2 ^ 31 ≤ l ∧ l < 0)
    (hf : Holds e.buf h.dataStart (cb ++ [t] ++ (0x7F#8 :: toLE 4 (unsign 32 l)))) (ht : PlainType t) (hc : CountFits h.ident count) :
    (Rd.firstName h).Fails e 0 .panicOverflow := by
  have e1 : Holds e.buf h.dataStart cb := (hf.left).left
  have e2 : Holds e.buf (h.dataStart + cb.length) [t] := (hf.left).right
  have e3 : Holds e.buf (h.dataStart + cb.length + 1) (0x7F#8 :: toLE 4 (unsign 32 l)) := by
    have := hf.right
    simpa [Nat.add_assoc] using this
  obtain ⟨c, c1, c2⟩ := Rd.Reads.firstCount (h := h) (e := e) hc ht e2
  have hm : Rd.readWzStringMeta.Fails e (h.dataStart + cb.length + 1) .panicOverflow := by
    refine .next (.readI8 (v := 127) (by omega) (by omega)
      (show Holds _ _ [byteOf 127] from e3.left (a := [0x7F#8])) hb) ?_
    rw [show strType (127 : Int) = .unicode from rfl]
    dsimp only
    rw [if_pos rfl]
    refine .next (Rd.Reads.readInt_enc (w := 4) (v := l) (by omega) (by omega) (by omega) (e3.right (a := [0x7F#8])) hb) (.next .getEnv (.first (.lift ?_)))
    unfold mulU32 asU32
    rw [hm0, if_neg (by omega)]
  refine .next .seek (.next (.wzInt hw e1 hb) (.next c1 ?_))
  rw [if_neg c2]
  refine .next (.readU8 e2 hb) ?_
  rcases ofByte_plain ht with h1 | h1 <;> rw [h1] <;> exact hm

end Wz

namespace Wz.Props

open Wz Wz.Spec

/-- C55: a PKG1 archive without entries, with an impossible number of entries or with an entry of another type at its beginning has no
first name: no key is found for it, and a given one is not used. -/
theorem C55_no_name (m : Mode) (st : Bytes → Nat → Byte) (buf : Bytes) (h : Header) (hk : Nat) (count : Int) (cb : Bytes)
    (k : SKey) (iv : Option Bytes) (patch : Option Int) (hb : buf.length < 2 ^ 63)
    (hh : Header.readFromBuf buf = .ok (h, hk)) (hi : h.ident = .v1) (hw : IsWzInt 4 count cb)
    (hc : Holds buf h.dataStart cb ∧ ¬(1 ≤ count ∧ count ≤ 1000000) ∨
      ∃ t, Holds buf h.dataStart (cb ++ [t]) ∧ t ≠ 2#8 ∧ t ≠ 3#8 ∧ t ≠ 4#8) :
    guessKey m st buf = .ok none ∧
    WFile.fromBuf m st buf (some k) iv patch = WFile.fromBuf m st buf none none patch := by
  have hfail := firstName_missing (e := plainEnv m buf) hb hi hw hc
  have h1 := hfail ⟨0, 0⟩ rfl
  rw [← headerOf_ok hh] at h1
  refine ⟨guess_nothing (by rw [h1]; rfl) ?_, fromBuf_refused h1 rfl k iv patch⟩
  rw [headerOf_ok hh, firstName2_other (by rw [hi]; decide)]
  rfl

/-- C55: for an empty first name no key is found, and every given key is used. -/
theorem C55_empty_name (m : Mode) (st : Bytes → Nat → Byte) (buf : Bytes) (h : Header) (hk : Nat) (count : Int) (t : Byte) (cb : Bytes)
    (k : SKey) (iv : Option Bytes) (patch : Option Int) (hb : buf.length < 2 ^ 63)
    (hh : Header.readFromBuf buf = .ok (h, hk)) (hw : IsWzInt 4 count cb) (hf : Holds buf h.dataStart (cb ++ [t] ++ [0#8]))
    (ht : PlainType t) (hc : CountFits h.ident count) :
    guessKey m st buf = .ok none ∧
    ∃ f, WFile.fromBuf m st buf (some k) iv patch = .ok f ∧ OpenedAs f m buf h (keyForPlain k) k.ks k.pkg2 true patch := by
  have e1 : Holds (plainEnv m buf).buf h.dataStart cb := (hf.left).left
  have e2 : Holds (plainEnv m buf).buf (h.dataStart + cb.length) [t] := (hf.left).right
  have e3 : Holds (plainEnv m buf).buf (h.dataStart + cb.length + 1) [0#8] := by
    have := hf.right
    show Holds buf _ _
    simpa [Nat.add_assoc] using this
  obtain ⟨c, c1, c2⟩ := Rd.Reads.firstCount (h := h) (e := plainEnv m buf) hc ht e2
  have h1 : ((Rd.firstName h).run (plainEnv m buf) ⟨0, 0⟩).1 = .ok StrMeta.none := by
    refine Rd.Reads.fst (q := h.dataStart + cb.length + 1 + 1) (.bind .seek (.bind (.wzInt hw e1 hb) (.bind c1 ?_)))
    rw [if_neg c2]
    refine .bind (.readU8 e2 hb) ?_
    rcases ofByte_plain ht with h1 | h1 <;> rw [h1] <;> exact .emptyMeta e3 hb
  have h2 : orNone ((Rd.firstName2 h).run (plainEnv m buf) ⟨0, 0⟩).1 = .ok StrMeta.none := by
    by_cases hi : h.ident = .v2
    · rw [firstName2_meta (m := m) hb hi hw hf.left (PlainType.ne128 ht) (Rd.Reads.dirMeta_none (v := 0) (by omega) (by omega) e3 hb)]
      rfl
    · rw [firstName2_other hi]; rfl
  refine ⟨guess_nothing (by rw [headerOf_ok hh, h1]; rfl) (by rw [headerOf_ok hh]; exact h2), WFile.made m buf patch (some k), ?_, rfl,
    headerOf_ok hh, rfl, rfl, rfl, rfl, by cases patch <;> rfl⟩
  have hv : verifyKey m buf k = .ok true := by
    unfold verifyKey
    rw [headerOf_ok hh, h1]
    rfl
  unfold WFile.fromBuf openKey givenKey
  dsimp only
  rw [hv]

/-- C55: a PKG2 archive without entries, in which the second, equal count follows at once, or another one, has no key. -/
theorem C55_pkg2_empty (m : Mode) (st : Bytes → Nat → Byte) (buf : Bytes) (h : Header) (hk : Nat) (count : Int) (cb : Bytes) (v : Nat)
    (hb : buf.length < 2 ^ 63) (hh : Header.readFromBuf buf = .ok (h, hk)) (hi : h.ident = .v2) (hw : IsWzInt 4 count cb)
    (hv : v < 2 ^ 32) (hf : Holds buf h.dataStart (cb ++ (0x80#8 :: toLE 4 v))) :
    guessKey m st buf = .ok none := by
  have e1 : Holds (plainEnv m buf).buf h.dataStart cb := hf.left
  have e2 : Holds (plainEnv m buf).buf (h.dataStart + cb.length) [0x80#8] := hf.right.head
  have e3 : Holds (plainEnv m buf).buf (h.dataStart + cb.length) (0x80#8 :: toLE 4 v) := hf.right
  have h1 : (Rd.firstName h).Fails (plainEnv m buf) 0 (.lib "DecryptError") := by
    refine .next .seek (.next (.wzInt hw e1 hb) (.first ?_))
    unfold Rd.firstCount
    rw [hi]
    dsimp only
    refine .next .getPos (.next (a := 128) (q := h.dataStart + cb.length) ?_ ?_)
    · exact .bind .getEnv (.lift (by
        have := readAt_holds e2 (w := 1) rfl
        rw [this]
        rfl))
    · exact .fail
  have h2 : orNone ((Rd.firstName2 h).run (plainEnv m buf) ⟨0, 0⟩).1 = .ok StrMeta.none := by
    have hwz : IsWzInt 4 (signed 32 v) (0x80#8 :: toLE 4 v) := by
      have hu : unsign (8 * 4) (signed 32 v) = v := by
        unfold signed unsign
        rw [BitVec.toInt_eq_toNat_bmod, BitVec.toNat_ofNat, Nat.mod_eq_of_lt hv]
        have : (Int.bmod (v : Int) (2 ^ 32)) % ((2 ^ (8 * 4) : Nat) : Int) = v := by
          rw [show (2 ^ (8 * 4) : Nat) = 2 ^ 32 from rfl, Int.bmod_emod]
          omega
        rw [this]
        rfl
      have hl : -2 ^ 31 ≤ signed 32 v ∧ signed 32 v < 2 ^ 31 := by
        unfold signed
        have a := BitVec.toInt_lt (x := BitVec.ofNat 32 v)
        have b := BitVec.le_toInt (x := BitVec.ofNat 32 v)
        omega
      have := IsWzInt.long (w := 4) (v := signed 32 v) hl.1 hl.2
      rw [hu] at this
      exact this
    unfold Rd.firstName2
    rw [if_neg (by rw [hi]; decide)]
    by_cases heq : signed 32 v = count
    · have : Rd.Reads (do
          Rd.seek h.dataStart
          let count ← Rd.readWzInt
          let b ← Rd.readU8
          if b = 128 then do
            let p ← Rd.getPos
            Rd.seek (p - 1)
            let again ← Rd.readWzInt
            if again = count then return StrMeta.none else Rd.fail (.lib "DecryptError")
          else Rd.readPkg2DirMeta 1) (plainEnv m buf) 0 StrMeta.none (h.dataStart + cb.length + (0x80#8 :: toLE 4 v).length) := by
        refine .bind .seek (.bind (.wzInt hw e1 hb) (.bind (.readU8 e2 hb) ?_))
        rw [if_pos (by decide)]
        refine .bind .getPos (.bind .seek (.bind (.wzInt hwz e3 hb) ?_))
        rw [if_pos heq]
        exact .pure _
      rw [Rd.Reads.fst (c := ⟨0, 0⟩) this]
      rfl
    · have : Rd.Fails (do
          Rd.seek h.dataStart
          let count ← Rd.readWzInt
          let b ← Rd.readU8
          if b = 128 then do
            let p ← Rd.getPos
            Rd.seek (p - 1)
            let again ← Rd.readWzInt
            if again = count then return StrMeta.none else Rd.fail (.lib "DecryptError")
          else Rd.readPkg2DirMeta 1) (plainEnv m buf) 0 (.lib "DecryptError") := by
        refine .next .seek (.next (.wzInt hw e1 hb) (.next (.readU8 e2 hb) ?_))
        rw [if_pos (by decide)]
        refine .next .getPos (.next .seek (.next (.wzInt hwz e3 hb) ?_))
        rw [if_neg heq]
        exact .fail
      rw [this ⟨0, 0⟩ rfl]
      rfl
  have h3 := h1 ⟨0, 0⟩ rfl
  rw [← headerOf_ok hh] at h3 h2
  exact guess_nothing (by rw [h3]; rfl) h2

/-- C55: a first name stored elsewhere (type 2) is looked for from the beginning of the directory, where the directory itself counts from
the beginning of the contents (C20): with a version field these differ by two bytes. -/
theorem C55_name_elsewhere (m : Mode) (st : Bytes → Nat → Byte) (buf : Bytes) (h : Header) (hk : Nat) (count : Int) (cb len : Bytes)
    (off n : Nat) (form : NameForm) (hb : buf.length < 2 ^ 63)
    (hh : Header.readFromBuf buf = .ok (h, hk)) (hi : h.ident = .v1) (hw : IsWzInt 4 count cb) (hc : 1 ≤ count ∧ count ≤ 1000000)
    (ho : off < 2 ^ 31) (hf : Holds buf h.dataStart (cb ++ [2#8] ++ toLE 4 off)) (hl : NameLen n form len)
    (hn : Holds buf (h.dataStart + off + 1) len) :
    ∃ r, guessKey m st buf = .ok r ∧
      FirstIn (ReadsAs st buf (h.dataStart + off + 1 + len.length) n form) [.bms, .gms, .ems] r := by
  have e1 : Holds (plainEnv m buf).buf h.dataStart cb := (hf.left).left
  have e2 : Holds (plainEnv m buf).buf (h.dataStart + cb.length) [2#8] := (hf.left).right
  have e3 : Holds (plainEnv m buf).buf (h.dataStart + cb.length + 1) (toLE 4 off) := by
    have := hf.right
    show Holds buf _ _
    simpa [Nat.add_assoc] using this
  have hle := hn.le
  obtain ⟨q, hq⟩ := Rd.Reads.nameMeta (e := plainEnv m buf) hl hn hb
  have h1 : ((Rd.firstName h).run (plainEnv m buf) ⟨0, 0⟩).1 = .ok ⟨h.dataStart + off + 1 + len.length, NameForm.size n form, NameForm.ty form⟩ := by
    refine Rd.Reads.fst (q := h.dataStart + cb.length + 1 + 4) (.bind .seek (.bind (.wzInt hw e1 hb) (.bind (a := count) (q := h.dataStart + cb.length) ?_ ?_)))
    · unfold Rd.firstCount
      rw [hi]
      dsimp only
      rw [if_pos ⟨by omega, hc.2⟩]
      exact .pure _
    · rw [if_neg (by omega)]
      refine .bind (.readU8 e2 hb) ?_
      rw [show DirType.ofByte (2#8).toNat = .metaAt from rfl]
      dsimp only
      refine .bind (.readI32_nat ho e3 hb) (.bind .getEnv (.bind (a := h.dataStart + off) (.lift ?_) (.bind (a := h.dataStart + off + 1) (.lift ?_) (.metaAt hq))))
      · rw [asUsize_nonneg (by omega) (by omega), Int.toNat_natCast]
        exact addU_ok (by omega)
      · exact addU_ok (by omega)
  have hd := hl.not_dir
  have hns := hl.small
  obtain ⟨r, h4, h5⟩ := plain_first (m := m) (st := st) (p := h.dataStart + off + 1 + len.length) (n := n) hb (by omega) (by omega) hd
  refine ⟨r, ?_, h5⟩
  have h2 : orNone ((Rd.firstName2 (headerOf buf)).run (plainEnv m buf) ⟨0, 0⟩).1 = .ok StrMeta.none := by
    rw [headerOf_ok hh, firstName2_other (by rw [hi]; decide)]; rfl
  rw [guessKey_of (by rw [headerOf_ok hh, h1]; rfl) h2, h4]
  cases r <;> rfl

/-- C55 does not hold for a name whose length is stored as a negative number in the long form of two bytes a character: a build with
overflow checks panics when the archive is opened. -/
theorem C55_length_panics (st : Bytes → Nat → Byte) (buf : Bytes) (h : Header) (hk : Nat) (count : Int) (t : Byte) (cb : Bytes) (l : Int)
    (existing : Option SKey) (iv : Option Bytes) (patch : Option Int) (hb : buf.length < 2 ^ 63)
    (hh : Header.readFromBuf buf = .ok (h, hk)) (hw : IsWzInt 4 count cb) (hl : -2 ^ 31 ≤ l ∧ l < 0)
    (hf : Holds buf h.dataStart (cb ++ [t] ++ (0x7F#8 :: toLE 4 (unsign 32 l)))) (ht : PlainType t) (hc : CountFits h.ident count) :
    WFile.fromBuf .checked st buf existing iv patch = .error .panicOverflow := by
  have h1 := firstName_overflow (e := plainEnv .checked buf) rfl hb hw hl hf ht hc
  have h2 := h1 ⟨0, 0⟩ rfl
  rw [← headerOf_ok hh] at h2
  have hg : guessKey .checked st buf = .error .panicOverflow := by
    unfold guessKey
    rw [h2]
    rfl
  have hv : ∀ k, verifyKey .checked buf k = .error .panicOverflow := by
    intro k
    unfold verifyKey
    rw [h2]
    rfl
  unfold WFile.fromBuf openKey
  cases givenKey st existing iv with
  | none => dsimp only; rw [hg]
  | some k => dsimp only; rw [hv]

/-- C55: what a file is parsed as depends on its header alone; a file without a known header is an error. -/
theorem C55_parse (F : Fuel) (n : Nat) (m : Mode) (st : Bytes → Nat → Byte) (buf : Bytes) (existing : Option SKey) (iv : Option Bytes)
    (patch patch2 : Option Int) (cache : List Cached) (f : WFile) (hf : WFile.fromBuf m st buf existing iv patch = .ok f) :
    ((∃ e, Header.readFromBuf buf = .error e) → f.parseTop F n patch2 cache = (.error (.lib "UnknownPkgVersion"), f, [])) ∧
    (∀ h k, Header.readFromBuf buf = .ok (h, k) → h.ident = .v1 →
      (f.parseTop F n patch2 cache).1 = (f.parsePkg1 F n patch2).1 ∧ (f.parseTop F n patch2 cache).2.1 = (f.parsePkg1 F n patch2).2 ∧
      (f.parseTop F n patch2 cache).2.2 = []) ∧
    (∀ h k, Header.readFromBuf buf = .ok (h, k) → h.ident = .v2 →
      (f.parseTop F n patch2 cache).1 = (f.parsePkg2 F cache).1.map Prod.snd ∧ (f.parseTop F n patch2 cache).2 = (f.parsePkg2 F cache).2) := by
  have hd : f.hdr = headerOf buf := by
    unfold WFile.fromBuf at hf
    split at hf
    · cases hf
    · cases hf; rfl
  refine ⟨?_, ?_, ?_⟩
  · rintro ⟨e, he⟩
    unfold WFile.parseTop
    rw [hd]
    unfold headerOf
    rw [he]
  · intro h k hh hi
    unfold WFile.parseTop
    rw [hd, headerOf_ok hh, hi]
    exact ⟨rfl, rfl, rfl⟩
  · intro h k hh hi
    unfold WFile.parseTop
    rw [hd, headerOf_ok hh, hi]
    dsimp only
    rcases f.parsePkg2 F cache with ⟨r, f', c⟩
    cases r <;> exact ⟨rfl, rfl⟩

end Wz.Props
