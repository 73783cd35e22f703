import Verif.Reader.OnlyLemmas
/-!
# Property theorems about reading: C01 - C06
-/

set_option autoImplicit false

namespace Wz.Props
open Wz Wz.Spec

/-- a small environment for the examples -/
def exEnv (buf : Bytes) : Env := { mode := .checked, buf := buf, ks := fun i => BitVec.ofNat 8 (7 * i + 3), ks2 := fun _ => 0x11#8 }

/-! ## C01 compressed integers -/

/-- C01: every legal stored form of a 32-bit number, anywhere in any buffer, is read back as that number
and exactly its bytes are consumed. -/
theorem C01_int32 (e : Env) (c : Cur) (v : Int) (bs : Bytes) (hv : IsWzInt 4 v bs)
    (hh : Holds e.buf c.pos bs) (hb : e.buf.length < 2 ^ 63) :
    Rd.readWzInt.run e c = (.ok v, { c with pos := c.pos + bs.length }) := by
  unfold Rd.readWzInt
  cases hv with
  | short h0 h1 =>
    rw [Rd.bind_ok (Rd.readI8_run hh hb), toInt_byteOf (by omega) (by omega), if_neg (by omega)]
    rfl
  | long h0 h1 =>
    have ht : (0x80#8 : Byte).toInt = -128 := by decide
    rw [Rd.bind_ok (Rd.readI8_run hh.head hb), ht, if_pos rfl]
    unfold Rd.readI32
    rw [Rd.readInt_enc (w := 4) hh.tail (by omega) h0 h1 hb]
    simp [Nat.add_assoc]

/-- C01: the same for 64-bit numbers. -/
theorem C01_int64 (e : Env) (c : Cur) (v : Int) (bs : Bytes) (hv : IsWzInt 8 v bs)
    (hh : Holds e.buf c.pos bs) (hb : e.buf.length < 2 ^ 63) :
    Rd.readWzInt64.run e c = (.ok v, { c with pos := c.pos + bs.length }) := by
  unfold Rd.readWzInt64
  cases hv with
  | short h0 h1 =>
    rw [Rd.bind_ok (Rd.readI8_run hh hb), toInt_byteOf (by omega) (by omega), if_neg (by omega)]
    rfl
  | long h0 h1 =>
    have ht : (0x80#8 : Byte).toInt = -128 := by decide
    rw [Rd.bind_ok (Rd.readI8_run hh.head hb), ht, if_pos rfl]
    unfold Rd.readI64
    rw [Rd.readInt_enc (w := 8) hh.tail (by omega) h0 h1 hb]
    simp [Nat.add_assoc]

/-- common shape of `read_wz_int` and `read_wz_int64` -/
private theorem wzInt_converse (w : Nat) (hw : 0 < w) (e : Env) (c c' : Cur) (v : Int)
    (hb : e.buf.length < 2 ^ 63)
    (h : (Rd.readI8 >>= fun small => if small = -128 then Rd.readInt w else pure small).run e c = (.ok v, c')) :
    ∃ bs, IsWzInt w v bs ∧ Holds e.buf c.pos bs ∧ c' = { c with pos := c.pos + bs.length } := by
  rw [Rd.bind_run] at h
  cases hr : Rd.readI8.run e c with
  | mk r c1 =>
    rw [hr] at h
    cases r with
    | error x => cases h
    | ok small =>
      obtain ⟨hp, hc1, hs⟩ := Rd.readInt_ok hr hb
      have hholds : Holds e.buf c.pos ((e.buf.drop c.pos).take 1) := Holds.of_slice hp
      obtain ⟨b, hbb⟩ : ∃ b, (e.buf.drop c.pos).take 1 = [b] := by
        apply List.length_eq_one_iff.mp; simp; omega
      rw [hbb] at hholds hs
      rw [show 8 * 1 = 8 from rfl, signed_byte] at hs
      simp only [] at h
      split at h
      · rename_i hm
        obtain ⟨hp2, hc2, hv⟩ := Rd.readInt_ok h hb
        have hb80 : b = 0x80#8 := by
          apply BitVec.eq_of_toInt_eq; rw [← hs, hm]; decide
        subst hb80
        have hp2' : c.pos + 1 + w ≤ e.buf.length := by rw [hc1] at hp2; exact hp2
        have hposn : c1.pos = c.pos + 1 := by rw [hc1]
        rw [hposn] at hv
        have hsl := Holds.of_slice hp2'
        have hlen : ((e.buf.drop (c.pos + 1)).take w).length = w := by simp; omega
        have hrange := signed_range (bits := 8 * w) (v := leNat ((e.buf.drop (c.pos + 1)).take w)) (by omega)
        rw [← hv] at hrange
        have henc : toLE w (unsign (8 * w) v) = (e.buf.drop (c.pos + 1)).take w := by
          have h2 := toLE_leNat ((e.buf.drop (c.pos + 1)).take w)
          rw [hlen] at h2
          rw [← h2]
          congr 1
          have hlt := leNat_lt ((e.buf.drop (c.pos + 1)).take w)
          rw [hlen, show (256 : Nat) ^ w = 2 ^ (8 * w) by rw [Nat.pow_mul]] at hlt
          have hu : unsign (8 * w) v < 2 ^ (8 * w) := unsign_lt _ _
          have : signed (8 * w) (unsign (8 * w) v) = signed (8 * w) (leNat ((e.buf.drop (c.pos + 1)).take w)) := by
            rw [signed_unsign (by omega) hrange.1 hrange.2, hv]
          unfold signed at this
          have := congrArg BitVec.toNat (BitVec.eq_of_toInt_eq this)
          simpa [Nat.mod_eq_of_lt hu, Nat.mod_eq_of_lt hlt] using this
        refine ⟨_, IsWzInt.long hrange.1 hrange.2, ?_, ?_⟩
        · rw [henc]
          obtain ⟨pre, post, hbuf, hpre⟩ := hholds
          have hd : e.buf.drop (c.pos + 1) = post := by
            rw [hbuf, ← hpre]; simp [List.drop_append]
          refine ⟨pre, post.drop w, ?_, hpre⟩
          rw [hd]
          conv => lhs; rw [hbuf]
          simp
        · rw [hc2, hc1]; simp; omega
      · rename_i hm
        simp only [Rd.pure_run, Prod.mk.injEq, Except.ok.injEq] at h
        obtain ⟨hv, hc⟩ := h
        have hge : -128 ≤ b.toInt := BitVec.le_toInt b
        have hlt : b.toInt < 128 := BitVec.toInt_lt
        have : b = byteOf v := by
          apply BitVec.eq_of_toInt_eq
          rw [toInt_byteOf (by omega) (by omega), ← hv, hs]
        refine ⟨[byteOf v], IsWzInt.short (by omega) (by omega), by rw [← this]; exact hholds, ?_⟩
        rw [← hc, hc1]; rfl

/-- C01: nothing else is accepted: a successful read always read a legal form of the number returned. -/
theorem C01_int32_only (e : Env) (c c' : Cur) (v : Int) (hb : e.buf.length < 2 ^ 63)
    (h : Rd.readWzInt.run e c = (.ok v, c')) :
    ∃ bs, IsWzInt 4 v bs ∧ Holds e.buf c.pos bs ∧ c' = { c with pos := c.pos + bs.length } :=
  wzInt_converse 4 (by omega) e c c' v hb h

theorem C01_int64_only (e : Env) (c c' : Cur) (v : Int) (hb : e.buf.length < 2 ^ 63)
    (h : Rd.readWzInt64.run e c = (.ok v, c')) :
    ∃ bs, IsWzInt 8 v bs ∧ Holds e.buf c.pos bs ∧ c' = { c with pos := c.pos + bs.length } :=
  wzInt_converse 8 (by omega) e c c' v hb h

example : IsWzInt 4 (-128) [0x80#8, 0x80#8, 0xFF#8, 0xFF#8, 0xFF#8] ∧
    Holds ([0x01#8] ++ [0x80#8, 0x80#8, 0xFF#8, 0xFF#8, 0xFF#8] ++ [0x02#8]) 1 [0x80#8, 0x80#8, 0xFF#8, 0xFF#8, 0xFF#8] :=
  ⟨IsWzInt.long (by omega) (by omega), [0x01#8], [0x02#8], rfl, rfl⟩

example : IsWzInt 8 (-127) [0x81#8] := IsWzInt.short (by omega) (by omega)

/-! ## C02 cursor discipline -/

/-- C02: an unsigned read succeeds exactly when its bytes are inside the buffer, returns their
little-endian value, and moves the cursor by its width in both cases. -/
theorem C02_read_unsigned (e : Env) (c : Cur) (w : Nat) (hp : c.pos + w < 2 ^ 64) :
    (Rd.readLE w).run e c =
      (if c.pos + w ≤ e.buf.length then .ok (leNat ((e.buf.drop c.pos).take w)) else .error .read,
        { c with pos := c.pos + w }) := by
  rw [Rd.readLE_def, addU_ok hp]
  rfl

/-- C02: a signed read is the two's complement reading of the same bytes. -/
theorem C02_read_signed (e : Env) (c : Cur) (w : Nat) (hp : c.pos + w < 2 ^ 64) :
    (Rd.readInt w).run e c =
      (if c.pos + w ≤ e.buf.length then
          .ok ((BitVec.ofNat (8 * w) (leNat ((e.buf.drop c.pos).take w))).toInt) else .error .read,
        { c with pos := c.pos + w }) := by
  unfold Rd.readInt
  rw [Rd.bind_run, C02_read_unsigned e c w hp]
  by_cases h : c.pos + w ≤ e.buf.length
  · simp only [if_pos h]; rfl
  · simp only [if_neg h]

/-- C02: reading back what `to_le_bytes` wrote, at any position, for every value of the width. -/
theorem C02_read_written (e : Env) (c : Cur) (w v : Nat) (hv : v < 256 ^ w)
    (hh : Holds e.buf c.pos (toLE w v)) (hb : e.buf.length < 2 ^ 63) :
    (Rd.readLE w).run e c = (.ok v, { c with pos := c.pos + w }) := by
  rw [Rd.readLE_run hh (by simp) hb, leNat_toLE, Nat.mod_eq_of_lt hv]

/-- C02: reading string metadata at an offset leaves the cursor where it was, also on failure, and its
result is the one obtained by seeking there first. -/
theorem C02_meta_at (e : Env) (c : Cur) (off : Nat) :
    ((Rd.readWzStringMetaAt off).run e c).2.pos = c.pos ∧
    ((Rd.readWzStringMetaAt off).run e c).1 =
      (Rd.readWzStringMeta.run e { pos := off, saved := c.pos }).1 := by
  refine ⟨?_, rfl⟩
  exact Rd.KeepsSaved.readWzStringMeta e { pos := off, saved := c.pos }

/-- C02: same for reading a whole string at an offset. -/
theorem C02_string_at (e : Env) (c : Cur) (off : Nat) :
    ((Rd.readWzStringAtOffset off).run e c).2.pos = c.pos ∧
    ((Rd.readWzStringAtOffset off).run e c).1 =
      (Rd.readWzString.run e { pos := off, saved := c.pos }).1 := by
  refine ⟨?_, rfl⟩
  exact Rd.KeepsSaved.readWzString e { pos := off, saved := c.pos }

/-- operations a user performs on a slice reader -/
inductive ReadOp where
  | seek (p : Nat)
  | skip (n : Nat)
  | unsigned (w : Nat)
  | signed (w : Nat)
  | metaAt (off : Nat)
  | stringAt (off : Nat)

/-- run one operation, keeping only the cursor (results may be errors) -/
def ReadOp.step (e : Env) (c : Cur) : ReadOp → Cur
  | .seek p => ((Rd.seek p).run e c).2
  | .skip n => ((Rd.skip n).run e c).2
  | .unsigned w => ((Rd.readLE w).run e c).2
  | .signed w => ((Rd.readInt w).run e c).2
  | .metaAt o => ((Rd.readWzStringMetaAt o).run e c).2
  | .stringAt o => ((Rd.readWzStringAtOffset o).run e c).2

/-- the position each operation should lead to, from the position alone -/
def ReadOp.target (p : Nat) : ReadOp → Nat
  | .seek q => q
  | .skip n => p + n
  | .unsigned w => p + w
  | .signed w => p + w
  | .metaAt _ => p
  | .stringAt _ => p

/-- every position along a history stays representable -/
def InRange (p : Nat) : List ReadOp → Prop
  | [] => True
  | op :: ops => op.target p < 2 ^ 64 ∧ InRange (op.target p) ops

/-- C02: after any history of operations the position is the one computed from the operations alone; it
depends neither on the contents of the buffer nor on which reads succeeded. -/
theorem C02_history (e : Env) (ops : List ReadOp) (c : Cur) (h : InRange c.pos ops) :
    (ops.foldl (ReadOp.step e) c).pos = ops.foldl ReadOp.target c.pos := by
  induction ops generalizing c with
  | nil => rfl
  | cons op ops ih =>
    obtain ⟨h1, h2⟩ := h
    have hstep : (op.step e c).pos = op.target c.pos := by
      cases op with
      | seek p => rfl
      | skip n => simp only [ReadOp.step]; rw [Rd.skip_run h1]; rfl
      | unsigned w => simp only [ReadOp.step]; rw [C02_read_unsigned e c w h1]; rfl
      | signed w => simp only [ReadOp.step]; rw [C02_read_signed e c w h1]; rfl
      | metaAt o => exact (C02_meta_at e c o).1
      | stringAt o => exact (C02_string_at e c o).1
    simp only [List.foldl_cons]
    rw [← hstep] at h2 ⊢
    exact ih _ h2

example : InRange 3 [.unsigned 4, .metaAt 100, .seek 2, .skip 5, .signed 8] := by simp [InRange, ReadOp.target]

/-- C02, what the save slot does not do: it holds one position only, so two nested saves lose the outer one. -/
theorem C02_save_not_nested : ∃ (e : Env) (c : Cur),
    (do Rd.savePos; Rd.seek 10; Rd.savePos; Rd.seek 20; Rd.restorePos; Rd.restorePos : Rd Unit).run e c
      ≠ (.ok (), c) :=
  ⟨exEnv [], ⟨1, 0⟩, by simp [Rd.bind_run, Rd.savePos, Rd.restorePos, Rd.seek]⟩

/-! ## C03 encrypted strings -/

/-- C03: for every key stream, every stored form of a text (ASCII or UTF-16, short or long length prefix,
anywhere in any buffer) is read back as that text and the cursor stops right behind it. -/
theorem C03_read_string (e : Env) (c : Cur) (s : List Char) (bs : Bytes) (h : IsWzString e.ks s bs)
    (hh : Holds e.buf c.pos bs) (hb : e.buf.length < 2 ^ 63) :
    Rd.readWzString.run e c = (.ok s, { c with pos := c.pos + bs.length }) :=
  readWzString_enc h hh hb

/-- C03: conversely, with overflow checks, an ASCII text is only read where one of its stored forms is. -/
theorem C03_ascii_only (e : Env) (c c' : Cur) (s : List Char) (hb : e.buf.length < 2 ^ 63) (hm : e.mode = .checked)
    (hs : ∀ ch ∈ s, ch.toNat < 128) (h : Rd.readWzString.run e c = (.ok s, c')) :
    ∃ bs, IsWzString e.ks s bs ∧ Holds e.buf c.pos bs := readWzString_only hb hm hs h

example : ∃ bs, IsWzString (exEnv [0xFE#8, 0xC0#8, 0xC7#8]).ks ['i', 'f'] bs ∧ Holds (exEnv [0xFE#8, 0xC0#8, 0xC7#8]).buf 0 bs :=
  C03_ascii_only _ ⟨0, 0⟩ ⟨3, 0⟩ _ (by decide) rfl (by decide) (by rfl)

/-- C03: every text short enough for the format has a stored form. -/
theorem C03_storable (ks : Nat → Byte) (s : List Char) (h : (utf16EncStr s).length < 2 ^ 30) :
    ∃ bs, IsWzString ks s bs := ⟨_, IsWzString.unicode _ (IsUnicodeLen.long h)⟩

/-- C03: raw UTF-16 payloads (also ill-formed ones) decrypt to exactly their units. -/
theorem C03_unicode_units (m : Mode) (buf : Bytes) (ks : Nat → Byte) (us : List (BitVec 16)) (p : Nat)
    (h : Holds buf p (cipherUnicode ks us)) (hb : buf.length < 2 ^ 63) :
    resolveUnicodeRaw m buf ks p (2 * us.length) = .ok us := resolveUnicode_cipher h rfl hb

/-- C03: raw ASCII payloads decrypt to exactly their bytes. -/
theorem C03_ascii_bytes (m : Mode) (buf : Bytes) (ks : Nat → Byte) (bs : Bytes) (p : Nat)
    (h : Holds buf p (cipherAscii ks bs)) (hb : buf.length < 2 ^ 63) :
    resolveAsciiRaw m buf ks p bs.length = .ok bs := resolveAscii_cipher h rfl hb

/-- C03: PKG2 directory names (1 to 127 units, negative length byte). -/
theorem C03_pkg2_dir (e : Env) (c : Cur) (s : List Char)
    (h1 : 1 ≤ (utf16EncStr s).length) (h2 : (utf16EncStr s).length ≤ 127)
    (hh : Holds e.buf c.pos (byteOf (-(utf16EncStr s).length) :: cipherPkg2 e.ks2 (utf16EncStr s)))
    (hb : e.buf.length < 2 ^ 63) :
    Rd.readWzStringPkg2Dir.run e c =
      (.ok s, { c with pos := c.pos + (1 + 2 * (utf16EncStr s).length) }) := by
  unfold Rd.readWzStringPkg2Dir
  have ht : (byteOf (-((utf16EncStr s).length : Int))).toInt = -(utf16EncStr s).length :=
    toInt_byteOf (by omega) (by omega)
  have hle := hh.tail.le
  have hcl : (cipherPkg2 e.ks2 (utf16EncStr s)).length = 2 * (utf16EncStr s).length := by
    simp [cipherPkg2]
  rw [hcl] at hle
  rw [Rd.bind_ok (Rd.readI8_run hh.head hb), ht, if_neg (by omega)]
  have hlen : (Rd.pkg2Len 8 (-(utf16EncStr s).length)).run e { c with pos := c.pos + 1 } =
      (.ok (2 * (utf16EncStr s).length), { c with pos := c.pos + 1 }) := by
    unfold Rd.pkg2Len
    rw [Rd.bind_ok (Rd.getEnv_run _ _)]
    have : negI e.mode 8 (-((utf16EncStr s).length : Int)) = .ok ((utf16EncStr s).length : Int) := by
      unfold negI; rw [if_neg (by omega), Int.neg_neg]
    rw [this, Rd.bind_ok (Rd.lift_run _ _ _)]
    have hu : asUsize ((utf16EncStr s).length : Int) = (utf16EncStr s).length := by unfold asUsize; omega
    rw [hu, if_pos (by omega), Nat.mul_comm]
    rfl
  rw [Rd.bind_ok hlen, Rd.bind_ok (Rd.getPos_run _ _), Rd.bind_ok (Rd.getEnv_run _ _)]
  rw [resolvePkg2_cipher hh.tail rfl hb, Rd.bind_ok (Rd.lift_run _ _ _),
    Rd.bind_ok (Rd.skip_run (by show c.pos + 1 + _ < _; omega)), utf16Lossy_encStr]
  simp [Nat.add_assoc]

/-- C03, boundary: the length byte -128 of a PKG2 directory name (128 units) makes the negation overflow:
a panic in a checked build. -/
theorem C03_pkg2_dir_min_panics (e : Env) (c : Cur) (hm : e.mode = .checked)
    (hh : Holds e.buf c.pos [0x80#8]) (hb : e.buf.length < 2 ^ 63) :
    (Rd.readWzStringPkg2Dir.run e c).1 = .error .panicOverflow := by
  unfold Rd.readWzStringPkg2Dir
  have ht : (0x80#8 : Byte).toInt = -128 := by decide
  rw [Rd.bind_ok (Rd.readI8_run hh hb), ht, if_neg (by omega)]
  unfold Rd.pkg2Len
  rw [Rd.bind_assoc, Rd.bind_ok (Rd.getEnv_run _ _), hm]
  rfl

example : IsWzString (fun i => BitVec.ofNat 8 (7 * i)) ['a', 'b']
    ([byteOf (-2)] ++ cipherAscii (fun i => BitVec.ofNat 8 (7 * i)) [0x61#8, 0x62#8]) :=
  IsWzString.ascii _ (by decide) (IsAsciiLen.short (by decide) (by decide))

example : IsWzString (fun _ => 5#8) ['é', 'b']
    ((0x7F#8 :: toLE 4 2) ++ cipherUnicode (fun _ => 5#8) [0xE9#16, 0x62#16]) :=
  IsWzString.unicode _ (IsUnicodeLen.long (by decide))

/-! ## C04 lazy metadata agrees with eager reading -/

/-- C04: if eager reading succeeds, lazy reading gives the same text and the same cursor. -/
theorem C04_eager_lazy (e : Env) (c c' : Cur) (s : List Char) (hb : e.buf.length < 2 ^ 63)
    (h : Rd.readWzString.run e c = (.ok s, c')) :
    ∃ m, Rd.readWzStringMeta.run e c = (.ok m, c') ∧ resolveMeta e m.ty m.offset m.length = .ok s := by
  have := eager_lazy hb h
  rw [lazyString_def, Rd.bind_run] at this
  cases hr : Rd.readWzStringMeta.run e c with
  | mk r c1 =>
    rw [hr] at this
    cases r with
    | error x => cases this
    | ok m =>
      simp only [resolveHere_run, Prod.mk.injEq] at this
      exact ⟨m, by rw [this.2], this.1⟩

/-- C04: if lazy reading succeeds on a buffer below 2 GiB, eager reading gives the same text and cursor. -/
theorem C04_lazy_eager (e : Env) (c c' : Cur) (s : List Char) (m : StrMeta) (hb : e.buf.length < 2 ^ 31)
    (h : Rd.readWzStringMeta.run e c = (.ok m, c')) (hs : resolveMeta e m.ty m.offset m.length = .ok s) :
    Rd.readWzString.run e c = (.ok s, c') := by
  apply lazy_eager hb
  rw [lazyString_def, Rd.bind_ok h, resolveHere_run, hs]

private theorem meta_shape (e : Env) (c c' : Cur) (m : StrMeta)
    (h : Rd.readWzStringMeta.run e c = (.ok m, c')) :
    m = StrMeta.none ∨ (m.ty ≠ .empty ∧ m.length < 2 ^ 32) := by
  have hmul : ∀ {md a b r}, mulU32 md a b = .ok r → r < 2 ^ 32 := by
    intro md a b r hr
    rcases mulU32_ok hr with ⟨h1, h2⟩ | ⟨_, h2⟩ <;> omega
  unfold Rd.readWzStringMeta at h
  rw [Rd.bind_run] at h
  cases hr : Rd.readI8.run e c with
  | mk r c1 =>
    rw [hr] at h
    cases r with
    | error x => cases h
    | ok small =>
      simp only [] at h
      split at h
      · simp only [Rd.pure_run, Prod.mk.injEq, Except.ok.injEq] at h
        exact .inl h.1.symm
      · right
        split at h
        · simp only [Rd.bind_run, Rd.getEnv_run, Rd.lift_run, Rd.getPos_run] at h
          repeat' split at h
          all_goals first
            | (cases h; done)
            | (simp only [Rd.pure_run, Prod.mk.injEq, Except.ok.injEq] at h
               rw [← h.1]
               exact ⟨by simp, hmul (congrArg Prod.fst ‹(mulU32 _ _ _, _) = (Except.ok _, _)›)⟩)
        · simp only [Rd.bind_run, Rd.getEnv_run, Rd.lift_run, Rd.getPos_run] at h
          repeat' split at h
          all_goals first
            | (cases h; done)
            | (simp only [Rd.pure_run, Prod.mk.injEq, Except.ok.injEq] at h
               rw [← h.1]
               exact ⟨by simp, hmul (congrArg Prod.fst ‹(mulU32 _ _ _, _) = (Except.ok _, _)›)⟩)
      · right
        split at h
        · simp only [Rd.bind_run, Rd.getEnv_run, Rd.lift_run, Rd.getPos_run] at h
          repeat' split at h
          all_goals first
            | (cases h; done)
            | (simp only [Rd.pure_run, Prod.mk.injEq, Except.ok.injEq] at h
               rw [← h.1]; exact ⟨by simp, asU32_lt _⟩)
        · simp only [Rd.bind_run, Rd.getEnv_run, Rd.lift_run, Rd.getPos_run] at h
          repeat' split at h
          all_goals first
            | (cases h; done)
            | (simp only [Rd.pure_run, Prod.mk.injEq, Except.ok.injEq] at h
               rw [← h.1]; exact ⟨by simp, asU32_lt _⟩)
      · cases h

/-- C04: metadata of a string that can be read points inside the buffer. -/
theorem C04_meta_in_bounds (e : Env) (c c' : Cur) (s : List Char) (hb : e.buf.length < 2 ^ 63)
    (h : Rd.readWzString.run e c = (.ok s, c')) :
    ∃ m, Rd.readWzStringMeta.run e c = (.ok m, c') ∧ m.offset + m.length ≤ e.buf.length := by
  obtain ⟨m, h1, h2⟩ := C04_eager_lazy e c c' s hb h
  refine ⟨m, h1, ?_⟩
  rcases meta_shape e c c' m h1 with rfl | ⟨hty, hlt⟩
  · exact Nat.zero_le _
  · exact resolveMeta_ok hty h2 hb (by omega)

/-- C04: strict and lossy resolution agree whenever strict resolution succeeds. -/
theorem C04_strict_lossy (e : Env) (ty : StrType) (off len : Nat) (s : List Char)
    (h : tryResolveMeta e ty off len = .ok s) : resolveMeta e ty off len = .ok s := by
  have key : ∀ l : List (Option Char), ∀ s, allSome l = some s →
      l.map (fun o => match o with | some c => c | none => replacement) = s := by
    intro l
    induction l with
    | nil => intro s hs; simpa [allSome] using hs
    | cons o l ih =>
      intro s hs
      cases o with
      | none => simp [allSome] at hs
      | some c =>
        simp only [allSome, Option.map_eq_some_iff] at hs
        obtain ⟨t, ht, rfl⟩ := hs
        simp [ih t ht]
  have k16 : ∀ us s, utf16Strict us = .ok s → utf16Lossy us = s := by
    intro us s h
    unfold utf16Strict at h
    split at h
    · rename_i t ht; cases h; exact key _ _ ht
    · cases h
  have k8 : ∀ us s, utf8Strict us = .ok s → utf8Lossy us = s := by
    intro us s h
    unfold utf8Strict at h
    split at h
    · rename_i t ht; cases h; exact key _ _ ht
    · cases h
  unfold tryResolveMeta at h
  unfold resolveMeta
  cases ty with
  | empty => exact h
  | unicode =>
    simp only at h ⊢
    cases hr : resolveUnicodeRaw e.mode e.buf e.ks off len with
    | error x => rw [hr] at h; cases h
    | ok us => rw [hr] at h; exact congrArg Except.ok (k16 us s h)
  | ascii =>
    simp only at h ⊢
    cases hr : resolveAsciiRaw e.mode e.buf e.ks off len with
    | error x => rw [hr] at h; cases h
    | ok us => rw [hr] at h; exact congrArg Except.ok (k8 us s h)
  | pkg2Dir =>
    simp only at h ⊢
    cases hr : resolvePkg2DirRaw e.mode e.buf e.ks2 off len with
    | error x => rw [hr] at h; cases h
    | ok us => rw [hr] at h; exact congrArg Except.ok (k16 us s h)

/-- C04, disagreement on malformed input: in a release build the metadata reader accepts a negative long
length and moves the cursor *backwards*, while the eager reader reports an error. -/
theorem C04_negative_length_moves_back :
    let e : Env := { exEnv [0x80#8, 0xFE#8, 0xFF#8, 0xFF#8, 0xFF#8] with mode := .wrap }
    (∃ m, Rd.readWzStringMeta.run e ⟨0, 0⟩ = (.ok m, ⟨3, 0⟩)) ∧
    (Rd.readWzString.run e ⟨0, 0⟩).1 = .error (.outOfBounds 3 5) := by
  refine ⟨⟨_, rfl⟩, rfl⟩

example : Rd.readWzString.run (exEnv [byteOf (-1), 0x61#8 ^^^ 0xAA#8 ^^^ 3#8]) ⟨0, 0⟩ = (.ok ['a'], ⟨2, 0⟩) := by
  decide +kernel

/-! ## C05 string blocks -/

/-- C05: a string stored inline. -/
theorem C05_inline (e : Env) (c : Cur) (base : Nat) (t : Byte) (s : List Char) (bs : Bytes)
    (ht : t = 0x00#8 ∨ t = 0x73#8) (h : IsWzString e.ks s bs) (hh : Holds e.buf c.pos (t :: bs))
    (hb : e.buf.length < 2 ^ 63) :
    (Rd.readWzStringBlock base).run e c = (.ok s, { c with pos := c.pos + (1 + bs.length) }) := by
  unfold Rd.readWzStringBlock
  rw [Rd.bind_ok (Rd.readU8_run hh.head hb)]
  have : t.toNat = 0 ∨ t.toNat = 0x73 := by rcases ht with rfl | rfl <;> decide
  rw [if_pos this, readWzString_enc h hh.tail hb]
  simp [Nat.add_assoc]

/-- C05: a string stored elsewhere: the stored 32-bit offset is added to the base offset, and the cursor
moves by exactly five bytes whatever the length of the string.  (Negative offsets need a build without
overflow checks.) -/
theorem C05_by_offset (e : Env) (c : Cur) (base target : Nat) (t : Byte) (off : Int) (s : List Char)
    (bs : Bytes) (ht : t = 0x01#8 ∨ t = 0x1B#8) (h0 : -2 ^ 31 ≤ off) (h1 : off < 2 ^ 31)
    (htgt : (target : Int) = base + off) (hmode : 0 ≤ off ∨ e.mode = .wrap) (hbase : base < 2 ^ 63)
    (h : IsWzString e.ks s bs) (hh : Holds e.buf c.pos (t :: toLE 4 (unsign 32 off)))
    (hs : Holds e.buf target bs) (hb : e.buf.length < 2 ^ 63) :
    ∃ c', (Rd.readWzStringBlock base).run e c = (.ok s, c') ∧ c'.pos = c.pos + 5 := by
  unfold Rd.readWzStringBlock
  rw [Rd.bind_ok (Rd.readU8_run hh.head hb)]
  have hn : ¬ (t.toNat = 0 ∨ t.toNat = 0x73) := by rcases ht with rfl | rfl <;> decide
  have hp : t.toNat = 1 ∨ t.toNat = 0x1B := by rcases ht with rfl | rfl <;> decide
  rw [if_neg hn, if_pos hp]
  have h4 : Rd.readI32.run e { c with pos := c.pos + 1 } = (.ok off, { c with pos := c.pos + 1 + 4 }) :=
    Rd.readInt_enc (w := 4) hh.tail (by omega) h0 h1 hb
  rw [Rd.bind_ok h4, Rd.bind_ok (Rd.getEnv_run _ _)]
  have hadd : addU e.mode base (asUsize off) = .ok target := by
    have hle := hs.le
    unfold addU asUsize
    by_cases hneg : 0 ≤ off
    · rw [if_pos (by omega)]; congr 1; omega
    · have hm : e.mode = .wrap := by rcases hmode with h | h; exact absurd h hneg; exact h
      rw [if_neg (by omega), hm]; dsimp only; congr 1; omega
  rw [hadd, Rd.bind_ok (Rd.lift_run _ _ _)]
  refine ⟨{ pos := c.pos + 1 + 4, saved := c.pos + 1 + 4 }, ?_, rfl⟩
  apply block_tail_eager.mpr
  refine ⟨⟨_, readWzString_enc h (c := { pos := target, saved := c.pos + 1 + 4 }) hs hb⟩, rfl⟩

/-- C05: any other marker is an empty string of one byte. -/
theorem C05_other (e : Env) (c : Cur) (base : Nat) (t : Byte)
    (ht : t ∉ [0x00#8, 0x73#8, 0x01#8, 0x1B#8]) (hh : Holds e.buf c.pos [t]) (hb : e.buf.length < 2 ^ 63) :
    (Rd.readWzStringBlock base).run e c = (.ok [], { c with pos := c.pos + 1 }) := by
  unfold Rd.readWzStringBlock
  rw [Rd.bind_ok (Rd.readU8_run hh hb)]
  simp only [List.mem_cons, List.not_mem_nil, or_false, not_or] at ht
  have hne : ∀ k : Byte, t ≠ k → t.toNat ≠ k.toNat := fun k h h' => h (BitVec.eq_of_toNat_eq h')
  rw [if_neg, if_neg]
  · rfl
  · intro h; rcases h with h | h
    · exact hne _ ht.2.2.1 h
    · exact hne _ ht.2.2.2 h
  · intro h; rcases h with h | h
    · exact hne _ ht.1 h
    · exact hne _ ht.2.1 h

/-- C05: once the five bytes of an offset-form block have been read, the cursor is behind them whatever
happens at the target, including failure. -/
theorem C05_offset_cursor (e : Env) (c : Cur) (base : Nat) (t : Byte) (raw : Bytes)
    (ht : t = 0x01#8 ∨ t = 0x1B#8) (hraw : raw.length = 4) (hh : Holds e.buf c.pos (t :: raw))
    (hb : e.buf.length < 2 ^ 63) :
    ((Rd.readWzStringBlock base).run e c).2.pos = c.pos + 5 := by
  unfold Rd.readWzStringBlock
  rw [Rd.bind_ok (Rd.readU8_run hh.head hb)]
  have hn : ¬ (t.toNat = 0 ∨ t.toNat = 0x73) := by rcases ht with rfl | rfl <;> decide
  have hp : t.toNat = 1 ∨ t.toNat = 0x1B := by rcases ht with rfl | rfl <;> decide
  rw [if_neg hn, if_pos hp]
  have h4 : Rd.readI32.run e { c with pos := c.pos + 1 } = (.ok _, { c with pos := c.pos + 1 + 4 }) :=
    Rd.readInt_run hh.tail hraw hb
  rw [Rd.bind_ok h4, Rd.bind_ok (Rd.getEnv_run _ _), Rd.bind_run]
  simp only [Rd.lift_run]
  split
  · rename_i o c2 heq
    simp only [Prod.mk.injEq] at heq
    rw [(C02_string_at e c2 o).1, ← heq.2]
  · rename_i x c2 heq
    simp only [Prod.mk.injEq] at heq
    rw [← heq.2]

/-- C05: the eager and the lazy block readers agree on every buffer below 2 GiB. -/
theorem C05_block_eager_lazy (e : Env) (c c' : Cur) (base : Nat) (s : List Char)
    (hb : e.buf.length < 2 ^ 31) :
    (Rd.readWzStringBlock base).run e c = (.ok s, c') ↔
      ∃ m, (Rd.readWzStringBlockMeta base).run e c = (.ok m, c') ∧
        resolveMeta e m.ty m.offset m.length = .ok s := by
  have hlazy : ∀ (r : Rd StrMeta) (c0 : Cur), ((r >>= resolveHere).run e c0 = (.ok s, c')) ↔
      ∃ m, r.run e c0 = (.ok m, c') ∧ resolveMeta e m.ty m.offset m.length = .ok s := by
    intro r c0
    rw [Rd.bind_run]
    cases hr : r.run e c0 with
    | mk x c1 =>
      cases x with
      | error x => simp
      | ok m =>
        simp only [resolveHere_run, Prod.mk.injEq, Except.ok.injEq]
        constructor
        · rintro ⟨h1, h2⟩; exact ⟨m, ⟨rfl, h2⟩, h1⟩
        · rintro ⟨m', ⟨rfl, h2⟩, h1⟩; exact ⟨h1, h2⟩
  rw [← hlazy]
  unfold Rd.readWzStringBlock Rd.readWzStringBlockMeta
  rw [Rd.bind_assoc, Rd.bind_run, Rd.bind_run]
  cases Rd.readU8.run e c with
  | mk r c1 =>
    cases r with
    | error x => simp
    | ok t =>
      simp only
      by_cases ht : t = 0 ∨ t = 0x73
      · rw [if_pos ht, if_pos ht, ← lazyString_def]
        exact ⟨eager_lazy (by omega), lazy_eager hb⟩
      · rw [if_neg ht, if_neg ht]
        by_cases ht2 : t = 1 ∨ t = 0x1B
        · rw [if_pos ht2, if_pos ht2, Rd.bind_assoc, Rd.bind_run, Rd.bind_run]
          cases Rd.readI32.run e c1 with
          | mk r4 c2 =>
            cases r4 with
            | error x => simp
            | ok a =>
              simp only
              rw [Rd.bind_assoc, Rd.bind_ok (Rd.getEnv_run _ _), Rd.bind_ok (Rd.getEnv_run _ _)]
              rw [Rd.bind_assoc, Rd.bind_run, Rd.bind_run]
              simp only [Rd.lift_run]
              cases addU e.mode base (asUsize a) with
              | error x => simp
              | ok o =>
                simp only
                rw [block_tail_eager, block_tail_lazy]
                constructor
                · rintro ⟨⟨c3, h⟩, h2⟩; exact ⟨⟨c3, eager_lazy (by omega) h⟩, h2⟩
                · rintro ⟨⟨c3, h⟩, h2⟩; exact ⟨⟨c3, lazy_eager hb h⟩, h2⟩
        · rw [if_neg ht2, if_neg ht2, Rd.pure_bind]
          simp [resolveHere_run, StrMeta.none, resolveMeta]

example : ∃ c', (Rd.readWzStringBlock 2).run
    (exEnv ([0x1B#8] ++ toLE 4 3 ++ [byteOf (-1), 0x61#8 ^^^ 0xAA#8 ^^^ 3#8])) ⟨0, 0⟩ = (.ok ['a'], c') ∧ c'.pos = 0 + 5 :=
  C05_by_offset (exEnv ([0x1B#8] ++ toLE 4 3 ++ [byteOf (-1), 0x61#8 ^^^ 0xAA#8 ^^^ 3#8])) ⟨0, 0⟩ 2 5 0x1B#8 3 ['a']
    _ (.inr rfl) (by omega) (by omega) (by rfl) (.inl (by omega)) (by omega)
    (IsWzString.ascii [byteOf (-1)] (by decide) (IsAsciiLen.short (by decide) (by decide)))
    ⟨[], _, rfl, rfl⟩ ⟨[0x1B#8] ++ toLE 4 3, [], by decide, rfl⟩ (by decide)

/-! ## C06 text made into a string node -/

/-- C06 (full statement, for reference): `∀ s, (fromStr ks s).getString = ok s`.  It is false; the exact
condition is the theorem below: a non-ASCII text reads back iff it has no character outside the BMP. -/
theorem C06_from_str_iff (m : Mode) (ks ks2 : Nat → Byte) (s : List Char) (hlen : s.length < 2 ^ 30) :
    (WzStr.fromStr ks s).getString m ks ks2 = .ok s ↔ ∀ c ∈ s, c.toNat < 0x10000 := by
  have hge := utf16EncStr_length_ge s
  unfold WzStr.fromStr
  by_cases h0 : s = []
  · subst h0; simp [WzStr.getString, resolveMeta]
  · rw [if_neg h0]
    by_cases ha : isAsciiStr s = true
    · rw [if_pos ha]
      have hs : ∀ c ∈ s, c.toNat < 128 := by
        simpa [isAsciiStr] using ha
      have hl : (utf8EncStr s).length = s.length := by rw [ascii_bytes hs]; simp
      have hne : encryptStr ks s .ascii ≠ [] := by
        rw [encryptStr_ascii ks hs]; simp [cipherAscii, h0]
      simp only [WzStr.getString, fromBuff, if_neg hne]
      have : resolveAsciiRaw m (encryptStr ks s .ascii) ks 0 ((utf8EncStr s).length % 2 ^ 32)
          = .ok (s.map fun c => BitVec.ofNat 8 c.toNat) := by
        apply resolveAscii_cipher
        · rw [encryptStr_ascii ks hs]; exact ⟨[], [], by simp, rfl⟩
        · rw [hl]; simp; omega
        · rw [encryptStr_ascii ks hs]; simp [cipherAscii]; omega
      simp only [resolveMeta, this]
      constructor
      · intro _ c hc; have := hs c hc; omega
      · intro _
        show Except.ok (utf8Lossy _) = _
        rw [utf8Lossy_ascii hs]
    · rw [if_neg ha]
      have hmod : s.length * 2 % 2 ^ 32 = 2 * s.length := by omega
      have hul : (unitBytes (utf16EncStr s)).length = 2 * (utf16EncStr s).length := by simp
      have hlenle : (utf16EncStr s).length ≤ 2 * s.length := by
        clear hge h0 ha hmod hul hlen
        induction s with
        | nil => simp [utf16EncStr]
        | cons c s ih =>
          simp only [utf16EncStr, List.flatMap_cons, List.length_append, List.length_cons] at *
          have : (utf16Enc c).length ≤ 2 := by unfold utf16Enc; split <;> simp
          omega
      have hcl : (cipherUnicode ks (utf16EncStr s)).length = 2 * (utf16EncStr s).length := by
        simp [cipherUnicode]
      have hpos : 0 < s.length := List.length_pos_iff.mpr h0
      have hne : encryptStr ks s .unicode ≠ [] := by
        rw [encryptStr_unicode]
        intro h
        rw [h] at hcl
        simp at hcl
        omega
      simp only [WzStr.getString, fromBuff, if_neg hne, hmod]
      have hres : resolveUnicodeRaw m (encryptStr ks s .unicode) ks 0 (2 * s.length)
          = .ok ((utf16EncStr s).take s.length) := by
        apply resolveUnicode_cipher
        · rw [encryptStr_unicode, ← cipherUnicode_take]
          exact ⟨[], (cipherUnicode ks (utf16EncStr s)).drop (2 * s.length), by simp, rfl⟩
        · simp; omega
        · rw [encryptStr_unicode, hcl]; omega
      simp only [resolveMeta, hres]
      constructor
      · intro h
        have h : utf16Lossy ((utf16EncStr s).take s.length) = s := by
          exact Except.ok.inj h
        exact utf16Lossy_same_length h (by simp; omega)
      · intro h
        have hl := utf16EncStr_length_bmp h
        rw [List.take_of_length_le (by omega)]
        exact congrArg Except.ok (utf16Lossy_encStr s)

/-- C06, the proved part: text without characters outside the Basic Multilingual Plane reads back.
Missing: text with such characters (`C06_astral_truncated` shows it fails). -/
theorem C06_from_str_partial (m : Mode) (ks ks2 : Nat → Byte) (s : List Char) (hlen : s.length < 2 ^ 30)
    (h : ∀ c ∈ s, c.toNat < 0x10000) : (WzStr.fromStr ks s).getString m ks ks2 = .ok s :=
  (C06_from_str_iff m ks ks2 s hlen).mpr h

/-- C06 is violated: U+1F600 does not read back, for any key stream. -/
theorem C06_astral_truncated (m : Mode) (ks ks2 : Nat → Byte) :
    (WzStr.fromStr ks [Char.ofNat 0x1F600]).getString m ks ks2 ≠ .ok [Char.ofNat 0x1F600] := by
  rw [Ne, C06_from_str_iff m ks ks2 _ (by decide)]
  decide

/-- C06: PKG2 directory names created from text, proved for BMP text.  Missing: characters outside the
BMP, which are truncated in the same way. -/
theorem C06_from_str_pkg2_partial (m : Mode) (ks ks2 : Nat → Byte) (s : List Char) (hlen : s.length < 2 ^ 30)
    (h : ∀ c ∈ s, c.toNat < 0x10000) : (WzStr.fromStrPkg2Dir ks2 s).getString m ks ks2 = .ok s := by
  have hl := utf16EncStr_length_bmp h
  have henc : encryptStr ks2 s .pkg2Dir = cipherPkg2 ks2 (utf16EncStr s) := rfl
  have hcl : (cipherPkg2 ks2 (utf16EncStr s)).length = 2 * (utf16EncStr s).length := by simp [cipherPkg2]
  have hmod : s.length * 2 % 2 ^ 32 = 2 * s.length := by omega
  simp only [WzStr.fromStrPkg2Dir, WzStr.getString, hmod]
  have hres : resolvePkg2DirRaw m (fromBuff (encryptStr ks2 s .pkg2Dir)) ks2 0 (2 * s.length)
      = .ok (utf16EncStr s) := by
    apply resolvePkg2_cipher
    · rw [henc]
      unfold fromBuff
      split
      · rename_i hnil; rw [hnil]; exact ⟨[], [0#8], by simp, rfl⟩
      · exact ⟨[], [], by simp, rfl⟩
    · omega
    · unfold fromBuff; split
      · simp
      · rw [henc, hcl]; omega
  simp only [resolveMeta, hres]
  exact congrArg Except.ok (utf16Lossy_encStr s)

/-- C06 is violated for PKG2 directory names too. -/
theorem C06_pkg2_astral_truncated :
    (WzStr.fromStrPkg2Dir (fun _ => 0x4D#8) [Char.ofNat 0x1F600]).getString .checked (fun _ => 0#8) (fun _ => 0x4D#8)
      ≠ .ok [Char.ofNat 0x1F600] := by
  decide +kernel

example : ∀ c ∈ ['測', '試', 'a'], c.toNat < 0x10000 := by decide

end Wz.Props
