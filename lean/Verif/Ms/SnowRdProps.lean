import Verif.Ms.SnowRdLemmas
/-!
# Reads through the Snow2 reader (C39)
-/

set_option autoImplicit false

namespace Wz

open Wz.Spec

/-- a read with the functions of the reader -/
def SnowRd.exec (m : Mode) (r : SnowRd) : ReadOp → Except Err (Ans × SnowRd)
  | .i32 => r.readI32.map fun x => (.num x.1, x.2)
  | .u32 => r.readU32.map fun x => (.num x.1, x.2)
  | .bytes n => (r.readBytes m n).map fun x => (.raw x.1, x.2)
  | .utf16 n => (r.readUtf16 m n).map fun x => (.text x.1, x.2)

/-- reads one after the other: the answers and the reader -/
def SnowRd.run (m : Mode) : SnowRd → List ReadOp → Except Err (List Ans × SnowRd)
  | r, [] => .ok ([], r)
  | r, op :: ops =>
    match r.exec m op with
    | .error e => .error e
    | .ok (a, r) => match SnowRd.run m r ops with
      | .error e => .error e
      | .ok (as, r) => .ok (a :: as, r)

/-- a reader set to start at `off` (as in ms/file.rs 92-94) -/
def SnowRd.from (data key : Bytes) (off : Nat) : SnowRd := { SnowRd.new data key with offset := off }

namespace Spec

/-- A read at place `p` fits if it does not split what is left of the last word of four bytes: numbers are read at even places, bytes
at least up to the end of the word (or none).  `(4 - p % 4) % 4` bytes are left. -/
def ReadOp.Fits (p : Nat) : ReadOp → Prop
  | .i32 | .u32 => p % 2 = 0
  | .bytes n | .utf16 n => n < 2 ^ 31 ∧ (n = 0 ∨ (4 - p % 4) % 4 ≤ n)

/-- every read of the sequence fits -/
def AllFit : Nat → List ReadOp → Prop
  | _, [] => True
  | p, op :: ops => op.Fits p ∧ AllFit (p + op.size) ops

end Spec

namespace SnowRd

theorem inv_start {key data : Bytes} {off : Nat} {P : Bytes} : Inv key data off P 0 (SnowRd.from data key off) :=
  ⟨rfl, rfl, Snow.at_new key, rfl, rfl, by simp [SnowRd.from, SnowRd.new, sub], by omega⟩

theorem readI32_eq (r : SnowRd) : r.readI32 = (r.read4).map fun x => (signed 32 (leNat x.1), x.2) := by
  unfold readI32; cases r.read4 <;> rfl

theorem readU32_eq (r : SnowRd) : r.readU32 = (r.read4).map fun x => (leNat x.1, x.2) := by
  unfold readU32; cases r.read4 <;> rfl

theorem fits_buffer {p n : Nat} (h : n < 2 ^ 31 ∧ (n = 0 ∨ (4 - p % 4) % 4 ≤ n)) : FitsBuffer p n := ⟨h.1, by omega⟩

theorem exec_ok {key data : Bytes} {off : Nat} {P : Bytes} {p : Nat} {r : SnowRd} (m : Mode) (hP : Plain key data off P)
    (hI : Inv key data off P p r) (op : ReadOp) (hf : op.Fits p) (h : p + op.size ≤ P.length / 4 * 4) :
    match op.answer ((P.drop p).take op.size) with
    | .ok a => ∃ r', r.exec m op = .ok (a, r') ∧ Inv key data off P (p + op.size) r'
    | .error e => r.exec m op = .error e := by
  cases op with
  | i32 =>
    obtain ⟨r', h1, h2⟩ := read4_ok hP hI hf h
    exact ⟨r', by show (r.readI32).map _ = _; rw [readI32_eq, h1]; rfl, h2⟩
  | u32 =>
    obtain ⟨r', h1, h2⟩ := read4_ok hP hI hf h
    exact ⟨r', by show (r.readU32).map _ = _; rw [readU32_eq, h1]; rfl, h2⟩
  | bytes n =>
    obtain ⟨r', h1, h2⟩ := write_ok m hP hI n (fits_buffer hf) h
    refine ⟨r', ?_, h2⟩
    show (r.readBytes m n).map _ = _
    have h63 : ¬ n ≥ 2 ^ 63 := by have := hf.1; omega
    unfold readBytes
    rw [if_neg h63, h1]; rfl
  | utf16 n =>
    obtain ⟨r', h1, h2⟩ := write_ok m hP hI n (fits_buffer hf) h
    have h63 : ¬ n ≥ 2 ^ 63 := by have := hf.1; omega
    have hb : r.readBytes m n = .ok (sub P p n, r') := by unfold readBytes; rw [if_neg h63, h1]
    have hx : r.exec m (.utf16 n) = ((utf16Strict (unitPairs (sub P p n))).map fun s => (Ans.text s, r')) := by
      show (r.readUtf16 m n).map _ = _
      unfold readUtf16
      rw [hb]
      show (Except.map _ (utf16Strict (unitPairs (sub P p n)) >>= _)) = _
      cases utf16Strict (unitPairs (sub P p n)) <;> rfl
    rw [unitPairs_eq] at hx
    show match (match utf16Strict (unitsOf (sub P p n)) with | .ok s => Except.ok (Ans.text s) | .error e => .error e) with | .ok a => _ | .error e => _
    cases hs : utf16Strict (unitsOf (sub P p n)) with
    | error e => show r.exec m _ = _; rw [hx, hs]; rfl
    | ok s => exact ⟨r', by rw [hx, hs]; rfl, h2⟩

theorem run_ok {key data : Bytes} {off : Nat} {P : Bytes} (m : Mode) (hP : Plain key data off P) (ops : List ReadOp) :
    ∀ (p : Nat) (r : SnowRd), Inv key data off P p r → AllFit p ops → p + total ops ≤ P.length / 4 * 4 →
    match pieces P p ops with
    | .ok as => ∃ r', r.run m ops = .ok (as, r') ∧ Inv key data off P (p + total ops) r'
    | .error e => r.run m ops = .error e := by
  induction ops with
  | nil => intro p r hI _ _; exact ⟨r, rfl, hI⟩
  | cons op ops ih =>
    intro p r hI hf h
    have ht : total (op :: ops) = op.size + total ops := by simp [total]
    rw [ht] at h ⊢
    have h1 := exec_ok m hP hI op hf.1 (by omega)
    unfold pieces
    cases ha : op.answer ((P.drop p).take op.size) with
    | error e =>
      rw [ha] at h1
      show run m r (op :: ops) = _
      unfold run
      rw [show r.exec m op = .error e from h1]
    | ok a =>
      rw [ha] at h1
      obtain ⟨r', hr', hI'⟩ := h1
      have h2 := ih _ _ hI' hf.2 (by omega)
      cases hp : pieces P (p + op.size) ops with
      | error e =>
        rw [hp] at h2
        show run m r (op :: ops) = _
        unfold run
        simp only [hr', show run m r' ops = .error e from h2]
      | ok as =>
        rw [hp] at h2
        obtain ⟨r'', hr'', hI''⟩ := h2
        refine ⟨r'', ?_, by rwa [Nat.add_assoc] at hI''⟩
        unfold run
        simp only [hr', hr'']

theorem exec_end {key data : Bytes} {off : Nat} {P : Bytes} {p : Nat} {r : SnowRd} (m : Mode) (hP : Plain key data off P)
    (hI : Inv key data off P p r) (op : ReadOp) (hs : op.size < 2 ^ 31) (h : ¬ p + op.size ≤ P.length / 4 * 4) : r.exec m op = .error .read := by
  cases op with
  | i32 => show (r.readI32).map _ = _; rw [readI32_eq, read4_end hP hI h]; rfl
  | u32 => show (r.readU32).map _ = _; rw [readU32_eq, read4_end hP hI h]; rfl
  | bytes n =>
    have h63 : ¬ n ≥ 2 ^ 63 := by have : n < 2 ^ 31 := hs; omega
    show (r.readBytes m n).map _ = _
    unfold readBytes
    rw [if_neg h63, write_end m hP hI n hs h]; rfl
  | utf16 n =>
    have h63 : ¬ n ≥ 2 ^ 63 := by have : n < 2 ^ 31 := hs; omega
    show (r.readUtf16 m n).map _ = _
    unfold readUtf16 readBytes
    rw [if_neg h63, write_end m hP hI n hs h]; rfl

theorem exec_short {key data : Bytes} {off : Nat} {P : Bytes} {p : Nat} {r : SnowRd} (m : Mode)
    (hI : Inv key data off P p r) (n : Nat) (h0 : 0 < n) (h : n < (4 - p % 4) % 4) :
    r.exec m (.bytes n) = .error .panicIndex ∧ r.exec m (.utf16 n) = .error .panicIndex := by
  have h63 : ¬ n ≥ 2 ^ 63 := by omega
  have hw := write_short m hI n h0 (by have := hI.bufLen; omega)
  constructor
  · show (r.readBytes m n).map _ = _
    unfold readBytes
    rw [if_neg h63, hw]; rfl
  · show (r.readUtf16 m n).map _ = _
    unfold readUtf16 readBytes
    rw [if_neg h63, hw]; rfl

end SnowRd

namespace Props

/-- Reads that fit give the consecutive pieces of the decryption of the stream.  `_partial`: other sequences of reads do not (see
`C39_odd_number` and `C39_split_panics`). -/
theorem C39_pieces_partial (m : Mode) (key data : Bytes) (off : Nat) (ops : List ReadOp) (P : Bytes) (k : Nat) (d : Snow2) (h0 : off ≤ data.length)
    (hP : (Snow2.new key).decryptSlice (data.drop off) = .ok (P, k, d)) (hf : AllFit 0 ops) (ht : total ops ≤ P.length / 4 * 4) :
    ((SnowRd.from data key off).run m ops).map Prod.fst = pieces P 0 ops := by
  have h := SnowRd.run_ok m (SnowRd.plain_of key data off P k d h0 hP) ops 0 _ SnowRd.inv_start hf (by omega)
  cases hp : pieces P 0 ops with
  | error e => rw [hp] at h; rw [show SnowRd.run m _ ops = _ from h]; rfl
  | ok as => rw [hp] at h; obtain ⟨r', h, _⟩ := h; rw [h]; rfl

/-- In particular, reads of an even number of bytes do: these are the ones the parser of MS archives makes. -/
theorem C39_even_partial (m : Mode) (key data : Bytes) (off : Nat) (ops : List ReadOp) (P : Bytes) (k : Nat) (d : Snow2) (h0 : off ≤ data.length)
    (hP : (Snow2.new key).decryptSlice (data.drop off) = .ok (P, k, d)) (he : ∀ op ∈ ops, 2 ∣ op.size ∧ op.size < 2 ^ 31)
    (ht : total ops ≤ P.length / 4 * 4) :
    ((SnowRd.from data key off).run m ops).map Prod.fst = pieces P 0 ops := by
  refine C39_pieces_partial m key data off ops P k d h0 hP ?_ ht
  suffices H : ∀ p, 2 ∣ p → AllFit p ops from H 0 (by omega)
  clear ht
  induction ops with
  | nil => intro p _; trivial
  | cons op ops ih =>
    intro p hp
    have h := he op List.mem_cons_self
    refine ⟨?_, ih (fun o ho => he o (List.mem_cons_of_mem _ ho)) _ (by omega)⟩
    cases op with
    | i32 => show p % 2 = 0; omega
    | u32 => show p % 2 = 0; omega
    | bytes n =>
      obtain ⟨h1, h2⟩ : 2 ∣ n ∧ n < 2 ^ 31 := h
      exact ⟨h2, by omega⟩
    | utf16 n =>
      obtain ⟨h1, h2⟩ : 2 ∣ n ∧ n < 2 ^ 31 := h
      exact ⟨h2, by omega⟩

/-- A read behind the last whole word of the stream is an error. -/
theorem C39_end_partial (m : Mode) (key data : Bytes) (off : Nat) (ops : List ReadOp) (P : Bytes) (k : Nat) (d : Snow2) (h0 : off ≤ data.length)
    (hP : (Snow2.new key).decryptSlice (data.drop off) = .ok (P, k, d)) (hf : AllFit 0 ops) (ht : total ops ≤ P.length / 4 * 4)
    (as : List Ans) (r : SnowRd) (hr : (SnowRd.from data key off).run m ops = .ok (as, r)) (op : ReadOp) (hs : op.size < 2 ^ 31)
    (hend : P.length / 4 * 4 < total ops + op.size) : r.exec m op = .error .read := by
  have hplain := SnowRd.plain_of key data off P k d h0 hP
  have h := SnowRd.run_ok m hplain ops 0 _ SnowRd.inv_start hf (by omega)
  cases hp : pieces P 0 ops with
  | error e => rw [hp] at h; rw [show SnowRd.run m _ ops = _ from h] at hr; cases hr
  | ok as' =>
    rw [hp] at h
    obtain ⟨r', h, hI⟩ := h
    rw [h] at hr
    cases hr
    exact SnowRd.exec_end m hplain hI op hs (by omega)

/-- The program crashes whenever bytes are read, but not all that are left of a word. -/
theorem C39_split_panics (m : Mode) (key data : Bytes) (off : Nat) (ops : List ReadOp) (P : Bytes) (k : Nat) (d : Snow2) (h0 : off ≤ data.length)
    (hP : (Snow2.new key).decryptSlice (data.drop off) = .ok (P, k, d)) (hf : AllFit 0 ops) (ht : total ops ≤ P.length / 4 * 4)
    (as : List Ans) (r : SnowRd) (hr : (SnowRd.from data key off).run m ops = .ok (as, r)) (n : Nat) (hn : 0 < n)
    (hs : n < (4 - total ops % 4) % 4) : r.exec m (.bytes n) = .error .panicIndex ∧ r.exec m (.utf16 n) = .error .panicIndex := by
  have h := SnowRd.run_ok m (SnowRd.plain_of key data off P k d h0 hP) ops 0 _ SnowRd.inv_start hf (by omega)
  cases hp : pieces P 0 ops with
  | error e => rw [hp] at h; rw [show SnowRd.run m _ ops = _ from h] at hr; cases hr
  | ok as' =>
    rw [hp] at h
    obtain ⟨r', h, hI⟩ := h
    rw [h] at hr
    cases hr
    rw [Nat.zero_add] at hI
    exact SnowRd.exec_short m hI n hn hs

/-- A number read at an odd place spoils what follows: here the reads are three (or one) bytes, a number, and the rest of the word. -/
theorem C39_odd_number :
    ∃ key data : Bytes, ∃ ops₁ ops₂ : List ReadOp, ∃ (P : Bytes) (k : Nat) (d : Snow2), (Snow2.new key).decryptSlice data = .ok (P, k, d) ∧
      ops₁ = [.bytes 3, .i32, .bytes 1] ∧ ops₂ = [.bytes 1, .i32, .bytes 3] ∧ total ops₁ ≤ P.length ∧ total ops₂ ≤ P.length ∧
      (∀ m, ((SnowRd.from data key 0).run m ops₁).map Prod.fst ≠ pieces P 0 ops₁) ∧
      (∀ m, ((SnowRd.from data key 0).run m ops₂).map Prod.fst ≠ pieces P 0 ops₂) := by
  obtain ⟨out, d, h, _⟩ := Snow.slice_total (List.replicate 16 1#8) (List.replicate 8 0#8) 0 _ (Snow.at_new _)
  have hl := (SnowRd.oneShot_words _ _ _ _ _ _ _ (Snow.at_new _) h).1
  have hout : out = (((Snow2.new (List.replicate 16 1#8)).decryptSlice (List.replicate 8 0#8)).toOption.map Prod.fst).getD [] := by
    rw [h]; rfl
  refine ⟨List.replicate 16 1#8, List.replicate 8 0#8, _, _, out, _, d, h, rfl, rfl, by rw [hl]; decide, by rw [hl]; decide, ?_, ?_⟩
  · intro m; rw [hout]; cases m <;> decide +kernel
  · intro m; rw [hout]; cases m <;> decide +kernel

/-- the reads of an entry of an archive: length, name of three letters, seven numbers, key -/
example : AllFit 0 [.i32, .utf16 6, .i32, .i32, .i32, .i32, .i32, .i32, .i32, .bytes 16] := by
  simp [AllFit, ReadOp.Fits, ReadOp.size]

/-- a sequence with odd sizes that fits -/
example : AllFit 0 [.bytes 5, .bytes 3, .u32, .bytes 7, .bytes 1] := by
  simp [AllFit, ReadOp.Fits, ReadOp.size]

end Props

end Wz
