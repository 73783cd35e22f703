import Verif.Ms.ChaRdLemmas
/-!
# Reads through the ChaCha20 reader (C40)

The cipher is a parameter: `C key nonce n` is block `n` of its key stream, 64 bytes.
-/

set_option autoImplicit false

namespace Wz

open Wz.Spec

/-- a read with the functions of the reader -/
def ChaRd.exec (r : ChaRd) : ReadOp → Except Err (Ans × ChaRd)
  | .i32 => r.readI32.map fun x => (.num x.1, x.2)
  | .u32 => r.readU32.map fun x => (.num x.1, x.2)
  | .bytes n => (r.readBytes n).map fun x => (.raw x.1, x.2)
  | .utf16 n => (r.readUtf16 n).map fun x => (.text x.1, x.2)

/-- reads one after the other: the answers and the reader -/
def ChaRd.run : ChaRd → List ReadOp → Except Err (List Ans × ChaRd)
  | r, [] => .ok ([], r)
  | r, op :: ops =>
    match r.exec op with
    | .error e => .error e
    | .ok (a, r) => match ChaRd.run r ops with
      | .error e => .error e
      | .ok (as, r) => .ok (a :: as, r)

/-- a reader set to start at `off` (as in ms/file.rs 168-173) -/
def ChaRd.from (C : ChaCha) (data key nonce : Bytes) (off : Nat) : ChaRd := { ChaRd.new C data key nonce with offset := off }

namespace Spec

/-- a cipher has blocks of 64 bytes -/
def Blocks64 (C : ChaCha) : Prop := ∀ key nonce n, (C key nonce n).length = 64

/-- decryption of data: byte `q` with byte `q % 64` of block `q / 64` of the key stream -/
def chaDecrypt (ks : Nat → Bytes) (D : Bytes) : Bytes := D.mapIdx fun q b => b ^^^ (ks (q / 64)).getD (q % 64) 0#8

/-- The reader takes chunks of 64 bytes, which must be there whole; and as many bytes as are read must follow the chunks already taken. -/
def InChunks (len : Nat) : Nat → List ReadOp → Prop
  | _, [] => True
  | p, op :: ops => (p + 63) / 64 * 64 + op.size ≤ len ∧ (p + op.size + 63) / 64 * 64 ≤ len ∧ InChunks len (p + op.size) ops

/-- no read but the last ends where a chunk ends -/
def OffBorder : Nat → List ReadOp → Prop
  | _, [] => True
  | _, [_] => True
  | p, op :: ops => (p + op.size) % 64 ≠ 0 ∧ OffBorder (p + op.size) ops

/-- what the reads give if the key stream starts anew at block `j`, and again wherever a read ends where a chunk ends -/
def restarting (ks : Nat → Bytes) (D : Bytes) : Nat → Nat → List ReadOp → Except Err (List Ans)
  | _, _, [] => .ok []
  | j, p, op :: ops =>
    match op.answer (chaPiece ks D j p op.size) with
    | .error e => .error e
    | .ok a =>
      match restarting ks D (if (p + op.size) % 64 = 0 then (p + op.size) / 64 else j) (p + op.size) ops with
      | .error e => .error e
      | .ok as => .ok (a :: as)

end Spec

namespace ChaRd

theorem inv_start {C : ChaCha} {data key nonce : Bytes} {off : Nat} (h : off ≤ data.length) :
    Inv (C key nonce) data off 0 0 (ChaRd.from C data key nonce off) :=
  ⟨rfl, rfl, rfl, rfl, by omega, rfl, rfl, rfl, by omega⟩

theorem readBytes_ok {ks : Nat → Bytes} (hks : ∀ c, (ks c).length = 64) {data : Bytes} {off j p : Nat} {r : ChaRd} (hI : Inv ks data off j p r)
    (n : Nat) (h : off + 64 * ((p + 63) / 64) + n ≤ data.length) (h' : off + 64 * ((p + n + 63) / 64) ≤ data.length) :
    ∃ r', r.readBytes n = .ok (chaPiece ks (data.drop off) j p n, r') ∧ Inv ks data off (nextStart j (p + n)) (p + n) r' := by
  unfold readBytes
  rw [hI.dat, hI.offset, sliceIdx_ok (by omega) (by omega)]
  exact apply_ok hks hI n h'

theorem readBytes_end {ks : Nat → Bytes} (hks : ∀ c, (ks c).length = 64) {data : Bytes} {off j p : Nat} {r : ChaRd} (hI : Inv ks data off j p r)
    (n : Nat) (h : ¬ (off + 64 * ((p + 63) / 64) + n ≤ data.length ∧ off + 64 * ((p + n + 63) / 64) ≤ data.length)) :
    r.readBytes n = .error .panicIndex := by
  unfold readBytes
  rw [hI.dat, hI.offset]
  by_cases h1 : off + 64 * ((p + 63) / 64) + n ≤ data.length
  · rw [sliceIdx_ok (by omega) (by omega)]
    exact apply_end hks hI n (fun h2 => h ⟨h1, h2⟩)
  · unfold sliceIdx
    rw [if_neg (by omega)]
    rfl

theorem readI32_eq (r : ChaRd) : r.readI32 = (r.readBytes 4).map fun x => (signed 32 (leNat x.1), x.2) := by
  unfold readI32 readBytes
  cases sliceIdx r.data r.offset (r.offset + 4) with
  | error e => rfl
  | ok _ => show (r.apply 4 >>= _) = (r.apply 4).map _; cases r.apply 4 <;> rfl

theorem readU32_eq (r : ChaRd) : r.readU32 = (r.readBytes 4).map fun x => (leNat x.1, x.2) := by
  unfold readU32 readBytes
  cases sliceIdx r.data r.offset (r.offset + 4) with
  | error e => rfl
  | ok _ => show (r.apply 4 >>= _) = (r.apply 4).map _; cases r.apply 4 <;> rfl

theorem exec_ok {ks : Nat → Bytes} (hks : ∀ c, (ks c).length = 64) {data : Bytes} {off j p : Nat} {r : ChaRd} (hI : Inv ks data off j p r)
    (op : ReadOp) (h : off + 64 * ((p + 63) / 64) + op.size ≤ data.length) (h' : off + 64 * ((p + op.size + 63) / 64) ≤ data.length) :
    match op.answer (chaPiece ks (data.drop off) j p op.size) with
    | .ok a => ∃ r', r.exec op = .ok (a, r') ∧ Inv ks data off (nextStart j (p + op.size)) (p + op.size) r'
    | .error e => r.exec op = .error e := by
  obtain ⟨r', h1, h2⟩ := readBytes_ok hks hI op.size h h'
  cases op with
  | i32 => exact ⟨r', by show (r.readI32).map _ = _; rw [readI32_eq, show r.readBytes 4 = _ from h1]; rfl, h2⟩
  | u32 => exact ⟨r', by show (r.readU32).map _ = _; rw [readU32_eq, show r.readBytes 4 = _ from h1]; rfl, h2⟩
  | bytes n => exact ⟨r', by show (r.readBytes n).map _ = _; rw [show r.readBytes n = _ from h1]; rfl, h2⟩
  | utf16 n =>
    have hx : r.exec (.utf16 n) = ((utf16Strict (unitPairs (chaPiece ks (data.drop off) j p n))).map fun s => (Ans.text s, r')) := by
      show (r.readUtf16 n).map _ = _
      unfold readUtf16
      rw [show r.readBytes n = _ from h1]
      show (Except.map _ (utf16Strict (unitPairs (chaPiece ks (data.drop off) j p n)) >>= _)) = _
      cases utf16Strict (unitPairs (chaPiece ks (data.drop off) j p n)) <;> rfl
    rw [unitPairs_eq] at hx
    show match (match utf16Strict (unitsOf (chaPiece ks (data.drop off) j p n)) with | .ok s => Except.ok (Ans.text s) | .error e => .error e) with
      | .ok a => _ | .error e => _
    cases hs : utf16Strict (unitsOf (chaPiece ks (data.drop off) j p n)) with
    | error e => show r.exec _ = _; rw [hx, hs]; rfl
    | ok s => exact ⟨r', by rw [hx, hs]; rfl, h2⟩

theorem exec_end {ks : Nat → Bytes} (hks : ∀ c, (ks c).length = 64) {data : Bytes} {off j p : Nat} {r : ChaRd} (hI : Inv ks data off j p r)
    (op : ReadOp) (h : ¬ (off + 64 * ((p + 63) / 64) + op.size ≤ data.length ∧ off + 64 * ((p + op.size + 63) / 64) ≤ data.length)) :
    r.exec op = .error .panicIndex := by
  have h1 := readBytes_end hks hI op.size h
  cases op with
  | i32 => show (r.readI32).map _ = _; rw [readI32_eq, show r.readBytes 4 = _ from h1]; rfl
  | u32 => show (r.readU32).map _ = _; rw [readU32_eq, show r.readBytes 4 = _ from h1]; rfl
  | bytes n => show (r.readBytes n).map _ = _; rw [show r.readBytes n = _ from h1]; rfl
  | utf16 n => show (r.readUtf16 n).map _ = _; unfold readUtf16; rw [show r.readBytes n = _ from h1]; rfl

theorem run_ok {ks : Nat → Bytes} (hks : ∀ c, (ks c).length = 64) {data : Bytes} {off : Nat} (h0 : off ≤ data.length) (ops : List ReadOp) :
    ∀ (j p : Nat) (r : ChaRd), Inv ks data off j p r → InChunks (data.length - off) p ops →
    match restarting ks (data.drop off) j p ops with
    | .ok as => ∃ r' j', r.run ops = .ok (as, r') ∧ Inv ks data off j' (p + total ops) r'
    | .error e => r.run ops = .error e := by
  induction ops with
  | nil => intro j p r hI _; exact ⟨r, j, rfl, hI⟩
  | cons op ops ih =>
    intro j p r hI hc
    obtain ⟨c1, c2, c3⟩ := hc
    have ht : total (op :: ops) = op.size + total ops := by simp [total]
    have h1 := exec_ok hks hI op (by omega) (by omega)
    unfold restarting
    cases ha : op.answer (chaPiece ks (data.drop off) j p op.size) with
    | error e =>
      rw [ha] at h1
      show run r (op :: ops) = _
      unfold run
      rw [show r.exec op = .error e from h1]
    | ok a =>
      rw [ha] at h1
      obtain ⟨r', hr', hI'⟩ := h1
      have h2 := ih _ _ _ hI' c3
      unfold nextStart at h2
      simp only
      cases hp : restarting ks (data.drop off) (if (p + op.size) % 64 = 0 then (p + op.size) / 64 else j) (p + op.size) ops with
      | error e =>
        rw [hp] at h2
        show run r (op :: ops) = _
        unfold run
        simp only [hr', show run r' ops = .error e from h2]
      | ok as =>
        rw [hp] at h2
        obtain ⟨r'', j', hr'', hI''⟩ := h2
        refine ⟨r'', j', ?_, by rw [ht]; rwa [Nat.add_assoc] at hI''⟩
        unfold run
        simp only [hr', hr'']

theorem piece_zero (ks : Nat → Bytes) (D : Bytes) (p n : Nat) (h : p + n ≤ D.length) :
    chaPiece ks D 0 p n = ((chaDecrypt ks D).drop p).take n := by
  apply List.ext_getElem
  · rw [piece_length, List.length_take, List.length_drop, chaDecrypt, List.length_mapIdx]; omega
  · intro i h1 h2
    rw [piece_length] at h1
    rw [List.getElem_take, List.getElem_drop]
    simp only [chaPiece, chaDecrypt, List.getElem_map, List.getElem_range, List.getElem_mapIdx, chaByte, Nat.sub_zero]
    congr 1
    rw [List.getD_eq_getElem?_getD, List.getElem?_eq_getElem (by omega)]
    rfl

theorem restarting_pieces (ks : Nat → Bytes) (D : Bytes) (ops : List ReadOp) : ∀ p, OffBorder p ops → InChunks D.length p ops →
    restarting ks D 0 p ops = pieces (chaDecrypt ks D) p ops := by
  induction ops with
  | nil => intro p _ _; rfl
  | cons op ops ih =>
    intro p hb hc
    obtain ⟨c1, c2, c3⟩ := hc
    unfold restarting pieces
    rw [piece_zero ks D p op.size (by omega)]
    cases op.answer (((chaDecrypt ks D).drop p).take op.size) with
    | error e => rfl
    | ok a =>
      simp only
      cases ops with
      | nil => rfl
      | cons op' ops' =>
        obtain ⟨b1, b2⟩ := hb
        rw [if_neg b1, ih _ b2 c3]
        cases pieces (chaDecrypt ks D) (p + op.size) (op' :: ops') <;> rfl

end ChaRd

namespace Props

/-- What the reads give, in all cases where the chunks are there: the pieces of the data, where the key stream starts anew whenever a read
ends where a chunk of 64 bytes ends. -/
theorem C40_restart (C : ChaCha) (hC : Blocks64 C) (data key nonce : Bytes) (off : Nat) (ops : List ReadOp) (h0 : off ≤ data.length)
    (hc : InChunks (data.length - off) 0 ops) :
    ((ChaRd.from C data key nonce off).run ops).map Prod.fst = restarting (C key nonce) (data.drop off) 0 0 ops := by
  have h := ChaRd.run_ok (hC key nonce) h0 ops 0 0 _ (ChaRd.inv_start h0) hc
  cases hp : restarting (C key nonce) (data.drop off) 0 0 ops with
  | error e => rw [hp] at h; rw [show ChaRd.run _ ops = _ from h]; rfl
  | ok as => rw [hp] at h; obtain ⟨r', _, h, _⟩ := h; rw [h]; rfl

/-- The reads give the consecutive pieces of the decryption of the stream, if no read but the last ends where a chunk of 64 bytes ends.
`_partial`: otherwise they do not (see `C40_border`). -/
theorem C40_pieces_partial (C : ChaCha) (hC : Blocks64 C) (data key nonce : Bytes) (off : Nat) (ops : List ReadOp) (h0 : off ≤ data.length)
    (hc : InChunks (data.length - off) 0 ops) (hb : OffBorder 0 ops) :
    ((ChaRd.from C data key nonce off).run ops).map Prod.fst = pieces (chaDecrypt (C key nonce) (data.drop off)) 0 ops := by
  rw [C40_restart C hC data key nonce off ops h0 hc, ChaRd.restarting_pieces _ _ ops 0 hb (by rwa [List.length_drop])]

/-- A read for which the chunks are not there crashes: there is no error value for the end of the stream. -/
theorem C40_end_panics (C : ChaCha) (hC : Blocks64 C) (data key nonce : Bytes) (off : Nat) (ops : List ReadOp) (h0 : off ≤ data.length)
    (hc : InChunks (data.length - off) 0 ops) (as : List Ans) (r : ChaRd) (hr : (ChaRd.from C data key nonce off).run ops = .ok (as, r))
    (op : ReadOp) (hend : ¬ InChunks (data.length - off) (total ops) [op]) : r.exec op = .error .panicIndex := by
  have h := ChaRd.run_ok (hC key nonce) h0 ops 0 0 _ (ChaRd.inv_start h0) hc
  cases hp : restarting (C key nonce) (data.drop off) 0 0 ops with
  | error e => rw [hp] at h; rw [show ChaRd.run _ ops = _ from h] at hr; cases hr
  | ok as' =>
    rw [hp] at h
    obtain ⟨r', j', h, hI⟩ := h
    rw [h] at hr
    cases hr
    rw [Nat.zero_add] at hI
    refine ChaRd.exec_end (hC key nonce) hI op fun hx => hend ⟨?_, ?_, trivial⟩ <;> omega

/-- a cipher for examples: block `n` is 64 times the byte `n + 1` -/
def countingCipher : ChaCha := fun _ _ n => List.replicate 64 (BitVec.ofNat 8 (n + 1))

/-- The pieces are not always those of the decryption of the stream: two reads of 64 bytes against one of 128. -/
theorem C40_border : ∃ (C : ChaCha) (data : Bytes), Blocks64 C ∧ InChunks data.length 0 [.bytes 64, .bytes 64] ∧
    ((ChaRd.from C data [] [] 0).run [.bytes 64, .bytes 64]).map Prod.fst ≠ pieces (chaDecrypt (C [] []) data) 0 [.bytes 64, .bytes 64] ∧
    ((ChaRd.from C data [] [] 0).run [.bytes 128]).map Prod.fst = pieces (chaDecrypt (C [] []) data) 0 [.bytes 128] :=
  ⟨countingCipher, List.replicate 128 0#8, fun _ _ n => by simp [countingCipher], by simp [InChunks, ReadOp.size], by decide +kernel, by decide +kernel⟩

/-- Bytes that are there, even decrypted already, can be out of reach: 64 bytes of data, read in two parts. -/
theorem C40_last_chunk : ∃ (C : ChaCha) (data : Bytes), Blocks64 C ∧ data.length = 64 ∧
    ((ChaRd.from C data [] [] 0).run [.bytes 60, .i32]).map Prod.fst = .error .panicIndex :=
  ⟨countingCipher, List.replicate 64 0#8, fun _ _ n => by simp [countingCipher], rfl, by decide +kernel⟩

/-- writing into a buffer is reading, if the lengths agree; a buffer too short is an error, one too long a crash -/
theorem C40_write (r : ChaRd) (dest len : Nat) (h : r.offset + len ≤ r.data.length) :
    r.writeBytes dest len = if len > dest then .error (.lib "DecryptError") else if len = dest then r.readBytes len else .error .panicIndex := by
  unfold ChaRd.writeBytes
  by_cases h1 : len > dest
  · rw [if_pos h1, if_pos h1]
  · rw [if_neg h1, if_neg h1]
    show (sliceIdx r.data r.offset (r.offset + len) >>= _) = _
    rw [sliceIdx_ok (by omega) h, show r.offset + len - r.offset = len by omega]
    show (setRange (List.replicate dest 0#8) 0 dest (sub r.data r.offset len) >>= _) = _
    by_cases h2 : len = dest
    · subst h2
      rw [if_pos rfl, setRange_ok (by omega) (by simp) (by rw [sub_length h]; omega)]
      unfold ChaRd.readBytes
      rw [sliceIdx_ok (by omega) h]
      rfl
    · rw [if_neg h2]
      unfold setRange
      rw [if_neg (by rw [sub_length h]; omega)]
      rfl

/-- the reads of a first entry with a name of three letters, in two chunks -/
example : InChunks 192 0 [.i32, .utf16 6, .i32, .i32, .i32, .i32, .i32, .i32, .i32, .bytes 16, .i32, .i32] ∧
    OffBorder 0 [.i32, .utf16 6, .i32, .i32, .i32, .i32, .i32, .i32, .i32, .bytes 16, .i32, .i32] := by
  simp [InChunks, OffBorder, ReadOp.size]

end Props

end Wz
