import Verif.Ms.TableLemmas
import Verif.Mode.Payload
/-!
# C73: what is shown of an MS archive stands in its table

The converse of C41: there, tables that were written come out as written; here, whatever bytes a file has, the images shown are the entries of a
table that stands in it, all of them and nothing else.
-/

set_option autoImplicit false

namespace Wz.Props

open Wz.Spec Wz.Spec.Snow Wz.Spec.Ms

/-- Version 1, any bytes: these images are shown if and only if the table says so.  (In a build without overflow checks; see
`C73_shown_partial` for the other.)
`_partial`: for names of less than 2 ^ 30 UTF-16 units (see `C73_long_name_counterexample`). -/
theorem C73_table_v1_partial : ∃ M : Maps, M.Ok ∧ ∀ (f : MsFile) (ims : List MsImage), f.buf.length < 2 ^ 63 → ShortNames ims →
    (f.parseV1 .wrap = .ok ims ↔ Shown1 M f.buf f.header ims) := by
  refine ⟨Snow.maps, Snow.maps_ok, fun f ims hlen hs => ⟨parseV1_inv f ims hlen hs, ?_⟩⟩
  rintro ⟨h1, es, h2, h3, h4, rfl⟩
  exact parseV1_shown f es h1 h2 h3 h4 hlen

/-- files for the examples: a table of two entries, in version 1 and 2 -/
def twoTable1 : MsFile :=
  ⟨[0#8, 0#8] ++ encrypt (keyWord Snow.maps (signedKey (key2 (utf8EncStr ['a']) 16))) 0
    (([anEntry ['a', 'b'], { anEntry ['c'] with startPos := -1 }].flatMap fields1).flatten ++ [9#8, 9#8]) ++ [1#8], ⟨[], ['a'], 0, 2, 2, 0, 2, 1⟩⟩

def twoTable2 : MsFile :=
  ⟨restartEncrypt (countingCipher (xorBase (key2 (utf8EncStr ['a']) 32)) (List.replicate 12 0#8)) 0 0 ([anEntry ['a', 'b'], anEntry ['c']].flatMap fields2) ++
    List.replicate 63 0#8, ⟨[], ['a'], 0, 4, 2, 0, 0, 2⟩⟩

/-- such a table; the second image starts before the data -/
example : ∃ ims, twoTable1.buf.length < 2 ^ 63 ∧ ShortNames ims ∧ ims.map (fun im => (im.entry.name, im.offset)) = [(['a', 'b'], 3072), (['c'], 0)] ∧
    Shown1 Snow.maps twoTable1.buf twoTable1.header ims := by
  refine ⟨_, ?_, ?_, ?_, (by decide : (['a'] : List Char) ≠ []), [anEntry ['a', 'b'], { anEntry ['c'] with startPos := -1 }], rfl, ?_, fun _ => ?_, rfl⟩
  · unfold twoTable1
    rw [List.length_append, List.length_append, encrypt_length]
    decide +kernel
  · intro im him
    simp only [List.map_cons, List.map_nil, List.mem_cons, List.not_mem_nil, or_false] at him
    rcases him with rfl | rfl <;> decide +kernel
  · decide +kernel
  · intro e he
    simp only [List.mem_cons, List.not_mem_nil, or_false] at he
    rcases he with rfl | rfl
    · exact ⟨⟨by decide +kernel, by decide +kernel, by decide +kernel⟩, rfl, rfl⟩
    · exact ⟨⟨by decide +kernel, by decide +kernel, by decide +kernel⟩, rfl, rfl⟩
  · exact ⟨[0#8, 0#8], [9#8, 9#8], [1#8], rfl, by decide +kernel, rfl⟩

/-- Version 2, any bytes: what is shown stands in the table.  (That tables come out as written: `C41_table_v2`.) -/
theorem C73_table_v2 (C : ChaCha) (hC : Blocks64 C) (f : MsFile) (ims : List MsImage) (hlen : f.buf.length < 2 ^ 63)
    (h : f.parseV2 .wrap C = .ok ims) : Shown2 C f.buf f.header ims :=
  parseV2_inv C hC f ims hlen h

/-- such a file -/
example : ∃ ims, twoTable2.buf.length < 2 ^ 63 ∧ twoTable2.parseV2 .wrap countingCipher = .ok ims ∧
    ims.map (fun im => (im.entry.name, im.offset)) = [(['a', 'b'], 3072), (['c'], 3072)] := by
  have hl : twoTable2.buf.length < 2 ^ 63 := by
    unfold twoTable2
    rw [List.length_append, restart_length]
    decide +kernel
  refine ⟨_, hl, parseV2_table .wrap countingCipher blocks_counting twoTable2 [anEntry ['a', 'b'], anEntry ['c']] [] (List.replicate 63 0#8)
    (by decide : (['a'] : List Char) ≠ []) (.inl rfl) rfl rfl ?_ (by decide) rfl hl, ?_⟩
  · intro e he
    simp only [List.mem_cons, List.not_mem_nil, or_false] at he
    rcases he with rfl | rfl
    · exact ⟨⟨by decide +kernel, by decide +kernel, by decide +kernel⟩, by decide, by decide⟩
    · exact ⟨⟨by decide +kernel, by decide +kernel, by decide +kernel⟩, by decide, by decide⟩
  · decide +kernel

/-- The whole file, in any build: if it opens and its table is read, it begins with a header laid out as the format says, and the images shown
are the entries of the table that the header tells of.
`_partial`: for names of less than 2 ^ 30 UTF-16 units (see `C73_long_name_counterexample`). -/
theorem C73_shown_partial : ∃ M : Maps, M.Ok ∧ ∀ (m : Mode) (C : ChaCha) (buf : Bytes) (name : List Char) (f : MsFile) (ims : List MsImage),
    Blocks64 C → name ≠ [] → buf.length < 2 ^ 63 → ShortNames ims → msOpen m C buf name = .ok f → f.parse m C = .ok ims →
    (∃ (h : Head1) (rest : Bytes), h.Ok name ∧ buf = h.bytes M name ++ rest ∧ h.result name = .ok f.header ∧ Shown1 M buf f.header ims) ∨
    (∃ h : Head2, h.Ok name ∧ buf = h.bytes ∧ f.header = h.result C name ∧ Shown2 C buf f.header ims) := by
  refine ⟨Snow.maps, Snow.maps_ok, fun m C buf name f ims hC hn hlen hs ho hp => ?_⟩
  have ho' : msOpen .wrap C buf name = .ok f := by
    cases m with
    | wrap => exact ho
    | checked =>
      rcases msOpen_ag C buf name with h | h
      · rw [h] at ho; cases ho
      · rw [← h]; exact ho
  have hp' : f.parse .wrap C = .ok ims := by
    cases m with
    | wrap => exact hp
    | checked =>
      rcases msParse_ag C f with h | h
      · rw [h] at hp; cases hp
      · rw [← h]; exact hp
  unfold msOpen at ho'
  unfold MsFile.parse at hp'
  cases h1 : headerV1 .wrap buf name with
  | ok H =>
    rw [h1] at ho'
    cases ho'
    obtain ⟨h, rest, k1, k2, k3, k4, k5⟩ := (accept_maps buf name hn H).mp h1
    have hv : H.msVersion = 1 := by
      unfold Head1.result at k5
      rw [if_neg (fun h => h k3), if_neg (fun h => h k4)] at k5
      cases k5
      rfl
    rw [if_pos hv] at hp'
    exact .inl ⟨h, rest, k1, k2, k5, parseV1_inv ⟨buf, H⟩ ims hlen hs hp'⟩
  | error e =>
    rw [h1] at ho'
    dsimp only at ho'
    split at ho'
    · cases ho'
    · cases h2 : headerV2 .wrap C buf name with
      | error e => rw [h2] at ho'; dsimp only at ho'; split at ho' <;> cases ho'
      | ok H =>
        rw [h2] at ho'
        cases ho'
        obtain ⟨h, k1, k2, k3⟩ := C41_header_v2_only .wrap C hC buf name hn H h2
        have hv : H.msVersion = 2 := by rw [k3 rfl]; rfl
        rw [if_neg (by rw [hv]; decide), if_pos hv] at hp'
        exact .inr ⟨h, k1, k2, k3 rfl, C73_table_v2 C hC ⟨buf, H⟩ ims hlen hp'⟩

/-- such a file, of five entries -/
example : ∃ (buf : Bytes) (f : MsFile) (ims : List MsImage), buf.length < 2 ^ 63 ∧ ShortNames ims ∧ ims.length = 5 ∧
    msOpen .wrap countingCipher buf ['h', 'h', 'h'] = .ok f ∧ f.parse .wrap countingCipher = .ok ims := by
  obtain ⟨M, _, h⟩ := C41_file_v1
  have hlen : ∀ z, (aHead1.bytes M ['h', 'h', 'h'] ++ List.replicate (30 + 3 * nameSum ['h', 'h', 'h'] % 212) 0#8 ++
      encrypt z 0 (((List.replicate 5 (anEntry ['a', 'b'])).flatMap fields1).flatten ++ []) ++ []).length < 2 ^ 63 := by
    intro z
    have hb : (aHead1.bytes M ['h', 'h', 'h']).length = randCount ['h', 'h', 'h'] + 4 + 2 * aHead1.salt.length + 12 := by
      have hok := aHead1_ok
      have hsf : aHead1.saltField.length = 2 * aHead1.salt.length := pairs_length _ _ _ 0
      unfold Head1.bytes Head1.lenField
      simp only [List.length_append, List.length_cons, encrypt_length, hok.rand, hok.high, hok.plain, hsf]
    rw [List.length_append, List.length_append, List.length_append, encrypt_length, hb]
    decide +kernel
  have h1 := h countingCipher aHead1 ['h', 'h', 'h'] _ (List.replicate 5 (anEntry ['a', 'b'])) (List.replicate (30 + 3 * nameSum ['h', 'h', 'h'] % 212) 0#8) [] []
    aHead1_ok (by decide) (by rfl) (by decide +kernel) List.length_replicate (by
      intro e he
      cases (List.mem_replicate.mp he).2
      exact ⟨⟨by decide +kernel, by decide +kernel, by decide +kernel⟩, by decide, by decide, rfl, rfl⟩) (by decide +kernel) _ rfl (hlen _)
  simp only [bind, Except.bind] at h1
  split at h1
  · cases h1
  · rename_i f hf
    refine ⟨_, f, _, hlen _, ?_, ?_, hf, h1⟩
    · intro im him
      obtain ⟨e, he, rfl⟩ := List.mem_map.mp him
      cases (List.mem_replicate.mp he).2
      show (utf16EncStr ['a', 'b']).length < _
      decide +kernel
    · rw [List.length_map, List.length_replicate]

/-! ## names too long -/

theorem unitPairs_zeros (n : Nat) : unitPairs (List.replicate (2 * n) 0#8) = List.replicate n 0#16 := by
  induction n with
  | zero => rfl
  | succ n ih =>
    rw [show 2 * (n + 1) = 2 * n + 1 + 1 by omega, List.replicate_succ, List.replicate_succ, unitPairs, ih]
    rfl

theorem utf16EncStr_nuls (n : Nat) : utf16EncStr (List.replicate n '\x00') = List.replicate n 0#16 := by
  induction n with
  | zero => rfl
  | succ n ih =>
    rw [List.replicate_succ]
    show utf16Enc '\x00' ++ utf16EncStr (List.replicate n '\x00') = _
    rw [ih]
    rfl

theorem nuls_length (n : Nat) : (utf16EncStr (List.replicate n '\x00')).length = n := by rw [utf16EncStr_nuls, List.length_replicate]

/-- a name of 2 ^ 31 bytes or more, up to the next 2 ^ 32, is not read at all, if the reader holds no byte -/
theorem readUtf16_long (m : Mode) (r : SnowRd) (n : Nat) (hb : r.bufLen = 0) (h1 : 2147483648 ≤ 2 * n) (h2 : 2 * n < 4294967296) :
    r.readUtf16 m (2 * n) = .ok (List.replicate n '\x00', r) := by
  have hs : signed 32 (2 * n) < 0 := by
    unfold signed
    rw [BitVec.toInt_ofNat', Int.bmod_def]
    split <;> omega
  have hw : r.writeBytes m (2 * n) = .ok (List.replicate (2 * n) 0#8, r) := by
    unfold SnowRd.writeBytes
    dsimp only
    rw [if_neg (by omega), show (signed 32 (2 * n)).toNat = 0 by omega]
    unfold SnowRd.writeLoop
    rw [if_neg (by omega)]
  unfold SnowRd.readUtf16 SnowRd.readBytes
  simp only [bind, Except.bind, pure, Except.pure]
  rw [if_neg (by omega), hw]
  dsimp only
  rw [unitPairs_zeros, ← utf16EncStr_nuls, utf16Strict_encStr]

theorem entryV1_steps {m : Mode} {v v1 v2 v3 v4 v5 v6 v7 : Int} {n : Nat} {nm : List Char} {k : Bytes} {r0 r1 r2 r3 r4 r5 r6 r7 r8 r9 r10 : SnowRd}
   (e1 : r0.readI32 = .ok (v, r1)) (e0 : mulU m (asUsize v) 2 = .ok n) (e2 : r1.readUtf16 m n = .ok (nm, r2))
   (e3 : r2.readI32 = .ok (v1, r3)) (e4 : r3.readI32 = .ok (v2, r4)) (e5 : r4.readI32 = .ok (v3, r5)) (e6 : r5.readI32 = .ok (v4, r6))
   (e7 : r6.readI32 = .ok (v5, r7)) (e8 : r7.readI32 = .ok (v6, r8)) (e9 : r8.readI32 = .ok (v7, r9)) (e10 : r9.writeBytes m 16 = .ok (k, r10)) :
   entryV1 m r0 = .ok (⟨nm, v1, v2, v3, v4, v5, v6, v7, k, 0, 0⟩, r10) := by
  unfold entryV1
  simp only [bind, Except.bind, pure, Except.pure, e1, e0, e2, e3, e4, e5, e6, e7, e8, e9, e10]

theorem parseV1_steps {f : MsFile} {key : Bytes} {es : List MsEntry} {r : SnowRd} {q : Nat}
    (h1 : tabulateM (entryKeyByte .wrap (utf8EncStr f.header.nameWithSalt)) 16 = .ok key) (h2 : capacity f.header.entryCount = .ok ())
    (h3 : Wz.entries (entryV1 .wrap) f.header.entryCount.toNat (SnowRd.from f.buf key f.header.estart) = .ok (es, r))
    (h4 : r.offset = q) (h5 : q < 2 ^ 63) : f.parseV1 .wrap = .ok (es.map (shownAt q)) := by
  unfold MsFile.parseV1
  simp only [bind, Except.bind]
  rw [h1]
  dsimp only
  rw [h2]
  dsimp only
  rw [show ({ SnowRd.new f.buf key with offset := f.header.estart } : SnowRd) = SnowRd.from f.buf key f.header.estart from rfl, h3]
  dsimp only
  rw [h4, alignKilo_eq .wrap q h5]
  exact placeAll_wrap q es

theorem entries_one {m : Mode} {r r' : SnowRd} {e : MsEntry} (h : entryV1 m r = .ok (e, r')) : Wz.entries (entryV1 m) 1 r = .ok ([e], r') := by
  unfold Wz.entries
  rw [h]
  rfl

theorem long_name_file (n : Nat) (v : Int) (hn : n = 1073741824) (hv : v = 1073741824) (nm : List Char) (hnm : nm = List.replicate n '\x00') :
    ∃ im : MsImage, ∃ f : MsFile, f.buf.length = 48 ∧ f.parseV1 .wrap = .ok [im] ∧ im.entry.name = nm := by
  generalize hkey : key2 (utf8EncStr ['a']) 16 = key
  let fs : List Bytes := [Ms.num v, Ms.num 0, Ms.num 0, Ms.num 0, Ms.num 0, Ms.num 0, Ms.num 0, Ms.num 0, List.replicate 16 0#8]
  have hfl : fs.flatten.length = 48 := by
    simp only [fs, List.flatten_cons, List.flatten_nil, List.length_append, num_length, List.length_replicate, List.length_nil]
  have hel : (encrypt (Snow.stream key) 0 fs.flatten).length = 48 := by rw [encrypt_length, hfl]
  obtain ⟨d, hd, _⟩ := Snow.slice_encrypted key fs.flatten 0 _ (Snow.at_new key)
  have hP := SnowRd.plain_of key (encrypt (Snow.stream key) 0 fs.flatten) 0 fs.flatten _ d (Nat.zero_le _) (by rw [List.drop_zero]; exact hd)
  clear hd
  generalize hE : encrypt (Snow.stream key) 0 fs.flatten = E at hel hP
  clear hE
  have h0 : At1 key E 0 fs.flatten 0 fs (SnowRd.from E key 0) :=
    ⟨SnowRd.inv_start, rfl, by unfold sub; rw [List.drop_zero, List.take_length], by rw [hfl]⟩
  generalize hr0 : SnowRd.from E key 0 = r0 at h0
  obtain ⟨r1, e1, h⟩ := At1.num hP h0 (by omega)
  have e0 : mulU .wrap (asUsize v) 2 = .ok (2 * n) := by
    have : asUsize v = n := by unfold asUsize; omega
    rw [this, mulU_ok (by omega), Nat.mul_comm]
  have hb : r1.bufLen = 0 := by
    rw [h.inv.bufLen, num_length]
  have e2 : r1.readUtf16 .wrap (2 * n) = .ok (nm, r1) := by
    rw [hnm]
    exact readUtf16_long .wrap r1 n hb (by omega) (by omega)
  clear hnm hn hv
  obtain ⟨r3, e3, h⟩ := At1.num hP h (by decide)
  obtain ⟨r4, e4, h⟩ := At1.num hP h (by decide)
  obtain ⟨r5, e5, h⟩ := At1.num hP h (by decide)
  obtain ⟨r6, e6, h⟩ := At1.num hP h (by decide)
  obtain ⟨r7, e7, h⟩ := At1.num hP h (by decide)
  obtain ⟨r8, e8, h⟩ := At1.num hP h (by decide)
  obtain ⟨r9, e9, h⟩ := At1.num hP h (by decide)
  obtain ⟨r10, e10, h⟩ := At1.bytes .wrap hP h (by decide) (by decide)
  rw [List.length_replicate] at e10
  have hent : entryV1 .wrap r0 =
      .ok (⟨nm, 0, 0, 0, 0, 0, 0, 0, List.replicate 16 0#8, 0, 0⟩, r10) :=
    entryV1_steps e1 e0 e2 e3 e4 e5 e6 e7 e8 e9 e10
  have hoff : r10.offset = 48 := by
    rw [h.inv.offset]
    simp only [num_length, List.length_replicate]
  refine ⟨shownAt 48 ⟨nm, 0, 0, 0, 0, 0, 0, 0, List.replicate 16 0#8, 0, 0⟩,
    ⟨E, ⟨[], ['a'], 0, 2, 1, 0, 0, 1⟩⟩, hel, ?_, rfl⟩
  subst hr0
  exact parseV1_steps (f := ⟨E, ⟨[], ['a'], 0, 2, 1, 0, 0, 1⟩⟩) (key := key) (es := [_]) (by rw [← hkey]; exact tableKey1 (s := ['a']) (by decide)) rfl
    (entries_one hent) hoff (by decide)

/-- A version 1 table of 48 bytes shows an entry with a name of 2 ^ 30 characters: a length that large becomes negative where the bytes are
counted, no byte is read and the name is all NULs. -/
theorem C73_long_name_counterexample : ∃ (f : MsFile) (im : MsImage), f.buf.length = 48 ∧ f.parseV1 .wrap = .ok [im] ∧
    im.entry.name = List.replicate 1073741824 '\x00' ∧ ∀ M, ¬ Shown1 M f.buf f.header [im] := by
  have hl := nuls_length 1073741824
  have hm := long_name_file 1073741824 1073741824 rfl rfl
  generalize List.replicate 1073741824 '\x00' = nm at hm hl ⊢
  obtain ⟨im, f, h1, h2, h3⟩ := hm nm rfl
  refine ⟨f, im, h1, h2, h3, ?_⟩
  rintro M ⟨_, es, _, he, _, hims⟩
  cases es with
  | nil => cases hims
  | cons e es =>
    have h4 := (he e (by simp)).1.name
    have h5 : im.entry.name = e.name := by
      rw [List.map_cons] at hims
      rw [(List.cons.inj hims).1]
      rfl
    rw [← h5, h3, hl] at h4
    omega

end Wz.Props
