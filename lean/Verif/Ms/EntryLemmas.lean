import Verif.Ms.HeaderV2
import Verif.Text.Lemmas
/-!
# Reading the table of entries
-/

set_option autoImplicit false

namespace Wz

open Wz.Spec Wz.Spec.Snow Wz.Spec.Ms

/-! ## fields -/

theorem num_length (v : Int) : (num v).length = 4 := length_toLE 4 _

theorem signed_num {v : Int} (h : -2147483648 ≤ v ∧ v < 2147483648) : signed 32 (leNat (num v)) = v := by
  unfold num
  rw [leNat_toLE]
  have hlt := (BitVec.ofInt 32 v).isLt
  rw [Nat.mod_eq_of_lt (by omega)]
  unfold signed
  rw [BitVec.ofNat_toNat, BitVec.setWidth_eq, BitVec.toInt_ofInt, Int.bmod_eq_of_le (by omega) (by omega)]

theorem text16_length (s : List Char) : (text16 s).length = 2 * (utf16EncStr s).length := by
  unfold text16
  induction utf16EncStr s with
  | nil => rfl
  | cons u us ih => rw [List.flatMap_cons, List.length_append, ih, length_toLE, List.length_cons]; omega

theorem unitPairs_text16 (s : List Char) : unitPairs (text16 s) = utf16EncStr s := by
  unfold text16
  induction utf16EncStr s with
  | nil => rfl
  | cons u us ih =>
    rw [List.flatMap_cons]
    show unitPairs (BitVec.ofNat 8 u.toNat :: BitVec.ofNat 8 (u.toNat / 256) :: List.flatMap (fun u => toLE 2 u.toNat) us) = _
    rw [unitPairs, ih]
    congr 1
    apply BitVec.eq_of_toNat_eq
    have := u.isLt
    simp only [BitVec.toNat_ofNat]
    omega

theorem sub_split {P A B : Bytes} {p : Nat} (h : sub P p (A ++ B).length = A ++ B) : sub P p A.length = A ∧ sub P (p + A.length) B.length = B := by
  rw [List.length_append, ← sub_append] at h
  have hl : (sub P p A.length).length = A.length := by
    have h1 := congrArg List.length h
    rw [List.length_append, List.length_append] at h1
    have h2 : (sub P p A.length).length ≤ A.length := by unfold sub; rw [List.length_take]; omega
    have h3 : (sub P (p + A.length) B.length).length ≤ B.length := by unfold sub; rw [List.length_take]; omega
    omega
  exact List.append_inj h hl

/-! ## version 1 -/

/-- the reader stands at the (even) place `p`, and the fields `fs` follow -/
structure At1 (key data : Bytes) (off : Nat) (P : Bytes) (p : Nat) (fs : List Bytes) (r : SnowRd) : Prop where
  inv : SnowRd.Inv key data off P p r
  even : p % 2 = 0
  here : sub P p fs.flatten.length = fs.flatten
  fits : p + fs.flatten.length ≤ P.length / 4 * 4

theorem At1.next {key data : Bytes} {off : Nat} {P : Bytes} {p : Nat} {f : Bytes} {fs : List Bytes} {r r' : SnowRd} (h : At1 key data off P p (f :: fs) r)
    (hf : f.length % 2 = 0) (hI : SnowRd.Inv key data off P (p + f.length) r') : At1 key data off P (p + f.length) fs r' := by
  have h1 := h.here
  have h2 := h.fits
  have h3 := h.even
  rw [List.flatten_cons] at h1
  rw [List.flatten_cons, List.length_append] at h2
  exact ⟨hI, by omega, (sub_split h1).2, by omega⟩

theorem At1.head {key data : Bytes} {off : Nat} {P : Bytes} {p : Nat} {f : Bytes} {fs : List Bytes} {r : SnowRd} (h : At1 key data off P p (f :: fs) r) :
    sub P p f.length = f ∧ p + f.length ≤ P.length / 4 * 4 := by
  have h1 := h.here
  have h2 := h.fits
  rw [List.flatten_cons] at h1
  rw [List.flatten_cons, List.length_append] at h2
  exact ⟨(sub_split h1).1, by omega⟩

theorem At1.num {key data : Bytes} {off : Nat} {P : Bytes} {p : Nat} {v : Int} {fs : List Bytes} {r : SnowRd} (hP : SnowRd.Plain key data off P)
    (h : At1 key data off P p (num v :: fs) r) (hv : -2147483648 ≤ v ∧ v < 2147483648) :
    ∃ r', r.readI32 = .ok (v, r') ∧ At1 key data off P (p + (Ms.num v).length) fs r' := by
  obtain ⟨hs, hfit⟩ := h.head
  obtain ⟨r', h1, h2⟩ := SnowRd.read4_ok hP h.inv h.even (by rw [num_length] at hfit; exact hfit)
  rw [num_length] at hs
  refine ⟨r', ?_, h.next (by rw [num_length]) (by rw [num_length]; exact h2)⟩
  rw [SnowRd.readI32_eq, h1]
  show Except.ok (signed 32 (leNat (sub P p 4)), r') = _
  rw [hs, signed_num hv]

theorem At1.bytes {key data : Bytes} {off : Nat} {P : Bytes} {p : Nat} {f : Bytes} {fs : List Bytes} {r : SnowRd} (m : Mode) (hP : SnowRd.Plain key data off P)
    (h : At1 key data off P p (f :: fs) r) (he : f.length % 2 = 0) (hl : f.length < 2 ^ 31) :
    ∃ r', r.writeBytes m f.length = .ok (f, r') ∧ At1 key data off P (p + f.length) fs r' := by
  obtain ⟨hs, hfit⟩ := h.head
  have hev := h.even
  obtain ⟨r', h1, h2⟩ := SnowRd.write_ok m hP h.inv f.length ⟨hl, by omega⟩ hfit
  exact ⟨r', by rw [h1, hs], h.next he h2⟩

theorem At1.text {key data : Bytes} {off : Nat} {P : Bytes} {p : Nat} {s : List Char} {fs : List Bytes} {r : SnowRd} (m : Mode) (hP : SnowRd.Plain key data off P)
    (h : At1 key data off P p (text16 s :: fs) r) (hl : 2 * (utf16EncStr s).length < 2147483648) :
    ∃ r', r.readUtf16 m (2 * (utf16EncStr s).length) = .ok (s, r') ∧ At1 key data off P (p + (text16 s).length) fs r' := by
  obtain ⟨r', h1, h2⟩ := h.bytes m hP (by rw [text16_length]; omega) (by rw [text16_length]; omega)
  refine ⟨r', ?_, h2⟩
  rw [text16_length] at h1
  have h63 : ¬ 2 * (utf16EncStr s).length ≥ 2 ^ 63 := by omega
  unfold SnowRd.readUtf16 SnowRd.readBytes
  simp only [bind, Except.bind, pure, Except.pure]
  rw [if_neg h63, h1]
  dsimp only
  rw [unitPairs_text16, utf16Strict_encStr]

theorem asUsize_nat (n : Nat) (h : n < 2 ^ 64) : asUsize (n : Int) = n := by
  unfold asUsize; omega

theorem mulU_ok {m : Mode} {a b : Nat} (h : a * b < 2 ^ 64) : mulU m a b = .ok (a * b) := by unfold mulU; rw [if_pos h]

theorem At1.entry {key data : Bytes} {off : Nat} {P : Bytes} {p : Nat} {e : MsEntry} {fs : List Bytes} {r : SnowRd} (m : Mode) (hP : SnowRd.Plain key data off P)
    (he : EntryOk e) (h0 : e.unk3 = 0 ∧ e.unk4 = 0) (h : At1 key data off P p (fields1 e ++ fs) r) :
    ∃ r', entryV1 m r = .ok (e, r') ∧ At1 key data off P (p + (fields1 e).flatten.length) fs r' := by
  have hn := he.nums
  have hname := he.name
  simp only [List.mem_cons, List.not_mem_nil, or_false, forall_eq_or_imp, forall_eq] at hn
  obtain ⟨n1, n2, n3, n4, n5, n6, n7, n8, n9⟩ := hn
  obtain ⟨r1, e1, h⟩ := At1.num hP h (by omega)
  obtain ⟨r2, e2, h⟩ := At1.text m hP h hname
  obtain ⟨r3, e3, h⟩ := At1.num hP h n1
  obtain ⟨r4, e4, h⟩ := At1.num hP h n2
  obtain ⟨r5, e5, h⟩ := At1.num hP h n3
  obtain ⟨r6, e6, h⟩ := At1.num hP h n4
  obtain ⟨r7, e7, h⟩ := At1.num hP h n5
  obtain ⟨r8, e8, h⟩ := At1.num hP h n6
  obtain ⟨r9, e9, h⟩ := At1.num hP h n7
  obtain ⟨r10, e10, h⟩ := At1.bytes m hP h (by rw [he.key]) (by rw [he.key]; decide)
  refine ⟨r10, ?_, ?_⟩
  · rw [he.key] at e10
    unfold entryV1
    simp only [bind, Except.bind, pure, Except.pure]
    rw [e1]
    dsimp only
    rw [asUsize_nat _ (by omega), mulU_ok (by omega)]
    dsimp only
    rw [Nat.mul_comm, e2]
    dsimp only
    rw [e3]
    dsimp only
    rw [e4]
    dsimp only
    rw [e5]
    dsimp only
    rw [e6]
    dsimp only
    rw [e7]
    dsimp only
    rw [e8]
    dsimp only
    rw [e9]
    dsimp only
    rw [e10]
    dsimp only
    rw [show (0 : Int) = e.unk3 from h0.1.symm]
    conv => lhs; arg 1; arg 1; arg 11; rw [h0.1, ← h0.2]
  · have : (fields1 e).flatten.length = (Ms.num (utf16EncStr e.name).length).length + (text16 e.name).length + (Ms.num e.checkSum).length + (Ms.num e.flags).length +
        (Ms.num e.startPos).length + (Ms.num e.size).length + (Ms.num e.sizeAligned).length + (Ms.num e.unk1).length + (Ms.num e.unk2).length + e.key.length := by
      simp only [fields1, List.flatten_cons, List.flatten_nil, List.length_append, List.length_nil]
      omega
    rw [this]
    replace h : At1 key data off P _ fs r10 := h
    simpa only [Nat.add_assoc] using h

theorem At1.entries {key data : Bytes} {off : Nat} {P : Bytes} (m : Mode) (hP : SnowRd.Plain key data off P) (es : List MsEntry) :
    ∀ (p : Nat) (r : SnowRd), (∀ e ∈ es, EntryOk e ∧ e.unk3 = 0 ∧ e.unk4 = 0) → At1 key data off P p (es.flatMap fields1) r →
    ∃ r', Wz.entries (entryV1 m) es.length r = .ok (es, r') ∧ SnowRd.Inv key data off P (p + (es.flatMap fields1).flatten.length) r' := by
  induction es with
  | nil => intro p r _ h; exact ⟨r, rfl, h.inv⟩
  | cons e es ih =>
    intro p r he h
    rw [List.flatMap_cons] at h
    obtain ⟨r1, e1, h1⟩ := At1.entry m hP (he e (by simp)).1 (he e (by simp)).2 h
    obtain ⟨r2, e2, h2⟩ := ih _ r1 (fun e' h' => he e' (by simp [h'])) h1
    refine ⟨r2, ?_, ?_⟩
    · show (entryV1 m r >>= _) = _
      rw [e1]
      show (Wz.entries (entryV1 m) es.length r1 >>= _) = _
      rw [e2]
      rfl
    · rw [List.flatMap_cons, List.flatten_append, List.length_append, ← Nat.add_assoc]
      exact h2

/-! ## version 2 -/

/-- the reader stands at place `p`, and the fields `fs` follow, the key stream started anew at block `j` -/
structure At2 (ks : Nat → Bytes) (data : Bytes) (off j p : Nat) (fs : List Bytes) (r : ChaRd) : Prop where
  inv : ChaRd.Inv ks data off j p r
  here : sub (data.drop off) p fs.flatten.length = restartEncrypt ks j p fs
  fits : off + p + fs.flatten.length + 63 ≤ data.length

theorem restart_length (ks : Nat → Bytes) (fs : List Bytes) : ∀ j p, (restartEncrypt ks j p fs).length = fs.flatten.length := by
  induction fs with
  | nil => intro j p; rfl
  | cons f fs ih => intro j p; rw [restartEncrypt, List.length_append, ih, List.length_mapIdx, List.flatten_cons, List.length_append]

theorem At2.head {ks : Nat → Bytes} {data : Bytes} {off j p : Nat} {f : Bytes} {fs : List Bytes} {r : ChaRd} (h : At2 ks data off j p (f :: fs) r) :
    chaPiece ks (data.drop off) j p f.length = f ∧ off + p + f.length + 63 ≤ data.length ∧
      sub (data.drop off) (p + f.length) fs.flatten.length = restartEncrypt ks (ChaRd.nextStart j (p + f.length)) (p + f.length) fs := by
  have h1 := h.here
  have h2 := h.fits
  rw [List.flatten_cons, List.length_append] at h2
  rw [← restart_length ks (f :: fs) j p, restartEncrypt] at h1
  obtain ⟨s1, s2⟩ := sub_split h1
  rw [List.length_mapIdx] at s1 s2
  rw [restart_length] at s2
  refine ⟨?_, by omega, s2⟩
  apply List.ext_getElem
  · exact ChaRd.piece_length _ _ _ _ _
  · intro i h3 h4
    rw [ChaRd.piece_length] at h3
    have hg : ((data.drop off).getD (p + i) 0#8) = f[i] ^^^ (ks ((p + i) / 64 - j)).getD ((p + i) % 64) 0#8 := by
      rw [← ChaRd.getD_sub (data.drop off) p f.length i h3, s1, List.getD_eq_getElem?_getD, List.getElem?_mapIdx, List.getElem?_eq_getElem h3]
      rfl
    simp only [chaPiece, List.getElem_map, List.getElem_range, chaByte, hg]
    rw [BitVec.xor_assoc, BitVec.xor_self, BitVec.xor_zero]

theorem At2.bytes {ks : Nat → Bytes} (hks : ∀ c, (ks c).length = 64) {data : Bytes} {off j p : Nat} {f : Bytes} {fs : List Bytes} {r : ChaRd}
    (h : At2 ks data off j p (f :: fs) r) :
    ∃ r' j', r.readBytes f.length = .ok (f, r') ∧ At2 ks data off j' (p + f.length) fs r' := by
  obtain ⟨h1, h2, h3⟩ := h.head
  obtain ⟨r', e, hI⟩ := ChaRd.readBytes_ok hks h.inv f.length (by omega) (by omega)
  have h4 := h.fits
  rw [List.flatten_cons, List.length_append] at h4
  exact ⟨r', _, by rw [e, h1], hI, h3, by omega⟩

theorem At2.num {ks : Nat → Bytes} (hks : ∀ c, (ks c).length = 64) {data : Bytes} {off j p : Nat} {v : Int} {fs : List Bytes} {r : ChaRd}
    (h : At2 ks data off j p (num v :: fs) r) (hv : -2147483648 ≤ v ∧ v < 2147483648) :
    ∃ r' j', r.readI32 = .ok (v, r') ∧ At2 ks data off j' (p + (Ms.num v).length) fs r' := by
  obtain ⟨r', j', h1, h2⟩ := h.bytes hks
  refine ⟨r', j', ?_, h2⟩
  rw [num_length] at h1
  rw [ChaRd.readI32_eq, h1]
  show Except.ok (signed 32 (leNat (Ms.num v)), r') = _
  rw [signed_num hv]

theorem At2.text {ks : Nat → Bytes} (hks : ∀ c, (ks c).length = 64) {data : Bytes} {off j p : Nat} {s : List Char} {fs : List Bytes} {r : ChaRd}
    (h : At2 ks data off j p (text16 s :: fs) r) :
    ∃ r' j', r.readUtf16 (2 * (utf16EncStr s).length) = .ok (s, r') ∧ At2 ks data off j' (p + (text16 s).length) fs r' := by
  obtain ⟨r', j', h1, h2⟩ := h.bytes hks
  refine ⟨r', j', ?_, h2⟩
  rw [text16_length] at h1
  unfold ChaRd.readUtf16
  simp only [bind, Except.bind, pure, Except.pure]
  rw [h1]
  dsimp only
  rw [unitPairs_text16, utf16Strict_encStr]

theorem At2.write {ks : Nat → Bytes} (hks : ∀ c, (ks c).length = 64) {data : Bytes} {off j p : Nat} {f : Bytes} {fs : List Bytes} {r : ChaRd}
    (h : At2 ks data off j p (f :: fs) r) :
    ∃ r' j', r.writeBytes f.length f.length = .ok (f, r') ∧ At2 ks data off j' (p + f.length) fs r' := by
  obtain ⟨r', j', h1, h2⟩ := h.bytes hks
  refine ⟨r', j', ?_, h2⟩
  obtain ⟨_, hl, _⟩ := h.head
  rw [Props.C40_write r f.length f.length (by rw [h.inv.dat, h.inv.offset]; omega), if_neg (by omega), if_pos rfl, h1]

theorem At2.entry {ks : Nat → Bytes} (hks : ∀ c, (ks c).length = 64) {data : Bytes} {off j p : Nat} {e : MsEntry} {fs : List Bytes} {r : ChaRd} (m : Mode)
    (he : EntryOk e) (h : At2 ks data off j p (fields2 e ++ fs) r) :
    ∃ r' j', entryV2 m r = .ok (e, r') ∧ At2 ks data off j' (p + (fields2 e).flatten.length) fs r' := by
  have hn := he.nums
  have hname := he.name
  simp only [List.mem_cons, List.not_mem_nil, or_false, forall_eq_or_imp, forall_eq] at hn
  obtain ⟨n1, n2, n3, n4, n5, n6, n7, n8, n9⟩ := hn
  obtain ⟨r1, _, e1, h⟩ := At2.num hks h (by omega)
  obtain ⟨r2, _, e2, h⟩ := At2.text hks h
  obtain ⟨r3, _, e3, h⟩ := At2.num hks h n1
  obtain ⟨r4, _, e4, h⟩ := At2.num hks h n2
  obtain ⟨r5, _, e5, h⟩ := At2.num hks h n3
  obtain ⟨r6, _, e6, h⟩ := At2.num hks h n4
  obtain ⟨r7, _, e7, h⟩ := At2.num hks h n5
  obtain ⟨r8, _, e8, h⟩ := At2.num hks h n6
  obtain ⟨r9, _, e9, h⟩ := At2.num hks h n7
  obtain ⟨r10, _, e10, h⟩ := At2.write hks h
  obtain ⟨r11, _, e11, h⟩ := At2.num hks h n8
  obtain ⟨r12, j12, e12, h⟩ := At2.num hks h n9
  refine ⟨r12, j12, ?_, ?_⟩
  · rw [he.key] at e10
    unfold entryV2
    simp only [bind, Except.bind, pure, Except.pure]
    rw [e1]
    dsimp only
    rw [asUsize_nat _ (by omega), mulU_ok (by omega)]
    dsimp only
    rw [Nat.mul_comm, e2]
    dsimp only
    rw [e3]
    dsimp only
    rw [e4]
    dsimp only
    rw [e5]
    dsimp only
    rw [e6]
    dsimp only
    rw [e7]
    dsimp only
    rw [e8]
    dsimp only
    rw [e9]
    dsimp only
    rw [e10]
    dsimp only
    rw [e11]
    dsimp only
    rw [e12]
  · have : (fields2 e).flatten.length = (Ms.num (utf16EncStr e.name).length).length + (text16 e.name).length + (Ms.num e.checkSum).length + (Ms.num e.flags).length +
        (Ms.num e.startPos).length + (Ms.num e.size).length + (Ms.num e.sizeAligned).length + (Ms.num e.unk1).length + (Ms.num e.unk2).length + e.key.length +
        (Ms.num e.unk3).length + (Ms.num e.unk4).length := by
      simp only [fields2, fields1, List.flatten_append, List.flatten_cons, List.flatten_nil, List.length_append, List.length_nil]
      omega
    rw [this]
    replace h : At2 ks data off _ _ fs r12 := h
    simpa only [Nat.add_assoc] using h

theorem At2.entries {ks : Nat → Bytes} (hks : ∀ c, (ks c).length = 64) {data : Bytes} {off : Nat} (m : Mode) (es : List MsEntry) :
    ∀ (j p : Nat) (r : ChaRd), (∀ e ∈ es, EntryOk e) → At2 ks data off j p (es.flatMap fields2) r →
    ∃ r' j', Wz.entries (entryV2 m) es.length r = .ok (es, r') ∧ ChaRd.Inv ks data off j' (p + (es.flatMap fields2).flatten.length) r' := by
  induction es with
  | nil => intro j p r _ h; exact ⟨r, j, rfl, h.inv⟩
  | cons e es ih =>
    intro j p r he h
    rw [List.flatMap_cons] at h
    obtain ⟨r1, j1, e1, h1⟩ := At2.entry hks m (he e (by simp)) h
    obtain ⟨r2, j2, e2, h2⟩ := ih _ _ r1 (fun e' h' => he e' (by simp [h'])) h1
    refine ⟨r2, j2, ?_, ?_⟩
    · show (entryV2 m r >>= _) = _
      rw [e1]
      show (Wz.entries (entryV2 m) es.length r1 >>= _) = _
      rw [e2]
      rfl
    · rw [List.flatMap_cons, List.flatten_append, List.length_append, ← Nat.add_assoc]
      exact h2

/-! ## keys and places -/

theorem entryKeyByte_eq {m : Mode} {B : Bytes} {n : Nat} (hB : B ≠ []) (h : m = .wrap ∨ NoCarry2 B n) (i : Nat) (hi : i < n) :
    entryKeyByte m B i = .ok (B.getD (B.length - 1 - i % B.length) 0#8 * BitVec.ofNat 8 (2 + i % 3) + BitVec.ofNat 8 i) := by
  have hl : B.length ≠ 0 := fun h => hB (List.length_eq_zero_iff.mp h)
  unfold entryKeyByte
  simp only [bind, Except.bind, pure, Except.pure]
  rw [remU_ok hl]
  dsimp only
  rw [nth8_ok (by omega)]
  dsimp only
  have hc : m = .wrap ∨ (B.getD (B.length - 1 - i % B.length) 0#8 * BitVec.ofNat 8 (2 + i % 3)).toNat + i < 256 := h.imp id fun h => h i hi
  generalize B.getD (B.length - 1 - i % B.length) 0#8 = b at hc ⊢
  have e : ((i : Int) + (((i % 3 + 2) * b.toNat % 256 : Nat) : Int)) = ((b * BitVec.ofNat 8 (2 + i % 3)).toNat : Int) + (i : Int) := by
    rw [BitVec.toNat_mul, BitVec.toNat_ofNat, Nat.mod_eq_of_lt (a := 2 + i % 3) (by omega), Nat.mul_comm b.toNat, Nat.add_comm 2 (i % 3)]
    omega
  rw [e]
  obtain ⟨v, h1, h2⟩ := u8_add (m := m) (b * BitVec.ofNat 8 (2 + i % 3)) i hc
  rw [h1]
  exact congrArg Except.ok h2

theorem alignKilo_eq (m : Mode) (p : Nat) (h : p < 2 ^ 63) : alignKilo m p = .ok (roundUp 1024 p) := by
  unfold alignKilo roundUp
  by_cases h0 : p % 1024 = 0
  · rw [if_neg (by omega)]; congr 1; omega
  · rw [if_pos h0, addU_ok (by omega)]; congr 1; omega

theorem placeAll_eq (m : Mode) (q : Nat) (hq : q < 2 ^ 63) (es : List MsEntry) (h : ∀ e ∈ es, EntryOk e ∧ 0 ≤ e.startPos ∧ 0 ≤ e.sizeAligned) :
    placeAll m (roundUp 1024 q) es = .ok (es.map (placed q)) := by
  induction es with
  | nil => rfl
  | cons e es ih =>
    have he := h e (by simp)
    have hn := he.1.nums
    simp only [List.mem_cons, List.not_mem_nil, or_false, forall_eq_or_imp, forall_eq] at hn
    obtain ⟨_, _, n3, _, n5, _⟩ := hn
    have hr : roundUp 1024 q < 2 ^ 63 + 1024 := by unfold roundUp; omega
    show ((MsImage.new e).place m (roundUp 1024 q) >>= _) = _
    have h1 : (MsImage.new e).place m (roundUp 1024 q) = .ok (placed q e) := by
      unfold MsImage.place MsImage.new
      simp only [bind, Except.bind, pure, Except.pure]
      have ha : asUsize e.startPos = e.startPos.toNat := by rw [← asUsize_nat e.startPos.toNat (by omega)]; congr 1; omega
      have hb : asUsize e.sizeAligned = e.sizeAligned.toNat := by rw [← asUsize_nat e.sizeAligned.toNat (by omega)]; congr 1; omega
      rw [ha, hb, mulU_ok (by omega)]
      dsimp only
      rw [addU_ok (by omega)]
      dsimp only
      unfold placed
      rw [Nat.mul_comm e.startPos.toNat 1024]
      rfl
    rw [h1]
    show (placeAll m (roundUp 1024 q) es >>= _) = _
    rw [ih fun e' h' => h e' (by simp [h'])]
    rfl

/-! ## the tables -/

/-- a table of version 1 in a file -/
theorem parseV1_table (m : Mode) (f : MsFile) (es : List MsEntry) (pre pad rest : Bytes)
    (hB : f.header.nameWithSalt ≠ []) (hk : m = .wrap ∨ NoCarry2 (utf8EncStr f.header.nameWithSalt) 16)
    (hc : f.header.entryCount = es.length) (hs : pre.length = f.header.estart)
    (hes : ∀ e ∈ es, EntryOk e ∧ 0 ≤ e.startPos ∧ 0 ≤ e.sizeAligned ∧ e.unk3 = 0 ∧ e.unk4 = 0)
    (hpad : ((es.flatMap fields1).flatten ++ pad).length = roundUp 4 (es.flatMap fields1).flatten.length)
    (hbuf : f.buf = pre ++ encrypt (keyWord Snow.maps (signedKey (key2 (utf8EncStr f.header.nameWithSalt) 16))) 0 ((es.flatMap fields1).flatten ++ pad) ++ rest)
    (hlen : f.buf.length < 2 ^ 63) :
    f.parseV1 m = .ok (es.map (placed (f.header.estart + roundUp 4 (es.flatMap fields1).flatten.length))) := by
  generalize hT : (es.flatMap fields1).flatten = T at hpad hbuf ⊢
  generalize hkey : key2 (utf8EncStr f.header.nameWithSalt) 16 = key at hbuf
  have hBne : utf8EncStr f.header.nameWithSalt ≠ [] := by
    cases hn : f.header.nameWithSalt with
    | nil => exact absurd hn hB
    | cons c cs =>
      intro h'
      have : (utf8EncStr (c :: cs)).length = 0 := by rw [h']; rfl
      unfold utf8EncStr at this
      rw [List.flatMap_cons, List.length_append] at this
      have hpos : ∀ d : Char, 0 < (utf8Enc d).length := by
        intro d
        unfold utf8Enc
        simp only
        repeat' split
        all_goals simp
      have := hpos c
      omega
  have htab : tabulateM (entryKeyByte m (utf8EncStr f.header.nameWithSalt)) 16 = .ok key := by
    rw [← hkey]
    exact tabulateM_ok fun i hi => entryKeyByte_eq hBne hk i hi
  rw [← Snow.startOf_signed] at hbuf
  change f.buf = pre ++ encrypt (Snow.stream key) 0 (T ++ pad) ++ rest at hbuf
  generalize hE : encrypt (Snow.stream key) 0 (T ++ pad) = E at hbuf
  have hEl : E.length = (T ++ pad).length := by rw [← hE, encrypt_length]
  have hE4 : E.length % 4 = 0 := by rw [hEl, hpad]; unfold roundUp; omega
  obtain ⟨out, d', h1, hat, h2⟩ := Snow.slice_append key rest E 0 _ (Snow.at_new key) hE4
  obtain ⟨d'', h3, _⟩ := Snow.slice_encrypted key (T ++ pad) 0 _ (Snow.at_new key)
  rw [hE] at h3
  have hout : out = T ++ pad := by
    rw [h1] at h3
    exact (Prod.mk.inj (Except.ok.inj h3)).1
  obtain ⟨o2, d3, h4, _, hol, _⟩ := Snow.slice_total key rest _ d' hat
  have hdrop : f.buf.drop f.header.estart = E ++ rest := by
    rw [hbuf, ← hs, List.append_assoc, List.drop_left]
  have hP := SnowRd.plain_of key f.buf f.header.estart (T ++ pad ++ o2) _ d3 (by rw [hbuf, ← hs]; simp only [List.length_append]; omega)
    (by rw [hdrop, h2, h4, hout]; rfl)
  have hPl : (T ++ pad ++ o2).length = roundUp 4 T.length + rest.length := by rw [List.length_append, hpad, hol]
  have hr4 : roundUp 4 T.length = (T.length + 3) / 4 * 4 := rfl
  have hat1 : At1 key f.buf f.header.estart (T ++ pad ++ o2) 0 (es.flatMap fields1) (SnowRd.from f.buf key f.header.estart) := by
    refine ⟨SnowRd.inv_start, rfl, ?_, ?_⟩
    · rw [hT]
      unfold sub
      rw [List.drop_zero, List.append_assoc, List.take_left]
    · rw [hT, hPl, hr4]; omega
  obtain ⟨r', he, hI⟩ := At1.entries m hP es 0 _ (fun e h => ⟨(hes e h).1, (hes e h).2.2.2⟩) hat1
  have hoff : r'.offset = f.header.estart + roundUp 4 T.length := by
    rw [hI.offset, hT, hr4]
    omega
  have hlt : f.header.estart + roundUp 4 T.length ≤ f.buf.length := by
    rw [hbuf, ← hs, List.length_append, List.length_append, hEl, hpad]; omega
  unfold MsFile.parseV1
  simp only [bind, Except.bind, pure, Except.pure]
  rw [htab]
  dsimp only
  rw [hc]
  unfold capacity
  rw [if_neg (by omega)]
  dsimp only
  rw [show ({ SnowRd.new f.buf key with offset := f.header.estart } : SnowRd) = SnowRd.from f.buf key f.header.estart from rfl, Int.toNat_natCast, he]
  dsimp only
  rw [hoff, alignKilo_eq m _ (by omega)]
  dsimp only
  exact placeAll_eq m _ (by omega) es fun e h => ⟨(hes e h).1, (hes e h).2.1, (hes e h).2.2.1⟩

/-- a table of version 2 in a file -/
theorem parseV2_table (m : Mode) (C : ChaCha) (hC : Blocks64 C) (f : MsFile) (es : List MsEntry) (pre rest : Bytes)
    (hB : f.header.nameWithSalt ≠ []) (hk : m = .wrap ∨ NoCarry2 (utf8EncStr f.header.nameWithSalt) 32)
    (hc : f.header.entryCount = es.length) (hs : pre.length = f.header.estart)
    (hes : ∀ e ∈ es, EntryOk e ∧ 0 ≤ e.startPos ∧ 0 ≤ e.sizeAligned) (hrest : 63 ≤ rest.length)
    (hbuf : f.buf = pre ++ restartEncrypt (C (xorBase (key2 (utf8EncStr f.header.nameWithSalt) 32)) (List.replicate 12 0#8)) 0 0 (es.flatMap fields2) ++ rest)
    (hlen : f.buf.length < 2 ^ 63) :
    f.parseV2 m C = .ok (es.map (placed (f.header.estart + roundUp 64 (es.flatMap fields2).flatten.length))) := by
  generalize hkey : xorBase (key2 (utf8EncStr f.header.nameWithSalt) 32) = key at hbuf
  have hBne : utf8EncStr f.header.nameWithSalt ≠ [] := by
    cases hn : f.header.nameWithSalt with
    | nil => exact absurd hn hB
    | cons c cs =>
      intro h'
      have : (utf8EncStr (c :: cs)).length = 0 := by rw [h']; rfl
      unfold utf8EncStr at this
      rw [List.flatMap_cons, List.length_append] at this
      have hpos : ∀ d : Char, 0 < (utf8Enc d).length := by
        intro d
        unfold utf8Enc
        simp only
        repeat' split
        all_goals simp
      have := hpos c
      omega
  unfold MsFile.parseV2
  cases es with
  | nil => rw [if_pos (by rw [hc]; rfl)]; rfl
  | cons e0 es0 =>
  rw [if_neg (by rw [hc]; simp only [List.length_cons]; omega)]
  generalize e0 :: es0 = es at *
  have htab : tabulateM (fun i => do
      let b ← entryKeyByte m (utf8EncStr f.header.nameWithSalt) i
      return msKeyBase.getD i 0#8 ^^^ b) 32 = .ok key := by
    rw [← hkey, tabulateM_ok (g := fun i => keyBase.getD i 0#8 ^^^ (key2 (utf8EncStr f.header.nameWithSalt) 32).getD i 0#8)]
    · unfold xorBase
      congr 1
      apply List.ext_getElem
      · simp [key2, keyBase]
      · intro i h1 h2
        have hi : i < 32 := by simpa using h1
        rw [List.getElem_map, List.getElem_range, List.getElem_zipWith, BitVec.xor_comm, List.getD_eq_getElem?_getD, List.getD_eq_getElem?_getD,
          List.getElem?_eq_getElem (by rw [key2, List.length_map, List.length_range]; exact hi), List.getElem?_eq_getElem (by exact hi)]
        rfl
    · intro i hi
      simp only [bind, Except.bind, pure, Except.pure]
      rw [entryKeyByte_eq hBne hk i hi]
      dsimp only
      have : (key2 (utf8EncStr f.header.nameWithSalt) 32).getD i 0#8 =
          (utf8EncStr f.header.nameWithSalt).getD ((utf8EncStr f.header.nameWithSalt).length - 1 - i % (utf8EncStr f.header.nameWithSalt).length) 0#8 *
            BitVec.ofNat 8 (2 + i % 3) + BitVec.ofNat 8 i := by
        unfold key2
        rw [List.getD_eq_getElem?_getD, List.getElem?_map, List.getElem?_range hi]
        rfl
      rw [this]
      rfl
  generalize hks : C key (List.replicate 12 0#8) = ks at hbuf
  have hks64 : ∀ c, (ks c).length = 64 := by rw [← hks]; exact hC _ _
  have hbl : f.buf.length = f.header.estart + (es.flatMap fields2).flatten.length + rest.length := by
    rw [hbuf, List.length_append, List.length_append, restart_length, hs]
  have hI0 := ChaRd.inv_start (C := C) (data := f.buf) (key := key) (nonce := List.replicate 12 0#8) (off := f.header.estart) (by omega)
  rw [hks] at hI0
  have hat2 : At2 ks f.buf f.header.estart 0 0 (es.flatMap fields2) (ChaRd.from C f.buf key (List.replicate 12 0#8) f.header.estart) := by
    refine ⟨hI0, ?_, by omega⟩
    unfold sub
    rw [hbuf, ← hs, List.append_assoc, List.drop_left, List.drop_zero]
    apply List.take_left'
    exact restart_length _ _ _ _
  obtain ⟨r', j', he, hI⟩ := At2.entries hks64 m es 0 0 _ (fun e h => (hes e h).1) hat2
  have hoff : r'.offset = f.header.estart + roundUp 64 (es.flatMap fields2).flatten.length := by
    rw [hI.offset]; unfold roundUp; omega
  have hru : roundUp 64 (es.flatMap fields2).flatten.length ≤ (es.flatMap fields2).flatten.length + 63 := by unfold roundUp; omega
  simp only [bind, Except.bind, pure, Except.pure] at htab ⊢
  rw [htab]
  dsimp only
  rw [hc]
  unfold capacity
  rw [if_neg (by omega)]
  dsimp only
  rw [show ({ ChaRd.new C f.buf key (List.replicate 12 0#8) with offset := f.header.estart } : ChaRd) =
    ChaRd.from C f.buf key (List.replicate 12 0#8) f.header.estart from rfl, Int.toNat_natCast, he]
  dsimp only
  rw [hoff, alignKilo_eq m _ (by omega)]
  dsimp only
  exact placeAll_eq m _ (by omega) es hes

end Wz
