import Verif.Ms.TableSpec
import Verif.Ms.FileProps
import Verif.File.IvLemmas
/-!
# Tables of entries, from what was read back to the bytes
-/

set_option autoImplicit false

namespace Wz

open Wz.Spec Wz.Spec.Snow Wz.Spec.Ms

/-! ## numbers and texts -/

theorem num_signed {b : Bytes} (h : b.length = 4) : Ms.num (signed 32 (leNat b)) = b ∧
    -2147483648 ≤ signed 32 (leNat b) ∧ signed 32 (leNat b) < 2147483648 := by
  have hl : leNat b < 2 ^ 32 := by have := leNat_lt b; rw [h] at this; omega
  refine ⟨?_, ?_⟩
  · unfold Ms.num signed
    rw [BitVec.ofInt_toInt, BitVec.toNat_ofNat, Nat.mod_eq_of_lt hl, ← h, toLE_leNat]
  · unfold signed
    have h1 := BitVec.le_toInt (BitVec.ofNat 32 (leNat b))
    have h2 := BitVec.toInt_lt (x := BitVec.ofNat 32 (leNat b))
    omega

theorem unitPairs_flat (bs : Bytes) (h : bs.length % 2 = 0) : (unitPairs bs).flatMap (fun u => toLE 2 u.toNat) = bs := by
  induction bs using unitPairs.induct with
  | case1 a b r ih =>
    rw [unitPairs, List.flatMap_cons, ih (by simp only [List.length_cons] at h; omega)]
    have ha := a.isLt
    have hb := b.isLt
    have h1 : (BitVec.ofNat 16 (a.toNat + 256 * b.toNat)).toNat = a.toNat + 256 * b.toNat := by
      rw [BitVec.toNat_ofNat, Nat.mod_eq_of_lt (by omega)]
    rw [h1]
    show BitVec.ofNat 8 _ :: BitVec.ofNat 8 _ :: r = a :: b :: r
    congr 1
    · apply BitVec.eq_of_toNat_eq; rw [BitVec.toNat_ofNat]; omega
    · congr 1; apply BitVec.eq_of_toNat_eq; rw [BitVec.toNat_ofNat]; omega
  | case2 bs h' =>
    rcases bs with _ | ⟨a, _ | ⟨b, r⟩⟩
    · rfl
    · simp at h
    · exact absurd rfl (h' a b r)

theorem unitPairs_length (bs : Bytes) : (unitPairs bs).length = bs.length / 2 := by
  rw [unitPairs_eq]
  unfold Spec.unitsOf
  rw [List.length_map, List.length_range]

/-- what a text of UTF-16 was stored as -/
theorem text16_of {bs : Bytes} {s : List Char} (h : bs.length % 2 = 0) (hs : utf16Strict (unitPairs bs) = .ok s) :
    text16 s = bs ∧ 2 * (utf16EncStr s).length = bs.length := by
  have h1 := utf16Strict_inv hs
  refine ⟨?_, ?_⟩
  · unfold text16
    rw [← h1, unitPairs_flat bs h]
  · rw [← h1, unitPairs_length]; omega

/-! ## keys -/

theorem tableKey1 {s : List Char} (h : s ≠ []) : tabulateM (entryKeyByte .wrap (utf8EncStr s)) 16 = .ok (key2 (utf8EncStr s) 16) :=
  tabulateM_ok fun i hi => entryKeyByte_eq (Props.utf8EncStr_ne h) (.inl rfl) i hi

theorem tableKey1_none {m : Mode} {n : Nat} : tabulateM (entryKeyByte m (utf8EncStr [])) (n + 1) = .error .panicOverflow := by
  obtain ⟨i, _, e, h1, h2⟩ := tabulateM_error (f := entryKeyByte m (utf8EncStr [])) (n := n + 1) ⟨0, by omega, .panicOverflow, rfl⟩
  have h3 : entryKeyByte m (utf8EncStr []) i = .error .panicOverflow := rfl
  rw [h3] at h1
  cases h1
  exact h2

theorem tableKey2 {s : List Char} (h : s ≠ []) : tabulateM (fun i => do
      let b ← entryKeyByte .wrap (utf8EncStr s) i
      return msKeyBase.getD i 0#8 ^^^ b) 32 = .ok (xorBase (key2 (utf8EncStr s) 32)) := by
  rw [tabulateM_ok (g := fun i => keyBase.getD i 0#8 ^^^ (key2 (utf8EncStr s) 32).getD i 0#8)]
  · unfold xorBase
    congr 1
    apply List.ext_getElem
    · simp [key2, keyBase]
    · intro i h1 h2
      have hi : i < 32 := by simpa using h1
      rw [List.getElem_map, List.getElem_range, List.getElem_zipWith, BitVec.xor_comm, List.getD_eq_getElem?_getD, List.getD_eq_getElem?_getD,
        List.getElem?_eq_getElem (by rw [key2, List.length_map, List.length_range]; exact hi), List.getElem?_eq_getElem (by exact hi)]
      rfl
  · intro i hi
    simp only [bind, Except.bind, pure, Except.pure]
    rw [entryKeyByte_eq (Props.utf8EncStr_ne h) (.inl rfl) i hi]
    dsimp only
    have : (key2 (utf8EncStr s) 32).getD i 0#8 =
        (utf8EncStr s).getD ((utf8EncStr s).length - 1 - i % (utf8EncStr s).length) 0#8 *
          BitVec.ofNat 8 (2 + i % 3) + BitVec.ofNat 8 i := by
      unfold key2
      rw [List.getD_eq_getElem?_getD, List.getElem?_map, List.getElem?_range hi]
      rfl
    rw [this]
    rfl

/-! ## places -/

theorem placeAll_wrap (q : Nat) (es : List MsEntry) : placeAll .wrap (roundUp 1024 q) es = .ok (es.map (shownAt q)) := by
  induction es with
  | nil => rfl
  | cons e es ih =>
    have h1 : (MsImage.new e).place .wrap (roundUp 1024 q) = .ok (shownAt q e) := by
      have hx : ∃ x, mulU .wrap (asUsize e.startPos) 1024 = .ok x ∧ x = asUsize e.startPos * 1024 % 2 ^ 64 := by
        unfold mulU
        by_cases h : asUsize e.startPos * 1024 < 2 ^ 64
        · exact ⟨_, by rw [if_pos h], (Nat.mod_eq_of_lt h).symm⟩
        · exact ⟨_, by rw [if_neg h], rfl⟩
      obtain ⟨x, hx1, hx2⟩ := hx
      have hy : ∃ y, addU .wrap (roundUp 1024 q) x = .ok y ∧ y = (roundUp 1024 q + x) % 2 ^ 64 := by
        unfold addU
        by_cases h : roundUp 1024 q + x < 2 ^ 64
        · exact ⟨_, by rw [if_pos h], (Nat.mod_eq_of_lt h).symm⟩
        · exact ⟨_, by rw [if_neg h], rfl⟩
      obtain ⟨y, hy1, hy2⟩ := hy
      have hyy : y = unsign 64 (roundUp 1024 q + 1024 * e.startPos) := by
        rw [hy2, hx2]
        unfold unsign asUsize
        omega
      unfold MsImage.place MsImage.new
      simp only [bind, Except.bind, pure, Except.pure]
      rw [hx1]
      dsimp only
      rw [hy1]
      dsimp only
      rw [hyy]
      rfl
    show ((MsImage.new e).place .wrap (roundUp 1024 q) >>= _) = _
    rw [h1]
    show (placeAll .wrap (roundUp 1024 q) es >>= _) = _
    rw [ih]
    rfl

theorem alignKilo_wrap (p : Nat) : ∃ q, alignKilo .wrap p = .ok q ∧ (p < 2 ^ 63 → q = roundUp 1024 p) := by
  by_cases h : p < 2 ^ 63
  · exact ⟨_, alignKilo_eq .wrap p h, fun _ => rfl⟩
  · unfold alignKilo
    split
    · unfold addU
      split
      · exact ⟨_, rfl, fun h' => absurd h' h⟩
      · exact ⟨_, rfl, fun h' => absurd h' h⟩
    · exact ⟨_, rfl, fun h' => absurd h' h⟩

theorem placeAll_names {m : Mode} {q : Nat} : ∀ {es : List MsEntry} {ims : List MsImage}, placeAll m q es = .ok ims →
    ∀ e ∈ es, ∃ im ∈ ims, im.entry.name = e.name := by
  intro es
  induction es with
  | nil => intro ims _ e he; cases he
  | cons e0 es ih =>
    intro ims h e he
    unfold placeAll at h
    simp only [bind, Except.bind, pure, Except.pure] at h
    cases h1 : (MsImage.new e0).place m q with
    | error x => rw [h1] at h; cases h
    | ok im =>
    rw [h1] at h
    dsimp only at h
    cases h2 : placeAll m q es with
    | error x => rw [h2] at h; cases h
    | ok ims' =>
    rw [h2] at h
    cases h
    rcases List.mem_cons.mp he with rfl | he
    · refine ⟨im, by simp, ?_⟩
      unfold MsImage.place MsImage.new at h1
      simp only [bind, Except.bind, pure, Except.pure] at h1
      split at h1
      · cases h1
      · split at h1
        · cases h1
        · cases h1
          rfl
    · obtain ⟨im', h3, h4⟩ := ih h2 e he
      exact ⟨im', by simp [h3], h4⟩

/-! ## version 1 -/

theorem setRange_length {dst src out : Bytes} {s t : Nat} (h : setRange dst s t src = .ok out) : out.length = dst.length := by
  unfold setRange at h
  split at h
  · rename_i hc
    cases h
    simp only [List.length_append, List.length_take, List.length_drop]
    omega
  · cases h

theorem writeLoop_length (len : Nat) : ∀ (fuel : Nat) (r : SnowRd) (dest : Bytes) (k : Int) (out : Bytes) (r' : SnowRd),
    SnowRd.writeLoop len fuel r dest k = .ok (out, r') → out.length = dest.length := by
  intro fuel
  induction fuel with
  | zero =>
    intro r dest k out r' h
    unfold SnowRd.writeLoop at h
    split at h
    · cases h
    · cases h; rfl
  | succ fuel ih =>
    intro r dest k out r' h
    unfold SnowRd.writeLoop at h
    split at h
    · cases h1 : r.block with
      | error e => rw [h1] at h; cases h
      | ok x =>
        rw [h1] at h
        simp only [bind, Except.bind] at h
        split at h
        · cases h
        · split at h
          · cases h
          · rename_i d hd
            have hl := setRange_length hd
            split at h
            · split at h
              · cases h
              · rw [ih _ _ _ _ _ h, hl]
            · rw [ih _ _ _ _ _ h, hl]
    · cases h; rfl

theorem writeBytes_length {m : Mode} {r r' : SnowRd} {len : Nat} {out : Bytes} (h : r.writeBytes m len = .ok (out, r')) : out.length = len := by
  have h0 : (List.replicate len 0#8).length = len := List.length_replicate
  unfold SnowRd.writeBytes at h
  simp only [bind, Except.bind, pure, Except.pure] at h
  split at h
  · split at h
    · split at h
      · cases h
      · split at h
        · cases h
        · rename_i d hd
          have hl := setRange_length hd
          split at h
          · cases h
          · split at h
            · cases h
            · cases h
              rw [hl, h0]
    · split at h
      · cases h
      · split at h
        · cases h
        · rename_i d hd
          have hl := setRange_length hd
          split at h
          · cases h
          · rw [writeLoop_length _ _ _ _ _ _ _ h, hl, h0]
  · rw [writeLoop_length _ _ _ _ _ _ _ h, h0]

/-- the bytes `A` from `p` on were read -/
structure Got1 (key data : Bytes) (off : Nat) (P : Bytes) (p : Nat) (A : Bytes) (r : SnowRd) : Prop where
  inv : SnowRd.Inv key data off P (p + A.length) r
  even : (p + A.length) % 2 = 0
  here : sub P p A.length = A
  fits : p + A.length ≤ P.length / 4 * 4

section v1
variable {key data : Bytes} {off : Nat} {P : Bytes} {p : Nat} {A : Bytes} {r r' : SnowRd}

theorem Got1.step (h : Got1 key data off P p A r) (n : Nat) (hn : n % 2 = 0) (hf : p + A.length + n ≤ P.length / 4 * 4)
    (hI : SnowRd.Inv key data off P (p + A.length + n) r') : Got1 key data off P p (A ++ sub P (p + A.length) n) r' := by
  have hl : (sub P (p + A.length) n).length = n := sub_length (by omega)
  have he := h.even
  refine ⟨?_, ?_, ?_, ?_⟩
  · rw [List.length_append, hl, ← Nat.add_assoc]; exact hI
  · rw [List.length_append, hl]; omega
  · rw [List.length_append, hl, ← sub_append, h.here]
  · rw [List.length_append, hl]; omega

theorem Got1.num (hP : SnowRd.Plain key data off P) (h : Got1 key data off P p A r) {v : Int} (hr : r.readI32 = .ok (v, r')) :
    (-2147483648 ≤ v ∧ v < 2147483648) ∧ Got1 key data off P p (A ++ Ms.num v) r' := by
  rw [SnowRd.readI32_eq] at hr
  by_cases hf : p + A.length + 4 ≤ P.length / 4 * 4
  · obtain ⟨r1, h1, h2⟩ := SnowRd.read4_ok hP h.inv h.even hf
    rw [h1] at hr
    cases hr
    have hl : (sub P (p + A.length) 4).length = 4 := sub_length (by omega)
    obtain ⟨h3, h4⟩ := num_signed hl
    exact ⟨h4, by rw [h3]; exact h.step 4 rfl hf h2⟩
  · rw [SnowRd.read4_end hP h.inv hf] at hr
    cases hr

theorem Got1.bytes {m : Mode} (hP : SnowRd.Plain key data off P) (h : Got1 key data off P p A r) {n : Nat} (hn : n < 2 ^ 31) (he : n % 2 = 0)
    {out : Bytes} (hr : r.writeBytes m n = .ok (out, r')) : out.length = n ∧ Got1 key data off P p (A ++ out) r' := by
  refine ⟨writeBytes_length hr, ?_⟩
  have hev := h.even
  by_cases hf : p + A.length + n ≤ P.length / 4 * 4
  · obtain ⟨r1, h1, h2⟩ := SnowRd.write_ok m hP h.inv n ⟨hn, by omega⟩ hf
    rw [h1] at hr
    cases hr
    exact h.step n he hf h2
  · rw [SnowRd.write_end m hP h.inv n hn hf] at hr
    cases hr

theorem Got1.text {m : Mode} (hP : SnowRd.Plain key data off P) (h : Got1 key data off P p A r) {v : Int} (hv : -2147483648 ≤ v ∧ v < 2147483648)
    {n : Nat} (hm : mulU m (asUsize v) 2 = .ok n) {s : List Char} (hr : r.readUtf16 m n = .ok (s, r')) (hs : (utf16EncStr s).length < 1073741824) :
    v = (utf16EncStr s).length ∧ Got1 key data off P p (A ++ text16 s) r' := by
  unfold SnowRd.readUtf16 SnowRd.readBytes at hr
  simp only [bind, Except.bind, pure, Except.pure] at hr
  by_cases h63 : n ≥ 2 ^ 63
  · rw [if_pos h63] at hr; cases hr
  rw [if_neg h63] at hr
  have hn : 0 ≤ v ∧ n = 2 * v.toNat := by
    unfold mulU at hm
    unfold asUsize at hm
    split at hm
    · cases hm; omega
    · cases m with
      | checked => cases hm
      | wrap => cases hm; omega
  cases hw : r.writeBytes m n with
  | error e => rw [hw] at hr; cases hr
  | ok x =>
    obtain ⟨bs, r1⟩ := x
    rw [hw] at hr
    dsimp only at hr
    cases hu : utf16Strict (unitPairs bs) with
    | error e => rw [hu] at hr; cases hr
    | ok s' =>
      rw [hu] at hr
      cases hr
      have hl := writeBytes_length hw
      obtain ⟨h1, h2⟩ := text16_of (by omega) hu
      obtain ⟨_, h3⟩ := h.bytes hP (by omega) (by omega) hw
      exact ⟨by omega, by rw [h1]; exact h3⟩

theorem entryV1_of {m : Mode} (hP : SnowRd.Plain key data off P) (h : Got1 key data off P p A r) {e : MsEntry} (hr : entryV1 m r = .ok (e, r'))
    (hs : (utf16EncStr e.name).length < 1073741824) :
    EntryOk e ∧ e.unk3 = 0 ∧ e.unk4 = 0 ∧ Got1 key data off P p (A ++ (fields1 e).flatten) r' := by
  unfold entryV1 at hr
  simp only [bind, Except.bind, pure, Except.pure] at hr
  cases e1 : r.readI32 with
  | error x => rw [e1] at hr; cases hr
  | ok x =>
  obtain ⟨nl, r1⟩ := x
  rw [e1] at hr
  dsimp only at hr
  obtain ⟨n0, g1⟩ := h.num hP e1
  cases e2 : mulU m (asUsize nl) 2 with
  | error x => rw [e2] at hr; cases hr
  | ok n =>
  rw [e2] at hr
  dsimp only at hr
  cases e3 : r1.readUtf16 m n with
  | error x => rw [e3] at hr; cases hr
  | ok x =>
  obtain ⟨name, r2⟩ := x
  rw [e3] at hr
  dsimp only at hr
  cases f1 : r2.readI32 with
  | error x => rw [f1] at hr; cases hr
  | ok x =>
  obtain ⟨v1, r3⟩ := x
  rw [f1] at hr
  dsimp only at hr
  cases f2 : r3.readI32 with
  | error x => rw [f2] at hr; cases hr
  | ok x =>
  obtain ⟨v2, r4⟩ := x
  rw [f2] at hr
  dsimp only at hr
  cases f3 : r4.readI32 with
  | error x => rw [f3] at hr; cases hr
  | ok x =>
  obtain ⟨v3, r5⟩ := x
  rw [f3] at hr
  dsimp only at hr
  cases f4 : r5.readI32 with
  | error x => rw [f4] at hr; cases hr
  | ok x =>
  obtain ⟨v4, r6⟩ := x
  rw [f4] at hr
  dsimp only at hr
  cases f5 : r6.readI32 with
  | error x => rw [f5] at hr; cases hr
  | ok x =>
  obtain ⟨v5, r7⟩ := x
  rw [f5] at hr
  dsimp only at hr
  cases f6 : r7.readI32 with
  | error x => rw [f6] at hr; cases hr
  | ok x =>
  obtain ⟨v6, r8⟩ := x
  rw [f6] at hr
  dsimp only at hr
  cases f7 : r8.readI32 with
  | error x => rw [f7] at hr; cases hr
  | ok x =>
  obtain ⟨v7, r9⟩ := x
  rw [f7] at hr
  dsimp only at hr
  cases f8 : r9.writeBytes m 16 with
  | error x => rw [f8] at hr; cases hr
  | ok x =>
  obtain ⟨k, r10⟩ := x
  rw [f8] at hr
  cases hr
  dsimp only at hs
  obtain ⟨hname, g2⟩ := g1.text hP n0 e2 e3 hs
  obtain ⟨n1, g3⟩ := g2.num hP f1
  obtain ⟨n2, g4⟩ := g3.num hP f2
  obtain ⟨n3, g5⟩ := g4.num hP f3
  obtain ⟨n4, g6⟩ := g5.num hP f4
  obtain ⟨n5, g7⟩ := g6.num hP f5
  obtain ⟨n6, g8⟩ := g7.num hP f6
  obtain ⟨n7, g9⟩ := g8.num hP f7
  obtain ⟨hk, g10⟩ := g9.bytes hP (by omega) (by omega) f8
  refine ⟨⟨by dsimp only; omega, ?_, hk⟩, rfl, rfl, ?_⟩
  · simp only [List.mem_cons, List.not_mem_nil, or_false, forall_eq_or_imp, forall_eq]
    exact ⟨n1, n2, n3, n4, n5, n6, n7, by omega, by omega⟩
  · subst hname
    simpa only [fields1, List.flatten_cons, List.flatten_nil, List.append_nil, List.append_assoc] using g10

theorem entriesV1_of {m : Mode} (hP : SnowRd.Plain key data off P) : ∀ (n : Nat) (A : Bytes) (r : SnowRd) (es : List MsEntry) (r' : SnowRd),
    Got1 key data off P p A r → Wz.entries (entryV1 m) n r = .ok (es, r') → (∀ e ∈ es, (utf16EncStr e.name).length < 1073741824) →
    es.length = n ∧ (∀ e ∈ es, EntryOk e ∧ e.unk3 = 0 ∧ e.unk4 = 0) ∧ Got1 key data off P p (A ++ (es.flatMap fields1).flatten) r' := by
  intro n
  induction n with
  | zero =>
    intro A r es r' h hr _
    cases hr
    exact ⟨rfl, (fun _ h => by cases h), by simpa using h⟩
  | succ n ih =>
    intro A r es r' h hr hs
    unfold Wz.entries at hr
    simp only [bind, Except.bind, pure, Except.pure] at hr
    cases e1 : entryV1 m r with
    | error x => rw [e1] at hr; cases hr
    | ok x =>
    obtain ⟨e, r1⟩ := x
    rw [e1] at hr
    dsimp only at hr
    cases e2 : Wz.entries (entryV1 m) n r1 with
    | error x => rw [e2] at hr; cases hr
    | ok x =>
    obtain ⟨es', r2⟩ := x
    rw [e2] at hr
    cases hr
    obtain ⟨h1, h2, h3, h4⟩ := entryV1_of hP h e1 (hs e (by simp))
    obtain ⟨k1, k2, k3⟩ := ih _ r1 es' r2 h4 e2 (fun e' h' => hs e' (by simp [h']))
    refine ⟨by rw [List.length_cons, k1], ?_, ?_⟩
    · intro e' h'
      rcases List.mem_cons.mp h' with rfl | h'
      · exact ⟨h1, h2, h3⟩
      · exact k2 e' h'
    · rw [List.flatMap_cons, List.flatten_append, ← List.append_assoc]
      exact k3

end v1

theorem encrypt_append (z : Nat → BitVec 32) (B : Bytes) (A : Bytes) : ∀ n, A.length % 4 = 0 →
    encrypt z n (A ++ B) = encrypt z n A ++ encrypt z (n + A.length / 4) B := by
  induction A using Snow.words_ind with
  | small bs hs =>
    intro n h
    have : bs = [] := List.length_eq_zero_iff.mp (by omega)
    subst this
    rfl
  | word a b c e rest ih =>
    intro n h
    show toLE 4 _ ++ encrypt z (n + 1) (rest ++ B) = (toLE 4 _ ++ encrypt z (n + 1) rest) ++ _
    rw [ih (n + 1) (by simp only [List.length_cons] at h; omega), List.append_assoc]
    congr 2
    simp only [List.length_cons]
    congr 1
    omega

/-- an entry cannot be read where nothing is left -/
theorem entriesV1_end {m : Mode} {buf key : Bytes} {off n : Nat} (h : buf.length < off) :
    Wz.entries (entryV1 m) (n + 1) (SnowRd.from buf key off) = .error .read := by
  have hb : (SnowRd.from buf key off).block = .error .read := by
    unfold SnowRd.block
    rw [if_neg (by show ¬ off + 4 ≤ buf.length; omega)]
  have h4 : (SnowRd.from buf key off).read4 = .error .read := by
    unfold SnowRd.read4
    rw [hb]
    rfl
  have h5 : entryV1 m (SnowRd.from buf key off) = .error .read := by
    unfold entryV1
    rw [SnowRd.readI32_eq, h4]
    rfl
  unfold Wz.entries
  rw [h5]
  rfl

/-- a table that stands in the file is read -/
theorem parseV1_shown (f : MsFile) (es : List MsEntry) (hB : f.header.nameWithSalt ≠ [])
    (hc : f.header.entryCount = es.length) (hes : ∀ e ∈ es, EntryOk e ∧ e.unk3 = 0 ∧ e.unk4 = 0)
    (ht : es ≠ [] → Table1 Snow.maps f.buf f.header es) (hlen : f.buf.length < 2 ^ 63) :
    f.parseV1 .wrap = .ok (es.map (shownAt (f.header.estart + roundUp 4 (es.flatMap fields1).flatten.length))) := by
  have hrun : ∃ r', Wz.entries (entryV1 .wrap) es.length (SnowRd.from f.buf (key2 (utf8EncStr f.header.nameWithSalt) 16) f.header.estart) = .ok (es, r') ∧
      (es ≠ [] → r'.offset = f.header.estart + roundUp 4 (es.flatMap fields1).flatten.length ∧ r'.offset < 2 ^ 63) := by
    by_cases hne : es = []
    · subst hne
      exact ⟨_, rfl, fun h => absurd rfl h⟩
    obtain ⟨pre, pad, rest, hs, hpad, hbuf⟩ := ht hne
    generalize hT : (es.flatMap fields1).flatten = T at hpad hbuf ⊢
    generalize hkey : key2 (utf8EncStr f.header.nameWithSalt) 16 = key at hbuf ⊢
    rw [← Snow.startOf_signed] at hbuf
    change f.buf = pre ++ encrypt (Snow.stream key) 0 (T ++ pad) ++ rest at hbuf
    generalize hE : encrypt (Snow.stream key) 0 (T ++ pad) = E at hbuf
    have hEl : E.length = (T ++ pad).length := by rw [← hE, encrypt_length]
    have hE4 : E.length % 4 = 0 := by rw [hEl, hpad]; unfold roundUp; omega
    obtain ⟨out, d', h1, hat, h2⟩ := Snow.slice_append key rest E 0 _ (Snow.at_new key) hE4
    obtain ⟨d'', h3, _⟩ := Snow.slice_encrypted key (T ++ pad) 0 _ (Snow.at_new key)
    rw [hE] at h3
    have hout : out = T ++ pad := by
      rw [h1] at h3
      exact (Prod.mk.inj (Except.ok.inj h3)).1
    obtain ⟨o2, d3, h4, _, hol, _⟩ := Snow.slice_total key rest _ d' hat
    have hdrop : f.buf.drop f.header.estart = E ++ rest := by
      rw [hbuf, ← hs, List.append_assoc, List.drop_left]
    have hP := SnowRd.plain_of key f.buf f.header.estart (T ++ pad ++ o2) _ d3 (by rw [hbuf, ← hs]; simp only [List.length_append]; omega)
      (by rw [hdrop, h2, h4, hout]; rfl)
    have hPl : (T ++ pad ++ o2).length = roundUp 4 T.length + rest.length := by rw [List.length_append, hpad, hol]
    have hr4 : roundUp 4 T.length = (T.length + 3) / 4 * 4 := rfl
    have hat1 : At1 key f.buf f.header.estart (T ++ pad ++ o2) 0 (es.flatMap fields1) (SnowRd.from f.buf key f.header.estart) := by
      refine ⟨SnowRd.inv_start, rfl, ?_, ?_⟩
      · rw [hT]
        unfold sub
        rw [List.drop_zero, List.append_assoc, List.take_left]
      · rw [hT, hPl, hr4]; omega
    obtain ⟨r', he, hI⟩ := At1.entries .wrap hP es 0 _ (fun e h => hes e h) hat1
    have hoff : r'.offset = f.header.estart + roundUp 4 T.length := by
      rw [hI.offset, hT, hr4]
      omega
    have hlt : f.header.estart + roundUp 4 T.length ≤ f.buf.length := by
      rw [hbuf, ← hs, List.length_append, List.length_append, hEl, hpad]; omega
    exact ⟨r', he, fun _ => ⟨hoff, by omega⟩⟩
  obtain ⟨r', he, hr'⟩ := hrun
  obtain ⟨q, hq1, hq2⟩ := alignKilo_wrap r'.offset
  unfold MsFile.parseV1
  simp only [bind, Except.bind, pure, Except.pure]
  rw [tableKey1 hB]
  dsimp only
  rw [hc]
  unfold capacity
  rw [if_neg (by omega)]
  dsimp only
  rw [show ({ SnowRd.new f.buf (key2 (utf8EncStr f.header.nameWithSalt) 16) with offset := f.header.estart } : SnowRd) =
    SnowRd.from f.buf (key2 (utf8EncStr f.header.nameWithSalt) 16) f.header.estart from rfl, Int.toNat_natCast, he]
  dsimp only
  rw [hq1]
  dsimp only
  by_cases hne : es = []
  · subst hne; rfl
  · rw [hq2 (hr' hne).2, (hr' hne).1]
    exact placeAll_wrap _ es

/-- what was read as a table stands in the file -/
theorem parseV1_inv (f : MsFile) (ims : List MsImage) (hlen : f.buf.length < 2 ^ 63) (hsn : ShortNames ims) (h : f.parseV1 .wrap = .ok ims) :
    Shown1 Snow.maps f.buf f.header ims := by
  unfold MsFile.parseV1 at h
  have hB : f.header.nameWithSalt ≠ [] := by
    intro hB
    rw [hB, tableKey1_none] at h
    cases h
  rw [tableKey1 hB] at h
  simp only [bind, Except.bind, pure, Except.pure] at h
  by_cases hcap : f.header.entryCount < 0
  · unfold capacity at h
    rw [if_pos hcap] at h
    cases h
  unfold capacity at h
  rw [if_neg hcap] at h
  dsimp only at h
  rw [show ({ SnowRd.new f.buf (key2 (utf8EncStr f.header.nameWithSalt) 16) with offset := f.header.estart } : SnowRd) =
    SnowRd.from f.buf (key2 (utf8EncStr f.header.nameWithSalt) 16) f.header.estart from rfl] at h
  generalize hkey : key2 (utf8EncStr f.header.nameWithSalt) 16 = key at h
  cases he : Wz.entries (entryV1 .wrap) f.header.entryCount.toNat (SnowRd.from f.buf key f.header.estart) with
  | error e => rw [he] at h; cases h
  | ok x =>
  obtain ⟨es, r'⟩ := x
  rw [he] at h
  dsimp only at h
  obtain ⟨q, hq1, hq2⟩ := alignKilo_wrap r'.offset
  rw [hq1] at h
  dsimp only at h
  refine ⟨hB, es, ?_⟩
  by_cases hz : f.header.entryCount = 0
  · rw [hz] at he
    cases he
    cases h
    exact ⟨hz, (fun _ h => by cases h), fun h => absurd rfl h, rfl⟩
  have hst : f.header.estart ≤ f.buf.length := by
    apply Decidable.byContradiction
    intro hst
    rw [show f.header.entryCount.toNat = (f.header.entryCount.toNat - 1) + 1 by omega, entriesV1_end (by omega)] at he
    cases he
  obtain ⟨P, d, hd, _, hPl, _⟩ := Snow.slice_total key (f.buf.drop f.header.estart) 0 _ (Snow.at_new key)
  have hP := SnowRd.plain_of key f.buf f.header.estart P _ d hst hd
  have henc := encrypt_slice key _ 0 _ _ _ _ (Snow.at_new key) hd
  have hnames : ∀ q, placeAll .wrap q es = .ok ims → ∀ e ∈ es, (utf16EncStr e.name).length < 1073741824 := by
    intro q hp e he'
    obtain ⟨im, him, hn⟩ := placeAll_names hp e he'
    have := hsn im him
    rwa [hn] at this
  have hstart : Got1 key f.buf f.header.estart P 0 [] (SnowRd.from f.buf key f.header.estart) :=
    ⟨SnowRd.inv_start, rfl, rfl, Nat.zero_le _⟩
  obtain ⟨h1, h2, h3⟩ := entriesV1_of hP _ _ _ _ _ hstart he (hnames q h)
  rw [List.nil_append] at h3
  generalize hT : (es.flatMap fields1).flatten = T at h3
  have hfit := h3.fits
  have hhere := h3.here
  have hoff := h3.inv.offset
  rw [Nat.zero_add] at hfit hoff
  have hr4 : roundUp 4 T.length = (T.length + 3) / 4 * 4 := rfl
  rw [List.length_drop] at hPl
  have hoff' : r'.offset = f.header.estart + roundUp 4 T.length := by rw [hoff, hr4]; omega
  have hle : roundUp 4 T.length ≤ P.length := by rw [hr4]; omega
  have hTl : T.length ≤ roundUp 4 T.length := by rw [hr4]; omega
  refine ⟨by omega, h2, fun _ => ?_, ?_⟩
  · refine ⟨f.buf.take f.header.estart, (P.take (roundUp 4 T.length)).drop T.length,
      encrypt (Snow.stream key) (roundUp 4 T.length / 4) (P.drop (roundUp 4 T.length)), ?_, ?_, ?_⟩
    · rw [List.length_take]; omega
    · rw [hT, List.length_append, List.length_drop, List.length_take]; omega
    · rw [hT, hkey, ← Snow.startOf_signed]
      change f.buf = f.buf.take f.header.estart ++ encrypt (Snow.stream key) 0 (T ++ (P.take (roundUp 4 T.length)).drop T.length) ++ _
      have hTT : T ++ (P.take (roundUp 4 T.length)).drop T.length = P.take (roundUp 4 T.length) := by
        have h5 : T = (P.take (roundUp 4 T.length)).take T.length := by
          rw [List.take_take, Nat.min_eq_left hTl]
          unfold sub at hhere
          rw [List.drop_zero] at hhere
          exact hhere.symm
        exact (congrArg (· ++ (P.take (roundUp 4 T.length)).drop T.length) h5).trans (List.take_append_drop _ _)
      have hl : (P.take (roundUp 4 T.length)).length = roundUp 4 T.length := by rw [List.length_take]; omega
      have h6 := encrypt_append (Snow.stream key) (P.drop (roundUp 4 T.length)) (P.take (roundUp 4 T.length)) 0 (by rw [hl, hr4]; omega)
      rw [List.take_append_drop, henc, hl, Nat.zero_add] at h6
      rw [hTT, List.append_assoc, ← h6, List.take_append_drop]
  · rw [hq2 (by omega), hoff', placeAll_wrap] at h
    exact (Except.ok.inj h).symm

/-! ## version 2 -/

/-- the block where the key stream started last, behind the fields -/
def lastStart : Nat → Nat → List Bytes → Nat
  | j, _, [] => j
  | j, p, f :: fs => lastStart (ChaRd.nextStart j (p + f.length)) (p + f.length) fs

theorem lastStart_append (f : Bytes) (fs : List Bytes) : ∀ j p, lastStart j p (fs ++ [f]) =
    ChaRd.nextStart (lastStart j p fs) (p + fs.flatten.length + f.length) := by
  induction fs with
  | nil => intro j p; rfl
  | cons g fs ih =>
    intro j p
    rw [List.cons_append, lastStart, ih, lastStart, List.flatten_cons, List.length_append]
    simp only [Nat.add_assoc]

theorem restart_append (ks : Nat → Bytes) (f : Bytes) (fs : List Bytes) : ∀ j p, restartEncrypt ks j p (fs ++ [f]) =
    restartEncrypt ks j p fs ++ f.mapIdx (fun i b => b ^^^ (ks ((p + fs.flatten.length + i) / 64 - lastStart j p fs)).getD ((p + fs.flatten.length + i) % 64) 0#8) := by
  induction fs with
  | nil => intro j p; simp [restartEncrypt, lastStart]
  | cons g fs ih =>
    intro j p
    rw [List.cons_append, restartEncrypt, ih, restartEncrypt, lastStart, List.flatten_cons, List.length_append, List.append_assoc]
    simp only [Nat.add_assoc]
    rfl

/-- the fields `fs` were read -/
structure Got2 (ks : Nat → Bytes) (data : Bytes) (off : Nat) (fs : List Bytes) (r : ChaRd) : Prop where
  inv : ChaRd.Inv ks data off (lastStart 0 0 fs) fs.flatten.length r
  here : sub (data.drop off) 0 fs.flatten.length = restartEncrypt ks 0 0 fs

section v2
variable {ks : Nat → Bytes} {data : Bytes} {off : Nat} {fs : List Bytes} {r r' : ChaRd}

theorem Got2.bytes (hks : ∀ c, (ks c).length = 64) (h : Got2 ks data off fs r) {n : Nat} {out : Bytes} (hr : r.readBytes n = .ok (out, r')) :
    (out.length = n ∧ n ≤ data.length) ∧ Got2 ks data off (fs ++ [out]) r' := by
  by_cases hf : off + 64 * ((fs.flatten.length + 63) / 64) + n ≤ data.length ∧ off + 64 * ((fs.flatten.length + n + 63) / 64) ≤ data.length
  · obtain ⟨r1, h1, h2⟩ := ChaRd.readBytes_ok hks h.inv n hf.1 hf.2
    rw [h1] at hr
    cases hr
    have hl := ChaRd.piece_length ks (data.drop off) (lastStart 0 0 fs) fs.flatten.length n
    have hfl : (fs ++ [chaPiece ks (data.drop off) (lastStart 0 0 fs) fs.flatten.length n]).flatten.length = fs.flatten.length + n := by
      simp only [List.flatten_append, List.flatten_cons, List.flatten_nil, List.append_nil, List.length_append, hl]
    refine ⟨⟨hl, by omega⟩, ?_, ?_⟩
    · rw [lastStart_append, hfl, hl, Nat.zero_add]
      exact h2
    · rw [hfl, restart_append, ← h.here, ← sub_append, Nat.zero_add]
      congr 1
      apply List.ext_getElem
      · rw [List.length_mapIdx, hl, sub_length (by rw [List.length_drop]; omega)]
      · intro i h3 h4
        rw [List.length_mapIdx, hl] at h4
        rw [List.getElem_mapIdx]
        simp only [chaPiece, List.getElem_map, List.getElem_range, chaByte]
        rw [BitVec.xor_assoc, BitVec.xor_self, BitVec.xor_zero, ← ChaRd.getD_sub (data.drop off) fs.flatten.length n i h4,
          List.getD_eq_getElem?_getD, List.getElem?_eq_getElem h3]
        rfl
  · rw [ChaRd.readBytes_end hks h.inv n hf] at hr
    cases hr

theorem Got2.num (hks : ∀ c, (ks c).length = 64) (h : Got2 ks data off fs r) {v : Int} (hr : r.readI32 = .ok (v, r')) :
    (-2147483648 ≤ v ∧ v < 2147483648) ∧ Got2 ks data off (fs ++ [Ms.num v]) r' := by
  rw [ChaRd.readI32_eq] at hr
  cases h1 : r.readBytes 4 with
  | error e => rw [h1] at hr; cases hr
  | ok x =>
    obtain ⟨b, r1⟩ := x
    rw [h1] at hr
    cases hr
    obtain ⟨⟨hl, _⟩, h2⟩ := h.bytes hks h1
    obtain ⟨h3, h4⟩ := num_signed hl
    exact ⟨h4, by rw [h3]; exact h2⟩

theorem Got2.text {m : Mode} (hks : ∀ c, (ks c).length = 64) (hd : data.length < 2 ^ 63) (h : Got2 ks data off fs r) {v : Int}
    (hv : -2147483648 ≤ v ∧ v < 2147483648) {n : Nat} (hm : mulU m (asUsize v) 2 = .ok n) {s : List Char} (hr : r.readUtf16 n = .ok (s, r')) :
    v = (utf16EncStr s).length ∧ Got2 ks data off (fs ++ [text16 s]) r' := by
  unfold ChaRd.readUtf16 at hr
  simp only [bind, Except.bind, pure, Except.pure] at hr
  cases hw : r.readBytes n with
  | error e => rw [hw] at hr; cases hr
  | ok x =>
    obtain ⟨bs, r1⟩ := x
    rw [hw] at hr
    dsimp only at hr
    obtain ⟨⟨hl, hn⟩, h2⟩ := h.bytes hks hw
    have hn : 0 ≤ v ∧ n = 2 * v.toNat := by
      unfold mulU at hm
      unfold asUsize at hm
      split at hm
      · cases hm; omega
      · cases m with
        | checked => cases hm
        | wrap => cases hm; omega
    cases hu : utf16Strict (unitPairs bs) with
    | error e => rw [hu] at hr; cases hr
    | ok s' =>
      rw [hu] at hr
      cases hr
      obtain ⟨h3, h4⟩ := text16_of (by omega) hu
      exact ⟨by omega, by rw [h3]; exact h2⟩

theorem Got2.key (hks : ∀ c, (ks c).length = 64) (h : Got2 ks data off fs r) {out : Bytes} (hr : r.writeBytes 16 16 = .ok (out, r')) :
    out.length = 16 ∧ Got2 ks data off (fs ++ [out]) r' := by
  by_cases hf : r.offset + 16 ≤ r.data.length
  · rw [Props.C40_write r 16 16 hf, if_neg (by omega), if_pos rfl] at hr
    obtain ⟨⟨h1, _⟩, h2⟩ := h.bytes hks hr
    exact ⟨h1, h2⟩
  · unfold ChaRd.writeBytes at hr
    rw [if_neg (by omega)] at hr
    unfold sliceIdx at hr
    rw [if_neg (by omega)] at hr
    cases hr

theorem entryV2_of {m : Mode} (hks : ∀ c, (ks c).length = 64) (hd : data.length < 2 ^ 63) (h : Got2 ks data off fs r) {e : MsEntry}
    (hr : entryV2 m r = .ok (e, r')) : Numbers32 e ∧ Got2 ks data off (fs ++ fields2 e) r' := by
  unfold entryV2 at hr
  simp only [bind, Except.bind, pure, Except.pure] at hr
  cases e1 : r.readI32 with
  | error x => rw [e1] at hr; cases hr
  | ok x =>
  obtain ⟨nl, r1⟩ := x
  rw [e1] at hr
  dsimp only at hr
  obtain ⟨n0, g1⟩ := h.num hks e1
  cases e2 : mulU m (asUsize nl) 2 with
  | error x => rw [e2] at hr; cases hr
  | ok n =>
  rw [e2] at hr
  dsimp only at hr
  cases e3 : r1.readUtf16 n with
  | error x => rw [e3] at hr; cases hr
  | ok x =>
  obtain ⟨name, r2⟩ := x
  rw [e3] at hr
  dsimp only at hr
  cases f1 : r2.readI32 with
  | error x => rw [f1] at hr; cases hr
  | ok x =>
  obtain ⟨v1, r3⟩ := x
  rw [f1] at hr
  dsimp only at hr
  cases f2 : r3.readI32 with
  | error x => rw [f2] at hr; cases hr
  | ok x =>
  obtain ⟨v2, r4⟩ := x
  rw [f2] at hr
  dsimp only at hr
  cases f3 : r4.readI32 with
  | error x => rw [f3] at hr; cases hr
  | ok x =>
  obtain ⟨v3, r5⟩ := x
  rw [f3] at hr
  dsimp only at hr
  cases f4 : r5.readI32 with
  | error x => rw [f4] at hr; cases hr
  | ok x =>
  obtain ⟨v4, r6⟩ := x
  rw [f4] at hr
  dsimp only at hr
  cases f5 : r6.readI32 with
  | error x => rw [f5] at hr; cases hr
  | ok x =>
  obtain ⟨v5, r7⟩ := x
  rw [f5] at hr
  dsimp only at hr
  cases f6 : r7.readI32 with
  | error x => rw [f6] at hr; cases hr
  | ok x =>
  obtain ⟨v6, r8⟩ := x
  rw [f6] at hr
  dsimp only at hr
  cases f7 : r8.readI32 with
  | error x => rw [f7] at hr; cases hr
  | ok x =>
  obtain ⟨v7, r9⟩ := x
  rw [f7] at hr
  dsimp only at hr
  cases fk : r9.writeBytes 16 16 with
  | error x => rw [fk] at hr; cases hr
  | ok x =>
  obtain ⟨k, r10⟩ := x
  rw [fk] at hr
  dsimp only at hr
  cases f8 : r10.readI32 with
  | error x => rw [f8] at hr; cases hr
  | ok x =>
  obtain ⟨v8, r11⟩ := x
  rw [f8] at hr
  dsimp only at hr
  cases f9 : r11.readI32 with
  | error x => rw [f9] at hr; cases hr
  | ok x =>
  obtain ⟨v9, r12⟩ := x
  rw [f9] at hr
  cases hr
  obtain ⟨hname, g2⟩ := g1.text hks hd n0 e2 e3
  obtain ⟨n1, g3⟩ := g2.num hks f1
  obtain ⟨n2, g4⟩ := g3.num hks f2
  obtain ⟨n3, g5⟩ := g4.num hks f3
  obtain ⟨n4, g6⟩ := g5.num hks f4
  obtain ⟨n5, g7⟩ := g6.num hks f5
  obtain ⟨n6, g8⟩ := g7.num hks f6
  obtain ⟨n7, g9⟩ := g8.num hks f7
  obtain ⟨hk, g10⟩ := g9.key hks fk
  obtain ⟨n8, g11⟩ := g10.num hks f8
  obtain ⟨n9, g12⟩ := g11.num hks f9
  refine ⟨⟨by dsimp only; omega, ?_, hk⟩, ?_⟩
  · simp only [List.mem_cons, List.not_mem_nil, or_false, forall_eq_or_imp, forall_eq]
    exact ⟨n1, n2, n3, n4, n5, n6, n7, n8, n9⟩
  · subst hname
    simpa only [fields2, fields1, List.append_assoc, List.cons_append, List.nil_append] using g12

theorem entriesV2_of {m : Mode} (hks : ∀ c, (ks c).length = 64) (hd : data.length < 2 ^ 63) :
    ∀ (n : Nat) (fs : List Bytes) (r : ChaRd) (es : List MsEntry) (r' : ChaRd), Got2 ks data off fs r → Wz.entries (entryV2 m) n r = .ok (es, r') →
    es.length = n ∧ (∀ e ∈ es, Numbers32 e) ∧ Got2 ks data off (fs ++ es.flatMap fields2) r' := by
  intro n
  induction n with
  | zero =>
    intro fs r es r' h hr
    cases hr
    exact ⟨rfl, (fun _ h => by cases h), by simpa using h⟩
  | succ n ih =>
    intro fs r es r' h hr
    unfold Wz.entries at hr
    simp only [bind, Except.bind, pure, Except.pure] at hr
    cases e1 : entryV2 m r with
    | error x => rw [e1] at hr; cases hr
    | ok x =>
    obtain ⟨e, r1⟩ := x
    rw [e1] at hr
    dsimp only at hr
    cases e2 : Wz.entries (entryV2 m) n r1 with
    | error x => rw [e2] at hr; cases hr
    | ok x =>
    obtain ⟨es', r2⟩ := x
    rw [e2] at hr
    cases hr
    obtain ⟨h1, h2⟩ := entryV2_of hks hd h e1
    obtain ⟨k1, k2, k3⟩ := ih _ r1 es' r2 h2 e2
    refine ⟨by rw [List.length_cons, k1], ?_, ?_⟩
    · intro e' h'
      rcases List.mem_cons.mp h' with rfl | h'
      · exact h1
      · exact k2 e' h'
    · rw [List.flatMap_cons, ← List.append_assoc]
      exact k3

end v2

/-- an entry cannot be read where nothing is left -/
theorem entriesV2_end {m : Mode} {C : ChaCha} {buf key nonce : Bytes} {off n : Nat} (h : buf.length < off) :
    Wz.entries (entryV2 m) (n + 1) (ChaRd.from C buf key nonce off) = .error .panicIndex := by
  have h4 : (ChaRd.from C buf key nonce off).readI32 = .error .panicIndex := by
    unfold ChaRd.readI32 sliceIdx
    rw [if_neg (by show ¬ (off ≤ off + 4 ∧ off + 4 ≤ buf.length); omega)]
    rfl
  have h5 : entryV2 m (ChaRd.from C buf key nonce off) = .error .panicIndex := by
    unfold entryV2
    rw [h4]
    rfl
  unfold Wz.entries
  rw [h5]
  rfl

theorem tableKey2_none {m : Mode} {n : Nat} : tabulateM (fun i => do
      let b ← entryKeyByte m (utf8EncStr []) i
      return msKeyBase.getD i 0#8 ^^^ b) (n + 1) = .error .panicOverflow := by
  have h3 : ∀ i, (do
      let b ← entryKeyByte m (utf8EncStr []) i
      return msKeyBase.getD i 0#8 ^^^ b : Except Err Byte) = .error .panicOverflow := fun i => rfl
  obtain ⟨i, _, e, h1, h2⟩ := tabulateM_error (f := fun i => do
      let b ← entryKeyByte m (utf8EncStr []) i
      return msKeyBase.getD i 0#8 ^^^ b) (n := n + 1) ⟨0, by omega, .panicOverflow, h3 0⟩
  rw [h3] at h1
  cases h1
  exact h2

theorem parseV2_inv (C : ChaCha) (hC : Blocks64 C) (f : MsFile) (ims : List MsImage) (hlen : f.buf.length < 2 ^ 63) (h : f.parseV2 .wrap C = .ok ims) :
    Shown2 C f.buf f.header ims := by
  unfold MsFile.parseV2 at h
  by_cases hz : f.header.entryCount = 0
  · rw [if_pos hz] at h
    cases h
    exact ⟨[], hz, (fun _ h => by cases h), fun h => absurd rfl h, rfl⟩
  rw [if_neg hz] at h
  have hB : f.header.nameWithSalt ≠ [] := by
    intro hB
    rw [hB, tableKey2_none] at h
    cases h
  rw [tableKey2 hB] at h
  simp only [bind, Except.bind, pure, Except.pure] at h
  by_cases hcap : f.header.entryCount < 0
  · unfold capacity at h
    rw [if_pos hcap] at h
    cases h
  unfold capacity at h
  rw [if_neg hcap] at h
  dsimp only at h
  rw [show ({ ChaRd.new C f.buf (xorBase (key2 (utf8EncStr f.header.nameWithSalt) 32)) (List.replicate 12 0#8) with offset := f.header.estart } : ChaRd) =
    ChaRd.from C f.buf (xorBase (key2 (utf8EncStr f.header.nameWithSalt) 32)) (List.replicate 12 0#8) f.header.estart from rfl] at h
  generalize hkey : xorBase (key2 (utf8EncStr f.header.nameWithSalt) 32) = key at h
  cases he : Wz.entries (entryV2 .wrap) f.header.entryCount.toNat (ChaRd.from C f.buf key (List.replicate 12 0#8) f.header.estart) with
  | error e => rw [he] at h; cases h
  | ok x =>
  obtain ⟨es, r'⟩ := x
  rw [he] at h
  dsimp only at h
  obtain ⟨q, hq1, hq2⟩ := alignKilo_wrap r'.offset
  rw [hq1] at h
  dsimp only at h
  have hst : f.header.estart ≤ f.buf.length := by
    apply Decidable.byContradiction
    intro hst
    rw [show f.header.entryCount.toNat = (f.header.entryCount.toNat - 1) + 1 by omega, entriesV2_end (by omega)] at he
    cases he
  have hI0 := ChaRd.inv_start (C := C) (data := f.buf) (key := key) (nonce := List.replicate 12 0#8) (off := f.header.estart) hst
  have hstart : Got2 (C key (List.replicate 12 0#8)) f.buf f.header.estart [] (ChaRd.from C f.buf key (List.replicate 12 0#8) f.header.estart) := ⟨hI0, rfl⟩
  obtain ⟨h1, h2, h3⟩ := entriesV2_of (hC _ _) hlen _ _ _ _ _ hstart he
  rw [List.nil_append] at h3
  have hin := h3.inv.within
  have hoff := h3.inv.offset
  have hhere := h3.here
  have hr : roundUp 64 (es.flatMap fields2).flatten.length = 64 * (((es.flatMap fields2).flatten.length + 63) / 64) := by unfold roundUp; omega
  refine ⟨es, by omega, h2, fun _ => ⟨hB, f.buf.take f.header.estart, (f.buf.drop f.header.estart).drop (es.flatMap fields2).flatten.length, ?_, ?_, ?_⟩, ?_⟩
  · rw [List.length_take]; omega
  · omega
  · rw [hkey, ← hhere]
    unfold sub
    rw [List.drop_zero, List.append_assoc, List.take_append_drop, List.take_append_drop]
  · rw [hq2 (by omega), hoff, ← hr, placeAll_wrap] at h
    exact (Except.ok.inj h).symm

end Wz
