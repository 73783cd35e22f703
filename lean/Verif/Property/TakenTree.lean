import Verif.Property.TakenLemmas
/-!
# What was read is what the bytes are taken for: whole trees
-/

set_option autoImplicit false

namespace Wz

open Spec

/-! ### several entries with one name -/

theorem keys_childInsert {ν : Type} (m : List (List Char × ν)) (k : List Char) (v : ν) :
    (childInsert m k v).map Prod.fst = if k ∈ m.map Prod.fst then m.map Prod.fst else m.map Prod.fst ++ [k] := by
  unfold childInsert
  have hany : (m.any fun p => p.1 == k) = true ↔ k ∈ m.map Prod.fst := by
    rw [List.any_eq_true, List.mem_map]
    exact ⟨fun ⟨x, h, he⟩ => ⟨x, h, eq_of_beq he⟩, fun ⟨x, h, he⟩ => ⟨x, h, by rw [he]; exact beq_self_eq_true k⟩⟩
  by_cases h : k ∈ m.map Prod.fst
  · rw [if_pos (hany.mpr h), if_pos h, List.map_map]
    apply List.map_congr_left
    intro x _
    dsimp only [Function.comp]
    split
    · rename_i hx; exact (eq_of_beq hx).symm
    · rfl
  · rw [if_neg (fun hh => h (hany.mp hh)), if_neg h, List.map_append]
    rfl

theorem keys_childInsertAll {ν : Type} : ∀ (l m : List (List Char × ν)), (childInsertAll m l).map Prod.fst =
    m.map Prod.fst ++ (firsts (l.map Prod.fst)).filter fun y => decide (y ∉ m.map Prod.fst)
  | [], m => by simp [childInsertAll, firsts]
  | (k, v) :: l, m => by
    have ih := keys_childInsertAll l (childInsert m k v)
    show (childInsertAll (childInsert m k v) l).map Prod.fst = _
    rw [ih, keys_childInsert]
    show _ = _ ++ List.filter _ (k :: (firsts (l.map Prod.fst)).filter fun y => decide (y ≠ k))
    by_cases h : k ∈ m.map Prod.fst
    · rw [if_pos h, List.filter_cons_of_neg (by simp only [h, not_true, decide_false, Bool.false_eq_true, not_false_eq_true]), List.filter_filter]
      congr 1
      apply List.filter_congr
      intro y _
      by_cases hy : y = k
      · subst hy; simp only [h, not_true, decide_false, Bool.false_and]
      · simp only [hy, ne_eq, not_false_eq_true, decide_true, Bool.and_true]
    · rw [if_neg h, List.filter_cons_of_pos (by simpa only [decide_eq_true_eq] using h), List.filter_filter, List.append_assoc]
      congr 1
      show [k] ++ _ = k :: _
      rw [List.singleton_append]
      congr 1
      apply List.filter_congr
      intro y _
      simp only [List.mem_append, List.mem_singleton, not_or, Bool.decide_and, ne_eq]

theorem mem_firsts (x : List Char) : ∀ l, x ∈ firsts l ↔ x ∈ l
  | [] => by simp [firsts]
  | y :: l => by
    simp only [firsts, List.mem_cons, List.mem_filter, mem_firsts x l, decide_eq_true_eq]
    by_cases h : x = y <;> simp [h]

theorem firsts_nodup : ∀ l, (firsts l).Nodup
  | [] => by simp [firsts]
  | x :: l => by
    rw [firsts, List.nodup_cons]
    exact ⟨by simp, (firsts_nodup l).filter _⟩

/-- lists with the same names, none twice, and the same members are the same -/
theorem eq_of_names {ν : Type} : ∀ {l1 l2 : List (List Char × ν)}, l1.map Prod.fst = l2.map Prod.fst → (l1.map Prod.fst).Nodup →
    (∀ x ∈ l1, x ∈ l2) → l1 = l2
  | [], [], _, _, _ => rfl
  | [], _ :: _, h, _, _ => by cases h
  | _ :: _, [], h, _, _ => by cases h
  | a :: t1, b :: t2, h, hn, hm => by
    rw [List.map_cons, List.map_cons, List.cons.injEq] at h
    rw [List.map_cons, List.nodup_cons] at hn
    have hab : a = b := by
      rcases List.mem_cons.mp (hm a (by simp)) with h1 | h1
      · exact h1
      · exact absurd (by rw [h.2]; exact List.mem_map_of_mem h1) hn.1
    subst hab
    congr 1
    refine eq_of_names h.2 hn.2 fun x hx => ?_
    rcases List.mem_cons.mp (hm x (List.mem_cons_of_mem _ hx)) with h1 | h1
    · subst h1; exact absurd (List.mem_map_of_mem hx) hn.1
    · exact h1

theorem merged_all {ν : Type} (raw : List (List Char × ν)) : MergedKids raw (childInsertAll [] raw) := by
  refine ⟨?_, fun n v => ?_⟩
  · rw [keys_childInsertAll]
    simp
  · rw [mem_childInsertAll_iff]
    simp

theorem merged_eq {ν : Type} {raw kids : List (List Char × ν)} (h : MergedKids raw kids) : childInsertAll [] raw = kids := by
  obtain ⟨h1, h2⟩ := merged_all raw
  refine eq_of_names (h1.trans h.1.symm) (by rw [h1]; exact firsts_nodup _) fun x hx => ?_
  exact (h.2 x.1 x.2).mpr ((h2 x.1 x.2).mp hx)

/-! ### plain values -/

theorem smallFloat_of (b : Byte) : IsSmallFloat b (f32OfNat b.toNat) := by
  by_cases hz : b.toNat = 0
  · refine .inl ⟨BitVec.eq_of_toNat_eq hz, ?_⟩
    rw [hz]; rfl
  · refine .inr ⟨b.toNat.log2, (b.toNat - 2 ^ b.toNat.log2) * 2 ^ (23 - b.toNat.log2), ?_⟩
    have hb : b.toNat < 256 := b.isLt
    generalize b.toNat = n at hz hb
    unfold f32OfNat
    rw [if_neg hz]
    have hk : n.log2 < 8 := (Nat.log2_lt hz).mpr hb
    have h1 : 2 ^ n.log2 ≤ n := Nat.log2_self_le hz
    have h2 : n < 2 ^ (n.log2 + 1) := Nat.lt_log2_self
    generalize n.log2 = k at hk h1 h2
    have h23 : 2 ^ k * 2 ^ (23 - k) = 2 ^ 23 := by rw [← Nat.pow_add]; congr 1; omega
    rw [Nat.pow_succ] at h2
    refine ⟨?_, rfl, ?_⟩
    · rw [← h23]
      exact Nat.mul_lt_mul_of_pos_right (by omega) (Nat.two_pow_pos _)
    · obtain ⟨d, rfl⟩ : ∃ d, n = 2 ^ k + d := ⟨n - 2 ^ k, by omega⟩
      rw [Nat.add_sub_cancel_left, Nat.mul_add, Nat.add_mul]
      congr 1
      rw [Nat.mul_comm d (2 ^ (23 - k)), ← Nat.mul_assoc, h23, Nat.mul_comm]

theorem i16_held {e : Env} {c c' : Cur} {l : Int} (hb : e.buf.length < 2 ^ 63) (h : Rd.readI16.run e c = (.ok l, c')) :
    c' = { c with pos := c.pos + 2 } ∧ -2 ^ 15 ≤ l ∧ l < 2 ^ 15 ∧ Holds e.buf c.pos (toLE 2 (unsign 16 l)) := by
  obtain ⟨hp, hc, hv⟩ := Rd.readInt_ok h hb
  have hr := signed_range (bits := 8 * 2) (v := leNat ((e.buf.drop c.pos).take 2)) (by omega)
  rw [← hv] at hr
  refine ⟨hc, by simpa using hr.1, by simpa using hr.2, ?_⟩
  have hh := Holds.of_slice hp
  have hlen : ((e.buf.drop c.pos).take 2).length = 2 := by simp; omega
  have h2 := toLE_leNat ((e.buf.drop c.pos).take 2)
  rw [hlen] at h2
  have hlt := leNat_lt ((e.buf.drop c.pos).take 2)
  rw [hlen] at hlt
  have h3 : unsign 16 l = leNat ((e.buf.drop c.pos).take 2) := by
    rw [hv]
    unfold signed unsign
    rw [BitVec.toInt_eq_toNat_cond]
    simp only [BitVec.toNat_ofNat]
    split <;> omega
  rw [h3, h2]
  exact hh

theorem byte_eq_of {t : Byte} {k : Nat} (h : t.toNat = k) : t = BitVec.ofNat 8 k := by
  rw [← h, BitVec.ofNat_toNat, BitVec.setWidth_eq]

theorem plain_of_read {e : Env} {c c' : Cur} {o : Nat} {ty : Byte} {v : PObj} (hb : e.buf.length < 2 ^ 63) (hm : e.mode = .checked)
    (h : (Rd.readPlain o ty.toNat).run e c = (.ok v, c')) :
    (∃ bs, PlainIs ty v bs ∧ (∀ x, Holds e.buf x [ty] → x + 1 = c.pos → Holds e.buf x (ty :: bs)) ∧ c'.pos = c.pos + bs.length) ∨
    (ty = 8#8 ∧ ∃ m, v = .str m ∧ MetaBlock e o c.pos m c'.pos) := by
  unfold Rd.readPlain at h
  by_cases h0 : ty.toNat = 0
  · rw [if_pos h0] at h
    cases h
    obtain rfl := byte_eq_of h0
    exact .inl ⟨[], .null, fun x hx _ => hx, rfl⟩
  rw [if_neg h0] at h
  by_cases h2 : ty.toNat = 2 ∨ ty.toNat = 11
  · rw [if_pos h2] at h
    obtain ⟨a, c1, h1, h⟩ := Rd.bind_inv h
    obtain ⟨rfl, k1, k2, k3⟩ := i16_held hb h1
    cases h
    refine .inl ⟨_, .short ty a (h2.imp byte_eq_of byte_eq_of) k1 k2, fun x hx he => Holds.cons_of hx (he ▸ k3), ?_⟩
    rw [length_toLE]
  rw [if_neg h2] at h
  by_cases h3 : ty.toNat = 3 ∨ ty.toNat = 19
  · rw [if_pos h3] at h
    obtain ⟨a, c1, h1, h⟩ := Rd.bind_inv h
    obtain ⟨bs, k1, k2, rfl⟩ := Props.C01_int32_only _ _ _ _ hb h1
    cases h
    exact .inl ⟨_, .int ty a bs (h3.imp byte_eq_of byte_eq_of) k1, fun x hx he => Holds.cons_of hx (he ▸ k2), rfl⟩
  rw [if_neg h3] at h
  by_cases h20 : ty.toNat = 20
  · rw [if_pos h20] at h
    obtain ⟨a, c1, h1, h⟩ := Rd.bind_inv h
    obtain ⟨bs, k1, k2, rfl⟩ := Props.C01_int64_only _ _ _ _ hb h1
    cases h
    obtain rfl := byte_eq_of h20
    exact .inl ⟨_, .long a bs k1, fun x hx he => Holds.cons_of hx (he ▸ k2), rfl⟩
  rw [if_neg h20] at h
  by_cases h4 : ty.toNat = 4
  · rw [if_pos h4] at h
    obtain rfl := byte_eq_of h4
    unfold Rd.readFloatObj at h
    obtain ⟨a, c1, h1, h⟩ := Rd.bind_inv h
    obtain ⟨b, rfl, rfl, kb⟩ := byte_held hm h1
    by_cases h80 : b.toNat = 0x80
    · rw [if_pos h80] at h
      obtain ⟨u, c2, h5, h⟩ := Rd.bind_inv h
      obtain ⟨rfl, k1, k2⟩ := le_held hm h5
      cases h
      obtain rfl := byte_eq_of h80
      refine .inl ⟨_, .float u (by omega), fun x hx he => Holds.cons_of hx (he ▸ Holds.cons_of kb k2), ?_⟩
      simp only [List.length_cons, length_toLE]
    · rw [if_neg h80] at h
      cases h
      exact .inl ⟨_, .smallFloat b _ (fun hh => h80 (by rw [hh]; rfl)) (smallFloat_of b), fun x hx he => Holds.cons_of hx (he ▸ kb), rfl⟩
  rw [if_neg h4] at h
  by_cases h5 : ty.toNat = 5
  · rw [if_pos h5] at h
    obtain ⟨u, c2, h6, h⟩ := Rd.bind_inv h
    obtain ⟨rfl, k1, k2⟩ := le_held hm h6
    cases h
    obtain rfl := byte_eq_of h5
    refine .inl ⟨_, .double u (by omega), fun x hx he => Holds.cons_of hx (he ▸ k2), ?_⟩
    rw [length_toLE]
  rw [if_neg h5] at h
  by_cases h8 : ty.toNat = 8
  · rw [if_pos h8] at h
    obtain ⟨u, c2, h6, h⟩ := Rd.bind_inv h
    cases h
    obtain rfl := byte_eq_of h8
    exact .inr ⟨rfl, _, rfl, metaBlock_of_read hb hm h6⟩
  rw [if_neg h8] at h
  cases h

theorem Spec.PlainIs.reads {e : Env} {o p : Nat} {ty : Byte} {v : PObj} {bs : Bytes} (h : PlainIs ty v bs)
    (hh : Holds e.buf p bs) (hb : e.buf.length < 2 ^ 63) : (Rd.readPlain o ty.toNat).Reads e p v (p + bs.length) := by
  cases h with
  | null => exact .pure _
  | short _ v ht h0 h1 =>
    have hr : Rd.readI16.Reads e p v (p + 2) := Rd.Reads.readInt_enc (w := 2) (by decide) h0 h1 hh hb
    rw [length_toLE]
    rcases ht with rfl | rfl <;> exact .bind hr (.pure _)
  | int _ v _ ht hv =>
    have hr := Rd.Reads.wzInt hv hh hb
    rcases ht with rfl | rfl <;> exact .bind hr (.pure _)
  | long v _ hv => exact .bind (Rd.Reads.wzInt64 hv hh hb) (.pure _)
  | float bits hbits =>
    have : (Rd.readFloatObj).Reads e p (.float bits) (p + (0x80#8 :: toLE 4 bits).length) := by
      unfold Rd.readFloatObj
      refine .bind (.readU8 hh.head hb) ?_
      rw [if_pos (by decide)]
      have := Rd.Reads.readLE_enc hh.tail (by omega) hb
      simp only [List.length_cons, length_toLE]
      rw [show p + (4 + 1) = p + 1 + 4 by omega]
      exact .bind this (.pure _)
    exact this
  | smallFloat b bits hne hs =>
    have : (Rd.readFloatObj).Reads e p (.float bits) (p + 1) := by
      unfold Rd.readFloatObj
      refine .bind (.readU8 hh hb) ?_
      rw [if_neg (fun h : b.toNat = 128 => hne (BitVec.eq_of_toNat_eq h)), smallFloat_eq hs]
      exact .pure _
    exact this
  | double bits hbits =>
    rw [length_toLE]
    exact .bind (Rd.Reads.readLE_enc hh (by omega) hb) (.pure _)

theorem Spec.PlainIs.ne9 {ty : Byte} {v : PObj} {bs : Bytes} (h : PlainIs ty v bs) : ty.toNat ≠ 9 := by
  cases h with
  | short _ v ht h0 h1 => rcases ht with rfl | rfl <;> decide
  | int _ v _ ht hv => rcases ht with rfl | rfl <;> decide
  | _ => decide

/-! ### pictures and sounds -/

theorem picture_of_read {e : Env} {c c' : Cur} {g : Png} (hb : e.buf.length < 2 ^ 63) (hm : e.mode = .checked)
    (h : Rd.parsePng.run e c = (.ok g, c')) : PictureIs e c.pos g c'.pos := by
  unfold Rd.parsePng at h
  obtain ⟨w, c1, h1, h⟩ := Rd.bind_inv h
  obtain ⟨wb, w1, w2, rfl⟩ := Props.C01_int32_only _ _ _ _ hb h1
  obtain ⟨ht, c1, h1, h⟩ := Rd.bind_inv h
  obtain ⟨hb', h1', h2', rfl⟩ := Props.C01_int32_only _ _ _ _ hb h1
  obtain ⟨f, c1, h1, h⟩ := Rd.bind_inv h
  obtain ⟨fb, f1, f2, rfl⟩ := Props.C01_int32_only _ _ _ _ hb h1
  obtain ⟨sc, c1, h1, h⟩ := Rd.bind_inv h
  obtain ⟨rfl, hp1, s1, s2, s3⟩ := i8_held hb h1
  obtain ⟨pg, c1, h1, h⟩ := Rd.bind_inv h
  obtain ⟨gb, g1, g2, rfl⟩ := Props.C01_int32_only _ _ _ _ hb h1
  obtain ⟨u, c1, h1, h⟩ := Rd.bind_inv h
  obtain ⟨ub, u1, u2, rfl⟩ := Props.C01_int32_only _ _ _ _ hb h1
  obtain ⟨_, c1, h1, h⟩ := Rd.bind_inv h
  have hc1 := Rd.skip_inv hm h1
  subst hc1
  obtain ⟨n, c1, h1, h⟩ := Rd.bind_inv h
  obtain ⟨rfl, hp2, n1, n2, n3⟩ := i32_held hb h1
  obtain ⟨e', c1, h1, h⟩ := Rd.bind_inv h
  cases h1
  obtain ⟨n', c1, h1, h⟩ := Rd.bind_inv h
  obtain ⟨h1', hc1⟩ := Rd.lift_inv h1
  rw [hc1] at h
  obtain ⟨_, c2, h2, h⟩ := Rd.bind_inv h
  have hc2 := Rd.skip_inv hm h2
  subst hc2
  obtain ⟨off, c2, h2, h⟩ := Rd.bind_inv h
  cases h2
  obtain ⟨hd, c2, h2, h⟩ := Rd.bind_inv h
  obtain ⟨rfl, d1, d2⟩ := le_held hm h2
  cases h
  dsimp only at *
  unfold decI32 at h1'
  rw [hm] at h1'
  by_cases hn : n = -2 ^ 31
  · rw [if_neg (fun hh => hh hn)] at h1'
    cases h1'
  rw [if_pos hn] at h1'
  cases h1'
  have e0 : c.pos + wb.length + hb'.length + fb.length + 1 + gb.length + ub.length =
    c.pos + (wb.length + hb'.length + fb.length + 1 + gb.length + ub.length) := by omega
  refine ⟨w, ht, f, sc, n, u, wb, hb', fb, gb, ub, w1, h1', f1, s1, s2, g1, u1, by omega, n2, by simpa using d1, ?_, ?_, d2, ?_, rfl, rfl, rfl, rfl, rfl, rfl⟩
  · exact w2.append (h2'.append (f2.append (s3.append (g2.append u2))))
  · rw [← e0]; exact n3
  · show _ + 2 + 4 + 1 = _
    omega

theorem Spec.PictureIs.reads {e : Env} {p q : Nat} {g : Png} (h : PictureIs e p g q) (hb : e.buf.length < 2 ^ 63) :
    Rd.parsePng.Reads e p g q := by
  obtain ⟨w, ht, f, sc, n, u, wb, hb', fb, gb, ub, w1, h1, f1, s1, s2, g1, u1, n1, n2, d1, hold, hn, hd, ho, rfl, rfl_w, rfl_h, rfl_f, rfl_s, rfl_n⟩ := h
  obtain ⟨off, size, fm1, fm2, hdr, pages, wd, hg⟩ := g
  dsimp only at *
  subst ho rfl_w rfl_h rfl_f rfl_s rfl_n
  have h1' := hold.right
  have h2 := h1'.right
  have h3 := h2.right
  have h4 := h3.right
  have h5 := h4.right
  simp only [List.length_cons, List.length_nil] at h4 h5
  have hle := hd.le
  rw [length_toLE] at hle
  unfold Rd.parsePng
  refine .bind (.wzInt w1 hold.left hb) (.bind (.wzInt h1 h1'.left hb) (.bind (.wzInt f1 h2.left hb) (.bind (a := sc) ?_
    (.bind (.wzInt g1 h4.left hb) (.bind (.wzInt u1 h5 hb) (.bind (.skip (by omega)) ?_))))))
  · have hsb : [byteOf sc] = toLE 1 (unsign (8 * 1) sc) := by
      simp only [toLE, byteOf]
      congr 1
      apply BitVec.eq_of_toNat_eq
      simp only [BitVec.toNat_ofInt, BitVec.toNat_ofNat, unsign]
      omega
    refine Rd.Reads.readInt_enc (w := 1) (by decide) (by omega) (by omega) ?_ hb
    rw [← hsb]
    exact h3.left
  · have e0 : p + wb.length + hb'.length + fb.length + 1 + gb.length + ub.length =
      p + (wb.length + hb'.length + fb.length + 1 + gb.length + ub.length) := by omega
    rw [e0]
    generalize p + (wb.length + hb'.length + fb.length + 1 + gb.length + ub.length) = r at *
    refine .bind (a := n) (q := r + 2 + 4) (Rd.Reads.readInt_enc (w := 4) (by decide) (by omega) (by omega) hn hb)
      (.bind .getEnv (.bind (a := n - 1) (.lift ?_) (.bind (.skip (by omega)) (.bind .getPos ?_))))
    · unfold decI32
      rw [if_pos (by omega)]
    · exact .bind (Rd.Reads.readLE_enc hd (by omega) hb) (.pure _)

theorem soundType_mp3 (header : Bytes) (n d : Nat) : soundTypeOf header n d = .mp3 ↔ header.length ≠ 70 := by
  unfold soundTypeOf
  by_cases h70 : header.length = 70
  · rw [if_pos h70]; simp [h70]; split <;> simp
  · rw [if_neg h70]; simp [h70]

theorem soundType_binary (header : Bytes) (n d : Nat) : soundTypeOf header n d = .binary ↔
    header.length = 70 ∧ leNat ((header.drop 56).take 4) = n ∧ d = 1000 := by
  unfold soundTypeOf
  by_cases h70 : header.length = 70
  · rw [if_pos h70]
    have : soundFreq header = leNat ((header.drop 56).take 4) := by
      unfold soundFreq; rw [if_neg (by omega)]
    rw [this]
    simp only [h70, true_and]
    split <;> simp_all
  · rw [if_neg h70]; simp [h70]

theorem subU_inv {a b r : Nat} (h : subU .checked a b = .ok r) : b ≤ a ∧ r = a - b := by
  unfold subU at h
  by_cases hh : b ≤ a
  · rw [if_pos hh] at h; cases h; exact ⟨hh, rfl⟩
  · rw [if_neg hh] at h; cases h

theorem sound_of_read {e : Env} {c c' : Cur} {eob : Nat} {v : PObj} (hb : e.buf.length < 2 ^ 63) (hm : e.mode = .checked)
    (h : (Rd.parseSound eob).run e c = (.ok v, c')) : ∃ s, v = .sound s ∧ SoundIs e eob c.pos s c'.pos := by
  unfold Rd.parseSound at h
  obtain ⟨_, c1, h1, h⟩ := Rd.bind_inv h
  have hc1 := Rd.skip_inv hm h1
  subst hc1
  obtain ⟨n, c1, h1, h⟩ := Rd.bind_inv h
  obtain ⟨nb, n1, n2, rfl⟩ := Props.C01_int32_only _ _ _ _ hb h1
  obtain ⟨d, c1, h1, h⟩ := Rd.bind_inv h
  obtain ⟨db, d1, d2, rfl⟩ := Props.C01_int32_only _ _ _ _ hb h1
  obtain ⟨e', c1, h1, h⟩ := Rd.bind_inv h
  cases h1
  obtain ⟨off, c1, h1, h⟩ := Rd.bind_inv h
  obtain ⟨k1, hc1⟩ := Rd.lift_inv h1
  rw [hc1] at h
  obtain ⟨hoff, c2, h2, h⟩ := Rd.bind_inv h
  cases h2
  obtain ⟨hsize, c2, h2, h⟩ := Rd.bind_inv h
  obtain ⟨k2, hc2⟩ := Rd.lift_inv h2
  rw [hc2] at h
  obtain ⟨hend, c3, h3, h⟩ := Rd.bind_inv h
  obtain ⟨k3, hc3⟩ := Rd.lift_inv h3
  rw [hc3] at h
  obtain ⟨header, c4, h4, h⟩ := Rd.bind_inv h
  obtain ⟨k4, hc4⟩ := Rd.lift_inv h4
  rw [hc4] at h
  cases h
  dsimp only at *
  rw [hm] at k1 k2 k3
  obtain ⟨j1, rfl⟩ := subU_inv k1
  obtain ⟨j2, rfl⟩ := subU_inv k2
  obtain ⟨rfl, j3⟩ := addU_inv k3
  unfold sliceIdx at k4
  by_cases hs : c.pos + 1 + nb.length + db.length ≤ c.pos + 1 + nb.length + db.length + (eob - asU32 n - (c.pos + 1 + nb.length + db.length)) ∧
      c.pos + 1 + nb.length + db.length + (eob - asU32 n - (c.pos + 1 + nb.length + db.length)) ≤ e.buf.length
  · rw [if_pos hs, Nat.add_sub_cancel_left] at k4
    cases k4
    have hold := Holds.of_slice hs.2
    have hlen : ((e.buf.drop (c.pos + 1 + nb.length + db.length)).take (eob - asU32 n - (c.pos + 1 + nb.length + db.length))).length =
        eob - asU32 n - (c.pos + 1 + nb.length + db.length) := by
      rw [List.length_take, List.length_drop]
      omega
    refine ⟨_, rfl, n, d, nb, db, _, n1, d1, n2.append d2, rfl, hold, rfl, hlen.symm, ?_, rfl, ?_, rfl, soundType_mp3 _ _ _, soundType_binary _ _ _⟩
    · dsimp only
      rw [hlen]
      omega
    · dsimp only
      omega
  · rw [if_neg hs] at k4
    cases k4

theorem SoundType.eq_of {a b : SoundType} (h1 : a = .mp3 ↔ b = .mp3) (h2 : a = .binary ↔ b = .binary) : a = b := by
  cases a <;> cases b <;> simp at h1 h2 ⊢

theorem Spec.SoundIs.reads {e : Env} {eob p q : Nat} {s : Sound} (h : SoundIs e eob p s q) (hb : e.buf.length < 2 ^ 63) :
    (Rd.parseSound eob).Reads e p (.sound s) q := by
  obtain ⟨n, d, nb, db, header, n1, d1, hold, rfl, hh, a1, a2, a3, a4, a5, a6, a7, a8⟩ := h
  have hle := hh.le
  unfold Rd.parseSound
  refine .bind (.skip (by omega)) (.bind (.wzInt n1 hold.left hb) (.bind (.wzInt d1 hold.right hb) (.bind .getEnv
    (.bind (a := s.offset) (.lift ?_) (.bind .getPos (.bind (a := header.length) (.lift ?_) (.bind (.lift (addU_ok (by omega)))
    (.bind (a := header) (.lift ?_) ?_))))))))
  · have : asU32 n = s.length := a4.symm
    unfold subU
    rw [this, if_pos (by omega)]
    congr 1; omega
  · unfold subU
    rw [if_pos (by omega)]
    congr 1; omega
  · unfold sliceIdx
    rw [if_pos (by omega), Nat.add_sub_cancel_left]
    exact congrArg Except.ok hh.slice
  · have ht : soundTypeOf header (asU32 n) (asU32 d) = s.ty := by
      rw [show asU32 n = s.length from a4.symm, show asU32 d = s.duration from a6.symm]
      exact SoundType.eq_of ((soundType_mp3 _ _ _).trans a7.symm) ((soundType_binary _ _ _).trans a8.symm)
    have : s = { offset := s.offset, length := asU32 n, headerOffset := p + 1 + nb.length + db.length, headerSize := header.length, duration := asU32 d, ty := soundTypeOf header (asU32 n) (asU32 d) } := by
      rw [ht, show asU32 n = s.length from a4.symm, show asU32 d = s.duration from a6.symm, ← a1, ← a2]
    rw [this]
    exact .pure _

/-! ### what was read was taken -/

/-- what a result of an extended property called `name` says of the bytes between `p` and `q` -/
def Spec.TakenRes (e : Env) (o eob : Nat) (name : List Char) (p q : Nat) : ExtRes → Prop
  | .ok (n, x) => n = name ∧ Taken e o (.ext eob x) p q
  | .error n => ∃ point, n = point.getD name ∧ Taken e o (.strange eob point) p q

/-- a reader of extended properties that takes them for what they are -/
def SoundExt (e : Env) (o : Nat) (ext : Rd.Ext) : Prop :=
  ∀ (eob : Nat) (name : List Char) (r : ExtRes) (c c' : Cur), (ext eob name).run e c = (.ok r, c') →
    TakenRes e o eob name c.pos c'.pos r

theorem items_of_read {e : Env} {o : Nat} {ext : Rd.Ext} (hb : e.buf.length < 2 ^ 63) (hm : e.mode = .checked)
    (hx : SoundExt e o ext) : ∀ (n : Nat) (ks : List (List Char × PNode)) (c c' : Cur),
    (Rd.parseItems ext o n).run e c = (.ok ks, c') → ks.length = n ∧ Taken e o (.items ks) c.pos c'.pos
  | 0, ks, c, c', h => by cases h; exact ⟨rfl, .nil _⟩
  | n + 1, ks, c, c', h => by
    replace h : (Rd.parseItem ext o >>= fun x => Rd.parseItems ext o n >>= fun xs => pure (x :: xs)).run e c = (.ok ks, c') := h
    obtain ⟨x, c1, h1, h⟩ := Rd.bind_inv h
    obtain ⟨xs, c2, h2, h⟩ := Rd.bind_inv h
    cases h
    obtain ⟨l1, l2⟩ := items_of_read hb hm hx n xs c1 c' h2
    refine ⟨by rw [List.length_cons, l1], ?_⟩
    unfold Rd.parseItem at h1
    obtain ⟨name, c3, h3, h1⟩ := Rd.bind_inv h1
    have ht := textBlock_of_read hb hm h3
    obtain ⟨v, c4, h4, h1⟩ := Rd.bind_inv h1
    obtain ⟨ty, rfl, rfl, hty⟩ := byte_held hm h4
    unfold Rd.parseNode at h1
    by_cases h9 : ty.toNat = 9
    · rw [if_pos h9] at h1
      obtain rfl := byte_eq_of h9
      obtain ⟨size, c5, h5, h1⟩ := Rd.bind_inv h1
      obtain ⟨rfl, s1, s2⟩ := le_held hm h5
      obtain ⟨p, c6, h6, h1⟩ := Rd.bind_inv h1
      cases h6
      obtain ⟨e', c6, h6, h1⟩ := Rd.bind_inv h1
      cases h6
      obtain ⟨nx, c7, h7, h1⟩ := Rd.bind_inv h1
      obtain ⟨k7, hc7⟩ := Rd.lift_inv h7
      rw [hc7] at h1
      rw [hm] at k7
      obtain ⟨rfl, _⟩ := addU_inv k7
      obtain ⟨r, c8, h8, h1⟩ := Rd.bind_inv h1
      have hr := hx _ _ _ _ _ h8
      have hold : Holds e.buf c3.pos (9#8 :: toLE 4 size) := Holds.cons_of hty s2
      dsimp only at hr
      rw [show c3.pos + 1 + 4 = c3.pos + 5 by omega] at hr
      have hs : size < 2 ^ 32 := by simpa using s1
      cases r with
      | ok n =>
        obtain ⟨a, b⟩ := n
        obtain ⟨hna, hr⟩ := hr
        obtain ⟨_, c9, h9', h1⟩ := Rd.bind_inv h1
        cases h9'
        cases h1
        dsimp only at l2
        rw [hna]
        exact .block _ _ _ _ size _ _ _ ht hs hold hr (by rw [show c3.pos + 5 + size = c3.pos + 1 + 4 + size by omega]; exact l2)
      | error n =>
        obtain ⟨point, rfl, hr⟩ := hr
        obtain ⟨_, c9, h9', h1⟩ := Rd.bind_inv h1
        cases h9'
        cases h1
        dsimp only at l2
        exact .strangeBlock _ _ _ _ size _ _ _ ht hs hold hr (by rw [show c3.pos + 5 + size = c3.pos + 1 + 4 + size by omega]; exact l2)
    · rw [if_neg h9] at h1
      obtain ⟨v, c5, h5, h1⟩ := Rd.bind_inv h1
      cases h1
      rcases plain_of_read hb hm h5 with ⟨bs, k1, k2, k3⟩ | ⟨rfl, m, rfl, k1⟩
      · refine .plain _ _ _ _ ty _ bs _ ht k1 (k2 _ hty rfl) ?_
        rw [k3] at l2
        rw [← Nat.add_assoc]
        exact l2
      · exact .str _ _ _ _ _ m _ ht hty k1 l2

theorem list_of_read {e : Env} {o : Nat} {ext : Rd.Ext} (hb : e.buf.length < 2 ^ 63) (hm : e.mode = .checked)
    (hx : SoundExt e o ext) {ks : List (List Char × PNode)} {c c' : Cur}
    (h : (Rd.parseListWith ext o).run e c = (.ok ks, c')) : TakenList e o ks c.pos c'.pos := by
  unfold Rd.parseListWith at h
  obtain ⟨n, c1, h1, h⟩ := Rd.bind_inv h
  obtain ⟨nb, n1, n2, rfl⟩ := Props.C01_int32_only _ _ _ _ hb h1
  by_cases hn : n < 0
  · rw [if_pos hn] at h; cases h
  · rw [if_neg hn] at h
    obtain ⟨l1, l2⟩ := items_of_read hb hm hx _ _ _ _ h
    refine ⟨nb, ?_, n2, l2⟩
    rw [l1, show ((n.toNat : Nat) : Int) = n by omega]
    exact n1

theorem kids_of_read {e : Env} {o : Nat} {ext : Rd.Ext} (hb : e.buf.length < 2 ^ 63) (hm : e.mode = .checked)
    (hx : SoundExt e o ext) {ks : List (List Char × PNode)} {c c' : Cur} (h : (Rd.parseKids ext o).run e c = (.ok ks, c')) :
    ∃ raw nb, IsWzInt 4 (raw.length : Nat) nb ∧ Holds e.buf (c.pos + 2) nb ∧ Taken e o (.items raw) (c.pos + 2 + nb.length) c'.pos ∧
      MergedKids raw ks := by
  unfold Rd.parseKids at h
  obtain ⟨_, c1, h1, h⟩ := Rd.bind_inv h
  have hc1 := Rd.skip_inv hm h1
  subst hc1
  obtain ⟨raw, c1, h1, h⟩ := Rd.bind_inv h
  cases h
  obtain ⟨nb, k1, k2, k3⟩ := list_of_read hb hm hx h1
  exact ⟨raw, nb, k1, k2, k3, merged_all raw⟩

/-- the points passed so far are numbered below `i` -/
def Below (i : Nat) (acc : List (List Char × PNode)) : Prop := ∀ x ∈ acc, ∃ j, j < i ∧ x.1 = Nat.toDigits 10 j

theorem Below.insert {i : Nat} {acc : List (List Char × PNode)} (h : Below i acc) (nd : PNode) :
    childInsert acc (decimal i) nd = acc ++ [(decimal i, nd)] := by
  unfold childInsert
  rw [if_neg]
  rw [List.any_eq_true]
  rintro ⟨x, hx, hxe⟩
  obtain ⟨j, hj, hxj⟩ := h x hx
  have := eq_of_beq hxe
  rw [hxj] at this
  have := decimal_inj this
  omega

theorem Below.step {i : Nat} {acc : List (List Char × PNode)} (h : Below i acc) (nd : PNode) :
    Below (i + 1) (acc ++ [(decimal i, nd)]) := by
  intro x hx
  rw [List.mem_append] at hx
  rcases hx with hx | hx
  · obtain ⟨j, hj, h⟩ := h x hx
    exact ⟨j, by omega, h⟩
  · rw [List.mem_singleton] at hx
    subst hx
    exact ⟨i, by omega, rfl⟩

/-- what the result of the loop over the points says -/
def Spec.TakenPoints (e : Env) (o eob i n : Nat) (acc : List (List Char × PNode)) (p q : Nat) :
    Except (List Char) (List (List Char × PNode)) → Prop
  | .ok ks => ∃ kids, ks = acc ++ kids ∧ kids.length = n ∧ Taken e o (.points eob i kids) p q
  | .error x => Taken e o (.strangePoint eob i n x) p q

theorem points_of_read {e : Env} {o eob : Nat} {ext : Rd.Ext} (hx : SoundExt e o ext) :
    ∀ (n i : Nat) (acc : List (List Char × PNode)) (r : Except (List Char) (List (List Char × PNode))) (c c' : Cur), Below i acc →
    (Rd.convexLoop ext eob n i acc).run e c = (.ok r, c') → TakenPoints e o eob i n acc c.pos c'.pos r
  | 0, i, acc, r, c, c', _, h => by
    cases h
    exact ⟨[], (List.append_nil _).symm, rfl, .noPoint _ _ _⟩
  | n + 1, i, acc, r, c, c', hacc, h => by
    unfold Rd.convexLoop at h
    obtain ⟨x, c1, h1, h⟩ := Rd.bind_inv h
    have h1' := hx _ _ _ _ _ h1
    cases x with
    | error y =>
      obtain ⟨point, rfl, k⟩ := h1'
      cases h
      exact .strangeHere _ _ _ _ _ point k
    | ok y =>
      obtain ⟨a, nd⟩ := y
      obtain ⟨rfl, k⟩ := h1'
      dsimp only at h
      rw [hacc.insert] at h
      have := points_of_read hx n (i + 1) _ r c1 c' (hacc.step nd) h
      cases r with
      | error z => exact .strangeLater _ _ _ _ _ _ nd z k this
      | ok z =>
        obtain ⟨kids, rfl, k2, k3⟩ := this
        exact ⟨(decimal i, nd) :: kids, by simp, by rw [List.length_cons, k2], .point _ _ _ _ _ _ _ k k3⟩

theorem Kind.of_some {t : List Char} {k : Kind} (h : Kind.of t = some k) : t = k.text := by
  unfold Kind.of at h
  repeat' split at h
  all_goals first | (cases h; assumption) | cases h

theorem more_of_read {e : Env} {o eob : Nat} {ext : Rd.Ext} {name t : List Char} {r : ExtRes} {p : Nat} {c c' : Cur} (hb : e.buf.length < 2 ^ 63)
    (hm : e.mode = .checked) (hx : SoundExt e o ext) (ht : TextBlock e o p t c.pos)
    (h : (Rd.parseMore ext o eob name (Kind.of t)).run e c = (.ok r, c')) : TakenRes e o eob name p c'.pos r := by
  cases hk : Kind.of t with
  | none =>
    rw [hk] at h
    cases h
    exact ⟨none, rfl, .unknown _ _ _ t ht (Kind.of_none.mp hk)⟩
  | some k =>
    rw [hk] at h
    obtain rfl := Kind.of_some hk
    cases k with
    | property =>
      obtain ⟨ks, c1, h1, h⟩ := Rd.bind_inv h
      cases h
      obtain ⟨raw, nb, k1, k2, k3, k4⟩ := kids_of_read hb hm hx h1
      exact ⟨rfl, .property _ _ _ _ nb raw ks ht k1 k2 k3 k4⟩
    | canvas =>
      obtain ⟨_, c1, h1, h⟩ := Rd.bind_inv h
      have hc1 := Rd.skip_inv hm h1
      subst hc1
      obtain ⟨v, c1, h1, h⟩ := Rd.bind_inv h
      obtain ⟨b, rfl, rfl, hbt⟩ := byte_held hm h1
      obtain ⟨ks, c2, h2, h⟩ := Rd.bind_inv h
      obtain ⟨g, c3, h3, h⟩ := Rd.bind_inv h
      cases h
      have hg := picture_of_read hb hm h3
      by_cases h1 : b.toNat = 1
      · rw [h1] at h2
        obtain rfl := byte_eq_of h1
        obtain ⟨raw, nb, k1, k2, k3, k4⟩ := kids_of_read hb hm hx h2
        exact ⟨rfl, .canvasKids _ _ _ _ _ nb raw ks g ht hbt k1 k2 k3 k4 hg⟩
      · rw [beq_eq_false_iff_ne.mpr h1] at h2
        cases h2
        exact ⟨rfl, .canvas _ _ _ _ b g ht hbt (fun hh => h1 (by rw [hh]; rfl)) hg⟩
    | convex =>
      obtain ⟨n, c1, h1, h⟩ := Rd.bind_inv h
      obtain ⟨nb, n1, n2, rfl⟩ := Props.C01_int32_only _ _ _ _ hb h1
      by_cases hn : n < 0
      · rw [if_pos hn] at h; cases h
      rw [if_neg hn] at h
      obtain ⟨x, c2, h2, h⟩ := Rd.bind_inv h
      have := points_of_read hx _ _ _ _ _ _ (fun x hx => by cases hx) h2
      have hnn : ((n.toNat : Nat) : Int) = n := by omega
      cases x with
      | error y =>
        cases h
        exact ⟨some y, rfl, .strangeShape _ _ _ _ n.toNat y nb ht (by rw [hnn]; exact n1) n2 this⟩
      | ok ks =>
        cases h
        obtain ⟨kids, hks, k1, k2⟩ := this
        rw [List.nil_append] at hks
        subst hks
        exact ⟨rfl, .convex _ _ _ _ nb ks ht (by rw [k1, hnn]; exact n1) n2 k2⟩
    | vector =>
      obtain ⟨x, c1, h1, h⟩ := Rd.bind_inv h
      obtain ⟨xb, x1, x2, rfl⟩ := Props.C01_int32_only _ _ _ _ hb h1
      obtain ⟨y, c1, h1, h⟩ := Rd.bind_inv h
      obtain ⟨yb, y1, y2, rfl⟩ := Props.C01_int32_only _ _ _ _ hb h1
      cases h
      exact ⟨rfl, .vector _ _ _ x y xb yb ht x1 y1 (x2.append y2)⟩
    | sound =>
      obtain ⟨v, c1, h1, h⟩ := Rd.bind_inv h
      cases h
      obtain ⟨s, rfl, k⟩ := sound_of_read hb hm h1
      exact ⟨rfl, .sound _ _ _ _ s ht k⟩
    | uol =>
      obtain ⟨_, c1, h1, h⟩ := Rd.bind_inv h
      have hc1 := Rd.skip_inv hm h1
      subst hc1
      obtain ⟨m, c1, h1, h⟩ := Rd.bind_inv h
      cases h
      exact ⟨rfl, .uol _ _ _ _ m ht (metaBlock_of_read hb hm h1)⟩
    | raw =>
      obtain ⟨has, c1, h1, h⟩ := Rd.bind_inv h
      obtain ⟨ks, c2, h2, h⟩ := Rd.bind_inv h
      obtain ⟨n, c3, h3, h⟩ := Rd.bind_inv h
      obtain ⟨nb, n1, n2, rfl⟩ := Props.C01_int32_only _ _ _ _ hb h3
      obtain ⟨off, c4, h4, h⟩ := Rd.bind_inv h
      cases h4
      cases h
      unfold Rd.rawHasKids at h1
      obtain ⟨v, c5, h5, h1⟩ := Rd.bind_inv h1
      obtain ⟨b, rfl, rfl, hbt⟩ := byte_held hm h5
      by_cases hb1 : b.toNat = 1
      · rw [if_pos hb1] at h1
        obtain rfl := byte_eq_of hb1
        obtain ⟨v, c5, h5, h1⟩ := Rd.bind_inv h1
        obtain ⟨b, rfl, rfl, hbt2⟩ := byte_held hm h5
        cases h1
        by_cases hb2 : b.toNat = 1
        · rw [hb2] at h2
          obtain rfl := byte_eq_of hb2
          obtain ⟨raw, nb', k1, k2, k3, k4⟩ := kids_of_read hb hm hx h2
          exact ⟨rfl, .rawKids _ _ _ _ n nb' nb raw ks ht (Holds.cons_of hbt hbt2) k1 k2 k3 k4 n1 n2⟩
        · rw [beq_eq_false_iff_ne.mpr hb2] at h2
          cases h2
          refine ⟨rfl, .raw _ _ _ n [1#8, b] nb ht (.inr ⟨b, (fun hh => hb2 (by rw [hh]; rfl)), rfl⟩) n1 ?_⟩
          exact (Holds.cons_of hbt hbt2).append n2
      · rw [if_neg hb1] at h1
        cases h1
        cases h2
        exact ⟨rfl, .raw _ _ _ n [b] nb ht (.inl ⟨b, (fun hh => hb1 (by rw [hh]; rfl)), rfl⟩) n1 (hbt.append n2)⟩
    | video =>
      obtain ⟨_, c1, h1, h⟩ := Rd.bind_inv h
      have hc1 := Rd.skip_inv hm h1
      subst hc1
      obtain ⟨n, c3, h3, h⟩ := Rd.bind_inv h
      obtain ⟨nb, n1, n2, rfl⟩ := Props.C01_int32_only _ _ _ _ hb h3
      obtain ⟨off, c4, h4, h⟩ := Rd.bind_inv h
      cases h4
      cases h
      exact ⟨rfl, .video _ _ _ n nb ht n1 n2⟩

theorem ext_of_read {e : Env} {o : Nat} (hb : e.buf.length < 2 ^ 63) (hm : e.mode = .checked) :
    ∀ fuel, SoundExt e o (Rd.parseExt o fuel)
  | 0 => fun _ _ _ _ _ h => by cases h
  | fuel + 1 => fun eob name r c c' h => by
    replace h : (Rd.readWzStringBlock o >>= fun t => Rd.parseMore (Rd.parseExt o fuel) o eob name (Kind.of t)).run e c = (.ok r, c') := h
    obtain ⟨t, c1, h1, h⟩ := Rd.bind_inv h
    exact more_of_read hb hm (ext_of_read hb hm fuel) (textBlock_of_read hb hm h1) h

/-! ### what may be taken is read -/

/-- what reading gives -/
def TakingReads (e : Env) (o : Nat) : Taking → Nat → Nat → Prop
  | .ext eob n, p, q => ∃ N, ∀ f, N ≤ f → ∀ name, (Rd.parseExt o f eob name).Reads e p (.ok (name, n)) q
  | .items kids, p, q => ∃ N, ∀ f, N ≤ f → (Rd.parseItems (Rd.parseExt o f) o kids.length).Reads e p kids q
  | .points eob i kids, p, q => ∃ N, ∀ f, N ≤ f → ∀ acc, Below i acc →
      (Rd.convexLoop (Rd.parseExt o f) eob kids.length i acc).Reads e p (.ok (acc ++ kids)) q
  | .strange eob point, p, q => ∃ N, ∀ f, N ≤ f → ∀ name, (Rd.parseExt o f eob name).Reads e p (.error (point.getD name)) q
  | .strangePoint eob i n name, p, q => ∃ N, ∀ f, N ≤ f → ∀ acc, Below i acc →
      (Rd.convexLoop (Rd.parseExt o f) eob n i acc).Reads e p (.error name) q

theorem parseItem_text {ext : Rd.Ext} {e : Env} {o p p1 q : Nat} {name : List Char} {ty : Byte} {x : List Char × PNode}
    (hb : e.buf.length < 2 ^ 63) (hn : TextBlock e o p name p1) (ht : Holds e.buf p1 [ty])
    (hx : (Rd.parseNode ext o name ty.toNat).Reads e (p1 + 1) x q) : (Rd.parseItem ext o).Reads e p x q := by
  unfold Rd.parseItem
  exact .bind (hn.reads hb) (.bind (.readU8 ht hb) hx)

theorem parseExt_text {e : Env} {o p p1 q eob f : Nat} {name t : List Char} {x : ExtRes} (hb : e.buf.length < 2 ^ 63)
    (ht : TextBlock e o p t p1) (hf : f ≠ 0)
    (h : (Rd.parseMore (Rd.parseExt o (f - 1)) o eob name (Kind.of t)).Reads e p1 x q) : (Rd.parseExt o f eob name).Reads e p x q := by
  obtain ⟨f, rfl⟩ : ∃ f', f = f' + 1 := ⟨f - 1, by omega⟩
  show (Rd.readWzStringBlock o >>= _).Reads e p x q
  exact .bind (ht.reads hb) h

theorem parseKids_merged {ext : Rd.Ext} {e : Env} {o p q : Nat} {nb : Bytes} {raw kids : List (List Char × PNode)}
    (hb : e.buf.length < 2 ^ 63) (hn : IsWzInt 4 raw.length nb) (hh : Holds e.buf (p + 2) nb)
    (h : (Rd.parseItems ext o raw.length).Reads e (p + 2 + nb.length) raw q) (hk : MergedKids raw kids) :
    (Rd.parseKids ext o).Reads e p kids q := by
  unfold Rd.parseKids
  have hle := hh.le
  refine .bind (.skip (by omega)) (.bind (parseListWith_reads hb hn hh h) ?_)
  rw [merged_eq hk]
  exact .pure _

theorem Spec.Taken.reads {e : Env} {o p q : Nat} {t : Taking} (hb : e.buf.length < 2 ^ 63) (h : Taken e o t p q) :
    TakingReads e o t p q := by
  induction h with
  | nil p => exact ⟨0, fun f _ => .pure _⟩
  | plain p p1 q name ty v bs rest hn hv hh hr ih =>
    obtain ⟨N, ih⟩ := ih
    refine ⟨N, fun f hf => ?_⟩
    refine parseItems_cons (parseItem_text hb hn hh.head ?_) (ih f hf)
    unfold Rd.parseNode
    rw [if_neg hv.ne9, ← Nat.add_assoc]
    exact .bind (hv.reads hh.tail hb) (.pure _)
  | str p p1 p2 q name m rest hn hh hs hr ih =>
    obtain ⟨N, ih⟩ := ih
    refine ⟨N, fun f hf => ?_⟩
    refine parseItems_cons (parseItem_text hb hn hh ?_) (ih f hf)
    have : (Rd.readPlain o 8).Reads e (p1 + 1) (.str m) p2 := .bind (hs.reads hb) (.pure _)
    exact .bind this (.pure _)
  | block p p1 r q size name t rest hn hs hh ht hr ih1 ih2 =>
    obtain ⟨N1, ih1⟩ := ih1
    obtain ⟨N2, ih2⟩ := ih2
    refine ⟨max N1 N2, fun f hf => ?_⟩
    refine parseItems_cons (parseItem_text hb hn hh.head ?_) (ih2 f (by omega))
    have := parseNode9_reads (o := o) hb hs hh.tail (ih1 f (by omega) name)
    exact this
  | strangeBlock p p1 r q size name point rest hn hs hh ht hr ih1 ih2 =>
    obtain ⟨N1, ih1⟩ := ih1
    obtain ⟨N2, ih2⟩ := ih2
    refine ⟨max N1 N2, fun f hf => ?_⟩
    refine parseItems_cons (parseItem_text hb hn hh.head ?_) (ih2 f (by omega))
    have := parseNode9_reads (o := o) hb hs hh.tail (ih1 f (by omega) name)
    exact this
  | property p p1 q eob nb raw kids ht hn hh hk hmg ih =>
    obtain ⟨N, ih⟩ := ih
    refine ⟨N + 1, fun f hf name => parseExt_text hb ht (by omega) ?_⟩
    rw [Kind.of_property]
    exact .bind (parseKids_merged hb hn hh (ih (f - 1) (by omega)) hmg) (.pure _)
  | canvas p p1 q eob b g ht hh hbne hg =>
    refine ⟨1, fun f hf name => parseExt_text hb ht (by omega) ?_⟩
    rw [Kind.of_canvas]
    have hle := hh.le
    refine .bind (.skip (by omega)) (.bind (.readU8 hh hb) ?_)
    have : (b.toNat == 1) = false := by
      rw [beq_eq_false_iff_ne]; exact fun h => hbne (BitVec.eq_of_toNat_eq h)
    rw [this]
    exact .bind (.pure _) (.bind (hg.reads hb) (.pure _))
  | canvasKids p p1 p2 q eob nb raw kids g ht hh hn hnb hk hmg hg ih =>
    obtain ⟨N, ih⟩ := ih
    refine ⟨N + 1, fun f hf name => parseExt_text hb ht (by omega) ?_⟩
    rw [Kind.of_canvas]
    have hle := hh.le
    refine .bind (.skip (by omega)) (.bind (.readU8 hh hb) (.bind (a := kids) (q := p2) ?_ (.bind (hg.reads hb) (.pure _))))
    show (Rd.parseKids _ o).Reads e _ _ _
    exact parseKids_merged hb hn hnb (ih (f - 1) (by omega)) hmg
  | convex p p1 q eob nb kids ht hn hh hk ih =>
    obtain ⟨N, ih⟩ := ih
    refine ⟨N + 1, fun f hf name => parseExt_text hb ht (by omega) ?_⟩
    rw [Kind.of_convex]
    refine .bind (.wzInt hn hh hb) ?_
    rw [if_neg (by omega)]
    have := ih (f - 1) (by omega) [] (fun x hx => by cases hx)
    exact .bind this (.pure _)
  | vector p p1 eob x y xb yb ht hx hy hh =>
    refine ⟨1, fun f hf name => parseExt_text hb ht (by omega) ?_⟩
    rw [Kind.of_vector]
    exact .bind (.wzInt hx hh.left hb) (.bind (.wzInt hy hh.right hb) (.pure _))
  | sound p p1 q eob s ht hs =>
    refine ⟨1, fun f hf name => parseExt_text hb ht (by omega) ?_⟩
    rw [Kind.of_sound]
    exact .bind (hs.reads hb) (.pure _)
  | uol p p1 p2 eob m ht hs =>
    refine ⟨1, fun f hf name => parseExt_text hb ht (by omega) ?_⟩
    rw [Kind.of_uol]
    have : p1 + 1 ≤ e.buf.length := by
      cases hs with
      | inline _ _ _ lb _ _ hh => have := hh.le; omega
      | elsewhere _ _ _ _ lb _ _ _ hh _ => have := hh.le; omega
      | absent _ _ hh => have := hh.le; omega
    exact .bind (.skip (by omega)) (.bind (hs.reads hb) (.pure _))
  | raw p p1 eob n head sb ht hhead hs hh =>
    refine ⟨1, fun f hf name => parseExt_text hb ht (by omega) ?_⟩
    rw [Kind.of_raw]
    refine .bind (a := false) (q := p1 + head.length) ?_ (.bind (.pure _) (.bind (.wzInt hs hh.right hb) (.bind .getPos (.pure _))))
    unfold Rd.rawHasKids
    rcases hhead with ⟨v, hv, rfl⟩ | ⟨b, hbn, rfl⟩
    · refine .bind (.readU8 hh.left hb) ?_
      rw [if_neg (fun h : v.toNat = 1 => hv (BitVec.eq_of_toNat_eq h))]
      exact .pure _
    · refine .bind (.readU8 hh.left.head hb) ?_
      rw [if_pos (by decide)]
      refine .bind (.readU8 hh.left.tail hb) ?_
      have : (b.toNat == 1) = false := by
        rw [beq_eq_false_iff_ne]; exact fun h => hbn (BitVec.eq_of_toNat_eq h)
      rw [this]
      exact .pure _
  | rawKids p p1 p2 eob n nb sb raw kids ht hh hn hnb hk hmg hs hd ih =>
    obtain ⟨N, ih⟩ := ih
    refine ⟨N + 1, fun f hf name => parseExt_text hb ht (by omega) ?_⟩
    rw [Kind.of_raw]
    refine .bind (a := true) (q := p1 + 1 + 1) ?_ (.bind (a := kids) (q := p2) ?_ (.bind (.wzInt hs hd hb) (.bind .getPos (.pure _))))
    · unfold Rd.rawHasKids
      refine .bind (.readU8 hh.head hb) ?_
      rw [if_pos (by decide)]
      exact .bind (.readU8 hh.tail hb) (.pure _)
    · exact parseKids_merged hb hn hnb (ih (f - 1) (by omega)) hmg
  | video p p1 eob n sb ht hs hh =>
    have hle := hh.le
    refine ⟨1, fun f hf name => parseExt_text hb ht (by omega) ?_⟩
    rw [Kind.of_video]
    exact .bind (.skip (by omega)) (.bind (.wzInt hs hh hb) (.bind .getPos (.pure _)))
  | noPoint p eob i =>
    refine ⟨0, fun f _ acc _ => ?_⟩
    rw [List.append_nil]
    exact .pure _
  | point p p1 q eob i nd rest ht hr ih1 ih2 =>
    obtain ⟨N1, ih1⟩ := ih1
    obtain ⟨N2, ih2⟩ := ih2
    refine ⟨max N1 N2, fun f hf acc hacc => ?_⟩
    show (Rd.parseExt o f eob (decimal i) >>= _).Reads e _ _ _
    refine .bind (ih1 f (by omega) (decimal i)) ?_
    dsimp only
    rw [hacc.insert, show acc ++ (Nat.toDigits 10 i, nd) :: rest = (acc ++ [(decimal i, nd)]) ++ rest by simp [decimal]]
    exact ih2 f (by omega) _ (hacc.step nd)
  | unknown p p1 eob kind ht hne =>
    refine ⟨1, fun f hf name => parseExt_text hb ht (by omega) ?_⟩
    rw [Kind.of_none.mpr hne]
    exact .pure _
  | strangeShape p p1 q eob n name nb ht hn hh hk ih =>
    obtain ⟨N, ih⟩ := ih
    refine ⟨N + 1, fun f hf nm => parseExt_text hb ht (by omega) ?_⟩
    rw [Kind.of_convex]
    refine .bind (.wzInt hn hh hb) ?_
    rw [if_neg (by omega)]
    have := ih (f - 1) (by omega) [] (fun x hx => by cases hx)
    exact .bind this (.pure _)
  | strangeHere p q eob i n point hs ih =>
    obtain ⟨N, ih⟩ := ih
    refine ⟨N, fun f hf acc _ => ?_⟩
    show (Rd.parseExt o f eob (decimal i) >>= _).Reads e _ _ _
    exact .bind (ih f hf (decimal i)) (.pure _)
  | strangeLater p p1 q eob i n x name ht hr ih1 ih2 =>
    obtain ⟨N1, ih1⟩ := ih1
    obtain ⟨N2, ih2⟩ := ih2
    refine ⟨max N1 N2, fun f hf acc hacc => ?_⟩
    show (Rd.parseExt o f eob (decimal i) >>= _).Reads e _ _ _
    refine .bind (ih1 f (by omega) (decimal i)) ?_
    dsimp only
    rw [hacc.insert]
    exact ih2 f (by omega) _ (hacc.step x)

end Wz
