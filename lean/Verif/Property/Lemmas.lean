import Verif.Reader.Reads
import Verif.Directory.Lemmas
import Verif.Property.Spec
/-!
# Reading stored property trees
-/

set_option autoImplicit false
variable {α β γ : Type}

namespace Wz
open Spec

/-! ## Small facts -/

theorem Kind.of_property : Kind.of "Property".toList = some .property := rfl
theorem Kind.of_canvas : Kind.of "Canvas".toList = some .canvas := rfl
theorem Kind.of_convex : Kind.of "Shape2D#Convex2D".toList = some .convex := rfl
theorem Kind.of_vector : Kind.of "Shape2D#Vector2D".toList = some .vector := rfl
theorem Kind.of_sound : Kind.of "Sound_DX8".toList = some .sound := rfl
theorem Kind.of_uol : Kind.of "UOL".toList = some .uol := rfl
theorem Kind.of_raw : Kind.of "RawData".toList = some .raw := rfl
theorem Kind.of_video : Kind.of "Canvas#Video".toList = some .video := rfl

theorem Kind.of_none {t : List Char} : Kind.of t = none ↔ t ∉ knownKinds := by
  have hk : knownKinds = [Kind.property.text, Kind.canvas.text, Kind.convex.text, Kind.vector.text, Kind.sound.text,
    Kind.uol.text, Kind.raw.text, Kind.video.text] := rfl
  rw [hk]
  simp only [List.mem_cons, List.not_mem_nil, or_false, not_or]
  unfold Kind.of
  repeat (split <;> try simp_all)

theorem decimal_inj {i j : Nat} (h : Nat.toDigits 10 i = Nat.toDigits 10 j) : i = j := by
  have := congrArg (fun l => Nat.ofDigitChars 10 l 0) h
  simpa using this

theorem smallFloat_eq {b : Byte} {bits : Nat} (h : IsSmallFloat b bits) : bits = f32OfNat b.toNat := by
  rcases h with ⟨rfl, rfl⟩ | ⟨k, f, hf, rfl, h⟩
  · rfl
  · have hb : b.toNat < 256 := b.isLt
    generalize b.toNat = n at *
    have hn : n ≠ 0 := by
      rintro rfl
      have : 0 < 2 ^ k * (2 ^ 23 + f) := Nat.mul_pos (Nat.two_pow_pos k) (by omega)
      omega
    have hlog : n.log2 = k := by
      rw [Nat.log2_eq_iff hn]
      constructor
      · have : 2 ^ k * 2 ^ 23 ≤ n * 2 ^ 23 := by rw [h]; exact Nat.mul_le_mul_left _ (by omega)
        exact Nat.le_of_mul_le_mul_right this (by decide)
      · have : n * 2 ^ 23 < 2 ^ (k + 1) * 2 ^ 23 := by
          rw [h, Nat.pow_succ 2 k, Nat.mul_assoc]
          exact Nat.mul_lt_mul_of_pos_left (by omega) (Nat.two_pow_pos k)
        exact Nat.lt_of_mul_lt_mul_right this
    unfold f32OfNat
    rw [if_neg hn, hlog]
    congr 1
    have hk : k < 8 := by
      rw [← hlog]
      exact (Nat.log2_lt hn).mpr hb
    have hsplit : 2 ^ 23 = 2 ^ k * 2 ^ (23 - k) := by rw [← Nat.pow_add]; congr 1; omega
    have h2 : 2 ^ k * (n * 2 ^ (23 - k)) = 2 ^ k * (2 ^ 23 + f) := by
      rw [← h]
      calc 2 ^ k * (n * 2 ^ (23 - k)) = n * (2 ^ k * 2 ^ (23 - k)) := by
            rw [← Nat.mul_assoc, Nat.mul_comm (2 ^ k) n, Nat.mul_assoc]
        _ = n * 2 ^ 23 := by rw [← hsplit]
    have h3 := Nat.eq_of_mul_eq_mul_left (Nat.two_pow_pos k) h2
    rw [Nat.sub_mul, ← hsplit, h3]
    omega

theorem Spec.IsWzInt.range {w : Nat} {v : Int} {bs : Bytes} (h : IsWzInt w v bs) (hw : 1 ≤ w) :
    -2 ^ (8 * w - 1) ≤ v ∧ v < 2 ^ (8 * w - 1) := by
  cases h with
  | short h0 h1 =>
    have : (2 : Int) ^ 7 ≤ 2 ^ (8 * w - 1) := by
      have : 2 ^ 7 ≤ 2 ^ (8 * w - 1) := Nat.pow_le_pow_right (by decide) (by omega)
      exact_mod_cast this
    omega
  | long h0 h1 => exact ⟨h0, h1⟩

/-! ## String blocks -/

theorem Spec.StrBlock.reads {e : Env} {o p q : Nat} {s : List Char} (h : StrBlock e o p s q)
    (hb : e.buf.length < 2 ^ 63) (ho : o < 2 ^ 63) : (Rd.readWzStringBlock o).Reads e p s q := by
  cases h with
  | inline t _ bs ht hs hh =>
    intro c hc
    subst hc
    exact ⟨_, Props.C05_inline e c o t s bs ht hs hh hb, rfl⟩
  | elsewhere t n _ bs ht hn hs hh hs2 =>
    intro c hc
    subst hc
    refine Props.C05_by_offset e c o (o + n) t n s bs ht (by omega) (by omega) (by omega) (.inl (by omega)) ho hs ?_ hs2 hb
    have : unsign 32 (n : Int) = n := by unfold unsign; omega
    rw [this]; exact hh
  | absent t ht hh =>
    intro c hc
    subst hc
    exact ⟨_, Props.C05_other e c o t ht hh hb, rfl⟩

theorem readI32_nat {e : Env} {p n : Nat} (h : Holds e.buf p (toLE 4 n)) (hn : n < 2 ^ 31) (hb : e.buf.length < 2 ^ 63) :
    Rd.readI32.Reads e p (n : Int) (p + 4) := by
  refine Rd.Reads.readInt_enc (w := 4) (by decide) (by omega) (by omega) ?_ hb
  have : unsign (8 * 4) (n : Int) = n := by unfold unsign; omega
  rw [this]; exact h

theorem marker_toNat {t : Byte} {k : Nat} (hk : k < 256) : t.toNat = k ↔ t = BitVec.ofNat 8 k := by
  constructor
  · rintro rfl; simp
  · rintro rfl; simp; omega

theorem Spec.StrBlock.meta {e : Env} {o p q : Nat} {s : List Char} (h : StrBlock e o p s q)
    (hb : e.buf.length < 2 ^ 63) (_ho : o < 2 ^ 63) :
    ∃ m, (Rd.readWzStringBlockMeta o).Reads e p m q ∧ m.Is e s := by
  cases h with
  | inline t _ bs ht hs hh =>
    obtain ⟨m, hm, hi⟩ := Rd.Reads.wzStringMeta hs hh.tail hb
    refine ⟨m, ?_, hi⟩
    unfold Rd.readWzStringBlockMeta
    refine .bind (.readU8 hh.head hb) ?_
    have : t.toNat = 0 ∨ t.toNat = 0x73 := by rcases ht with rfl | rfl <;> decide
    rw [if_pos this, ← Nat.add_assoc]
    exact hm
  | elsewhere t n _ bs ht hn hs hh hs2 =>
    obtain ⟨m, hm, hi⟩ := Rd.Reads.wzStringMeta hs hs2 hb
    refine ⟨m, ?_, hi⟩
    unfold Rd.readWzStringBlockMeta
    refine .bind (.readU8 hh.head hb) ?_
    have hnn : ¬ (t.toNat = 0 ∨ t.toNat = 0x73) := by rcases ht with rfl | rfl <;> decide
    have hp : t.toNat = 1 ∨ t.toNat = 0x1B := by rcases ht with rfl | rfl <;> decide
    rw [if_neg hnn, if_pos hp]
    have hle := hs2.le
    refine .bind (readI32_nat hh.tail hn hb) (.bind .getEnv (.bind (a := o + n) (.lift ?_) (.metaAt hm)))
    rw [asUsize_nonneg (by omega) (by omega)]
    exact addU_ok (by simp; omega)
  | absent t ht hh =>
    refine ⟨StrMeta.none, ?_, rfl⟩
    unfold Rd.readWzStringBlockMeta
    refine .bind (.readU8 hh hb) ?_
    simp only [List.mem_cons, List.not_mem_nil, or_false, not_or] at ht
    have hne : ∀ k : Byte, t ≠ k → t.toNat ≠ k.toNat := fun k h h' => h (BitVec.eq_of_toNat_eq h')
    rw [if_neg, if_neg]
    · exact .pure _
    · intro h; rcases h with h | h
      · exact hne _ ht.2.2.1 h
      · exact hne _ ht.2.2.2 h
    · intro h; rcases h with h | h
      · exact hne _ ht.1 h
      · exact hne _ ht.2.1 h

/-- a string block can be passed over without looking at a string stored elsewhere -/
theorem Spec.StrBlock.skip {e : Env} {o p q : Nat} {s : List Char} (h : StrBlock e o p s q)
    (hb : e.buf.length < 2 ^ 63) : Rd.skipStr.Reads e p () q := by
  cases h with
  | inline t _ bs ht hs hh =>
    obtain ⟨m, hm, hi⟩ := Rd.Reads.wzStringMeta hs hh.tail hb
    unfold Rd.skipStr
    refine .bind (.readU8 hh.head hb) ?_
    have : t.toNat = 0 ∨ t.toNat = 0x73 := by rcases ht with rfl | rfl <;> decide
    rw [if_pos this, ← Nat.add_assoc]
    exact .bind hm (.pure _)
  | elsewhere t n _ bs ht hn hs hh hs2 =>
    unfold Rd.skipStr
    refine .bind (.readU8 hh.head hb) ?_
    have hnn : ¬ (t.toNat = 0 ∨ t.toNat = 0x73) := by rcases ht with rfl | rfl <;> decide
    have hp : t.toNat = 1 ∨ t.toNat = 0x1B := by rcases ht with rfl | rfl <;> decide
    rw [if_neg hnn, if_pos hp]
    have hle := hh.le
    simp only [List.length_cons, length_toLE] at hle
    exact Rd.Reads.skip (n := 4) (by omega)
  | absent t ht hh =>
    unfold Rd.skipStr
    refine .bind (.readU8 hh hb) ?_
    simp only [List.mem_cons, List.not_mem_nil, or_false, not_or] at ht
    have hne : ∀ k : Byte, t ≠ k → t.toNat ≠ k.toNat := fun k h h' => h (BitVec.eq_of_toNat_eq h')
    rw [if_neg, if_neg]
    · exact .pure _
    · intro h; rcases h with h | h
      · exact hne _ ht.2.2.1 h
      · exact hne _ ht.2.2.2 h
    · intro h; rcases h with h | h
      · exact hne _ ht.1 h
      · exact hne _ ht.2.1 h

theorem Spec.StrBlock.le {e : Env} {o p q : Nat} {s : List Char} (h : StrBlock e o p s q) : p < q ∧ q ≤ e.buf.length := by
  cases h with
  | inline t _ bs ht hs hh => have := hh.le; simp at this; omega
  | elsewhere t n _ bs ht hn hs hh hs2 => have := hh.le; simp at this; omega
  | absent t ht hh => have := hh.le; simp at this; omega

/-! ## Plain values -/

theorem Spec.IsPlain.reads {e : Env} {o p : Nat} {ty : Byte} {v : PVal} {bs : Bytes} (h : IsPlain ty v bs)
    (hh : Holds e.buf p bs) (hb : e.buf.length < 2 ^ 63) :
    ∃ w, (Rd.readPlain o ty.toNat).Reads e p w (p + bs.length) ∧ ShowsVal e w v := by
  cases h with
  | null => exact ⟨.null, .pure _, .null⟩
  | short _ v ht h0 h1 =>
    refine ⟨.short v, ?_, .short v⟩
    have hr : Rd.readI16.Reads e p v (p + 2) := Rd.Reads.readInt_enc (w := 2) (by decide) h0 h1 hh hb
    rw [length_toLE]
    rcases ht with rfl | rfl <;> exact .bind hr (.pure _)
  | int _ v _ ht hv =>
    refine ⟨.int v, ?_, .int v⟩
    have hr := Rd.Reads.wzInt hv hh hb
    rcases ht with rfl | rfl <;> exact .bind hr (.pure _)
  | long v _ hv => exact ⟨.long v, .bind (Rd.Reads.wzInt64 hv hh hb) (.pure _), .long v⟩
  | float bits hbits =>
    refine ⟨.float bits, ?_, .float bits⟩
    have : (Rd.readFloatObj).Reads e p (.float bits) (p + (0x80#8 :: toLE 4 bits).length) := by
      unfold Rd.readFloatObj
      refine .bind (.readU8 hh.head hb) ?_
      rw [if_pos (by decide)]
      have := Rd.Reads.readLE_enc hh.tail (by omega) hb
      simp only [List.length_cons, length_toLE]
      rw [show p + (4 + 1) = p + 1 + 4 by omega]
      exact .bind this (.pure _)
    exact this
  | smallFloat b bits hne hs =>
    refine ⟨.float bits, ?_, .float bits⟩
    have : (Rd.readFloatObj).Reads e p (.float bits) (p + 1) := by
      unfold Rd.readFloatObj
      refine .bind (.readU8 hh hb) ?_
      rw [if_neg (fun h : b.toNat = 128 => hne (BitVec.eq_of_toNat_eq h)), smallFloat_eq hs]
      exact .pure _
    exact this
  | double bits hbits =>
    refine ⟨.double bits, ?_, .double bits⟩
    rw [length_toLE]
    exact .bind (Rd.Reads.readLE_enc hh (by omega) hb) (.pure _)

theorem Spec.IsPlain.skip {e : Env} {p : Nat} {ty : Byte} {v : PVal} {bs : Bytes} (h : IsPlain ty v bs)
    (hh : Holds e.buf p bs) (hb : e.buf.length < 2 ^ 63) :
    (Rd.skipPlain ty.toNat).Reads e p () (p + bs.length) := by
  have hle := hh.le
  cases h with
  | null => exact .pure _
  | short _ v ht h0 h1 =>
    rw [length_toLE] at *
    have hr := Rd.Reads.skip (e := e) (p := p) (n := 2) (by omega)
    rcases ht with rfl | rfl <;> exact hr
  | int _ v _ ht hv =>
    have hr := Rd.Reads.wzInt hv hh hb
    rcases ht with rfl | rfl <;> exact .bind hr (.pure _)
  | long v _ hv => exact .bind (Rd.Reads.wzInt64 hv hh hb) (.pure _)
  | float bits hbits =>
    have : (Rd.skipFloat).Reads e p () (p + (0x80#8 :: toLE 4 bits).length) := by
      unfold Rd.skipFloat
      refine .bind (.readU8 hh.head hb) ?_
      rw [if_pos (by decide)]
      simp only [List.length_cons, length_toLE] at hle ⊢
      rw [show p + (4 + 1) = p + 1 + 4 by omega]
      exact .skip (by omega)
    exact this
  | smallFloat b bits hne hs =>
    have : (Rd.skipFloat).Reads e p () (p + 1) := by
      unfold Rd.skipFloat
      refine .bind (.readU8 hh hb) ?_
      rw [if_neg (fun h : b.toNat = 128 => hne (BitVec.eq_of_toNat_eq h))]
      exact .pure _
    exact this
  | double bits hbits =>
    rw [length_toLE] at *
    exact Rd.Reads.skip (n := 8) (by omega)

theorem Spec.IsPlain.ne9 {ty : Byte} {v : PVal} {bs : Bytes} (h : IsPlain ty v bs) : ty.toNat ≠ 9 := by
  cases h with
  | short _ v ht h0 h1 => rcases ht with rfl | rfl <;> decide
  | int _ v _ ht hv => rcases ht with rfl | rfl <;> decide
  | _ => decide

/-! ## Trees -/

theorem Spec.ShowsKids.names {e : Env} {ks : List (List Char × PNode)} {kids : List (List Char × PTree)}
    (h : ShowsKids e ks kids) : ks.map Prod.fst = Spec.names kids := by
  induction h with
  | nil => rfl
  | cons name o v ks rest ks' rest' hv hk hr ih1 ih2 => 
    show name :: _ = name :: _
    rw [ih2]; rfl

theorem Spec.ShowsKids.nodup {e : Env} {ks : List (List Char × PNode)} {kids : List (List Char × PTree)}
    (h : ShowsKids e ks kids) (hn : (Spec.names kids).Nodup) : childInsertAll [] ks = ks := by
  rw [childInsertAll_nodup]
  · rfl
  · rw [List.nil_append, h.names]; exact hn

theorem Spec.Shows.mk {e : Env} {o : PObj} {v : PVal} {ks : List (List Char × PNode)} {kids : List (List Char × PTree)}
    (hv : ShowsVal e o v) (hk : ShowsKids e ks kids) : Shows e (.node o ks) (.node v kids) :=
  .cons _ _ _ _ _ _ _ hv hk .nil

theorem Spec.Shows.cons {e : Env} {n : PNode} {t : PTree} {ks : List (List Char × PNode)} {kids : List (List Char × PTree)}
    (name : List Char) (h : Shows e n t) (hk : ShowsKids e ks kids) : ShowsKids e ((name, n) :: ks) ((name, t) :: kids) := by
  cases h with
  | cons _ o v ks1 _ ks1' _ hv hk1 _ => exact .cons _ _ _ _ _ _ _ hv hk1 hk

theorem parseNode9_reads {ext : Rd.Ext} {e : Env} {o p size r : Nat} {name : List Char} {x : ExtRes}
    (hb : e.buf.length < 2 ^ 63) (hs : size < 2 ^ 32) (hh : Holds e.buf p (toLE 4 size))
    (hx : (ext (p + 4 + size) name).Reads e (p + 4) x r) :
    (Rd.parseNode ext o name 9).Reads e p (match x with | .ok n => n | .error n => (n, .node .null [])) (p + 4 + size) := by
  unfold Rd.parseNode
  rw [if_pos rfl]
  have hle := hh.le
  rw [length_toLE] at hle
  refine .bind (Rd.Reads.readLE_enc hh (by omega) hb) (.bind .getPos (.bind .getEnv (.bind (.lift (addU_ok (by omega))) ?_)))
  refine .bind hx ?_
  cases x with
  | ok n => exact .bind .seek (.pure _)
  | error n => exact .bind .seek (.pure _)

theorem parseItem_reads {ext : Rd.Ext} {e : Env} {o p p1 q : Nat} {name : List Char} {ty : Byte} {x : List Char × PNode}
    (hb : e.buf.length < 2 ^ 63) (ho : o < 2 ^ 63) (hn : StrBlock e o p name p1) (ht : Holds e.buf p1 [ty])
    (hx : (Rd.parseNode ext o name ty.toNat).Reads e (p1 + 1) x q) : (Rd.parseItem ext o).Reads e p x q := by
  unfold Rd.parseItem
  exact .bind (hn.reads hb ho) (.bind (.readU8 ht hb) hx)

theorem parseItems_cons {ext : Rd.Ext} {e : Env} {o p p1 q n : Nat} {x : List Char × PNode} {xs : List (List Char × PNode)}
    (h1 : (Rd.parseItem ext o).Reads e p x p1) (h2 : (Rd.parseItems ext o n).Reads e p1 xs q) :
    (Rd.parseItems ext o (n + 1)).Reads e p (x :: xs) q :=
  .bind h1 (.bind h2 (.pure _))

theorem parseListWith_reads {ext : Rd.Ext} {e : Env} {o p q n : Nat} {nb : Bytes} {ks : List (List Char × PNode)}
    (hb : e.buf.length < 2 ^ 63) (hn : IsWzInt 4 n nb) (hh : Holds e.buf p nb)
    (h : (Rd.parseItems ext o n).Reads e (p + nb.length) ks q) : (Rd.parseListWith ext o).Reads e p ks q := by
  unfold Rd.parseListWith
  refine .bind (.wzInt hn hh hb) ?_
  rw [if_neg (by omega)]
  exact h

theorem parseKids_reads {ext : Rd.Ext} {e : Env} {o p q n : Nat} {nb : Bytes} {ks : List (List Char × PNode)}
    (hb : e.buf.length < 2 ^ 63) (hn : IsWzInt 4 n nb) (hh : Holds e.buf (p + 2) nb)
    (h : (Rd.parseItems ext o n).Reads e (p + 2 + nb.length) ks q) (hnd : childInsertAll [] ks = ks) :
    (Rd.parseKids ext o).Reads e p ks q := by
  unfold Rd.parseKids
  have hle := hh.le
  refine .bind (.skip (by omega)) (.bind (parseListWith_reads hb hn hh h) ?_)
  rw [hnd]
  exact .pure _

theorem Spec.CanvasFields.reads {e : Env} {p w h fmt scale q : Nat} {pages : Int} {data : Bytes}
    (hf : CanvasFields e p w h fmt scale pages data q) (hb : e.buf.length < 2 ^ 63) :
    ∃ g, Rd.parsePng.Reads e p g q ∧ ShowsVal e (.canvas g) (.canvas w h fmt scale pages data) := by
  obtain ⟨wb, hb', fb, gb, ub, u, j1, j2, j3, hw, hh, hfm, hsc, hpg, hu, hd2, hd, hold, rfl⟩ := hf.bytes
  have h1 := hold.right
  have h2 := h1.right
  have h3 := h2.right
  have h4 := h3.right
  have h5 := h4.right
  have h6 := h5.right
  have h7 := h6.right
  have h8 := h7.right
  have h9 := h8.right
  simp only [length_toLE, List.length_cons, List.length_nil] at h4 h5 h6 h7 h8 h9
  have hle := h9.le
  have rw1 := hw.range (by decide)
  have rh1 := hh.range (by decide)
  have rf1 := hfm.range (by decide)
  generalize hoff : p + wb.length + hb'.length + fb.length + (0 + 1) + gb.length + ub.length + (0 + 1 + 1) + 4 + (0 + 1) = off at *
  refine ⟨{ offset := off, size := data.length, format1 := fmt, format2 := scale, header := leNat (data.take 2), pages := pages, width := w, height := h }, ?_, .canvas _ _ _ rfl rfl h9 rfl⟩
  unfold Rd.parsePng
  refine .bind (.wzInt hw hold.left hb) (.bind (.wzInt hh h1.left hb) (.bind (.wzInt hfm h2.left hb) ?_))
  have hsc2 : Rd.readI8.Reads e (p + wb.length + hb'.length + fb.length) (scale : Int) (p + wb.length + hb'.length + fb.length + 1) := by
    refine Rd.Reads.readInt_enc (w := 1) (by decide) (by omega) (by omega) ?_ hb
    have : unsign (8 * 1) (scale : Int) = scale := by unfold unsign; omega
    rw [this]
    exact h3.left
  refine .bind hsc2 (.bind (.wzInt hpg h4.left hb) (.bind (.wzInt hu h5.left hb) (.bind (.skip (by omega)) ?_)))
  refine .bind (readI32_nat h7.left hd hb) (.bind .getEnv (.bind (a := (data.length : Int)) (.lift ?_) ?_))
  · unfold decI32
    rw [if_pos (by omega)]
    congr 1; omega
  · refine .bind (.skip (by omega)) (.bind .getPos ?_)
    have hsplit : data = data.take 2 ++ data.drop 2 := (List.take_append_drop 2 data).symm
    have hold2 : Holds e.buf off (data.take 2) := by
      rw [hsplit] at h9; exact h9.left
    rw [← hoff] at hold2
    refine .bind (Rd.Reads.readLE (w := 2) hold2 (by rw [List.length_take]; omega) hb) ?_
    have e1 : asUsize (data.length : Int) = data.length := by rw [asUsize_nonneg (by omega) (by omega)]; simp
    have e2 : asU32 (fmt : Int) = fmt := by rw [asU32_nonneg (by omega) (by omega)]; simp
    have e3 : asU32 (scale : Int) = scale := by rw [asU32_nonneg (by omega) (by omega)]; simp
    have e4 : asU32 (w : Int) = w := by rw [asU32_nonneg (by omega) (by omega)]; simp
    have e5 : asU32 (h : Int) = h := by rw [asU32_nonneg (by omega) (by omega)]; simp
    rw [e1, e2, e3, e4, e5]
    have : p + wb.length + hb'.length + fb.length + 1 + gb.length + ub.length + 2 + 4 + 1 = off := by omega
    rw [this]
    have : p + (wb.length + hb'.length + fb.length + 1 + gb.length + ub.length + 2 + 4 + 1 + 2) = off + 2 := by omega
    rw [this]
    exact .pure _

end Wz
