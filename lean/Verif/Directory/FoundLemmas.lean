import Verif.Directory.FoundSpec
import Verif.Directory.Errs
import Verif.Reader.ShownLemmas
import Verif.Offset.Props
/-!
# An accepted directory is what is stored
-/

set_option autoImplicit false

namespace Wz

open Spec

/-! ### numbers -/

theorem le_held {e : Env} {c c' : Cur} {w v : Nat} (hm : e.mode = .checked) (h : (Rd.readLE w).run e c = (.ok v, c')) :
    c' = { c with pos := c.pos + w } ∧ v < 256 ^ w ∧ Holds e.buf c.pos (toLE w v) := by
  rw [Rd.readLE_def, hm] at h
  cases ha : addU .checked c.pos w with
  | error y => rw [ha] at h; cases h
  | ok p =>
    rw [ha] at h
    have hp := addU_checked ha
    simp only [Prod.mk.injEq] at h
    obtain ⟨h1, rfl⟩ := h
    obtain ⟨bs, hh, hl, rfl⟩ := readAt_ok_iff.mp h1
    subst hp
    refine ⟨rfl, by rw [← hl]; exact leNat_lt bs, ?_⟩
    rw [← hl, toLE_leNat]
    exact hh

theorem byte_held {e : Env} {c c' : Cur} {v : Nat} (hm : e.mode = .checked) (h : Rd.readU8.run e c = (.ok v, c')) :
    ∃ b : Byte, b.toNat = v ∧ c' = { c with pos := c.pos + 1 } ∧ Holds e.buf c.pos [b] := by
  obtain ⟨h1, h2, h3⟩ := le_held hm h
  refine ⟨BitVec.ofNat 8 v, by simp at h2 ⊢; omega, h1, ?_⟩
  have : toLE 1 v = [BitVec.ofNat 8 v] := by
    simp only [toLE, List.cons.injEq, and_true]
  rwa [this] at h3

theorem wzInt_range {v : Int} {bs : Bytes} (h : IsWzInt 4 v bs) : -2 ^ 31 ≤ v ∧ v < 2 ^ 31 := by
  cases h <;> omega

/-- the common end of PKG1 entries -/
theorem pkg1Tail_inv {e : Env} {c c' : Cur} {m : StrMeta} {ty : DirType} {en : Entry} (hm : e.mode = .checked)
    (hb : e.buf.length < 2 ^ 63) (h : (Rd.pkg1Tail m ty).run e c = (.ok en, c')) :
    ∃ (size sum : Int) (sz sm : Bytes) (enc : Nat), IsWzInt 4 size sz ∧ IsWzInt 4 sum sm ∧ enc < 2 ^ 32 ∧
      Holds e.buf c.pos (sz ++ sm ++ toLE 4 enc) ∧ c'.pos = c.pos + (sz.length + sm.length) + 4 ∧
      en = { name := m, ty := ty, size := asUsize size, checksum := sum, calcOff := c.pos + (sz.length + sm.length),
             encOff := BitVec.ofNat 32 enc } := by
  unfold Rd.pkg1Tail at h
  obtain ⟨size, c1, h1, h⟩ := Rd.bind_inv h
  obtain ⟨sz, g1, g2, rfl⟩ := Props.C01_int32_only _ _ _ _ hb h1
  obtain ⟨sum, c2, h2, h⟩ := Rd.bind_inv h
  obtain ⟨sm, g3, g4, rfl⟩ := Props.C01_int32_only _ _ _ _ hb h2
  obtain ⟨p, c3, h3, h⟩ := Rd.bind_inv h
  cases h3
  obtain ⟨enc, c4, h4, h⟩ := Rd.bind_inv h
  obtain ⟨g5, g6, g7⟩ := le_held hm h4
  cases h
  refine ⟨size, sum, sz, sm, enc, g1, g3, by omega, (g2.append g4).append ?_, ?_, ?_⟩
  · simp only [List.length_append, ← Nat.add_assoc]
    exact g7
  · rw [g5]; simp only; omega
  · simp only [Nat.add_assoc]

/-! ### from an entry to what is shown -/

/-- the entry is located, named and, if it is a directory, resolved -/
def Becomes (x : DirCtx) (lf fuel : Nat) (hash : BitVec 64) (ver : OffsetVersion) (en : Entry) (it : List Char × DNode) : Prop :=
  ∃ en' nd, en.locate x hash ver = .ok en' ∧ en'.toNode x = .ok nd ∧ dirStep x lf fuel hash ver nd = .ok it

theorem becomes_facts {x : DirCtx} {lf fuel : Nat} {hash : BitVec 64} {ver : OffsetVersion} {en : Entry}
    {it : List Char × DNode} (hm : x.env.mode = .checked) (hb : x.env.buf.length < 2 ^ 63) (hf : x.hdr.fstart < 2 ^ 32)
    (h : Becomes x lf fuel hash ver en it) :
    ∃ o, o < 2 ^ 32 ∧ offsetBytes x ver hash en.calcOff o = toLE 4 en.encOff.toNat ∧ o + en.size ≤ x.env.buf.length ∧
      en.name.Is x.env it.1 ∧ offsetOf it.2 = (if en.ty = .dir ∨ en.ty = .image then o else 0) ∧
      (∀ t : Byte, DirType.ofByte t.toNat = en.ty → (en.ty = .dir ∨ en.ty = .image) → NodeIs t o en.size it.2 ∧ Located x it.2) ∧
      (en.ty = .metaAt → it.2 = .none) := by
  obtain ⟨en', nd, h1, h2, h3⟩ := h
  obtain ⟨g1, g2, g3, g4, g5⟩ := locate_ok h1
  obtain ⟨k1, k2⟩ := toNode_ok h2
  obtain ⟨hlt, hst⟩ := Props.C10_stored_unique ver x.env.mode x.hdr en.calcOff en'.offset hash en.encOff hf g1
  obtain ⟨v1, v2, v3⟩ := verify_ok g2 hlt (.inl hm) hb
  have hname : it.1 = nd.1 := by
    unfold dirStep at h3
    split at h3
    · obtain ⟨kids, -, h3⟩ := bind_ok h3
      cases h3; rfl
    · cases h3; rfl
  have hdir : en.ty = .dir → ∃ kids, it.2 = .dir en'.offset en.size kids := by
    intro ht
    rw [g4, ht] at k2
    dsimp only at k2
    unfold dirStep at h3
    rw [k2] at h3
    obtain ⟨kids, -, h3⟩ := bind_ok h3
    cases h3
    exact ⟨_, by rw [g3]⟩
  have himg : en.ty = .image → it.2 = .image en'.offset en.size := by
    intro ht
    rw [g4, ht] at k2
    dsimp only at k2
    unfold dirStep at h3
    rw [k2] at h3
    cases h3
    rw [g3]
  have hnone : en.ty ≠ .image → en.ty ≠ .dir → it.2 = .none := by
    intro ht ht2
    rw [g4] at k2
    have : nd.2 = .none := by
      rw [k2]
      cases hty : en.ty <;> first | rfl | exact absurd hty ht | exact absurd hty ht2
    unfold dirStep at h3
    rw [this] at h3
    cases h3
    rfl
  refine ⟨en'.offset, hlt, ?_, by rw [← g3]; exact v1, ?_, ?_, ?_, ?_⟩
  · unfold offsetBytes
    rw [← hst]
  · rw [hname, ← g5]; exact k1
  · split
    · rename_i hor
      rcases hor with ht | ht
      · obtain ⟨kids, hk⟩ := hdir ht; rw [hk]; rfl
      · rw [himg ht]; rfl
    · rename_i hor
      rw [hnone (fun h => hor (.inr h)) (fun h => hor (.inl h))]; rfl
  · intro t hty hor
    rcases hor with ht | ht
    · obtain ⟨kids, hk⟩ := hdir ht
      have : t = 3#8 := by
        rw [ht] at hty
        unfold DirType.ofByte at hty
        apply BitVec.eq_of_toNat_eq
        show t.toNat = 3
        split at hty <;> first | (cases hty; done) | skip
        split at hty <;> first | (cases hty; done) | skip
        split at hty <;> first | assumption | skip
        split at hty <;> cases hty
      rw [this, hk]
      refine ⟨.dir _ _ _, ?_⟩
      exact ⟨by rw [← g3]; exact v1, v3 (by rw [g4]; exact ht)⟩
    · have : t = 4#8 := by
        rw [ht] at hty
        unfold DirType.ofByte at hty
        apply BitVec.eq_of_toNat_eq
        show t.toNat = 4
        split at hty <;> first | (cases hty; done) | skip
        split at hty <;> first | (cases hty; done) | skip
        split at hty <;> first | (cases hty; done) | skip
        split at hty <;> first | assumption | cases hty
      rw [this, himg ht]
      refine ⟨.image _ _, ?_⟩
      exact ⟨by rw [← g3]; exact v1, v2 (by rw [g4]; exact ht)⟩
  · intro ht
    exact hnone (by rw [ht]; exact (fun h => nomatch h)) (by rw [ht]; exact (fun h => nomatch h))

/-! ### PKG1 -/

theorem size_int {o L : Nat} {size : Int} {sz : Bytes} (h : IsWzInt 4 size sz) (hb : L < 2 ^ 63)
    (hle : o + asUsize size ≤ L) : IsWzInt 4 ((asUsize size : Nat) : Int) sz := by
  have hr := wzInt_range h
  obtain ⟨h1, h2⟩ := asUsize_le (show asUsize size ≤ L by omega) hb (by omega) (by omega)
  rw [h2, Int.toNat_of_nonneg h1]
  exact h

theorem ofByte_cases (b : Nat) : (b = 1 ∧ DirType.ofByte b = .unknown) ∨ (b = 2 ∧ DirType.ofByte b = .metaAt) ∨
    (b = 3 ∧ DirType.ofByte b = .dir) ∨ (b = 4 ∧ DirType.ofByte b = .image) ∨
    ((b = 0 ∨ 4 < b) ∧ DirType.ofByte b = .other b) := by
  unfold DirType.ofByte
  by_cases h1 : b = 1
  · rw [if_pos h1]; exact .inl ⟨h1, rfl⟩
  by_cases h2 : b = 2
  · rw [if_neg h1, if_pos h2]; exact .inr (.inl ⟨h2, rfl⟩)
  by_cases h3 : b = 3
  · rw [if_neg h1, if_neg h2, if_pos h3]; exact .inr (.inr (.inl ⟨h3, rfl⟩))
  by_cases h4 : b = 4
  · rw [if_neg h1, if_neg h2, if_neg h3, if_pos h4]; exact .inr (.inr (.inr (.inl ⟨h4, rfl⟩)))
  · rw [if_neg h1, if_neg h2, if_neg h3, if_neg h4]; exact .inr (.inr (.inr (.inr ⟨by omega, rfl⟩)))

theorem metaAt_inv {e : Env} {c c' : Cur} {o : Nat} {m : StrMeta} (h : (Rd.readWzStringMetaAt o).run e c = (.ok m, c')) :
    c'.pos = c.pos ∧ ∃ c2, Rd.readWzStringMeta.run e ⟨o, c.pos⟩ = (.ok m, c2) := by
  have hs := Rd.SavedFree.readWzStringMeta e o c.pos c.pos
  unfold Rd.readWzStringMetaAt at h
  dsimp only at h
  cases hr : Rd.readWzStringMeta.run e ⟨o, c.pos⟩ with
  | mk r c2 =>
    rw [hr] at h hs
    cases r with
    | error y => cases h
    | ok a =>
      cases h
      refine ⟨?_, c2, rfl⟩
      have := congrArg (fun z => z.2.saved) hs
      exact this

/-- what follows from a PKG1 entry having been read -/
theorem readPkg1Entry_found {x : DirCtx} {lf fuel : Nat} {hash : BitVec 64} {c c' : Cur} {en : Entry}
    (hm : x.env.mode = .checked) (hb : x.env.buf.length < 2 ^ 63) (hf : x.hdr.fstart < 2 ^ 32)
    (h : (Rd.readPkg1Entry x.hdr.fstart).run x.env c = (.ok en, c')) :
    (en.ty = .unknown → ∀ n items r, Found1 x hash n (c'.pos + 10) items r → Found1 x hash (n + 1) c.pos items r) ∧
    (en.ty ≠ .unknown → (∀ b, en.ty ≠ .other b) → ∀ it n items r, Becomes x lf fuel hash .pkg1 en it →
      Found1 x hash n c'.pos items r → Found1 x hash (n + 1) c.pos (it :: items) r) := by
  have direct : ∀ (t : Byte), DirType.ofByte t.toNat = .dir ∨ DirType.ofByte t.toNat = .image →
      ∀ c1 : Cur, c1 = { c with pos := c.pos + 1 } → Holds x.env.buf c.pos [t] →
      (Rd.readWzStringMeta >>= fun name => Rd.pkg1Tail name (DirType.ofByte t.toNat)).run x.env c1 = (.ok en, c') →
      en.ty = DirType.ofByte t.toNat ∧ ∀ it n items r, Becomes x lf fuel hash .pkg1 en it →
        Found1 x hash n c'.pos items r → Found1 x hash (n + 1) c.pos (it :: items) r := by
    intro t hty c1 hc1 hh h
    subst hc1
    obtain ⟨m, c2, h1, h⟩ := Rd.bind_inv h
    obtain ⟨size, sum, sz, sm, enc, g1, g2, g3, g4, g5, rfl⟩ := pkg1Tail_inv hm hb h
    refine ⟨rfl, fun it n items r B F => ?_⟩
    obtain ⟨o, b1, b2, b3, b4, -, b5, -⟩ := becomes_facts hm hb hf B
    dsimp only at b2 b3 b4 b5
    obtain ⟨nm, s1, s2, s3⟩ := strMeta_shown hb hm h1 b4
    have hle := g4.le
    have hpos : c2.pos = c.pos + 1 + nm.length := s3.resolve_right (by omega)
    obtain ⟨b6, b7⟩ := b5 t rfl hty
    have henc : (BitVec.ofNat 32 enc).toNat = enc := by simp; omega
    rw [henc] at b2
    rw [hpos] at g4 g5 b2
    have e1 : c.pos + 1 + nm.length + (sz.length + sm.length) = c.pos + (1 + nm.length + sz.length + sm.length) := by omega
    rw [e1] at b2 g5
    refine Found1.direct n c.pos r t it.1 it.2 o (asUsize size) sum nm sz sm items b6 b7 b1 s1 (size_int g1 hb b3) g2 ?_
      (by rw [← g5]; exact F)
    rw [b2]
    have := hh.append (b := nm) s2
    rw [show [t] ++ nm ++ sz ++ sm ++ toLE 4 enc = ([t] ++ nm) ++ (sz ++ sm ++ toLE 4 enc) by simp only [List.append_assoc]]
    refine this.append ?_
    rw [show c.pos + ([t] ++ nm).length = c.pos + 1 + nm.length by simp; omega]
    exact g4
  unfold Rd.readPkg1Entry at h
  obtain ⟨b0, c1, h1, h⟩ := Rd.bind_inv h
  obtain ⟨t, rfl, hc1, hh⟩ := byte_held hm h1
  rcases ofByte_cases t.toNat with ⟨ht, hty⟩ | ⟨ht, hty⟩ | ⟨ht, hty⟩ | ⟨ht, hty⟩ | ⟨ht, hty⟩
  · rw [hty] at h
    cases h
    have ht1 : t = 1#8 := BitVec.eq_of_toNat_eq ht
    rw [ht1] at hh
    refine ⟨fun _ n items r F => .skip n c.pos r items hh ?_, fun hne => absurd rfl hne⟩
    rw [hc1] at F
    exact F
  · rw [hty] at h
    dsimp only at h
    have ht1 : t = 2#8 := BitVec.eq_of_toNat_eq ht
    rw [ht1] at hh
    subst hc1
    obtain ⟨so, c2, h2, h⟩ := Rd.bind_inv h
    obtain ⟨rfl, hp2, l0, l1, hh2⟩ := i32_held hb h2
    obtain ⟨e', c3, h3, h⟩ := Rd.bind_inv h
    cases h3
    obtain ⟨off, c3, h3, h⟩ := Rd.bind_inv h
    obtain ⟨h3', rfl⟩ := Rd.lift_inv h3
    rw [hm] at h3'
    have hoff := addU_checked h3'
    obtain ⟨b2, c4, h4, h⟩ := Rd.bind_inv h
    unfold Rd.readU8At at h4
    obtain ⟨e', c5, h5, h4⟩ := Rd.bind_inv h4
    cases h5
    obtain ⟨h4', rfl⟩ := Rd.lift_inv h4
    obtain ⟨bs, k1, k2, rfl⟩ := readAt_ok_iff.mp h4'
    obtain ⟨t2, rfl⟩ : ∃ b, bs = [b] := List.length_eq_one_iff.mp k2
    have ht2 : leNat [t2] = t2.toNat := by simp [leNat]
    rw [ht2] at h
    obtain ⟨p1, c6, h6, h⟩ := Rd.bind_inv h
    obtain ⟨h6', rfl⟩ := Rd.lift_inv h6
    rw [hm] at h6'
    have hp1 := addU_checked h6'
    obtain ⟨m, c7, h7, h⟩ := Rd.bind_inv h
    obtain ⟨hc7, c8, h8⟩ := metaAt_inv h7
    dsimp only at hc7
    obtain ⟨size, sum, sz, sm, enc, g1, g2, g3, g4, g5, rfl⟩ := pkg1Tail_inv hm hb h
    have hk := k1.le
    simp only [List.length_cons, List.length_nil] at hk
    have hso : 0 ≤ so ∧ asUsize so = so.toNat :=
      asUsize_le (show asUsize so ≤ x.env.buf.length by omega) hb (by omega) (by omega)
    have hsu : asU32 so = so.toNat := asU32_nonneg hso.1 (by omega)
    have hoff2 : off = x.hdr.fstart + so.toNat := by omega
    subst hoff2
    rw [hc7] at g4 g5
    have hbytes : Holds x.env.buf c.pos ([2#8] ++ toLE 4 so.toNat ++ sz ++ sm ++ toLE 4 enc) := by
      rw [show [2#8] ++ toLE 4 so.toNat ++ sz ++ sm ++ toLE 4 enc = ([2#8] ++ toLE 4 so.toNat) ++ (sz ++ sm ++ toLE 4 enc) by
        simp only [List.append_assoc]]
      rw [hsu] at hh2
      refine (hh.append (b := toLE 4 so.toNat) hh2).append ?_
      rw [show c.pos + ([2#8] ++ toLE 4 so.toNat).length = c.pos + 1 + 4 by
        simp only [List.length_append, List.length_cons, List.length_nil, length_toLE]]
      exact g4
    have e1 : c.pos + 1 + 4 + (sz.length + sm.length) = c.pos + (5 + sz.length + sm.length) := by omega
    rw [e1] at g5
    have henc : (BitVec.ofNat 32 enc).toNat = enc := by simp; omega
    refine ⟨fun hu n items r F => ?_, fun hu ho it n items r B F => ?_⟩
    · dsimp only at hu
      have : t2 = 1#8 := by
        rcases ofByte_cases t2.toNat with ⟨h1, h2⟩ | ⟨h1, h2⟩ | ⟨h1, h2⟩ | ⟨h1, h2⟩ | ⟨h1, h2⟩
        · exact BitVec.eq_of_toNat_eq h1
        all_goals rw [h2] at hu; cases hu
      rw [this] at k1
      refine .skipRef n c.pos r so.toNat size sum sz sm (toLE 4 enc) items (by omega) g1 g2 (length_toLE _ _) k1 hbytes ?_
      rw [g5] at F
      exact F
    · obtain ⟨o, b1, b2, b3, b4, -, b5, b6⟩ := becomes_facts hm hb hf B
      dsimp only at b2 b3 b4 b5 b6
      obtain ⟨nm, s1, s2, -⟩ := strMeta_shown hb hm h8 b4
      dsimp only at s2
      rw [hc7, e1, henc] at b2
      rw [g5] at F
      have hst : Holds x.env.buf (x.hdr.fstart + so.toNat) ([t2] ++ nm) := k1.append (b := nm) (by rw [hp1] at s2; exact s2)
      rcases ofByte_cases t2.toNat with ⟨k3, k4⟩ | ⟨k3, k4⟩ | ⟨k3, k4⟩ | ⟨k3, k4⟩ | ⟨k3, k4⟩
      · exact absurd k4 hu
      · have : t2 = 2#8 := BitVec.eq_of_toNat_eq k3
        rw [this] at hst
        have hn := b6 k4
        obtain ⟨nm', v⟩ := it
        dsimp only at hn s1
        subst hn
        exact .nothing n c.pos r nm' o (asUsize size) so.toNat sum nm sz sm items b3 b1 (by omega) s1 (size_int g1 hb b3) g2 hst
          (by rw [b2]; exact hbytes) F
      · obtain ⟨b7, b8⟩ := b5 t2 rfl (.inl k4)
        exact .byRef n c.pos r t2 it.1 it.2 o (asUsize size) so.toNat sum nm sz sm items b7 b8 b1 (by omega) s1 (size_int g1 hb b3) g2 hst
          (by rw [b2]; exact hbytes) F
      · obtain ⟨b7, b8⟩ := b5 t2 rfl (.inr k4)
        exact .byRef n c.pos r t2 it.1 it.2 o (asUsize size) so.toNat sum nm sz sm items b7 b8 b1 (by omega) s1 (size_int g1 hb b3) g2 hst
          (by rw [b2]; exact hbytes) F
      · exact absurd k4 (ho _)
  · obtain ⟨k1, k2⟩ := direct t (.inl hty) c1 hc1 hh (by rw [hty] at h ⊢; exact h)
    exact ⟨(fun hu => by rw [k1, hty] at hu; cases hu), fun _ _ => k2⟩
  · obtain ⟨k1, k2⟩ := direct t (.inr hty) c1 hc1 hh (by rw [hty] at h ⊢; exact h)
    exact ⟨(fun hu => by rw [k1, hty] at hu; cases hu), fun _ _ => k2⟩
  · rw [hty] at h
    cases h
    exact ⟨(fun hu => nomatch hu), fun _ ho => absurd rfl (ho _)⟩

theorem pkg1Loop_found {x : DirCtx} {lf fuel : Nat} {hash : BitVec 64}
    (hm : x.env.mode = .checked) (hb : x.env.buf.length < 2 ^ 63) (hf : x.hdr.fstart < 2 ^ 32) :
    ∀ (n : Nat) (acc es : List Entry) (c c' : Cur), (Rd.pkg1Loop x.hdr.fstart n acc).run x.env c = (.ok es, c') →
      ∃ es2, es = acc ++ es2 ∧ ∀ items, All2 (Becomes x lf fuel hash .pkg1) es2 items →
        ∃ q, Found1 x hash n c.pos items q
  | 0, acc, es, c, c', h => by
    unfold Rd.pkg1Loop at h
    cases h
    refine ⟨[], by simp, fun items ha => ?_⟩
    cases ha
    exact ⟨_, .nil _⟩
  | n + 1, acc, es, c, c', h => by
    unfold Rd.pkg1Loop at h
    obtain ⟨en, c1, h1, h⟩ := Rd.bind_inv h
    obtain ⟨k1, k2⟩ := readPkg1Entry_found (lf := lf) (fuel := fuel) (hash := hash) hm hb hf h1
    have more : en.ty ≠ .unknown → (∀ b, en.ty ≠ .other b) →
        (Rd.pkg1Loop x.hdr.fstart n (acc ++ [en])).run x.env c1 = (.ok es, c') →
        ∃ es2, es = acc ++ es2 ∧ ∀ items, All2 (Becomes x lf fuel hash .pkg1) es2 items →
          ∃ q, Found1 x hash (n + 1) c.pos items q := by
      intro g1 g2 h
      obtain ⟨es2, rfl, F⟩ := pkg1Loop_found hm hb hf n (acc ++ [en]) es c1 c' h
      refine ⟨en :: es2, by simp, fun items ha => ?_⟩
      cases ha with
      | cons hx ht =>
        obtain ⟨q, F⟩ := F _ ht
        exact ⟨q, k2 g1 g2 _ _ _ _ hx F⟩
    split at h
    · rename_i hty
      obtain ⟨u, c2, h2, h⟩ := Rd.bind_inv h
      have h3 := Rd.skip_inv hm h2
      subst h3
      obtain ⟨es2, rfl, F⟩ := pkg1Loop_found hm hb hf n acc es _ c' h
      exact ⟨es2, rfl, fun items ha => by
        obtain ⟨q, F⟩ := F _ ha
        exact ⟨q, k1 hty _ _ _ F⟩⟩
    · cases h
    · rename_i g1 g2
      exact more g1 g2 h

theorem entriesPkg1_found {x : DirCtx} {lf fuel : Nat} {hash : BitVec 64}
    (hm : x.env.mode = .checked) (hb : x.env.buf.length < 2 ^ 63) (hf : x.hdr.fstart < 2 ^ 32)
    {es : List Entry} {c c' : Cur} (h : (Rd.entriesPkg1 x.hdr.fstart).run x.env c = (.ok es, c'))
    {items : List (List Char × DNode)} (ha : All2 (Becomes x lf fuel hash .pkg1) es items) :
    FoundBlock1 x hash c.pos items := by
  unfold Rd.entriesPkg1 at h
  obtain ⟨n, c1, h1, h⟩ := Rd.bind_inv h
  obtain ⟨cb, g1, g2, rfl⟩ := Props.C01_int32_only _ _ _ _ hb h1
  split at h
  · cases h
  · rename_i hn
    have hn : 0 ≤ n ∧ n ≤ 1000000 := Classical.byContradiction hn
    obtain ⟨es2, he, F⟩ := pkg1Loop_found (lf := lf) (fuel := fuel) (hash := hash) hm hb hf _ _ _ _ _ h
    rw [List.nil_append] at he
    subst he
    obtain ⟨q, F⟩ := F _ ha
    exact ⟨n.toNat, cb, q, by omega, by rw [Int.toNat_of_nonneg hn.1]; exact g1, g2, F⟩

/-! ### PKG2 -/

/-- an entry whose offset is not yet known, and what it becomes with one -/
def Becomes2 (x : DirCtx) (lf fuel : Nat) (hash : BitVec 64) (ver : OffsetVersion) (en : Entry) (it : List Char × DNode) : Prop :=
  ∃ p enc, Becomes x lf fuel hash ver { en with calcOff := p, encOff := enc } it

theorem readName2_shown {x : DirCtx} {first : Bool} {c c' : Cur} {m : StrMeta} {s : List Char}
    (hm : x.env.mode = .checked) (hb : x.env.buf.length < 2 ^ 63)
    (h : (Rd.readName2 x.keys2 x.hdr.isPkg2_64 first).run x.env c = (.ok m, c')) (hs : m.Is x.env s) :
    ∃ nm, ShownName2 x first s nm ∧ Holds x.env.buf c.pos nm ∧ (c'.pos = c.pos + nm.length ∨ x.env.buf.length < c'.pos) := by
  unfold Rd.readName2 at h
  unfold ShownName2
  by_cases hk : (first && x.keys2) = true
  · rw [if_pos hk] at h
    cases h64 : x.hdr.isPkg2_64 with
    | true =>
      rw [h64] at h
      obtain ⟨nm, h1, h2, h3⟩ := pkg2Meta_shown (.inr rfl) hb hm h hs
      exact ⟨nm, by rw [if_pos hk]; exact h1, h2, .inl h3⟩
    | false =>
      rw [h64] at h
      obtain ⟨nm, h1, h2, h3⟩ := pkg2Meta_shown (.inl rfl) hb hm h hs
      exact ⟨nm, by rw [if_pos hk]; exact h1, h2, .inl h3⟩
  · rw [if_neg hk] at h
    obtain ⟨nm, h1, h2, h3⟩ := strMeta_shown hb hm h hs
    exact ⟨nm, by rw [if_neg hk]; exact h1, h2, h3⟩

/-- what follows from a PKG2 entry having been read -/
theorem readPkg2Entry_found {x : DirCtx} {lf fuel : Nat} {hash : BitVec 64} {ver : OffsetVersion} {c c' : Cur} {en : Entry}
    {first : Bool} {k : Int} (hm : x.env.mode = .checked) (hb : x.env.buf.length < 2 ^ 63) (hf : x.hdr.fstart < 2 ^ 32)
    (h : (Rd.readPkg2Entry x.keys2 x.hdr.isPkg2_64 k first).run x.env c = (.ok en, c')) :
    (en.ty = .unknown → c'.pos = c.pos ∧ ∃ t : Byte, Holds x.env.buf c.pos [t] ∧ (t.toNat = 0 ∨ 4 < t.toNat)) ∧
    (en.ty = .dir ∨ en.ty = .image → ∀ it items q, Becomes2 x lf fuel hash ver en it →
      Found2 x false c'.pos items q → Found2 x first c.pos (it :: items) q) ∧ en.ty ≠ .metaAt := by
  have tail : ∀ (t : Byte), DirType.ofByte t.toNat = .dir ∨ DirType.ofByte t.toNat = .image →
      ∀ c1 : Cur, c1 = { c with pos := c.pos + 1 } → Holds x.env.buf c.pos [t] →
      (Rd.readName2 x.keys2 x.hdr.isPkg2_64 first >>= fun name => Rd.readWzInt >>= fun size => Rd.readWzInt >>= fun sum =>
        (Pure.pure { name := name, ty := DirType.ofByte t.toNat, size := asUsize size, checksum := sum } : Rd Entry)).run x.env c1 = (.ok en, c') →
      en.ty = DirType.ofByte t.toNat ∧ ∀ it items q, Becomes2 x lf fuel hash ver en it →
        Found2 x false c'.pos items q → Found2 x first c.pos (it :: items) q := by
    intro t hty c1 hc1 hh h
    subst hc1
    obtain ⟨m, c2, h1, h⟩ := Rd.bind_inv h
    obtain ⟨size, c3, h2, h⟩ := Rd.bind_inv h
    obtain ⟨sz, g1, g2, rfl⟩ := Props.C01_int32_only _ _ _ _ hb h2
    obtain ⟨sum, c4, h3, h⟩ := Rd.bind_inv h
    obtain ⟨sm, g3, g4, rfl⟩ := Props.C01_int32_only _ _ _ _ hb h3
    cases h
    refine ⟨rfl, fun it items q ⟨p, enc, B⟩ F => ?_⟩
    obtain ⟨o, b1, -, b3, b4, -, b5, -⟩ := becomes_facts hm hb hf B
    dsimp only at b3 b4 b5
    obtain ⟨nm, s1, s2, s3⟩ := readName2_shown hm hb h1 b4
    dsimp only at s2 s3 g4 F
    have hle := g2.le
    have hpos : c2.pos = c.pos + 1 + nm.length := s3.resolve_right (by omega)
    obtain ⟨b6, b7⟩ := b5 t rfl hty
    rw [hpos] at g2 g4 F
    refine Found2.cons first c.pos q t it.1 it.2 o (asUsize size) sum nm sz sm items b6 b7 b1 s1 (size_int g1 hb b3) g3 ?_ ?_
    · refine ((hh.append (b := nm) s2).append ?_).append ?_
      · rw [show c.pos + ([t] ++ nm).length = c.pos + 1 + nm.length by simp; omega]; exact g2
      · rw [show c.pos + ([t] ++ nm ++ sz).length = c.pos + 1 + nm.length + sz.length by simp; omega]; exact g4
    · rw [show c.pos + (1 + nm.length + sz.length + sm.length) = c.pos + 1 + nm.length + sz.length + sm.length by omega]
      exact F
  unfold Rd.readPkg2Entry at h
  obtain ⟨b0, c1, h1, h⟩ := Rd.bind_inv h
  obtain ⟨t, rfl, hc1, hh⟩ := byte_held hm h1
  dsimp only at h
  rcases ofByte_cases t.toNat with ⟨ht, hty⟩ | ⟨ht, hty⟩ | ⟨ht, hty⟩ | ⟨ht, hty⟩ | ⟨ht, hty⟩
  · rw [hty] at h
    cases h
  · rw [hty] at h
    cases h
  · obtain ⟨k1, k2⟩ := tail t (.inl hty) c1 hc1 hh (by rw [hty] at h ⊢; exact h)
    exact ⟨(fun hu => by rw [k1, hty] at hu; cases hu), (fun _ => k2), by rw [k1, hty]; exact (fun hu => nomatch hu)⟩
  · obtain ⟨k1, k2⟩ := tail t (.inr hty) c1 hc1 hh (by rw [hty] at h ⊢; exact h)
    exact ⟨(fun hu => by rw [k1, hty] at hu; cases hu), (fun _ => k2), by rw [k1, hty]; exact (fun hu => nomatch hu)⟩
  · rw [hty] at h
    dsimp only at h
    obtain ⟨cur, c2, h2, h⟩ := Rd.bind_inv h
    cases h2
    obtain ⟨u, c2, h2, h⟩ := Rd.bind_inv h
    cases h2
    obtain ⟨v, c3, h3, h⟩ := Rd.bind_inv h
    split at h
    · obtain ⟨u, c4, h4, h⟩ := Rd.bind_inv h
      cases h4
      cases h
      refine ⟨fun _ => ⟨?_, t, hh, ht⟩, (fun hu => hu.elim (fun hu => nomatch hu) (fun hu => nomatch hu)), (fun hu => nomatch hu)⟩
      rw [hc1]
      simp
    · cases h
      exact ⟨(fun hu => nomatch hu), (fun hu => hu.elim (fun hu => nomatch hu) (fun hu => nomatch hu)), (fun hu => nomatch hu)⟩

theorem pkg2Loop_found {x : DirCtx} {lf fuel : Nat} {hash : BitVec 64} {ver : OffsetVersion} {k : Int}
    (hm : x.env.mode = .checked) (hb : x.env.buf.length < 2 ^ 63) (hf : x.hdr.fstart < 2 ^ 32) (h64 : x.hdr.isPkg2_64 = false) :
    ∀ (n : Nat) (acc es : List Entry) (c c' : Cur), (Rd.pkg2Loop x.keys2 k n acc).run x.env c = (.ok es, c') →
      (∃ t : Byte, Holds x.env.buf c'.pos [t] ∧ (t.toNat = 0 ∨ 4 < t.toNat)) ∧
      ∃ es2, es = acc ++ es2 ∧ (∀ en ∈ es2, en.ty = .dir ∨ en.ty = .image) ∧
        ∀ items, All2 (Becomes2 x lf fuel hash ver) es2 items → Found2 x acc.isEmpty c.pos items c'.pos
  | 0, acc, es, c, c', h => by
    unfold Rd.pkg2Loop at h
    cases h
  | n + 1, acc, es, c, c', h => by
    unfold Rd.pkg2Loop at h
    obtain ⟨en, c1, h1, h⟩ := Rd.bind_inv h
    rw [← h64] at h1
    obtain ⟨k1, k2, k3⟩ := readPkg2Entry_found (lf := lf) (fuel := fuel) (hash := hash) (ver := ver) hm hb hf h1
    have more : (en.ty = .dir ∨ en.ty = .image) →
        (Rd.pkg2Loop x.keys2 k n (acc ++ [en])).run x.env c1 = (.ok es, c') →
        (∃ t : Byte, Holds x.env.buf c'.pos [t] ∧ (t.toNat = 0 ∨ 4 < t.toNat)) ∧
        ∃ es2, es = acc ++ es2 ∧ (∀ en ∈ es2, en.ty = .dir ∨ en.ty = .image) ∧
          ∀ items, All2 (Becomes2 x lf fuel hash ver) es2 items → Found2 x acc.isEmpty c.pos items c'.pos := by
      intro g1 h
      obtain ⟨T, es2, rfl, hall, F⟩ := pkg2Loop_found (lf := lf) (fuel := fuel) (hash := hash) (ver := ver) hm hb hf h64 n (acc ++ [en]) es c1 c' h
      refine ⟨T, en :: es2, by simp, ?_, fun items ha => ?_⟩
      · intro a ha
        rcases List.mem_cons.mp ha with rfl | ha
        · exact g1
        · exact hall a ha
      · cases ha with
        | cons hx ht =>
          have F := F _ ht
          rw [show (acc ++ [en]).isEmpty = false by cases acc <;> rfl] at F
          exact k2 g1 _ _ _ hx F
    cases hty : en.ty with
    | unknown =>
      rw [hty] at h
      cases h
      obtain ⟨g1, g2⟩ := k1 hty
      refine ⟨by rw [g1]; exact g2, [], by simp, by simp, fun items ha => ?_⟩
      cases ha
      rw [g1]
      exact .nil _ _
    | other b => rw [hty] at h; cases h
    | metaAt => exact absurd hty k3
    | dir => rw [hty] at h; exact more (.inl hty) h
    | image => rw [hty] at h; exact more (.inr hty) h

theorem readOffsets_found {x : DirCtx} {lf fuel : Nat} {hash : BitVec 64} {ver : OffsetVersion}
    (hm : x.env.mode = .checked) (hb : x.env.buf.length < 2 ^ 63) (hf : x.hdr.fstart < 2 ^ 32) :
    ∀ (es es' : List Entry) (c c' : Cur), (Rd.readOffsets es).run x.env c = (.ok es', c') →
      (∀ en ∈ es, en.ty = .dir ∨ en.ty = .image) → ∀ items, All2 (Becomes x lf fuel hash ver) es' items →
      All2 (Becomes2 x lf fuel hash ver) es items ∧ Offsets2 x ver hash c.pos items
  | [], es', c, c', h, _, items, ha => by
    unfold Rd.readOffsets at h
    cases h
    cases ha
    exact ⟨.nil, .nil _⟩
  | en :: es, es', c, c', h, hall, items, ha => by
    unfold Rd.readOffsets at h
    obtain ⟨p, c1, h1, h⟩ := Rd.bind_inv h
    cases h1
    obtain ⟨enc, c2, h2, h⟩ := Rd.bind_inv h
    obtain ⟨rfl, g2, g3⟩ := le_held hm h2
    obtain ⟨rest, c3, h3, h⟩ := Rd.bind_inv h
    cases h
    cases ha with
    | cons hx ht =>
      obtain ⟨A, O⟩ := readOffsets_found hm hb hf es rest _ c' h3 (fun a ha => hall a (List.mem_cons_of_mem _ ha)) _ ht
      refine ⟨.cons ⟨_, _, hx⟩ A, .cons _ _ _ ?_ O⟩
      obtain ⟨o, b1, b2, -, -, b4, -, -⟩ := becomes_facts hm hb hf hx
      dsimp only at b2 b4
      rw [if_pos (hall en (List.mem_cons_self ..))] at b4
      have henc : (BitVec.ofNat 32 enc).toNat = enc := by simp; omega
      rw [b4, b2, henc]
      exact g3

theorem entriesPkg2_found {x : DirCtx} {lf fuel loop : Nat} {hash : BitVec 64} {ver : OffsetVersion}
    (hm : x.env.mode = .checked) (hb : x.env.buf.length < 2 ^ 63) (hf : x.hdr.fstart < 2 ^ 32) (h64 : x.hdr.isPkg2_64 = false)
    {es : List Entry} {c c' : Cur} (h : (Rd.entriesPkg2 x.keys2 loop).run x.env c = (.ok es, c'))
    {items : List (List Char × DNode)} (ha : All2 (Becomes x lf fuel hash ver) es items) :
    FoundBlock2 x ver hash c.pos items := by
  unfold Rd.entriesPkg2 at h
  obtain ⟨k, c1, h1, h⟩ := Rd.bind_inv h
  obtain ⟨cb, g1, g2, rfl⟩ := Props.C01_int32_only _ _ _ _ hb h1
  obtain ⟨es1, c2, h2, h⟩ := Rd.bind_inv h
  obtain ⟨⟨t, ht, htn⟩, es2, he, hall, F⟩ := pkg2Loop_found (lf := lf) (fuel := fuel) (hash := hash) (ver := ver) hm hb hf h64 _ _ _ _ _ h2
  rw [List.nil_append] at he
  subst he
  obtain ⟨k2, c3, h3, h⟩ := Rd.bind_inv h
  obtain ⟨cb2, g3, g4, rfl⟩ := Props.C01_int32_only _ _ _ _ hb h3
  split at h
  · cases h
  · rename_i hn
    obtain ⟨A, O⟩ := readOffsets_found hm hb hf _ _ _ _ h hall _ ha
    have hk : k2 = k := Classical.byContradiction fun h => hn (.inl h)
    subst hk
    refine ⟨k2, cb, cb2, c2.pos, g1, g2, ?_, F _ A, g3, g4, ?_, O⟩
    · intro hi
      subst hi
      cases A
      exact hn (.inr rfl)
    · have hne : ∃ b r, cb2 = b :: r := by cases g3 <;> exact ⟨_, _, rfl⟩
      obtain ⟨b, r, rfl⟩ := hne
      refine ⟨b, r, rfl, ?_⟩
      obtain ⟨pre, post, e1, l1⟩ := ht
      obtain ⟨pre2, post2, e2, l2⟩ := g4
      have q1 : x.env.buf[c2.pos]? = some t := by rw [e1, ← l1]; simp
      have q2 : x.env.buf[c2.pos]? = some b := by rw [e2, ← l2]; simp
      rw [q1] at q2
      cases q2
      exact htn

/-! ### PKG2 with 64-bit keys -/

theorem pkg2Loop64_found {x : DirCtx} {lf fuel : Nat} {hash : BitVec 64} {ver : OffsetVersion} {k : Int}
    (hm : x.env.mode = .checked) (hb : x.env.buf.length < 2 ^ 63) (hf : x.hdr.fstart < 2 ^ 32) (h64 : x.hdr.isPkg2_64 = true) :
    ∀ (n i : Nat) (acc es : List Entry) (c c' : Cur), (Rd.pkg2Loop64 x.keys2 k n i acc).run x.env c = (.ok es, c') →
      ∃ es2, es = acc ++ es2 ∧ es2.length = n ∧ (∀ en ∈ es2, en.ty = .dir ∨ en.ty = .image) ∧
        ∀ items, All2 (Becomes2 x lf fuel hash ver) es2 items → Found2 x (i == 0) c.pos items c'.pos
  | 0, i, acc, es, c, c', h => by
    unfold Rd.pkg2Loop64 at h
    cases h
    refine ⟨[], by simp, rfl, by simp, fun items ha => ?_⟩
    cases ha
    exact .nil _ _
  | n + 1, i, acc, es, c, c', h => by
    unfold Rd.pkg2Loop64 at h
    obtain ⟨en, c1, h1, h⟩ := Rd.bind_inv h
    rw [← h64] at h1
    obtain ⟨k1, k2, k3⟩ := readPkg2Entry_found (lf := lf) (fuel := fuel) (hash := hash) (ver := ver) hm hb hf h1
    have more : (en.ty = .dir ∨ en.ty = .image) →
        (Rd.pkg2Loop64 x.keys2 k n (i + 1) (acc ++ [en])).run x.env c1 = (.ok es, c') →
        ∃ es2, es = acc ++ es2 ∧ es2.length = n + 1 ∧ (∀ en ∈ es2, en.ty = .dir ∨ en.ty = .image) ∧
          ∀ items, All2 (Becomes2 x lf fuel hash ver) es2 items → Found2 x (i == 0) c.pos items c'.pos := by
      intro g1 h
      obtain ⟨es2, rfl, hl, hall, F⟩ := pkg2Loop64_found (lf := lf) (fuel := fuel) (hash := hash) (ver := ver) hm hb hf h64 n (i + 1) (acc ++ [en]) es c1 c' h
      refine ⟨en :: es2, by simp, by simp [hl], ?_, fun items ha => ?_⟩
      · intro a ha
        rcases List.mem_cons.mp ha with rfl | ha
        · exact g1
        · exact hall a ha
      · cases ha with
        | cons hx ht =>
          have F := F _ ht
          rw [show (i + 1 == 0) = false by simp] at F
          exact k2 g1 _ _ _ hx F
    cases hty : en.ty with
    | unknown => rw [hty] at h; cases h
    | other b => rw [hty] at h; cases h
    | metaAt => exact absurd hty k3
    | dir => rw [hty] at h; exact more (.inl hty) h
    | image => rw [hty] at h; exact more (.inr hty) h

theorem count_stored {h : Header} {hash enc : BitVec 64} {n : Nat} (hc : entryCount64 h hash enc = .ok n) (hn : n ≤ 1000000) :
    ∃ noise : BitVec 16, enc = storedCount h.hash1 hash n noise := by
  unfold entryCount64 at hc
  dsimp only at hc
  generalize hy : enc ^^^ h.hash1 ^^^ hash ^^^ 0x550EC4DD02C468EC#64 = y at hc
  split at hc
  · cases hc
  have hc := Except.ok.inj hc
  have h1 : (y.sshiftRight 16).toInt = y.toInt / 2 ^ 16 := by
    rw [BitVec.toInt_sshiftRight, Int.shiftRight_eq_div_pow]
    rfl
  have hlo : -2 ^ 63 ≤ y.toInt := BitVec.le_toInt y
  have hhi : y.toInt < 2 ^ 63 := BitVec.toInt_lt
  have h2 : y.toInt / 2 ^ 16 = n := by
    rw [h1] at hc
    unfold asUsize at hc
    omega
  have h3 : y.toInt = y.toNat := by
    rw [BitVec.toInt_eq_toNat_cond]
    split
    · rfl
    · rename_i hlt
      rw [BitVec.toInt_eq_toNat_cond, if_neg hlt] at h2
      have := y.isLt
      omega
  refine ⟨y.setWidth 16, ?_⟩
  have h4 : (BitVec.ofNat 48 n ++ y.setWidth 16 : BitVec 64) = y := by
    apply BitVec.eq_of_toNat_eq
    rw [BitVec.toNat_append, ← Nat.shiftLeft_add_eq_or_of_lt (BitVec.isLt _), BitVec.toNat_ofNat, Nat.mod_eq_of_lt (by omega),
      Nat.shiftLeft_eq, BitVec.toNat_setWidth]
    omega
  unfold storedCount
  rw [h4, ← hy]
  simp only [BitVec.xor_assoc]
  rw [← BitVec.xor_assoc 0x550EC4DD02C468EC#64 0x550EC4DD02C468EC#64, BitVec.xor_self, BitVec.zero_xor,
    ← BitVec.xor_assoc hash hash, BitVec.xor_self, BitVec.zero_xor, BitVec.xor_self, BitVec.xor_zero]

theorem wzInt64_range {v : Int} {bs : Bytes} (h : IsWzInt 8 v bs) : -2 ^ 63 ≤ v ∧ v < 2 ^ 63 := by
  cases h <;> omega

theorem entriesPkg2_64_found {x : DirCtx} {lf fuel : Nat} {hash : BitVec 64} {ver : OffsetVersion}
    (hm : x.env.mode = .checked) (hb : x.env.buf.length < 2 ^ 63) (hf : x.hdr.fstart < 2 ^ 32) (h64 : x.hdr.isPkg2_64 = true)
    {es : List Entry} {c c' : Cur} (h : (Rd.entriesPkg2_64 ver x.hdr hash x.keys2).run x.env c = (.ok es, c'))
    {items : List (List Char × DNode)} (ha : All2 (Becomes x lf fuel hash ver) es items) :
    ver = .pkg2_64V1 ∧ FoundBlock64 x hash c.pos items := by
  unfold Rd.entriesPkg2_64 at h
  by_cases hn : ver ≠ .pkg2_64V1
  · rw [if_pos hn] at h; cases h
  have hv : ver = .pkg2_64V1 := Classical.byContradiction hn
  subst hv
  refine ⟨rfl, ?_⟩
  rw [if_neg (fun hn => hn rfl)] at h
  obtain ⟨enc, c1, h1, h⟩ := Rd.bind_inv h
  obtain ⟨cb, g1, g2, rfl⟩ := Props.C01_int64_only _ _ _ _ hb h1
  obtain ⟨n, c2, h2, h⟩ := Rd.bind_inv h
  obtain ⟨h2', rfl⟩ := Rd.lift_inv h2
  split at h
  · cases h
  rename_i hn
  have hn : n ≤ 1000000 := Classical.byContradiction hn
  obtain ⟨es1, c3, h3, h⟩ := Rd.bind_inv h
  obtain ⟨es2, he, hl, hall, F⟩ := pkg2Loop64_found (lf := lf) (fuel := fuel) (hash := hash) (ver := .pkg2_64V1) hm hb hf h64 _ _ _ _ _ _ h3
  rw [List.nil_append] at he
  subst he
  obtain ⟨A, O⟩ := readOffsets_found hm hb hf _ _ _ _ h hall _ ha
  obtain ⟨noise, hs⟩ := count_stored h2' hn
  have hlen : items.length = n := by rw [← A.length, hl]
  have hr := wzInt64_range g1
  refine ⟨noise, cb, c3.pos, by omega, ?_, g2, F _ A, O⟩
  rw [hlen, ← hs, BitVec.toInt_ofInt, Int.bmod_def]
  have : (if enc % ((2 ^ 64 : Nat) : Int) < (((2 ^ 64 : Nat) : Int) + 1) / 2 then enc % ((2 ^ 64 : Nat) : Int) else enc % ((2 ^ 64 : Nat) : Int) - ((2 ^ 64 : Nat) : Int)) = enc := by
    split <;> omega
  rw [this]
  exact g1

/-! ### a directory with everything below -/

theorem mem_childInsert_iff {ν : Type} (m : List (List Char × ν)) (k : List Char) (v : ν) (n : List Char) (w : ν) :
    (n, w) ∈ childInsert m k v ↔ (n = k ∧ w = v) ∨ (n ≠ k ∧ (n, w) ∈ m) := by
  unfold childInsert
  split
  · rename_i hany
    rw [List.mem_map]
    constructor
    · rintro ⟨a, ha, he⟩
      split at he
      · cases he; exact .inl ⟨rfl, rfl⟩
      · rename_i hne
        subst he
        exact .inr ⟨by simpa using hne, ha⟩
    · rintro (⟨rfl, rfl⟩ | ⟨hne, hm⟩)
      · obtain ⟨a, ha, hk⟩ := List.any_eq_true.mp hany
        exact ⟨a, ha, by rw [if_pos hk]⟩
      · exact ⟨(n, w), hm, by rw [if_neg (by simpa using hne)]⟩
  · rename_i hany
    rw [List.mem_append, List.mem_singleton, Prod.mk.injEq]
    constructor
    · rintro (hm | h)
      · refine .inr ⟨?_, hm⟩
        rintro rfl
        exact hany (List.any_eq_true.mpr ⟨_, hm, by simp⟩)
      · exact .inl h
    · rintro (h | ⟨-, hm⟩)
      · exact .inr h
      · exact .inl hm

theorem mem_childInsertAll_iff {ν : Type} (n : List Char) (w : ν) : ∀ (l m : List (List Char × ν)),
    (n, w) ∈ childInsertAll m l ↔ (∃ before after, l = before ++ (n, w) :: after ∧ ∀ it ∈ after, it.1 ≠ n) ∨
      ((∀ it ∈ l, it.1 ≠ n) ∧ (n, w) ∈ m)
  | [], m => by
    simp [childInsertAll]
  | (k, v) :: l, m => by
    show (n, w) ∈ childInsertAll (childInsert m k v) l ↔ _
    rw [mem_childInsertAll_iff n w l, mem_childInsert_iff]
    constructor
    · rintro (⟨b, a, rfl, ha⟩ | ⟨hl, (⟨rfl, rfl⟩ | ⟨hne, hm⟩)⟩)
      · exact .inl ⟨(k, v) :: b, a, rfl, ha⟩
      · exact .inl ⟨[], l, rfl, hl⟩
      · refine .inr ⟨?_, hm⟩
        intro it hit
        rcases List.mem_cons.mp hit with rfl | hit
        · exact fun h => hne h.symm
        · exact hl it hit
    · rintro (⟨b, a, he, ha⟩ | ⟨hl, hm⟩)
      · cases b with
        | nil =>
          cases he
          exact .inr ⟨ha, .inl ⟨rfl, rfl⟩⟩
        | cons y b =>
          cases he
          exact .inl ⟨b, a, rfl, ha⟩
      · exact .inr ⟨fun it hit => hl it (List.mem_cons_of_mem _ hit), .inr ⟨fun h => hl _ (List.mem_cons_self ..) h.symm, hm⟩⟩

theorem nodup_childInsert {ν : Type} (m : List (List Char × ν)) (k : List Char) (v : ν) (h : (m.map Prod.fst).Nodup) :
    ((childInsert m k v).map Prod.fst).Nodup := by
  unfold childInsert
  split
  · have : (m.map fun p => if (p.1 == k) = true then (k, v) else p).map Prod.fst = m.map Prod.fst := by
      rw [List.map_map]
      apply List.map_congr_left
      intro a _
      simp only [Function.comp]
      split
      · rename_i hk; simpa using (beq_iff_eq.mp hk).symm
      · rfl
    rw [this]; exact h
  · rename_i hany
    rw [List.map_append, List.nodup_append]
    refine ⟨h, by simp, ?_⟩
    intro a ha b hb
    simp only [List.map_cons, List.map_nil, List.mem_singleton] at hb
    subst hb
    rintro rfl
    obtain ⟨p, hp, rfl⟩ := List.mem_map.mp ha
    exact hany (List.any_eq_true.mpr ⟨p, hp, by simp⟩)

theorem nodup_childInsertAll {ν : Type} : ∀ (l m : List (List Char × ν)), (m.map Prod.fst).Nodup →
    ((childInsertAll m l).map Prod.fst).Nodup
  | [], _, h => h
  | p :: l, m, h => nodup_childInsertAll l (childInsert m p.1 p.2) (nodup_childInsert m p.1 p.2 h)

theorem lastWins_all (raw : List (List Char × DNode)) : LastWins raw (childInsertAll [] raw) := by
  refine ⟨nodup_childInsertAll raw [] (by simp), fun n v => ?_⟩
  rw [mem_childInsertAll_iff]
  simp

theorem all2_becomes {x : DirCtx} {lf fuel : Nat} {hash : BitVec 64} {ver : OffsetVersion} :
    ∀ {es es2 : List Entry} {nodes items : List (List Char × DNode)},
    All2 (fun a b => Entry.locate x hash ver a = .ok b) es es2 → All2 (fun a b => Entry.toNode x a = .ok b) es2 nodes →
    All2 (fun a b => dirStep x lf fuel hash ver a = .ok b) nodes items → All2 (Becomes x lf fuel hash ver) es items
  | _, _, _, _, .nil, .nil, .nil => .nil
  | _, _, _, _, .cons h1 t1, .cons h2 t2, .cons h3 t3 => .cons ⟨_, _, h1, h2, h3⟩ (all2_becomes t1 t2 t3)

/-- what the entries of a directory become, whatever reads them -/
theorem resolveDir_becomes {x : DirCtx} {lf fuel : Nat} {d : Dir} {items : List (List Char × DNode)} (hs : d.blockSize ≠ 0)
    (h : resolveDir x lf (fuel + 1) d = .ok items) :
    ∃ d1, prepareEntries x lf d = .ok d1 ∧ All2 (Becomes x lf fuel d.hash d.ver) d1.entries items := by
  obtain ⟨d1, d2, nodes, h1, h2, h3, h4⟩ := resolveDir_ok hs h
  obtain ⟨e1, e2⟩ := prepareEntries_ok h1
  obtain ⟨e3, e4, A⟩ := calcVerify_ok h2
  rw [e3, e1, e4, e2] at h4
  rw [e1, e2] at A
  exact ⟨d1, h1, all2_becomes A (mapM_all2 h3) (mapM_all2 h4)⟩

/-- the children of a directory among the items come from a directory resolved at its offset -/
theorem becomes_below {x : DirCtx} {lf fuel : Nat} {hash : BitVec 64} {ver : OffsetVersion} {en : Entry} {name : List Char}
    {o s : Nat} {kids : List (List Char × DNode)} (h : Becomes x lf fuel hash ver en (name, .dir o s kids)) :
    ∃ raw, resolveDir x lf fuel { offset := o, blockSize := s, hash := hash, ver := ver } = .ok raw ∧ kids = childInsertAll [] raw := by
  obtain ⟨en', nd, -, -, h3⟩ := h
  unfold dirStep at h3
  split at h3
  · obtain ⟨raw, h4, h3⟩ := bind_ok h3
    cases h3
    exact ⟨raw, h4, rfl⟩
  · rename_i hne
    have h4 := congrArg Prod.snd (Except.ok.inj (show Except.ok (nd.1, nd.2) = Except.ok (name, DNode.dir o s kids) from h3))
    exact absurd h4 (hne _ _ _)

theorem foundDir_of {x : DirCtx} {lf : Nat} {hash : BitVec 64} {ver : OffsetVersion}
    {Block : Nat → List (List Char × DNode) → Prop}
    (hB : ∀ fuel p s d1 items, s ≠ 0 → prepareEntries x lf { offset := p, blockSize := s, hash := hash, ver := ver } = .ok d1 →
      All2 (Becomes x lf fuel hash ver) d1.entries items → Block p items) :
    ∀ (fuel p s : Nat) (items : List (List Char × DNode)), s ≠ 0 →
      resolveDir x lf fuel { offset := p, blockSize := s, hash := hash, ver := ver } = .ok items → FoundDir Block p items
  | 0, p, s, items, hs, h => by cases h
  | fuel + 1, p, s, items, hs, h => by
    obtain ⟨d1, h1, A⟩ := resolveDir_becomes hs h
    have below : ∀ name o s kids, (name, DNode.dir o s kids) ∈ items →
        ∃ raw, resolveDir x lf fuel { offset := o, blockSize := s, hash := hash, ver := ver } = .ok raw ∧ kids = childInsertAll [] raw := by
      intro name o s kids hm
      obtain ⟨en, -, hb⟩ := A.mem_right hm
      exact becomes_below hb
    refine .mk p items (fun it => match it.2 with
      | .dir o s _ => (resolveDir x lf fuel { offset := o, blockSize := s, hash := hash, ver := ver }).toOption.getD []
      | _ => []) (hB fuel p s d1 items hs h1 A) ?_ ?_ ?_
    · intro name o kids hm
      obtain ⟨raw, h2, h3⟩ := below name o 0 kids hm
      cases fuel with
      | zero => cases h2
      | succ f =>
        unfold resolveDir at h2
        rw [if_pos rfl] at h2
        cases h2
        rw [h3]; rfl
    · intro name o s kids hm hs
      obtain ⟨raw, h2, h3⟩ := below name o s kids hm
      dsimp only
      rw [h2]
      exact foundDir_of hB fuel o s raw hs h2
    · intro name o s kids hm hs
      obtain ⟨raw, h2, h3⟩ := below name o s kids hm
      dsimp only
      rw [h2, h3]
      exact lastWins_all raw

/-- how the entries of a directory are read -/
def rdFor (x : DirCtx) (lf : Nat) (ver : OffsetVersion) (hash : BitVec 64) : Rd (List Entry) :=
  match x.hdr.ident with
  | .v1 => Rd.entriesPkg1 x.hdr.fstart
  | .v2 => if x.hdr.isPkg2_64 then Rd.entriesPkg2_64 ver x.hdr hash x.keys2 else Rd.entriesPkg2 x.keys2 lf
  | .unknown => Rd.fail (.lib "UnknownPkgVersion")

theorem prepareEntries_run {x : DirCtx} {lf : Nat} {d d1 : Dir} (hi : d.status = .init) (h : prepareEntries x lf d = .ok d1) :
    ∃ c', (rdFor x lf d.ver d.hash).run x.env { pos := d.offset, saved := 0 } = (.ok d1.entries, c') := by
  unfold prepareEntries at h
  rw [if_neg (fun hn => hn hi)] at h
  dsimp only at h
  split at h
  · rename_i es he
    cases h
    exact ⟨_, Prod.ext he rfl⟩
  · cases h

end Wz
