import Verif.Property.Lemmas
/-!
# Reading stored property trees: whole trees
-/

set_option autoImplicit false

namespace Wz
open Spec

theorem parseSound_reads {e : Env} {p d : Nat} {j : Byte} {sb db header data : Bytes} (hb : e.buf.length < 2 ^ 63)
    (hs : IsWzInt 4 data.length sb) (hd : IsWzInt 4 d db)
    (hh : Holds e.buf p ([j] ++ (sb ++ (db ++ (header ++ data))))) :
    ∃ s, (Rd.parseSound (p + (1 + sb.length + db.length + header.length + data.length))).Reads e p s
      (p + (1 + sb.length + db.length)) ∧ ShowsVal e s (.sound d header data) := by
  have h1 := hh.right
  have h2 := h1.right
  have h3 := h2.right
  have h4 := h3.right
  simp only [List.length_cons, List.length_nil] at h1 h2 h3 h4
  have hle := h4.le
  have rs := hs.range (by decide)
  have rd := hd.range (by decide)
  generalize hoff : p + (0 + 1) + sb.length + db.length = off at *
  refine ⟨.sound { offset := off + header.length, length := data.length, headerOffset := off, headerSize := header.length, duration := d, ty := soundTypeOf header data.length d }, ?_, ?_⟩
  · unfold Rd.parseSound
    refine .bind (.skip (by omega)) (.bind (.wzInt hs h1.left hb) (.bind (.wzInt hd h2.left hb) (.bind .getEnv ?_)))
    have e1 : asU32 (data.length : Int) = data.length := by rw [asU32_nonneg (by omega) (by omega)]; simp
    have e2 : asU32 (d : Int) = d := by rw [asU32_nonneg (by omega) (by omega)]; simp
    have e0 : p + 1 + sb.length + db.length = off := by omega
    rw [e0, e1, e2]
    refine .bind (a := off + header.length) (.lift ?_) (.bind .getPos (.bind (a := header.length) (.lift ?_)
      (.bind (a := off + header.length) (.lift (addU_ok (by omega))) (.bind (a := header) (.lift ?_) ?_))))
    · unfold subU
      rw [if_pos (by omega)]
      congr 1; omega
    · unfold subU
      rw [if_pos (by omega)]
      congr 1; omega
    · unfold sliceIdx
      rw [if_pos (by omega), Nat.add_sub_cancel_left]
      exact congrArg Except.ok h3.left.slice
    · rw [show p + (1 + sb.length + db.length) = off by omega]
      exact .pure _
  · refine .sound _ _ _ rfl h3.left rfl h4 ?_ ?_
    · show soundTypeOf header data.length d = _ ↔ _
      unfold soundTypeOf
      by_cases h70 : header.length = 70
      · rw [if_pos h70]; simp [h70]; split <;> simp
      · rw [if_neg h70]; simp [h70]
    · show soundTypeOf header data.length d = _ ↔ _
      unfold soundTypeOf
      by_cases h70 : header.length = 70
      · rw [if_pos h70]
        have : soundFreq header = leNat ((header.drop 56).take 4) := by
          unfold soundFreq; rw [if_neg (by omega)]
        rw [this]
        simp only [h70, true_and]
        show (if _ ∧ d = 1000 then _ else _) = _ ↔ _ ∧ d = 1000
        split <;> simp_all
      · rw [if_neg h70]; simp [h70]

/-- what reading a piece gives -/
def ReadsPiece (e : Env) (o : Nat) : Piece → Nat → Nat → Prop
  | .ext eob t, p, q => ∃ nd, Shows e nd t ∧
      ∃ N, ∀ f, N ≤ f → ∀ name, (Rd.parseExt o f eob name).Reads e p (.ok (name, nd)) q
  | .items kids, p, q => ∃ ks, ShowsKids e ks kids ∧
      ∃ N, ∀ f, N ≤ f → (Rd.parseItems (Rd.parseExt o f) o kids.length).Reads e p ks q
  | .points eob i kids, p, q => ∃ ks, ShowsKids e ks kids ∧
      ∃ N, ∀ f, N ≤ f → ∀ acc : List (List Char × PNode), (∀ x ∈ acc, ∃ j, j < i ∧ x.1 = Nat.toDigits 10 j) →
        (Rd.convexLoop (Rd.parseExt o f) eob kids.length i acc).Reads e p (.ok (acc ++ ks)) q

theorem parseExt_reads {e : Env} {o p p1 q eob f : Nat} {name t : List Char} {x : ExtRes} (hb : e.buf.length < 2 ^ 63)
    (ho : o < 2 ^ 63) (ht : StrBlock e o p t p1)
    (h : (Rd.parseMore (Rd.parseExt o f) o eob name (Kind.of t)).Reads e p1 x q) :
    (Rd.parseExt o (f + 1) eob name).Reads e p x q := by
  show (Rd.readWzStringBlock o >>= _).Reads e p x q
  exact .bind (ht.reads hb ho) h

/-- a body that needs no recursion -/
theorem readsPiece_leaf {e : Env} {o p p1 q eob : Nat} {t : List Char} {ob : PObj} {v : PVal} (hb : e.buf.length < 2 ^ 63)
    (ho : o < 2 ^ 63) (ht : StrBlock e o p t p1) (hv : ShowsVal e ob v)
    (h : ∀ ext name, (Rd.parseMore ext o eob name (Kind.of t)).Reads e p1 (.ok (name, .node ob [])) q) :
    ReadsPiece e o (.ext eob (.node v [])) p q := by
  refine ⟨.node ob [], .mk hv .nil, 1, fun f hf name => ?_⟩
  obtain ⟨f, rfl⟩ : ∃ f', f = f' + 1 := ⟨f - 1, by omega⟩
  exact parseExt_reads hb ho ht (h _ _)

theorem Stored.reads {e : Env} {o p q : Nat} {x : Piece} (hb : e.buf.length < 2 ^ 63) (ho : o < 2 ^ 63)
    (h : Stored e o x p q) : ReadsPiece e o x p q := by
  induction h with
  | nil p => exact ⟨[], .nil, 0, fun f _ => .pure _⟩
  | plain p p1 q name ty v bs rest hn hv hh hr ih =>
    obtain ⟨ks, hk, N, ih⟩ := ih
    obtain ⟨w, hw, hs⟩ := hv.reads (o := o) hh.tail hb
    refine ⟨(name, .node w []) :: ks, .cons _ _ _ _ _ _ _ hs .nil hk, N, fun f hf => ?_⟩
    refine parseItems_cons (parseItem_reads hb ho hn hh.head ?_) (ih f hf)
    unfold Rd.parseNode
    rw [if_neg hv.ne9, ← Nat.add_assoc]
    exact .bind hw (.pure _)
  | str p p1 p2 q name s rest hn hh hs hr ih =>
    obtain ⟨ks, hk, N, ih⟩ := ih
    obtain ⟨m, hm, hi⟩ := hs.meta hb ho
    refine ⟨(name, .node (.str m) []) :: ks, .cons _ _ _ _ _ _ _ (.str m s hi) .nil hk, N, fun f hf => ?_⟩
    refine parseItems_cons (parseItem_reads hb ho hn hh ?_) (ih f hf)
    have : (Rd.readPlain o 8).Reads e (p1 + 1) (.str m) p2 := .bind hm (.pure _)
    exact .bind this (.pure _)
  | block p p1 r q size name t rest hn hs hh ht hr ih1 ih2 =>
    obtain ⟨nd, hnd, N1, ih1⟩ := ih1
    obtain ⟨ks, hk, N2, ih2⟩ := ih2
    refine ⟨(name, nd) :: ks, hnd.cons name hk, max N1 N2, fun f hf => ?_⟩
    refine parseItems_cons (parseItem_reads hb ho hn hh.head ?_) (ih2 f (by omega))
    have := parseNode9_reads (o := o) hb hs hh.tail (ih1 f (by omega) name)
    exact this
  | unknown p p1 r q size name kind rest hn hs hh hk0 hne hr ih =>
    obtain ⟨ks, hk, N, ih⟩ := ih
    refine ⟨(name, .node .null []) :: ks, .cons _ _ _ _ _ _ _ .null .nil hk, max N 1, fun f hf => ?_⟩
    refine parseItems_cons (parseItem_reads hb ho hn hh.head ?_) (ih f (by omega))
    obtain ⟨f, rfl⟩ : ∃ f', f = f' + 1 := ⟨f - 1, by omega⟩
    have hx : (Rd.parseExt o (f + 1) (p1 + 1 + 4 + size) name).Reads e (p1 + 1 + 4) (.error name) r := by
      refine parseExt_reads hb ho hk0 ?_
      rw [Kind.of_none.mpr hne]
      exact .pure _
    have := parseNode9_reads (o := o) hb hs hh.tail hx
    exact this
  | property p p1 q eob nb kids ht hn hh hnd hk ih =>
    obtain ⟨ks, hks, N, ih⟩ := ih
    refine ⟨.node .property ks, .mk .sub hks, N + 1, fun f hf name => ?_⟩
    obtain ⟨f, rfl⟩ : ∃ f', f = f' + 1 := ⟨f - 1, by omega⟩
    refine parseExt_reads hb ho ht ?_
    rw [Kind.of_property]
    exact .bind (parseKids_reads hb hn hh (ih f (by omega)) (hks.nodup hnd)) (.pure _)
  | canvas p p1 q eob w h fmt scale j b pages data ht hh hbne hf =>
    obtain ⟨g, hg, hs⟩ := hf.reads hb
    refine readsPiece_leaf hb ho ht hs fun ext name => ?_
    rw [Kind.of_canvas]
    have hle := hh.le
    simp only [List.length_cons, List.length_nil] at hle
    refine .bind (.skip (by omega)) (.bind (.readU8 hh.tail hb) ?_)
    have : (b.toNat == 1) = false := by
      rw [beq_eq_false_iff_ne]; exact fun h => hbne (BitVec.eq_of_toNat_eq h)
    rw [this]
    exact .bind (.pure _) (.bind hg (.pure _))
  | canvasKids p p1 p2 q eob w h fmt scale j nb kids pages data ht hh hn hnb hnd hk hf ih =>
    obtain ⟨ks, hks, N, ih⟩ := ih
    obtain ⟨g, hg, hs⟩ := hf.reads hb
    refine ⟨.node (.canvas g) ks, .mk hs hks, N + 1, fun f hf name => ?_⟩
    obtain ⟨f, rfl⟩ : ∃ f', f = f' + 1 := ⟨f - 1, by omega⟩
    refine parseExt_reads hb ho ht ?_
    rw [Kind.of_canvas]
    have hle := hh.le
    simp only [List.length_cons, List.length_nil] at hle
    refine .bind (.skip (by omega)) (.bind (.readU8 hh.tail hb) (.bind (a := ks) (q := p2) ?_ (.bind hg (.pure _))))
    show (Rd.parseKids _ o).Reads e _ _ _
    exact parseKids_reads hb hn hnb (ih f (by omega)) (hks.nodup hnd)
  | convex p p1 q eob nb kids ht hn hh hk ih =>
    obtain ⟨ks, hks, N, ih⟩ := ih
    refine ⟨.node .convex ks, .mk .convex hks, N + 1, fun f hf name => ?_⟩
    obtain ⟨f, rfl⟩ : ∃ f', f = f' + 1 := ⟨f - 1, by omega⟩
    refine parseExt_reads hb ho ht ?_
    rw [Kind.of_convex]
    refine .bind (.wzInt hn hh hb) ?_
    rw [if_neg (by omega)]
    have := ih f (by omega) [] (by simp)
    exact .bind this (.pure _)
  | vector p p1 eob x y xb yb ht hx hy hh =>
    refine readsPiece_leaf hb ho ht (.vector x y) fun ext name => ?_
    rw [Kind.of_vector]
    exact .bind (.wzInt hx hh.left hb) (.bind (.wzInt hy hh.right hb) (.pure _))
  | sound p p1 eob d j sb db header data ht hs hd hh he =>
    obtain ⟨s, hrs, hss⟩ := parseSound_reads hb hs hd hh
    subst he
    cases hss with
    | sound g _ _ a1 a2 a3 a4 a5 a6 =>
      refine readsPiece_leaf hb ho ht (.sound g header data a1 a2 a3 a4 a5 a6) fun ext name => ?_
      rw [Kind.of_sound]
      exact .bind hrs (.pure _)
  | uol p p1 p2 eob s ht hs =>
    obtain ⟨m, hm, hi⟩ := hs.meta hb ho
    refine readsPiece_leaf hb ho ht (.uol m s hi) fun ext name => ?_
    rw [Kind.of_uol]
    have := hs.le
    exact .bind (.skip (by omega)) (.bind hm (.pure _))
  | raw p p1 eob head sb data ht hhead hs hh =>
    refine readsPiece_leaf hb ho ht (.raw (p1 + head.length + sb.length) data hh.right.right) fun ext name => ?_
    rw [Kind.of_raw]
    have rs := hs.range (by decide)
    have e1 : asUsize (data.length : Int) = data.length := by rw [asUsize_nonneg (by omega) (by omega)]; simp
    refine .bind (a := false) (q := p1 + head.length) ?_ (.bind (.pure _) (.bind (.wzInt hs hh.right.left hb) (.bind .getPos ?_)))
    · unfold Rd.rawHasKids
      rcases hhead with ⟨v, hv, rfl⟩ | ⟨b, hbn, rfl⟩
      · refine .bind (.readU8 hh.left hb) ?_
        rw [if_neg (fun h : v.toNat = 1 => hv (BitVec.eq_of_toNat_eq h))]
        exact .pure _
      · refine .bind (.readU8 hh.left.head hb) ?_
        rw [if_pos (by decide)]
        refine .bind (.readU8 hh.left.tail hb) ?_
        have : (b.toNat == 1) = false := by
          rw [beq_eq_false_iff_ne]; exact fun h => hbn (BitVec.eq_of_toNat_eq h)
        rw [this]
        exact .pure _
    · rw [e1]; exact .pure _
  | rawKids p p1 p2 eob nb sb data kids ht hh hn hnb hnd hk hs hd ih =>
    obtain ⟨ks, hks, N, ih⟩ := ih
    have rs := hs.range (by decide)
    have e1 : asUsize (data.length : Int) = data.length := by rw [asUsize_nonneg (by omega) (by omega)]; simp
    refine ⟨.node (.raw (p2 + sb.length) data.length) ks, .mk (.raw _ _ hd.right) hks, N + 1, fun f hf name => ?_⟩
    obtain ⟨f, rfl⟩ : ∃ f', f = f' + 1 := ⟨f - 1, by omega⟩
    refine parseExt_reads hb ho ht ?_
    rw [Kind.of_raw]
    refine .bind (a := true) (q := p1 + 1 + 1) ?_ (.bind (a := ks) (q := p2) ?_ (.bind (.wzInt hs hd.left hb) (.bind .getPos ?_)))
    · unfold Rd.rawHasKids
      refine .bind (.readU8 hh.head hb) ?_
      rw [if_pos (by decide)]
      exact .bind (.readU8 hh.tail hb) (.pure _)
    · exact parseKids_reads hb hn hnb (ih f (by omega)) (hks.nodup hnd)
    · rw [e1]; exact .pure _
  | video p p1 eob j1 j2 j3 sb data ht hs hh =>
    have h1 := hh.right
    have hle := h1.le
    refine readsPiece_leaf hb ho ht (.video (p1 + 3 + sb.length) data h1.right) fun ext name => ?_
    rw [Kind.of_video]
    have rs := hs.range (by decide)
    have e1 : asUsize (data.length : Int) = data.length := by rw [asUsize_nonneg (by omega) (by omega)]; simp
    simp only [List.length_cons, List.length_nil] at hle
    refine .bind (.skip (by omega)) (.bind (.wzInt hs h1.left hb) (.bind .getPos ?_))
    rw [e1]; exact .pure _
  | noPoint p eob i =>
    refine ⟨[], .nil, 0, fun f _ acc _ => ?_⟩
    rw [List.append_nil]
    exact .pure _
  | point p p1 q eob i t rest ht hr ih1 ih2 =>
    obtain ⟨nd, hnd, N1, ih1⟩ := ih1
    obtain ⟨ks, hk, N2, ih2⟩ := ih2
    refine ⟨(decimal i, nd) :: ks, hnd.cons _ hk, max N1 N2, fun f hf acc hacc => ?_⟩
    show (Rd.parseExt o f eob (decimal i) >>= _).Reads e _ _ _
    refine .bind (ih1 f (by omega) (decimal i)) ?_
    dsimp only
    have hins : childInsert acc (decimal i) nd = acc ++ [(decimal i, nd)] := by
      unfold childInsert
      rw [if_neg]
      rw [List.any_eq_true]
      rintro ⟨x, hx, hxe⟩
      obtain ⟨j, hj, hxj⟩ := hacc x hx
      have := eq_of_beq hxe
      rw [hxj] at this
      have := decimal_inj this
      omega
    rw [hins, show acc ++ (decimal i, nd) :: ks = (acc ++ [(decimal i, nd)]) ++ ks by simp]
    refine ih2 f (by omega) _ ?_
    intro x hx
    rw [List.mem_append] at hx
    rcases hx with hx | hx
    · obtain ⟨j, hj, h⟩ := hacc x hx
      exact ⟨j, by omega, h⟩
    · rw [List.mem_singleton] at hx
      subst hx
      exact ⟨i, by omega, rfl⟩

end Wz
