import Verif.Property.TreeLemmas
/-!
# Looking a stored node up
-/

set_option autoImplicit false

namespace Wz
open Spec

/-- one stored entry: how its name, type and value are read and how it is passed over -/
theorem Spec.Stored.item {e : Env} {o p q : Nat} {name : List Char} {t : PTree} {rest : List (List Char × PTree)}
    (hb : e.buf.length < 2 ^ 63) (ho : o < 2 ^ 63) (h : Stored e o (.items ((name, t) :: rest)) p q) :
    ∃ p1 p2 : Nat, ∃ ty : Byte, StrBlock e o p name p1 ∧ Holds e.buf p1 [ty] ∧ Stored e o (.items rest) p2 q ∧
      (∃ nd, Shows e nd t ∧ ∃ N, ∀ f, N ≤ f →
        (Rd.parseNode (Rd.parseExt o f) o name ty.toNat).Reads e (p1 + 1) (name, nd) p2) ∧
      ((ty = 9#8 ∧ ∃ size, size < 2 ^ 32 ∧ Holds e.buf (p1 + 1) (toLE 4 size) ∧ p2 = p1 + 5 + size) ∨
        (ty ≠ 9#8 ∧ (Rd.skipPlain ty.toNat).Reads e (p1 + 1) () p2)) ∧
      (∀ ks, t = .node .sub ks → ty = 9#8 ∧ ∃ eob r, Stored e o (.ext eob t) (p1 + 5) r) := by
  cases h with
  | plain _ p1 _ _ ty v bs _ hn hv hh hr =>
    obtain ⟨w, hw, hs⟩ := hv.reads (o := o) hh.tail hb
    refine ⟨p1, p1 + (1 + bs.length), ty, hn, hh.head, hr, ⟨.node w [], .mk hs .nil, 0, fun f hf => ?_⟩, .inr ⟨?_, ?_⟩, ?_⟩
    · unfold Rd.parseNode
      rw [if_neg hv.ne9, ← Nat.add_assoc]
      exact .bind hw (.pure _)
    · rintro rfl; exact hv.ne9 rfl
    · rw [← Nat.add_assoc]; exact hv.skip hh.tail hb
    · intro ks h
      injection h with h _
      subst h
      cases hv
  | str _ p1 p2 _ _ s _ hn hh hs hr =>
    obtain ⟨m, hm, hi⟩ := hs.meta hb ho
    refine ⟨p1, p2, 8#8, hn, hh, hr, ⟨.node (.str m) [], .mk (.str m s hi) .nil, 0, fun f hf => ?_⟩, .inr ⟨by decide, ?_⟩, ?_⟩
    · have : (Rd.readPlain o 8).Reads e (p1 + 1) (.str m) p2 := .bind hm (.pure _)
      exact .bind this (.pure _)
    · have := hs.skip hb; exact this
    · intro ks h; cases h
  | block _ p1 r _ size _ _ _ hn hs hh ht hr =>
    obtain ⟨nd, hnd, N1, ih1⟩ := Stored.reads hb ho ht
    refine ⟨p1, p1 + 5 + size, 9#8, hn, hh.head, hr, ⟨nd, hnd, N1, fun f hf => ?_⟩, .inl ⟨rfl, size, hs, hh.tail, rfl⟩, ?_⟩
    · have := parseNode9_reads (o := o) hb hs hh.tail (ih1 f (by omega) name)
      exact this
    · intro ks h
      exact ⟨rfl, _, _, ht⟩
  | unknown _ p1 r _ size _ kind _ hn hs hh hk0 hne hr =>
    refine ⟨p1, p1 + 5 + size, 9#8, hn, hh.head, hr, ⟨.node .null [], .mk .null .nil, 1, fun f hf => ?_⟩, .inl ⟨rfl, size, hs, hh.tail, rfl⟩, ?_⟩
    · obtain ⟨f, rfl⟩ : ∃ f', f = f' + 1 := ⟨f - 1, by omega⟩
      have hx : (Rd.parseExt o (f + 1) (p1 + 1 + 4 + size) name).Reads e (p1 + 1 + 4) (.error name) r := by
        refine parseExt_reads hb ho hk0 ?_
        rw [Kind.of_none.mpr hne]
        exact .pure _
      have := parseNode9_reads (o := o) hb hs hh.tail hx
      exact this
    · intro ks h; cases h

theorem findItems_skip {ext : Rd.Ext} {e : Env} {o p p1 p2 n q : Nat} {cur name : List Char} {last : Bool} {ty : Byte} {x : Rd.Found}
    (hb : e.buf.length < 2 ^ 63) (ho : o < 2 ^ 63)
    (hn : StrBlock e o p name p1) (hty : Holds e.buf p1 [ty]) (hne : name ≠ cur)
    (hskip : (ty = 9#8 ∧ ∃ size, size < 2 ^ 32 ∧ Holds e.buf (p1 + 1) (toLE 4 size) ∧ p2 = p1 + 5 + size) ∨
        (ty ≠ 9#8 ∧ (Rd.skipPlain ty.toNat).Reads e (p1 + 1) () p2))
    (h : (Rd.findItems ext o cur last n).Reads e p2 x q) : (Rd.findItems ext o cur last (n + 1)).Reads e p x q := by
  show (Rd.readWzStringBlock o >>= _).Reads e p x q
  refine .bind (hn.reads hb ho) (.bind (.readU8 hty hb) ?_)
  rw [if_neg (fun h => hne h.1)]
  rcases hskip with ⟨rfl, size, hs, hh, rfl⟩ | ⟨h9, hs⟩
  · rw [if_pos (by decide), if_neg hne]
    have hle := hh.le
    rw [length_toLE] at hle
    refine .bind (Rd.Reads.readLE_enc hh (by omega) hb) (.bind (.skip (by omega)) ?_)
    exact h
  · rw [if_neg (fun h : ty.toNat = 9 => h9 (BitVec.eq_of_toNat_eq h))]
    exact .bind hs h

theorem find_last {e : Env} {o q : Nat} (hb : e.buf.length < 2 ^ 63) (ho : o < 2 ^ 63) {name : List Char} {t : PTree} :
    ∀ (kids : List (List Char × PTree)) (p : Nat), Stored e o (.items kids) p q → (names kids).Nodup → (name, t) ∈ kids →
    ∃ nd, Shows e nd t ∧ ∃ N, ∀ f, N ≤ f → ∃ q',
      (Rd.findItems (Rd.parseExt o f) o name true kids.length).Reads e p (.node (name, nd)) q' := by
  intro kids
  induction kids with
  | nil => intro p h hn hm; cases hm
  | cons x rest ih =>
    obtain ⟨n1, t1⟩ := x
    intro p h hn hm
    obtain ⟨p1, p2, ty, hname, hty, hrest, ⟨nd, hnd, N, hN⟩, hskip, -⟩ := h.item hb ho
    have hn2 := List.nodup_cons.mp hn
    rcases List.mem_cons.mp hm with heq | hm
    · injection heq with h1 h2
      subst h1 h2
      refine ⟨nd, hnd, N, fun f hf => ⟨p2, ?_⟩⟩
      show (Rd.readWzStringBlock o >>= _).Reads e p _ _
      refine .bind (hname.reads hb ho) (.bind (.readU8 hty hb) ?_)
      rw [if_pos ⟨rfl, rfl⟩]
      exact .bind (hN f hf) (.pure _)
    · obtain ⟨nd, hnd, N, hN⟩ := ih p2 hrest hn2.2 hm
      refine ⟨nd, hnd, N, fun f hf => ?_⟩
      obtain ⟨q', hq⟩ := hN f hf
      refine ⟨q', findItems_skip hb ho hname hty ?_ hskip hq⟩
      rintro rfl
      exact hn2.1 (List.mem_map.mpr ⟨_, hm, rfl⟩)

theorem find_enter {e : Env} {o q : Nat} (hb : e.buf.length < 2 ^ 63) (ho : o < 2 ^ 63) {name : List Char}
    {ks : List (List Char × PTree)} :
    ∀ (kids : List (List Char × PTree)) (p : Nat), Stored e o (.items kids) p q → (names kids).Nodup →
      (name, .node .sub ks) ∈ kids →
    ∃ p' q', StoredList e o ks p' q' ∧ (names ks).Nodup ∧
      ∀ ext, (Rd.findItems ext o name false kids.length).Reads e p .enter p' := by
  intro kids
  induction kids with
  | nil => intro p h hn hm; cases hm
  | cons x rest ih =>
    obtain ⟨n1, t1⟩ := x
    intro p h hn hm
    obtain ⟨p1, p2, ty, hname, hty, hrest, -, hskip, hsub⟩ := h.item hb ho
    have hn2 := List.nodup_cons.mp hn
    rcases List.mem_cons.mp hm with heq | hm
    · injection heq with h1 h2
      subst h1 h2
      obtain ⟨rfl, eob, r, hext⟩ := hsub ks rfl
      cases hext with
      | property _ p1' _ _ nb _ ht hnb hh hnd hk =>
      refine ⟨_, _, ⟨_, hnb, hh, hk⟩, hnd, fun ext => ?_⟩
      obtain ⟨m, hm, -⟩ := ht.meta hb ho
      have hle := ht.le
      show (Rd.readWzStringBlock o >>= _).Reads e p _ _
      refine .bind (hname.reads hb ho) (.bind (.readU8 hty hb) ?_)
      rw [if_neg (by simp), if_pos (by decide), if_pos rfl]
      refine .bind (.skip (by omega)) ?_
      refine .bind hm (.bind (.skip ?_) (.pure _))
      omega
    · obtain ⟨p', q', h1, h2, h3⟩ := ih p2 hrest hn2.2 hm
      refine ⟨p', q', h1, h2, fun ext => findItems_skip hb ho hname hty ?_ hskip (h3 ext)⟩
      rintro rfl
      exact hn2.1 (List.mem_map.mpr ⟨_, hm, rfl⟩)

theorem getNodeLoop_reads {e : Env} {o : Nat} (hb : e.buf.length < 2 ^ 63) (ho : o < 2 ^ 63)
    {kids : List (List Char × PTree)} {path : List (List Char)} {t : PTree} (h : AtPath kids path t) :
    ∀ (p q : Nat) (x : List Char) (xs : List (List Char)), path = x :: xs → StoredList e o kids p q → (names kids).Nodup →
    ∃ nd, Shows e nd t ∧ ∃ N, ∀ f, N ≤ f → ∃ q',
      (Rd.getNodeLoop (Rd.parseExt o f) o x xs).Reads e p (path.getLast!, nd) q' := by
  induction h with
  | last kids name t hm =>
    rintro p q x xs h ⟨nb, hnb, hh, hs⟩ hn
    injection h with h1 h2
    subst h1 h2
    obtain ⟨nd, hnd, N, hN⟩ := find_last hb ho kids _ hs hn hm
    refine ⟨nd, hnd, N, fun f hf => ?_⟩
    obtain ⟨q', hq⟩ := hN f hf
    refine ⟨q', ?_⟩
    rw [Rd.getNodeLoop]
    exact .bind (.wzInt hnb hh hb) (.bind hq (.pure _))
  | step kids ks name next rest t hm ht ih =>
    rintro p q x xs h ⟨nb, hnb, hh, hs⟩ hn
    injection h with h1 h2
    subst h1 h2
    obtain ⟨p', q', h1, h2, h3⟩ := find_enter hb ho kids _ hs hn hm
    obtain ⟨nd, hnd, N, hN⟩ := ih p' q' next rest rfl h1 h2
    refine ⟨nd, hnd, N, fun f hf => ?_⟩
    obtain ⟨q', hq⟩ := hN f hf
    refine ⟨q', ?_⟩
    rw [Rd.getNodeLoop]
    exact .bind (.wzInt hnb hh hb) (.bind (h3 _) hq)

end Wz

namespace Wz
open Spec

/-! ## Walking in the parsed tree -/

theorem Spec.ShowsKids.childAt {e : Env} {ks : List (List Char × PNode)} {kids : List (List Char × PTree)} {name : List Char}
    {t : PTree} (h : ShowsKids e ks kids) (hn : (Spec.names kids).Nodup) (hm : (name, t) ∈ kids) :
    ∃ nd, Wz.childAt ks name = some nd ∧ Shows e nd t := by
  induction kids generalizing ks with
  | nil => cases hm
  | cons x rest ih =>
    obtain ⟨n1, t1⟩ := x
    have hn2 := List.nodup_cons.mp hn
    cases h with
    | cons _ o v k1 r1 k1' _ hv hk hr =>
    rcases List.mem_cons.mp hm with heq | hm
    · injection heq with h1 h2
      subst h1 h2
      exact ⟨_, by simp [Wz.childAt], .mk hv hk⟩
    · have hne : n1 ≠ name := by
        rintro rfl
        exact hn2.1 (List.mem_map.mpr ⟨_, hm, rfl⟩)
      obtain ⟨nd, h1, h2⟩ := ih hr hn2.2 hm
      refine ⟨nd, ?_, h2⟩
      unfold Wz.childAt at h1 ⊢
      rw [List.find?_cons_of_neg (by simpa using hne)]
      exact h1

theorem Spec.ShowsKids.walk {e : Env} {kids : List (List Char × PTree)} {path : List (List Char)} {t : PTree}
    (h : AtPath kids path t) :
    ∀ ks, ShowsKids e ks kids → NodupTree kids → ∃ nd, Wz.walk ks path = some nd ∧ Shows e nd t := by
  induction h with
  | last kids name t hm =>
    intro ks hk hn
    obtain ⟨nd, h1, h2⟩ := hk.childAt hn.here hm
    exact ⟨nd, h1, h2⟩
  | step kids k2 name next rest t hm ht ih =>
    intro ks hk hn
    obtain ⟨nd, h1, h2⟩ := hk.childAt hn.here hm
    cases h2 with
    | cons _ o v k3 _ _ _ hv hk2 _ =>
    obtain ⟨nd', h3, h4⟩ := ih k3 hk2 (hn.down name _ _ hm)
    refine ⟨nd', ?_, h4⟩
    show (match Wz.childAt ks name with | some n => _ | none => _) = _
    rw [h1]
    exact h3

end Wz

namespace Wz
open Spec

/-- in a stored tree names are distinct below the top -/
def NodupPiece : Piece → Prop
  | .ext _ (.node _ ks) => NodupTree ks
  | .items kids => ∀ name v ks, (name, PTree.node v ks) ∈ kids → NodupTree ks
  | .points _ i kids => (∀ name v ks, (name, PTree.node v ks) ∈ kids → NodupTree ks) ∧ (names kids).Nodup ∧
      ∀ name ∈ names kids, ∃ j, i ≤ j ∧ name = Nat.toDigits 10 j

theorem NodupTree.nil : NodupTree [] := .mk _ .nil nofun

theorem Spec.Stored.nodup {e : Env} {o p q : Nat} {x : Piece} (h : Stored e o x p q) : NodupPiece x := by
  induction h with
  | nil p => exact nofun
  | plain p p1 q name ty v bs rest hn hv hh hr ih =>
    intro n w ks hm
    rcases List.mem_cons.mp hm with h | h
    · injection h with _ h; injection h with _ h; subst h; exact NodupTree.nil
    · exact ih n w ks h
  | str p p1 p2 q name s rest hn hh hs hr ih =>
    intro n w ks hm
    rcases List.mem_cons.mp hm with h | h
    · injection h with _ h; injection h with _ h; subst h; exact NodupTree.nil
    · exact ih n w ks h
  | block p p1 r q size name t rest hn hs hh ht hr ih1 ih2 =>
    intro n w ks hm
    rcases List.mem_cons.mp hm with h | h
    · injection h with _ h; subst h; exact ih1
    · exact ih2 n w ks h
  | unknown p p1 r q size name kind rest hn hs hh hk0 hne hr ih =>
    intro n w ks hm
    rcases List.mem_cons.mp hm with h | h
    · injection h with _ h; injection h with _ h; subst h; exact NodupTree.nil
    · exact ih n w ks h
  | property p p1 q eob nb kids ht hn hh hnd hk ih => exact .mk _ hnd ih
  | canvas => exact NodupTree.nil
  | canvasKids p p1 p2 q eob w h fmt scale j nb kids pages data ht hh hn hnb hnd hk hf ih => exact .mk _ hnd ih
  | convex p p1 q eob nb kids ht hn hh hk ih => exact .mk _ ih.2.1 ih.1
  | vector => exact NodupTree.nil
  | sound => exact NodupTree.nil
  | uol => exact NodupTree.nil
  | raw => exact NodupTree.nil
  | rawKids p p1 p2 eob nb sb data kids ht hh hn hnb hnd hk hs hd ih => exact .mk _ hnd ih
  | video => exact NodupTree.nil
  | noPoint p eob i => exact ⟨nofun, .nil, nofun⟩
  | point p p1 q eob i t rest ht hr ih1 ih2 =>
    obtain ⟨h1, h2, h3⟩ := ih2
    refine ⟨?_, List.nodup_cons.mpr ⟨?_, h2⟩, ?_⟩
    · intro n w ks hm
      rcases List.mem_cons.mp hm with h | h
      · injection h with _ h; subst h; exact ih1
      · exact h1 n w ks h
    · intro hm
      obtain ⟨j, hj, h⟩ := h3 _ hm
      have := decimal_inj h
      omega
    · intro name hm
      rcases List.mem_cons.mp hm with h | h
      · exact ⟨i, by omega, h⟩
      · obtain ⟨j, hj, h⟩ := h3 _ h
        exact ⟨j, by omega, h⟩

end Wz

namespace Wz
open Spec

/-! ## Paths that lead nowhere -/

theorem find_none {e : Env} {o q : Nat} (hb : e.buf.length < 2 ^ 63) (ho : o < 2 ^ 63) {name : List Char} (ext : Rd.Ext) (last : Bool) :
    ∀ (kids : List (List Char × PTree)) (p : Nat), Stored e o (.items kids) p q → name ∉ names kids →
      (Rd.findItems ext o name last kids.length).Reads e p .none q := by
  intro kids
  induction kids with
  | nil => intro p h _; cases h; exact .pure _
  | cons x rest ih =>
    obtain ⟨n1, t1⟩ := x
    intro p h hm
    obtain ⟨p1, p2, ty, hname, hty, hrest, -, hskip, -⟩ := h.item hb ho
    have hm2 : name ≠ n1 ∧ name ∉ names rest := by
      simpa [names] using hm
    exact findItems_skip hb ho hname hty (Ne.symm hm2.1) hskip (ih p2 hrest hm2.2)

theorem getNodeLoop_missing {e : Env} {o : Nat} (hb : e.buf.length < 2 ^ 63) (ho : o < 2 ^ 63) (ext : Rd.Ext)
    {kids : List (List Char × PTree)} {path : List (List Char)} (h : MissingAt kids path) :
    ∀ (p q : Nat) (x : List Char) (xs : List (List Char)), path = x :: xs → StoredList e o kids p q → (names kids).Nodup →
    ∀ c : Cur, c.pos = p → ((Rd.getNodeLoop ext o x xs).run e c).1 = .error (.lib "NodeNotFound") := by
  induction h with
  | last kids name hm =>
    rintro p q x xs h ⟨nb, hnb, hh, hs⟩ hn c hc
    injection h with h1 h2
    subst h1 h2
    rw [Rd.getNodeLoop]
    obtain ⟨c1, h1, hp1⟩ := Rd.Reads.wzInt hnb hh hb c hc
    obtain ⟨c2, h2, -⟩ := find_none hb ho ext true kids _ hs hm c1 hp1
    have h2' : (Rd.findItems ext o name true (kids.length : Int).toNat).run e c1 = _ := h2
    rw [Rd.bind_ok h1, Rd.bind_ok h2']
    rfl
  | step kids ks name next rest hm ht ih =>
    rintro p q x xs h ⟨nb, hnb, hh, hs⟩ hn c hc
    injection h with h1 h2
    subst h1 h2
    obtain ⟨p', q', h1, h2, h3⟩ := find_enter hb ho kids _ hs hn hm
    obtain ⟨c1, h4, hp1⟩ := Rd.Reads.wzInt hnb hh hb c hc
    obtain ⟨c2, h5, hp2⟩ := h3 ext c1 hp1
    rw [Rd.getNodeLoop]
    have h5' : (Rd.findItems ext o name false (kids.length : Int).toNat).run e c1 = _ := h5
    rw [Rd.bind_ok h4, Rd.bind_ok h5']
    exact ih p' q' next rest rfl h1 h2 c2 hp2

theorem walk_missing {e : Env} {kids : List (List Char × PTree)} {path : List (List Char)} (h : MissingAt kids path) :
    ∀ ks, ShowsKids e ks kids → NodupTree kids → Wz.walk ks path = none := by
  induction h with
  | last kids name hm =>
    intro ks hk hn
    show Wz.childAt ks name = none
    unfold Wz.childAt
    rw [List.find?_eq_none.mpr]
    · rfl
    · intro x hx hxe
      apply hm
      rw [← hk.names, ← eq_of_beq hxe]
      exact List.mem_map_of_mem hx
  | step kids k2 name next rest hm ht ih =>
    intro ks hk hn
    obtain ⟨nd, h1, h2⟩ := hk.childAt hn.here hm
    cases h2 with
    | cons _ o v k3 _ _ _ hv hk2 _ =>
    show (match Wz.childAt ks name with | some n => _ | none => _) = _
    rw [h1]
    exact ih k3 hk2 (hn.down name _ _ hm)

end Wz
