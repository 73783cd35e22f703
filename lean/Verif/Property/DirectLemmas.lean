import Verif.Property.DirectSpec
import Verif.Property.TakenProps
/-!
# Passing over entries, and direct access from any bytes
-/

set_option autoImplicit false

namespace Wz
open Spec

/-! ### passing over a value -/

/-- what the loop does with an entry it is not looking for (as in `Rd.findItems`) -/
def Rd.pass (ty : Nat) : Rd Unit :=
  if ty = 9 then do
    let size ← Rd.readU32
    Rd.skip size
  else Rd.skipPlain ty

theorem passed_of_read {e : Env} {c c' : Cur} {ty : Byte} (hb : e.buf.length < 2 ^ 63) (hm : e.mode = .checked)
    (h : (Rd.pass ty.toNat).run e c = (.ok (), c')) : PassedValue e ty c.pos c'.pos := by
  unfold Rd.pass at h
  by_cases h9 : ty.toNat = 9
  · rw [if_pos h9] at h
    obtain rfl := byte_eq_of h9
    obtain ⟨size, c1, h1, h⟩ := Rd.bind_inv h
    obtain ⟨rfl, s1, s2⟩ := le_held hm h1
    rw [Rd.skip_inv hm h]
    exact .block _ _ (by simpa using s1) s2
  rw [if_neg h9] at h
  unfold Rd.skipPlain at h
  by_cases h0 : ty.toNat = 0
  · rw [if_pos h0] at h; cases h
    obtain rfl := byte_eq_of h0
    exact .null _
  rw [if_neg h0] at h
  by_cases h2 : ty.toNat = 2 ∨ ty.toNat = 11
  · rw [if_pos h2] at h
    rw [Rd.skip_inv hm h]
    exact .short _ _ (h2.imp byte_eq_of byte_eq_of)
  rw [if_neg h2] at h
  by_cases h3 : ty.toNat = 3 ∨ ty.toNat = 19
  · rw [if_pos h3] at h
    obtain ⟨v, c1, h1, h⟩ := Rd.bind_inv h
    cases h
    obtain ⟨bs, k1, k2, rfl⟩ := Props.C01_int32_only _ _ _ _ hb h1
    exact .int _ _ v bs (h3.imp byte_eq_of byte_eq_of) k1 k2
  rw [if_neg h3] at h
  by_cases h20 : ty.toNat = 20
  · rw [if_pos h20] at h
    obtain rfl := byte_eq_of h20
    obtain ⟨v, c1, h1, h⟩ := Rd.bind_inv h
    cases h
    obtain ⟨bs, k1, k2, rfl⟩ := Props.C01_int64_only _ _ _ _ hb h1
    exact .long _ v bs k1 k2
  rw [if_neg h20] at h
  by_cases h4 : ty.toNat = 4
  · rw [if_pos h4] at h
    obtain rfl := byte_eq_of h4
    unfold Rd.skipFloat at h
    obtain ⟨v, c1, h1, h⟩ := Rd.bind_inv h
    obtain ⟨t, rfl, rfl, ht⟩ := byte_held hm h1
    by_cases h80 : t.toNat = 0x80
    · rw [if_pos h80] at h
      obtain rfl := byte_eq_of h80
      rw [Rd.skip_inv hm h]
      exact .float _ ht
    · rw [if_neg h80] at h; cases h
      exact .smallFloat _ t (by rintro rfl; exact h80 rfl) ht
  rw [if_neg h4] at h
  by_cases h5 : ty.toNat = 5
  · rw [if_pos h5] at h
    obtain rfl := byte_eq_of h5
    rw [Rd.skip_inv hm h]
    exact .double _
  rw [if_neg h5] at h
  by_cases h8 : ty.toNat = 8
  · rw [if_pos h8] at h
    obtain rfl := byte_eq_of h8
    unfold Rd.skipStr at h
    obtain ⟨v, c1, h1, h⟩ := Rd.bind_inv h
    obtain ⟨t, rfl, rfl, ht⟩ := byte_held hm h1
    by_cases ha : t.toNat = 0 ∨ t.toNat = 0x73
    · rw [if_pos ha] at h
      obtain ⟨m, c2, h2', h⟩ := Rd.bind_inv h
      cases h
      obtain ⟨lb, k1, k2⟩ := announced_of_read hb hm h2'
      exact .text _ _ t m lb (ha.imp byte_eq_of byte_eq_of) k1 (Holds.cons_of ht k2)
    · rw [if_neg ha] at h
      by_cases hb' : t.toNat = 1 ∨ t.toNat = 0x1B
      · rw [if_pos hb'] at h
        rw [Rd.skip_inv hm h]
        exact .textElsewhere _ t (hb'.imp byte_eq_of byte_eq_of) ht
      · rw [if_neg hb'] at h
        cases h
        refine .noText _ t ?_ ht
        intro hmem
        simp only [List.mem_cons, List.not_mem_nil, or_false] at hmem
        rcases hmem with rfl | rfl | rfl | rfl
        · exact ha (.inl rfl)
        · exact ha (.inr rfl)
        · exact hb' (.inl rfl)
        · exact hb' (.inr rfl)
  · rw [if_neg h8] at h; cases h

theorem Spec.Announced.mono {p q : Nat} {lb : Bytes} {m : StrMeta} (h : Announced p lb m q) : p ≤ q := by
  cases h <;> omega

theorem Spec.PassedValue.mono {e : Env} {ty : Byte} {p q : Nat} (h : PassedValue e ty p q) : p ≤ q := by
  cases h with
  | text _ _ t m lb _ ha _ => have := ha.mono; omega
  | _ => omega

theorem Spec.TextBlock.mono {e : Env} {o p q : Nat} {s : List Char} (h : TextBlock e o p s q) : p ≤ q := by
  cases h <;> omega

theorem Spec.TextBlock.in_buf {e : Env} {o p q : Nat} {s : List Char} (h : TextBlock e o p s q) : p < e.buf.length := by
  cases h with
  | inline t _ bs _ _ hh => have := hh.le; rw [List.length_cons] at this; omega
  | elsewhere t _ _ bs _ _ _ hh _ => have := hh.le; rw [List.length_cons] at this; omega
  | absent t _ hh => have := hh.le; rw [List.length_cons] at this; omega

theorem Spec.PassedValue.reads {e : Env} {ty : Byte} {p q : Nat} (h : PassedValue e ty p q) (hb : e.buf.length < 2 ^ 63)
    (hq : q < 2 ^ 64) : (Rd.pass ty.toNat).Reads e p () q := by
  cases h with
  | null => exact .pure _
  | short ty _ ht => rcases ht with rfl | rfl <;> exact .skip hq
  | int ty _ v bs ht hv hh => rcases ht with rfl | rfl <;> exact .bind (.wzInt hv hh hb) (.pure _)
  | long _ v bs hv hh => exact .bind (.wzInt64 hv hh hb) (.pure _)
  | float _ hh =>
    have : (Rd.skipFloat).Reads e p () (p + 5) := .bind (.readU8 hh hb) (.skip (n := 4) (by omega))
    exact this
  | smallFloat _ b hne hh =>
    have : (Rd.skipFloat).Reads e p () (p + 1) := by
      refine .bind (.readU8 hh hb) ?_
      rw [if_neg (fun h => hne (byte_eq_of h))]
      exact .pure _
    exact this
  | double => exact .skip hq
  | text _ _ t m lb ht ha hh =>
    have : (Rd.skipStr).Reads e p () q := by
      refine .bind (.readU8 hh.head hb) ?_
      rw [if_pos (ht.imp (fun h => by rw [h]; rfl) (fun h => by rw [h]; rfl))]
      exact .bind (ha.reads hh.tail hb) (.pure _)
    exact this
  | textElsewhere _ t ht hh =>
    have : (Rd.skipStr).Reads e p () (p + 5) := by
      refine .bind (.readU8 hh hb) ?_
      rcases ht with rfl | rfl <;> exact .skip (n := 4) (by omega)
    exact this
  | noText _ t ht hh =>
    have : (Rd.skipStr).Reads e p () (p + 1) := by
      refine .bind (.readU8 hh hb) ?_
      rw [if_neg, if_neg]
      · exact .pure _
      · intro h; exact ht (by rcases h with h | h <;> simp [byte_eq_of h])
      · intro h; exact ht (by rcases h with h | h <;> simp [byte_eq_of h])
    exact this
  | block _ size hs hh =>
    have : (Rd.readU32 >>= fun size => Rd.skip size).Reads e p () (p + 4 + size) :=
      .bind (.readLE_enc hh (by simpa using hs) hb) (.skip hq)
    exact this

/-! ### the loop over the entries -/

/-- what the loop stops at -/
def StopsAt (cur : List Char) (last : Bool) (z : List Char × Byte) : Prop := if last then z.1 = cur else z = (cur, 9#8)

theorem stopsAt_true {cur : List Char} {z : List Char × Byte} : StopsAt cur true z ↔ z.1 = cur := by simp [StopsAt]
theorem stopsAt_false {cur : List Char} {z : List Char × Byte} : StopsAt cur false z ↔ z = (cur, 9#8) := by simp [StopsAt]

/-- what the loop over `n` entries from `p` gives, and where it ends -/
def FoundIs (e : Env) (o : Nat) (cur : List Char) (last : Bool) (n p q : Nat) : Rd.Found → Prop
  | .node x => last = true ∧ ∃ passed p1 p2 ty q', PassedAll e o passed p p1 ∧ passed.length < n ∧
      (∀ z ∈ passed, ¬ StopsAt cur last z) ∧ TextBlock e o p1 cur p2 ∧ Holds e.buf p2 [ty] ∧ Taken e o (.items [x]) p1 q'
  | .enter => last = false ∧ ∃ passed p1 p2 m p3, PassedAll e o passed p p1 ∧ passed.length < n ∧
      (∀ z ∈ passed, ¬ StopsAt cur last z) ∧ TextBlock e o p1 cur p2 ∧ Holds e.buf p2 [9#8] ∧ MetaBlock e o (p2 + 5) m p3 ∧
      q = p3 + 2
  | .none => ∃ passed, PassedAll e o passed p q ∧ passed.length = n ∧ ∀ z ∈ passed, ¬ StopsAt cur last z

theorem FoundIs.cons {e : Env} {o : Nat} {cur name : List Char} {last : Bool} {n p p1 p2 q : Nat} {ty : Byte} {r : Rd.Found}
    (hn : TextBlock e o p name p1) (ht : Holds e.buf p1 [ty]) (hv : PassedValue e ty (p1 + 1) p2)
    (hs : ¬ StopsAt cur last (name, ty)) (h : FoundIs e o cur last n p2 q r) : FoundIs e o cur last (n + 1) p q r := by
  have key : ∀ {passed : List (List Char × Byte)}, (∀ z ∈ passed, ¬ StopsAt cur last z) →
      ∀ z ∈ (name, ty) :: passed, ¬ StopsAt cur last z := by
    intro passed h z hz
    rcases List.mem_cons.mp hz with rfl | hz
    · exact hs
    · exact h z hz
  cases r with
  | node x =>
    obtain ⟨h0, passed, a, b, c, d, h1, h2, h3, h4⟩ := h
    exact ⟨h0, (name, ty) :: passed, a, b, c, d, .cons _ _ _ _ _ _ _ hn ht hv h1, by rw [List.length_cons]; omega, key h3, h4⟩
  | enter =>
    obtain ⟨h0, passed, a, b, c, d, h1, h2, h3, h4⟩ := h
    exact ⟨h0, (name, ty) :: passed, a, b, c, d, .cons _ _ _ _ _ _ _ hn ht hv h1, by rw [List.length_cons]; omega, key h3, h4⟩
  | none =>
    obtain ⟨passed, h1, h2, h3⟩ := h
    exact ⟨(name, ty) :: passed, .cons _ _ _ _ _ _ _ hn ht hv h1, by rw [List.length_cons]; omega, key h3⟩

theorem found_of_read {e : Env} {o : Nat} {ext : Rd.Ext} (hb : e.buf.length < 2 ^ 63) (hm : e.mode = .checked)
    (hx : SoundExt e o ext) (cur : List Char) (last : Bool) : ∀ (n : Nat) (r : Rd.Found) (c c' : Cur),
    (Rd.findItems ext o cur last n).run e c = (.ok r, c') → FoundIs e o cur last n c.pos c'.pos r
  | 0, r, c, c', h => by cases h; exact ⟨[], .nil _, rfl, fun _ h => nomatch h⟩
  | n + 1, r, c, c', h => by
    rw [Rd.findItems] at h
    obtain ⟨name, c1, h1, h⟩ := Rd.bind_inv h
    have hn := textBlock_of_read hb hm h1
    obtain ⟨v, c2, h2, h⟩ := Rd.bind_inv h
    obtain ⟨ty, rfl, hc2, hty⟩ := byte_held hm h2
    by_cases hl : name = cur ∧ last = true
    · rw [if_pos hl] at h
      obtain ⟨x, c3, h3, h⟩ := Rd.bind_inv h
      cases h
      have hi : (Rd.parseItems ext o 1).run e c = (.ok [x], c') := by
        show ((Rd.readWzStringBlock o >>= fun name => Rd.readU8 >>= fun ty => Rd.parseNode ext o name ty) >>= fun x =>
          Rd.parseItems ext o 0 >>= fun xs => pure (x :: xs)).run e c = _
        simp only [Rd.bind_run, h1, h2, h3]
        rfl
      obtain ⟨rfl, rfl⟩ := hl
      exact ⟨rfl, [], c.pos, c1.pos, ty, c'.pos, .nil _, by simp, (fun _ h => nomatch h), hn, hty, (items_of_read hb hm hx _ _ _ _ hi).2⟩
    · rw [if_neg hl] at h
      have pass : ∀ {c3 : Cur}, ¬ (name = cur ∧ ty.toNat = 9) → (Rd.pass ty.toNat).run e c2 = (.ok (), c3) →
          (Rd.findItems ext o cur last n).run e c3 = (.ok r, c') → FoundIs e o cur last (n + 1) c.pos c'.pos r := by
        intro c3 hne hp hr
        have hp' := passed_of_read hb hm hp
        rw [hc2] at hp'
        refine .cons hn hty hp' ?_ (found_of_read hb hm hx cur last n r c3 c' hr)
        cases last with
        | true => rw [stopsAt_true]; exact fun h => hl ⟨h, rfl⟩
        | false =>
          rw [stopsAt_false]
          intro h
          injection h with h1 h2
          exact hne ⟨h1, by rw [h2]; rfl⟩
      by_cases h9 : ty.toNat = 9
      · rw [if_pos h9] at h
        by_cases hc : name = cur
        · rw [if_pos hc] at h
          obtain ⟨_, c3, h3, h⟩ := Rd.bind_inv h
          have hc3 := Rd.skip_inv hm h3
          obtain ⟨m, c4, h4, h⟩ := Rd.bind_inv h
          have hk := metaBlock_of_read hb hm h4
          obtain ⟨_, c5, h5, h⟩ := Rd.bind_inv h
          have hc5 := Rd.skip_inv hm h5
          cases h
          have hlast : last = false := by
            cases last with
            | false => rfl
            | true => exact absurd ⟨hc, rfl⟩ hl
          refine ⟨hlast, [], c.pos, c1.pos, m, c4.pos, .nil _, by simp, (fun _ h => nomatch h), hc ▸ hn, by rw [← byte_eq_of h9]; exact hty, ?_, by rw [hc5]⟩
          rw [hc3, hc2] at hk
          exact hk
        · rw [if_neg hc] at h
          obtain ⟨size, c3, h3, h⟩ := Rd.bind_inv h
          obtain ⟨_, c4, h4, h⟩ := Rd.bind_inv h
          refine pass (fun h => hc h.1) ?_ h
          unfold Rd.pass
          rw [if_pos h9]
          simp only [Rd.bind_run, h3, h4]
      · rw [if_neg h9] at h
        obtain ⟨_, c3, h3, h⟩ := Rd.bind_inv h
        refine pass (fun h => h9 h.2) ?_ h
        unfold Rd.pass
        rw [if_neg h9]
        exact h3

theorem Spec.PassedAll.mono {e : Env} {o : Nat} {l : List (List Char × Byte)} {p q : Nat} (h : PassedAll e o l p q) : p ≤ q := by
  induction h with
  | nil => exact Nat.le_refl _
  | cons p p1 p2 q name ty rest h1 _ h3 _ ih =>
    have a1 := h1.mono
    have a3 := h3.mono
    omega

theorem findItems_pass {ext : Rd.Ext} {e : Env} {o p p1 p2 n q : Nat} {cur name : List Char} {last : Bool} {ty : Byte} {x : Rd.Found}
    (hb : e.buf.length < 2 ^ 63) (hn : TextBlock e o p name p1) (ht : Holds e.buf p1 [ty]) (hv : PassedValue e ty (p1 + 1) p2)
    (hp : p2 < 2 ^ 64) (hs : ¬ StopsAt cur last (name, ty)) (h : (Rd.findItems ext o cur last n).Reads e p2 x q) :
    (Rd.findItems ext o cur last (n + 1)).Reads e p x q := by
  rw [Rd.findItems]
  refine .bind (hn.reads hb) (.bind (.readU8 ht hb) ?_)
  have hv' := hv.reads hb hp
  unfold Rd.pass at hv'
  rw [if_neg]
  · by_cases h9 : ty.toNat = 9
    · rw [if_pos h9, if_neg]
      · rw [if_pos h9] at hv'
        have := Rd.Reads.bind hv' (f := fun _ => Rd.findItems ext o cur last n) h
        intro c hc
        obtain ⟨c', h1, h2⟩ := this c hc
        refine ⟨c', ?_, h2⟩
        rw [← h1]
        simp only [Rd.bind_run]
        cases hr : Rd.readU32.run e c with
        | mk r c1 => cases r <;> rfl
      · intro hc
        cases last with
        | true => exact hs (stopsAt_true.mpr hc)
        | false => exact hs (stopsAt_false.mpr (by rw [hc, byte_eq_of h9]))
    · rw [if_neg h9]
      rw [if_neg h9] at hv'
      exact .bind hv' h
  · rintro ⟨hc, rfl⟩
    exact hs (stopsAt_true.mpr hc)

theorem findItems_passAll {ext : Rd.Ext} {e : Env} {o p p1 : Nat} {cur : List Char} {last : Bool} {passed : List (List Char × Byte)}
    (hb : e.buf.length < 2 ^ 63) (hp : PassedAll e o passed p p1) :
    p1 < 2 ^ 64 → (∀ z ∈ passed, ¬ StopsAt cur last z) → ∀ {n q : Nat} {x : Rd.Found},
    (Rd.findItems ext o cur last n).Reads e p1 x q → (Rd.findItems ext o cur last (passed.length + n)).Reads e p x q := by
  induction hp with
  | nil p => intro _ _ n q x h; rw [List.length_nil, Nat.zero_add]; exact h
  | cons p p1 p2 q name ty rest h1 h2 h3 h4 ih =>
    intro hq hs n r x h
    rw [List.length_cons, Nat.add_right_comm]
    have := h4.mono
    exact findItems_pass hb h1 h2 h3 (by omega) (hs _ List.mem_cons_self)
      (ih hq (fun z hz => hs z (List.mem_cons_of_mem _ hz)) h)

theorem findItems_here {e : Env} {o p p1 q n f : Nat} {cur : List Char} {x : List Char × PNode} (hb : e.buf.length < 2 ^ 63)
    (hn : TextBlock e o p cur p1) (h : (Rd.parseItems (Rd.parseExt o f) o 1).Reads e p [x] q) :
    (Rd.findItems (Rd.parseExt o f) o cur true (n + 1)).Reads e p (.node x) q := by
  intro c hc
  obtain ⟨c', h1, h2⟩ := h c hc
  replace h1 : ((Rd.readWzStringBlock o >>= fun name => Rd.readU8 >>= fun ty => Rd.parseNode (Rd.parseExt o f) o name ty) >>= fun x =>
    Rd.parseItems (Rd.parseExt o f) o 0 >>= fun xs => pure (x :: xs)).run e c = _ := h1
  obtain ⟨x', c1, k1, h1⟩ := Rd.bind_inv h1
  obtain ⟨xs, c2, k2, h1⟩ := Rd.bind_inv h1
  cases k2
  cases h1
  obtain ⟨name, c3, k3, k1⟩ := Rd.bind_inv k1
  obtain ⟨c4, k4, _⟩ := hn.reads hb c hc
  rw [k4] at k3
  cases k3
  obtain ⟨ty, c5, k5, k1⟩ := Rd.bind_inv k1
  refine ⟨c', ?_, h2⟩
  rw [Rd.findItems]
  simp only [Rd.bind_run, k4, k5, and_self, if_true, k1]
  rfl

theorem findItems_enter {ext : Rd.Ext} {e : Env} {o p p1 p2 n : Nat} {cur : List Char} {m : StrMeta} (hb : e.buf.length < 2 ^ 63)
    (hn : TextBlock e o p cur p1) (ht : Holds e.buf p1 [9#8]) (hk : MetaBlock e o (p1 + 5) m p2) (hp : p2 + 2 < 2 ^ 64) :
    (Rd.findItems ext o cur false (n + 1)).Reads e p .enter (p2 + 2) := by
  rw [Rd.findItems]
  refine .bind (hn.reads hb) (.bind (.readU8 ht hb) ?_)
  rw [if_neg (by simp), if_pos (show (9#8 : Byte).toNat = 9 from rfl), if_pos rfl]
  have := ht.le
  exact .bind (.skip (n := 4) (by rw [List.length_cons] at this; omega)) (.bind (hk.reads hb) (.bind (.skip hp) (.pure _)))

/-! ### the loop over the components -/

theorem reached_of_read {e : Env} {o : Nat} {ext : Rd.Ext} (hb : e.buf.length < 2 ^ 63) (hm : e.mode = .checked)
    (hx : SoundExt e o ext) : ∀ (rest : List (List Char)) (cur : List Char) (x : List Char × PNode) (c c' : Cur),
    (Rd.getNodeLoop ext o cur rest).run e c = (.ok x, c') → Reached e o cur rest c.pos x
  | [], cur, x, c, c', h => by
    rw [Rd.getNodeLoop] at h
    obtain ⟨n, c1, h1, h⟩ := Rd.bind_inv h
    obtain ⟨nb, n1, n2, rfl⟩ := Props.C01_int32_only _ _ _ _ hb h1
    obtain ⟨r, c2, h2, h⟩ := Rd.bind_inv h
    have hr := found_of_read hb hm hx cur true _ _ _ _ h2
    cases r with
    | node y =>
      cases h
      obtain ⟨_, passed, p1, p2, ty, q, k1, k2, k3, k4, k5, k6⟩ := hr
      exact .last cur _ p1 p2 q ty x ⟨n, nb, passed, n1, n2, k1, by omega, fun z hz h => k3 z hz (stopsAt_true.mpr h), rfl, k4, k5⟩ k6
    | enter => cases h
    | none => cases h
  | next :: rest, cur, x, c, c', h => by
    rw [Rd.getNodeLoop] at h
    obtain ⟨n, c1, h1, h⟩ := Rd.bind_inv h
    obtain ⟨nb, n1, n2, rfl⟩ := Props.C01_int32_only _ _ _ _ hb h1
    obtain ⟨r, c2, h2, h⟩ := Rd.bind_inv h
    have hr := found_of_read hb hm hx cur false _ _ _ _ h2
    cases r with
    | node y => exact absurd hr.1 (by decide)
    | enter =>
      obtain ⟨_, passed, p1, p2, m, p3, k1, k2, k3, k4, k5, k6, k7⟩ := hr
      have ih := reached_of_read hb hm hx rest next x c2 c' h
      rw [k7] at ih
      exact .enter cur next rest _ p1 p2 p3 m x
        ⟨n, nb, passed, n1, n2, k1, by omega, fun z hz h => k3 z hz (stopsAt_false.mpr h), rfl, k4, k5⟩ k6 ih
    | none =>
      obtain ⟨passed, k1, k2, k3⟩ := hr
      exact .stay cur next rest _ c2.pos x ⟨n, nb, passed, n1, n2, k1, k2, fun z hz h => k3 z hz (stopsAt_false.mpr h)⟩
        (reached_of_read hb hm hx rest cur x c2 c' h)

theorem Spec.FirstAt.in_buf {e : Env} {o p p1 p2 : Nat} {P : List Char × Byte → Prop} {y : List Char × Byte}
    (h : FirstAt e o P p p1 p2 y) : p ≤ e.buf.length := by
  obtain ⟨n, nb, _, _, h, _⟩ := h
  have := h.le
  omega

theorem Spec.NoneAt.in_buf {e : Env} {o p q : Nat} {P : List Char × Byte → Prop} (h : NoneAt e o P p q) : p ≤ e.buf.length := by
  obtain ⟨n, nb, _, _, h, _⟩ := h
  have := h.le
  omega

theorem Spec.Reached.in_buf {e : Env} {o p : Nat} {cur : List Char} {rest : List (List Char)} {x : List Char × PNode}
    (h : Reached e o cur rest p x) : p ≤ e.buf.length := by
  induction h with
  | last cur p p1 p2 q ty x h ht => exact h.in_buf
  | enter cur next rest p p1 p2 p3 m x h hk hr _ => exact h.in_buf
  | stay cur next rest p p1 x h hr _ => exact h.in_buf

theorem Spec.NotReached.in_buf {e : Env} {o p : Nat} {cur : List Char} {rest : List (List Char)}
    (h : NotReached e o cur rest p) : p ≤ e.buf.length := by
  induction h with
  | last cur p q h hq => exact h.in_buf
  | enter cur next rest p p1 p2 p3 m h hk hr _ => exact h.in_buf
  | stay cur next rest p p1 h hr _ => exact h.in_buf

/-- the entries up to the one that is entered -/
theorem first_enters {ext : Rd.Ext} {e : Env} {o p p1 p2 p3 : Nat} {cur : List Char} {m : StrMeta} (hb : e.buf.length < 2 ^ 63)
    (h : FirstAt e o (fun z => z = (cur, 9#8)) p p1 p2 (cur, 9#8)) (hk : MetaBlock e o (p2 + 5) m p3) (hp : p3 + 2 ≤ e.buf.length) :
    ∃ (n : Int) (p0 : Nat), Rd.readWzInt.Reads e p n p0 ∧ (Rd.findItems ext o cur false n.toNat).Reads e p0 .enter (p3 + 2) := by
  obtain ⟨n, nb, passed, n1, n2, k1, k2, k3, _, k4, k5⟩ := h
  have l4 := k4.in_buf
  refine ⟨n, _, .wzInt n1 n2 hb, ?_⟩
  have := findItems_passAll (ext := ext) (cur := cur) (last := false) hb k1 (by omega) (fun z hz h => k3 z hz (stopsAt_false.mp h))
    (findItems_enter (n := n.toNat - passed.length - 1) hb k4 k5 hk (by omega))
  rw [show passed.length + (n.toNat - passed.length - 1 + 1) = n.toNat by omega] at this
  exact this

theorem none_passes {ext : Rd.Ext} {e : Env} {o p q : Nat} {cur : List Char} {last : Bool} {P : List Char × Byte → Prop} (hb : e.buf.length < 2 ^ 63)
    (hP : ∀ z, StopsAt cur last z → P z) (h : NoneAt e o P p q) (hq : q < 2 ^ 64) :
    ∃ (n : Int) (p0 : Nat), Rd.readWzInt.Reads e p n p0 ∧ (Rd.findItems ext o cur last n.toNat).Reads e p0 .none q := by
  obtain ⟨n, nb, passed, n1, n2, k1, k2, k3⟩ := h
  refine ⟨n, _, .wzInt n1 n2 hb, ?_⟩
  have := findItems_passAll (ext := ext) (cur := cur) (last := last) hb k1 hq (fun z hz h => k3 z hz (hP z h)) (n := 0) (.pure _)
  rw [← k2]
  exact this

theorem Spec.Reached.reads {e : Env} {o p : Nat} {cur : List Char} {rest : List (List Char)} {x : List Char × PNode} (hb : e.buf.length < 2 ^ 63)
    (h : Reached e o cur rest p x) : ∃ N, ∀ f, N ≤ f → ∃ q, (Rd.getNodeLoop (Rd.parseExt o f) o cur rest).Reads e p x q := by
  induction h with
  | last cur p p1 p2 q ty x h ht =>
    obtain ⟨n, nb, passed, n1, n2, k1, k2, k3, _, k4, k5⟩ := h
    obtain ⟨N, hN⟩ := ht.reads hb
    refine ⟨N, fun f hf => ⟨q, ?_⟩⟩
    rw [Rd.getNodeLoop]
    have l4 := k4.in_buf
    have := findItems_passAll (ext := Rd.parseExt o f) (cur := cur) (last := true) hb k1 (by omega) (fun z hz h => k3 z hz (stopsAt_true.mp h))
      (findItems_here (n := n.toNat - passed.length - 1) hb k4 (hN f hf))
    rw [show passed.length + (n.toNat - passed.length - 1 + 1) = n.toNat by omega] at this
    exact .bind (.wzInt n1 n2 hb) (.bind this (.pure _))
  | enter cur next rest p p1 p2 p3 m x h hk hr ih =>
    obtain ⟨N, hN⟩ := ih
    refine ⟨N, fun f hf => ?_⟩
    obtain ⟨q, hq⟩ := hN f hf
    obtain ⟨n, p0, h1, h2⟩ := first_enters (ext := Rd.parseExt o f) hb h hk hr.in_buf
    refine ⟨q, ?_⟩
    rw [Rd.getNodeLoop]
    exact .bind h1 (.bind h2 hq)
  | stay cur next rest p p1 x h hr ih =>
    obtain ⟨N, hN⟩ := ih
    refine ⟨N, fun f hf => ?_⟩
    obtain ⟨q, hq⟩ := hN f hf
    have := hr.in_buf
    obtain ⟨n, p0, h1, h2⟩ := none_passes (ext := Rd.parseExt o f) (cur := cur) (last := false) hb (fun z h => stopsAt_false.mp h) h (by omega)
    refine ⟨q, ?_⟩
    rw [Rd.getNodeLoop]
    exact .bind h1 (.bind h2 hq)

theorem Spec.NotReached.fails {e : Env} {o p : Nat} {cur : List Char} {rest : List (List Char)} {ext : Rd.Ext} (hb : e.buf.length < 2 ^ 63)
    (h : NotReached e o cur rest p) : ∀ c : Cur, c.pos = p → ((Rd.getNodeLoop ext o cur rest).run e c).1 = .error (.lib "NodeNotFound") := by
  induction h with
  | last cur p q h hq =>
    intro c hc
    obtain ⟨n, p0, h1, h2⟩ := none_passes (ext := ext) (cur := cur) (last := true) hb (fun z h => stopsAt_true.mp h) h hq
    obtain ⟨c1, k1, l1⟩ := h1 c hc
    obtain ⟨c2, k2, _⟩ := h2 c1 l1
    rw [Rd.getNodeLoop]
    simp only [Rd.bind_run, k1, k2]
    rfl
  | enter cur next rest p p1 p2 p3 m h hk hr ih =>
    intro c hc
    obtain ⟨n, p0, h1, h2⟩ := first_enters (ext := ext) hb h hk hr.in_buf
    obtain ⟨c1, k1, l1⟩ := h1 c hc
    obtain ⟨c2, k2, l2⟩ := h2 c1 l1
    rw [Rd.getNodeLoop]
    simp only [Rd.bind_run, k1, k2]
    exact ih c2 l2
  | stay cur next rest p p1 h hr ih =>
    intro c hc
    have := hr.in_buf
    obtain ⟨n, p0, h1, h2⟩ := none_passes (ext := ext) (cur := cur) (last := false) hb (fun z h => stopsAt_false.mp h) h (by omega)
    obtain ⟨c1, k1, l1⟩ := h1 c hc
    obtain ⟨c2, k2, l2⟩ := h2 c1 l1
    rw [Rd.getNodeLoop]
    simp only [Rd.bind_run, k1, k2]
    exact ih c2 l2

/-! ### the bound on the depth -/

theorem findItems_le {x y : Rd.Ext} (h : ExtLe x y) (o : Nat) (cur : List Char) (last : Bool) (n : Nat) :
    (Rd.findItems x o cur last n).Le (Rd.findItems y o cur last n) := by
  induction n with
  | zero => exact .refl _
  | succ n ih =>
    rw [Rd.findItems, Rd.findItems]
    refine .same fun name => .same fun ty => ?_
    split
    · exact .bind (parseNode_le h _ _ _) fun _ => .refl _
    · split
      · split
        · exact .refl _
        · exact .same fun _ => .same fun _ => ih
      · exact .same fun _ => ih

theorem getNodeLoop_le {x y : Rd.Ext} (h : ExtLe x y) (o : Nat) (rest : List (List Char)) :
    ∀ cur, (Rd.getNodeLoop x o cur rest).Le (Rd.getNodeLoop y o cur rest) := by
  induction rest with
  | nil =>
    intro cur
    rw [Rd.getNodeLoop, Rd.getNodeLoop]
    exact .same fun _ => .bind (findItems_le h _ _ _ _) fun _ => .refl _
  | cons next rest ih =>
    intro cur
    rw [Rd.getNodeLoop, Rd.getNodeLoop]
    refine .same fun _ => .bind (findItems_le h _ _ _ _) fun r => ?_
    cases r with
    | node x => exact .refl _
    | enter => exact ih _
    | none => exact ih _

/-! ### passing over and reading -/

theorem Spec.TextBlock.meta {e : Env} {o p q : Nat} {s : List Char} (hb : e.buf.length < 2 ^ 63) (hm : e.mode = .checked)
    (h : TextBlock e o p s q) : ∃ m, MetaBlock e o p m q := by
  have key : ∀ {x : Nat} {bs : Bytes}, TextIs e.ks s bs → Holds e.buf x bs →
      ∃ m lb, Announced x lb m (x + bs.length) ∧ Holds e.buf x lb := by
    intro x bs hs hh
    obtain ⟨c', h1, h2⟩ := hs.reads hh hb ⟨x, 0⟩ rfl
    have h3 := eager_lazy hb h1
    unfold lazyString at h3
    obtain ⟨m, c1, h4, h3⟩ := Rd.bind_inv h3
    obtain ⟨_, c2, h5, h3⟩ := Rd.bind_inv h3
    cases h5
    obtain ⟨_, h6⟩ := Rd.lift_inv h3
    obtain ⟨lb, h7, h8⟩ := announced_of_read hb hm h4
    rw [← h6, h2] at h7
    exact ⟨m, lb, h7, h8⟩
  cases h with
  | inline t _ bs ht hs hh =>
    obtain ⟨m, lb, h1, h2⟩ := key hs hh.tail
    refine ⟨m, .inline _ _ t m lb ht ?_ (Holds.cons_of hh.head h2)⟩
    rw [← Nat.add_assoc]
    exact h1
  | elsewhere t n _ bs ht hn hs hh hh2 =>
    obtain ⟨m, lb, h1, h2⟩ := key hs hh2
    exact ⟨m, .elsewhere _ _ t n m lb ht hn h1 hh h2⟩
  | absent t ht hh => exact ⟨_, .absent _ t ht hh⟩

theorem Spec.PlainIs.passed {e : Env} {p : Nat} {ty : Byte} {v : PObj} {bs : Bytes} (h : PlainIs ty v bs) (hh : Holds e.buf p bs) :
    PassedValue e ty p (p + bs.length) := by
  cases h with
  | null => exact .null _
  | short ty v ht _ _ => rw [length_toLE]; exact .short _ _ ht
  | int ty v bs ht hv => exact .int _ _ v bs ht hv hh
  | long v bs hv => exact .long _ v bs hv hh
  | float bits _ => rw [List.length_cons, length_toLE]; exact .float _ hh.head
  | smallFloat b bits hne _ => exact .smallFloat _ b hne hh
  | double bits _ => rw [length_toLE]; exact .double _

theorem Spec.MetaBlock.passed {e : Env} {o p q : Nat} {m : StrMeta} (h : MetaBlock e o p m q) : PassedValue e 8#8 p q := by
  cases h with
  | inline _ t _ lb ht ha hh => exact .text _ _ t _ lb ht ha hh
  | elsewhere r t n _ lb ht _ _ hh _ => exact .textElsewhere _ t ht hh.head
  | absent t ht hh => exact .noText _ t ht hh

/-- the first entry of a list -/
theorem taken_head {e : Env} {o p q : Nat} {x : List Char × PNode} {rest : List (List Char × PNode)}
    (h : Taken e o (.items (x :: rest)) p q) :
    ∃ p1 p2 name ty, TextBlock e o p name p1 ∧ Holds e.buf p1 [ty] ∧ PassedValue e ty (p1 + 1) p2 ∧
      Taken e o (.items [x]) p p2 ∧ Taken e o (.items rest) p2 q := by
  cases h with
  | plain _ p1 _ name ty v bs _ hn hv hh hr =>
    refine ⟨p1, p1 + (1 + bs.length), name, ty, hn, hh.head, ?_, .plain _ p1 _ name ty v bs [] hn hv hh (.nil _), hr⟩
    rw [← Nat.add_assoc]
    exact hv.passed hh.tail
  | str _ p1 p2 _ name m _ hn hh hs hr =>
    exact ⟨p1, p2, name, 8#8, hn, hh, hs.passed, .str _ p1 p2 _ name m [] hn hh hs (.nil _), hr⟩
  | block _ p1 r _ size name n _ hn hs hh ht hr =>
    exact ⟨p1, p1 + 5 + size, name, 9#8, hn, hh.head, .block (p1 + 1) size hs hh.tail,
      .block _ p1 r _ size name n [] hn hs hh ht (.nil _), hr⟩
  | strangeBlock _ p1 r _ size name point _ hn hs hh ht hr =>
    exact ⟨p1, p1 + 5 + size, name, 9#8, hn, hh.head, .block (p1 + 1) size hs hh.tail,
      .strangeBlock _ p1 r _ size name point [] hn hs hh ht (.nil _), hr⟩

theorem taken_split {e : Env} {o q : Nat} {x : List Char × PNode} {after : List (List Char × PNode)} :
    ∀ (before : List (List Char × PNode)) (p : Nat), Taken e o (.items (before ++ x :: after)) p q →
    ∃ lb p1 q1, PassedAll e o lb p p1 ∧ lb.length = before.length ∧ Taken e o (.items [x]) p1 q1
  | [], p, h => by
    obtain ⟨p1, p2, name, ty, _, _, _, h4, _⟩ := taken_head h
    exact ⟨[], p, p2, .nil _, rfl, h4⟩
  | y :: before, p, h => by
    obtain ⟨p1, p2, name, ty, h1, h2, h3, _, h5⟩ := taken_head h
    obtain ⟨lb, p3, q1, k1, k2, k3⟩ := taken_split before p2 h5
    exact ⟨(name, ty) :: lb, p3, q1, .cons _ _ _ _ _ _ _ h1 h2 h3 k1, by rw [List.length_cons, List.length_cons, k2], k3⟩

/-! ### there is only one way to pass over -/

theorem Spec.TextBlock.unique {e : Env} {o p q q' : Nat} {s s' : List Char} (hb : e.buf.length < 2 ^ 63) (h : TextBlock e o p s q)
    (h' : TextBlock e o p s' q') : s = s' ∧ q = q' := by
  obtain ⟨c, h1, h2⟩ := h.reads hb ⟨p, 0⟩ rfl
  obtain ⟨c', h1', h2'⟩ := h'.reads hb ⟨p, 0⟩ rfl
  rw [h1] at h1'
  cases h1'
  exact ⟨rfl, h2.symm.trans h2'⟩

theorem holds_one {buf : Bytes} {p : Nat} {a b : Byte} (h : Holds buf p [a]) (h' : Holds buf p [b]) : a = b := by
  obtain ⟨u, v, h1, l1⟩ := h
  obtain ⟨u', v', h2, l2⟩ := h'
  rw [h1, List.append_assoc, List.append_assoc] at h2
  have := (List.append_inj h2 (l1.trans l2.symm)).2
  exact (List.cons.inj this).1

theorem Spec.Announced.fits {p q : Nat} {lb : Bytes} {m : StrMeta} (h : Announced p lb m q) (hp : p ≤ 2 ^ 63) : q < 2 ^ 64 := by
  cases h <;> omega

theorem Spec.PassedValue.fits {e : Env} {ty : Byte} {p q : Nat} (h : PassedValue e ty p q) (hb : e.buf.length < 2 ^ 63)
    (hp : p ≤ e.buf.length) : q < 2 ^ 64 := by
  cases h with
  | text _ _ t m lb _ ha hh =>
    have := hh.le
    rw [List.length_cons] at this
    exact ha.fits (by omega)
  | int _ _ v bs _ _ hh => have := hh.le; omega
  | long _ v bs _ hh => have := hh.le; omega
  | _ => omega

theorem Spec.PassedValue.unique {e : Env} {ty : Byte} {p q q' : Nat} (hb : e.buf.length < 2 ^ 63) (hp : p ≤ e.buf.length)
    (h : PassedValue e ty p q) (h' : PassedValue e ty p q') : q = q' := by
  obtain ⟨c, h1, h2⟩ := h.reads hb (h.fits hb hp) ⟨p, 0⟩ rfl
  obtain ⟨c', h1', h2'⟩ := h'.reads hb (h'.fits hb hp) ⟨p, 0⟩ rfl
  rw [h1] at h1'
  cases h1'
  exact h2.symm.trans h2'

theorem Spec.PassedAll.unique {e : Env} {o : Nat} (hb : e.buf.length < 2 ^ 63) {l : List (List Char × Byte)} {p q : Nat} (h : PassedAll e o l p q) :
    ∀ {l' : List (List Char × Byte)} {q' : Nat}, PassedAll e o l' p q' → l.length = l'.length → l = l' ∧ q = q' := by
  induction h with
  | nil p =>
    intro l' q' h' hl
    cases h' with
    | nil => exact ⟨rfl, rfl⟩
    | cons => exact absurd hl (by simp)
  | cons p p1 p2 q name ty rest h1 h2 h3 h4 ih =>
    intro l' q' h' hl
    cases h' with
    | nil => exact absurd hl (by simp)
    | cons _ p1' p2' _ name' ty' rest' k1 k2 k3 k4 =>
      obtain ⟨rfl, rfl⟩ := h1.unique hb k1
      obtain rfl := holds_one h2 k2
      obtain rfl := h3.unique hb h2.le k3
      obtain ⟨rfl, rfl⟩ := ih k4 (by simpa using hl)
      exact ⟨rfl, rfl⟩

theorem passedAll_split {e : Env} {o q : Nat} {y : List Char × Byte} {lb : List (List Char × Byte)} :
    ∀ (la : List (List Char × Byte)) (p : Nat), PassedAll e o (la ++ y :: lb) p q →
    ∃ p1 p2, PassedAll e o la p p1 ∧ TextBlock e o p1 y.1 p2 ∧ Holds e.buf p2 [y.2]
  | [], p, h => by
    cases h with
    | cons _ p1 p2 _ name ty _ h1 h2 _ _ => exact ⟨p, p1, .nil _, h1, h2⟩
  | z :: la, p, h => by
    cases h with
    | cons _ p1 p2 _ name ty _ h1 h2 h3 h4 =>
      obtain ⟨p3, p4, k1, k2, k3⟩ := passedAll_split la p2 h4
      exact ⟨p3, p4, .cons _ _ _ _ _ _ _ h1 h2 h3 k1, k2, k3⟩

theorem Spec.PassedAll.fits {e : Env} {o : Nat} (hb : e.buf.length < 2 ^ 63) {l : List (List Char × Byte)} {p q : Nat} (h : PassedAll e o l p q) :
    p < 2 ^ 64 → q < 2 ^ 64 := by
  induction h with
  | nil p => exact id
  | cons p p1 p2 q name ty rest h1 h2 h3 h4 ih => exact fun _ => ih (h3.fits hb h2.le)

/-! ### comparing with the whole tree -/

theorem count_zero {ν : Type} {raw : List (List Char × ν)} {cur : List Char} (h : cur ∉ raw.map Prod.fst) {kids : List (List Char × ν)}
    (hk : kids = raw ∨ MergedKids raw kids) : cur ∉ kids.map Prod.fst := by
  rcases hk with rfl | ⟨hk, _⟩
  · exact h
  · rw [hk, mem_firsts]; exact h

theorem childAt_none {kids : List (List Char × PNode)} {cur : List Char} (h : cur ∉ kids.map Prod.fst) : childAt kids cur = none := by
  unfold childAt
  rw [Option.map_eq_none_iff, List.find?_eq_none]
  intro x hx hc
  exact h (List.mem_map.mpr ⟨x, hx, by simpa using hc⟩)

theorem childAt_first {before after : List (List Char × PNode)} {cur : List Char} {n : PNode} (h : cur ∉ before.map Prod.fst) :
    childAt (before ++ (cur, n) :: after) cur = some n := by
  unfold childAt
  rw [List.find?_append, List.find?_eq_none.mpr, Option.none_or, List.find?_cons_of_pos (by simp)]
  · rfl
  · intro x hx hc
    exact h (List.mem_map.mpr ⟨x, hx, by simpa using hc⟩)

/-- an entry whose name no other has is found, in the list and in the map made from it -/
theorem childAt_one {before after kids : List (List Char × PNode)} {cur : List Char} {n : PNode} (h1 : cur ∉ before.map Prod.fst)
    (h2 : cur ∉ after.map Prod.fst) (hk : kids = before ++ (cur, n) :: after ∨ MergedKids (before ++ (cur, n) :: after) kids) :
    childAt kids cur = some n := by
  rcases hk with rfl | hk
  · exact childAt_first h1
  · have hm : (cur, n) ∈ kids := (hk.2 cur n).mpr ⟨before, after, rfl, fun it hit hc => h2 (List.mem_map.mpr ⟨it, hit, hc⟩)⟩
    have hnd : (kids.map Prod.fst).Nodup := by rw [hk.1]; exact firsts_nodup _
    obtain ⟨b, a, rfl⟩ := List.append_of_mem hm
    refine childAt_first ?_
    rw [List.map_append, List.nodup_append] at hnd
    intro hc
    exact hnd.2.2 _ hc _ (by simp) rfl

theorem count_one_split {before after : List (List Char × PNode)} {cur : List Char} {n : PNode}
    (h : ((before ++ (cur, n) :: after).map Prod.fst).count cur ≤ 1) : cur ∉ before.map Prod.fst ∧ cur ∉ after.map Prod.fst := by
  rw [List.map_append, List.map_cons, List.count_append, List.count_cons_self] at h
  exact ⟨List.count_eq_zero.mp (by omega), List.count_eq_zero.mp (by omega)⟩

/-- the first block of a list: what it is taken for -/
theorem taken_property {e : Env} {o p p2 p3 q : Nat} {cur : List Char} {x : List Char × PNode} (hb : e.buf.length < 2 ^ 63)
    (h : Taken e o (.items [x]) p q) (hn : TextBlock e o p cur p2) (ht : Holds e.buf p2 [9#8])
    (hk : TextBlock e o (p2 + 5) "Property".toList p3) :
    ∃ raw kids q', x = (cur, .node .property kids) ∧ TakenList e o raw (p3 + 2) q' ∧ MergedKids raw kids := by
  cases h with
  | plain _ p1 _ name ty v bs _ hn' hv hh hr =>
    obtain ⟨rfl, rfl⟩ := hn.unique hb hn'
    obtain rfl := holds_one ht hh.head
    exact absurd rfl hv.ne9
  | str _ p1 p2' _ name m _ hn' hh hs hr =>
    obtain ⟨rfl, rfl⟩ := hn.unique hb hn'
    exact absurd (holds_one ht hh) (by decide)
  | block _ p1 r _ size name n _ hn' hs hh ht' hr =>
    obtain ⟨rfl, rfl⟩ := hn.unique hb hn'
    have ne : ∀ {t : List Char} {y : Nat}, TextBlock e o (p2 + 5) t y → t = "Property".toList := fun h => (h.unique hb hk).1
    generalize p2 + 5 + size = eob at ht'
    cases ht' with
    | property _ p1 _ _ nb raw kids h1 h2 h3 h4 h5 =>
      obtain ⟨_, rfl⟩ := h1.unique hb hk
      exact ⟨raw, kids, r, rfl, ⟨nb, h2, h3, h4⟩, h5⟩
    | canvas _ p1 _ _ b g h1 => exact absurd (ne h1) (by decide)
    | canvasKids _ p1 _ _ _ _ _ _ g h1 => exact absurd (ne h1) (by decide)
    | convex => exact absurd (ne ‹TextBlock e o (p2 + 5) "Shape2D#Convex2D".toList _›) (by decide)
    | vector => exact absurd (ne ‹TextBlock e o (p2 + 5) "Shape2D#Vector2D".toList _›) (by decide)
    | sound => exact absurd (ne ‹TextBlock e o (p2 + 5) "Sound_DX8".toList _›) (by decide)
    | uol => exact absurd (ne ‹TextBlock e o (p2 + 5) "UOL".toList _›) (by decide)
    | raw => exact absurd (ne ‹TextBlock e o (p2 + 5) "RawData".toList _›) (by decide)
    | rawKids => exact absurd (ne ‹TextBlock e o (p2 + 5) "RawData".toList _›) (by decide)
    | video => exact absurd (ne ‹TextBlock e o (p2 + 5) "Canvas#Video".toList _›) (by decide)
  | strangeBlock _ p1 r _ size name point _ hn' hs hh ht' hr =>
    obtain ⟨rfl, rfl⟩ := hn.unique hb hn'
    have ne : ∀ {t : List Char} {y : Nat}, TextBlock e o (p2 + 5) t y → t = "Property".toList := fun h => (h.unique hb hk).1
    generalize p2 + 5 + size = eob at ht'
    cases ht' with
    | unknown _ _ _ kind h1 h2 => exact absurd (ne h1 ▸ h2) (by decide)
    | strangeShape _ _ _ _ _ _ _ h1 => exact absurd (ne h1) (by decide)

theorem Spec.ListIs.split {e : Env} {o p q : Nat} {raw : List (List Char × PNode)} (hb : e.buf.length < 2 ^ 63) (h : ListIs e o raw p)
    {raw' : List (List Char × PNode)} (h' : TakenList e o raw' p q) : raw = raw' := by
  obtain ⟨nb, labels, q', h1, h2, h3, _⟩ := h
  exact (Props.C72_one_reading e o p q' q raw raw' hb ⟨nb, h1, h2, h3⟩ h').1

theorem getLast_next {α : Type} (a b : α) (l : List α) : (a :: b :: l).getLast (by simp) = (b :: l).getLast (by simp) := by
  rw [List.getLast_cons]

theorem wzInt_unique {e : Env} {p : Nat} {v w : Int} {bs bs' : Bytes} (hb : e.buf.length < 2 ^ 63) (h1 : IsWzInt 4 v bs)
    (h2 : Holds e.buf p bs) (k1 : IsWzInt 4 w bs') (k2 : Holds e.buf p bs') : v = w ∧ bs.length = bs'.length := by
  obtain ⟨c1, a1, l1⟩ := Rd.Reads.wzInt h1 h2 hb ⟨p, 0⟩ rfl
  obtain ⟨c2, a2, l2⟩ := Rd.Reads.wzInt k1 k2 hb ⟨p, 0⟩ rfl
  rw [a1] at a2
  cases a2
  exact ⟨rfl, by omega⟩

theorem taken_one_unique {e : Env} {o p q q' : Nat} {x x' : List Char × PNode} (hb : e.buf.length < 2 ^ 63)
    (h : Taken e o (.items [x]) p q) (h' : Taken e o (.items [x']) p q') : x = x' := by
  obtain ⟨N, hN⟩ := h.reads hb
  obtain ⟨N', hN'⟩ := h'.reads hb
  obtain ⟨c, h1, _⟩ := hN (N + N') (by omega) ⟨p, 0⟩ rfl
  obtain ⟨c', h1', _⟩ := hN' (N + N') (by omega) ⟨p, 0⟩ rfl
  have := h1.symm.trans h1'
  injection this with h2 _
  injection h2 with h2
  injection h2

/-- the first entry with some property is in the list -/
theorem first_mem {e : Env} {o p p1 p2 q q' : Nat} {raw : List (List Char × PNode)} {nb : Bytes} {P : List Char × Byte → Prop}
    {y : List Char × Byte} {x : List Char × PNode} (hb : e.buf.length < 2 ^ 63) (t1 : IsWzInt 4 raw.length nb) (t2 : Holds e.buf p nb)
    (t3 : Taken e o (.items raw) (p + nb.length) q) (h : FirstAt e o P p p1 p2 y) (hx : Taken e o (.items [x]) p1 q') : x ∈ raw := by
  obtain ⟨n0, nb0, passed, f1, f2, f3, f4, _⟩ := h
  obtain ⟨rfl, hnb⟩ := wzInt_unique hb f1 f2 t1 t2
  rw [hnb] at f3
  have hlt : passed.length < raw.length := by omega
  have hraw : raw = raw.take passed.length ++ raw[passed.length] :: raw.drop (passed.length + 1) := by
    rw [← List.drop_eq_getElem_cons hlt, List.take_append_drop]
  have hbl : (raw.take passed.length).length = passed.length := by rw [List.length_take]; omega
  rw [hraw] at t3
  obtain ⟨lb, p1', q1, j1, j2, j3⟩ := taken_split _ _ t3
  obtain ⟨rfl, rfl⟩ := f3.unique hb j1 (by omega)
  rw [taken_one_unique hb hx j3]
  exact List.getElem_mem _

theorem splitSlash_plain : ∀ (s : List Char), '/' ∉ s → splitSlash s = [s]
  | [], _ => rfl
  | c :: s, h => by
    rw [List.mem_cons, not_or] at h
    rw [splitSlash, if_neg (fun hc => h.1 hc.symm), splitSlash_plain s h.2]

/-- along a clear way direct access gives what the tree has -/
theorem clear_walk {e : Env} {o p : Nat} {cur : List Char} {rest : List (List Char)} (hb : e.buf.length < 2 ^ 63) (hm : e.mode = .checked)
    (h : ClearWay e o cur rest p) : ∀ {raw kids : List (List Char × PNode)} {q : Nat}, TakenList e o raw p q →
    (kids = raw ∨ MergedKids raw kids) →
    (∀ n, walk kids (cur :: rest) = some n → Reached e o cur rest p ((cur :: rest).getLast (by simp), n)) ∧
    (walk kids (cur :: rest) = none → NotReached e o cur rest p) := by
  induction h with
  | last cur p raw hl hc =>
    intro raw' kids q ht hk
    obtain rfl := hl.split hb ht
    obtain ⟨nb, labels, q', h1, h2, h3, h4, h5⟩ := hl
    have hlen : labels.length = raw.length := by simpa using congrArg List.length h5
    have hle := h2.le
    show (∀ n, childAt kids cur = some n → _) ∧ (childAt kids cur = none → _)
    by_cases hin : cur ∈ raw.map Prod.fst
    · obtain ⟨⟨_, n⟩, hx, rfl⟩ := List.mem_map.mp hin
      obtain ⟨before, after, rfl⟩ := List.append_of_mem hx
      obtain ⟨hb1, hb2⟩ := count_one_split hc
      have hca := childAt_one hb1 hb2 hk
      refine ⟨fun n' hn' => ?_, fun hn' => by rw [hca] at hn'; cases hn'⟩
      rw [hca] at hn'
      cases hn'
      rw [List.map_append, List.map_cons] at h5
      obtain ⟨la, lb', rfl, e1, e2⟩ := List.map_eq_append_iff.mp h5
      obtain ⟨y, lb, rfl, e3, e4⟩ := List.map_eq_cons_iff.mp e2
      obtain ⟨p1, p2, k1, k2, k3⟩ := passedAll_split la _ h4
      obtain ⟨la', p1', q1, j1, j2, j3⟩ := taken_split before _ h3
      have hll : la.length = before.length := by simpa using congrArg List.length e1
      obtain ⟨rfl, rfl⟩ := k1.unique hb j1 (by omega)
      obtain ⟨yn, yt⟩ := y
      dsimp only at e3 k2 k3
      subst e3
      refine .last _ p p1 p2 q1 yt _ ⟨_, nb, la, h1, h2, k1, by simp only [List.length_append, List.length_cons]; omega, ?_, rfl, k2, k3⟩ j3
      intro z hz hzc
      exact hb1 (by rw [← e1, ← hzc]; exact List.mem_map.mpr ⟨z, hz, rfl⟩)
    · rw [childAt_none (count_zero hin hk)]
      refine ⟨fun n hn => (by cases hn), fun _ => .last cur p q' ⟨_, nb, labels, h1, h2, h4, by omega, ?_⟩ (h4.fits hb (by omega))⟩
      intro z hz hzc
      exact hin (by rw [← h5, ← hzc]; exact List.mem_map.mpr ⟨z, hz, rfl⟩)
  | step cur next rest p p1 p2 p3 raw hl hc hf hk3 hr ih =>
    intro raw' kids q ht hk
    obtain rfl := hl.split hb ht
    obtain ⟨n0, nb0, passed, f1, f2, f3, f4, f5, _, f6, f7⟩ := hf
    obtain ⟨nb, t1, t2, t3⟩ := ht
    obtain ⟨rfl, hnb⟩ := wzInt_unique hb f1 f2 t1 t2
    rw [hnb] at f3
    have hlt : passed.length < raw.length := by omega
    have hraw : raw = raw.take passed.length ++ raw[passed.length] :: raw.drop (passed.length + 1) := by
      rw [← List.drop_eq_getElem_cons hlt, List.take_append_drop]
    have hbl : (raw.take passed.length).length = passed.length := by rw [List.length_take]; omega
    generalize raw.take passed.length = before at hraw hbl
    generalize raw.drop (passed.length + 1) = after at hraw
    generalize raw[passed.length] = x at hraw
    subst hraw
    obtain ⟨lb, p1', q1, j1, j2, j3⟩ := taken_split before _ t3
    obtain ⟨rfl, rfl⟩ := f3.unique hb j1 (by omega)
    obtain ⟨raw2, kids2, q2, rfl, m1, m2⟩ := taken_property hb j3 f6 f7 hk3
    obtain ⟨hb1, hb2⟩ := count_one_split (Nat.le_of_eq hc)
    have hca := childAt_one hb1 hb2 hk
    have hw : walk kids (cur :: next :: rest) = walk kids2 (next :: rest) := by
      rw [walk, hca]
      · rfl
      · intro h; cases h
    obtain ⟨m, hm'⟩ := hk3.meta hb hm
    have hfirst : FirstAt e o (fun z => z = (cur, 9#8)) p p1 p2 (cur, 9#8) :=
      ⟨_, nb0, passed, f1, f2, by rw [hnb]; exact f3, f4, fun z hz h => f5 z hz (by rw [h]), rfl, f6, f7⟩
    rw [hw]
    obtain ⟨i1, i2⟩ := ih m1 (.inr m2)
    refine ⟨fun n hn => ?_, fun hn => .enter cur next rest p p1 p2 p3 m hfirst hm' (i2 hn)⟩
    rw [getLast_next]
    exact .enter cur next rest p p1 p2 p3 m _ hfirst hm' (i1 n hn)

end Wz
