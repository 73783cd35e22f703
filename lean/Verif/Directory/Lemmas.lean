import Verif.Directory.Spec
import Verif.Reader.Reads
import Verif.Offset.Props
/-!
# Reading stored directories
-/

set_option autoImplicit false
variable {α β γ : Type}

namespace Wz
open Spec

/-! ### lists -/

/-- `l` and `r` have the same length and corresponding elements are related -/
inductive All2 (R : α → β → Prop) : List α → List β → Prop
  | nil : All2 R [] []
  | cons {a : α} {b : β} {l : List α} {r : List β} : R a b → All2 R l r → All2 R (a :: l) (b :: r)

theorem All2.snoc {R : α → β → Prop} {l : List α} {r : List β} {a : α} {b : β} (h : All2 R l r) (hab : R a b) :
    All2 R (l ++ [a]) (r ++ [b]) := by
  induction h with
  | nil => exact .cons hab .nil
  | cons h _ ih => exact .cons h ih

theorem All2.mapM {f : α → Except Err β} {l : List α} {r : List β} (h : All2 (fun a b => f a = .ok b) l r) :
    l.mapM f = .ok r := by
  induction h with
  | nil => rfl
  | cons h _ ih => rw [List.mapM_cons, h, ih]; rfl

theorem All2.imp {R S : α → β → Prop} (hi : ∀ a b, R a b → S a b) {l : List α} {r : List β} (h : All2 R l r) :
    All2 S l r := by
  induction h with
  | nil => exact .nil
  | cons h _ ih => exact .cons (hi _ _ h) ih

theorem All2.length {R : α → β → Prop} {l : List α} {r : List β} (h : All2 R l r) : l.length = r.length := by
  induction h with
  | nil => rfl
  | cons _ _ ih => simp [ih]

theorem All2.append {R : α → β → Prop} {l l' : List α} {r r' : List β} (h : All2 R l r) (h' : All2 R l' r') :
    All2 R (l ++ l') (r ++ r') := by
  induction h with
  | nil => exact h'
  | cons h _ ih => exact .cons h ih

theorem All2.map_left {δ : Type} {R : α → β → Prop} {f : δ → α} {l : List δ} {r : List β}
    (h : All2 (fun d b => R (f d) b) l r) : All2 R (l.map f) r := by
  induction h with
  | nil => exact .nil
  | cons h _ ih => exact .cons h ih

theorem All2.mem_right {R : α → β → Prop} {l : List α} {r : List β} (h : All2 R l r) {b : β} (hb : b ∈ r) :
    ∃ a ∈ l, R a b := by
  induction h with
  | nil => cases hb
  | @cons a' b' l r h _ ih =>
    cases hb with
    | head => exact ⟨a', List.mem_cons_self, h⟩
    | tail _ hb =>
      obtain ⟨a, ha, h⟩ := ih hb
      exact ⟨a, List.mem_cons_of_mem _ ha, h⟩

theorem mapM_all2 {f : α → Except Err β} {l : List α} {r : List β} (h : l.mapM f = .ok r) :
    All2 (fun a b => f a = .ok b) l r := by
  induction l generalizing r with
  | nil => cases h; exact .nil
  | cons a l ih =>
    rw [List.mapM_cons] at h
    cases ha : f a with
    | error x => rw [ha] at h; cases h
    | ok b =>
      rw [ha] at h
      cases hl : l.mapM f with
      | error x => rw [hl] at h; cases h
      | ok bs =>
        rw [hl] at h
        cases h
        exact .cons ha (ih hl)

theorem childInsertAll_nodup {ν : Type} (l m : List (List Char × ν)) (h : ((m ++ l).map Prod.fst).Nodup) :
    childInsertAll m l = m ++ l := by
  induction l generalizing m with
  | nil => simp [childInsertAll]
  | cons a l ih =>
    have e : childInsert m a.1 a.2 = m ++ [a] := by
      unfold childInsert
      rw [if_neg]
      simp only [List.any_eq_true, beq_iff_eq, not_exists, not_and]
      intro p hp he
      rw [List.map_append, List.nodup_append] at h
      exact h.2.2 p.1 (List.mem_map_of_mem hp) a.1 (by simp) he
    show childInsertAll (childInsert m a.1 a.2) l = _
    rw [e, ih]
    · simp
    · simpa using h

/-! ### one entry -/

/-- the entry `en` describes the item, except that its place is not yet known -/
structure EntryHalf (x : DirCtx) (en : Entry) (it : List Char × DNode) : Prop where
  name : en.name.Is x.env it.1
  node : ∃ t s, NodeIs t (offsetOf it.2) s it.2 ∧ en.ty = DirType.ofByte t.toNat ∧ en.size = s
  located : Located x it.2
  small : offsetOf it.2 < 2 ^ 32

/-- ... and its stored offset has been read -/
structure EntryFor (x : DirCtx) (hash : BitVec 64) (ver : OffsetVersion) (en : Entry) (it : List Char × DNode) : Prop
    extends EntryHalf x en it where
  stored : en.encOff = BitVec.ofNat 32 (storedOffset ver en.calcOff x.hdr.fstart (hash.toNat % 2 ^ 32)
    (x.hdr.hash1.toNat % 2 ^ 32) (offsetOf it.2))

theorem NodeIs.offsetOf {t : Byte} {o s : Nat} {n : DNode} (h : NodeIs t o s n) : Spec.offsetOf n = o := by
  cases h <;> rfl

theorem Reads.offset {e : Env} {p v : Nat} (h : Holds e.buf p (toLE 4 v)) (hb : e.buf.length < 2 ^ 63) :
    ∃ n, Rd.readU32.Reads e p n (p + 4) ∧ BitVec.ofNat 32 n = BitVec.ofNat 32 v := by
  refine ⟨v % 256 ^ 4, ?_, ?_⟩
  · have := Rd.Reads.readLE h (length_toLE 4 v) hb
    rwa [leNat_toLE] at this
  · apply BitVec.eq_of_toNat_eq
    simp

/-- the node of an item before its children are known -/
def bareNode : DNode → DNode
  | .dir o s _ => .dir o s []
  | n => n

theorem EntryFor.locate {x : DirCtx} {hash : BitVec 64} {ver : OffsetVersion} {en : Entry} {it : List Char × DNode}
    (h : EntryFor x hash ver en it) (hf : x.hdr.fstart < 2 ^ 32) (hb : x.env.buf.length < 2 ^ 63) :
    en.locate x hash ver = .ok { en with offset := offsetOf it.2 } := by
  obtain ⟨t, s, hn, ht, hs⟩ := h.node
  have hcalc := Props.C10_decode_stored ver x.env.mode x.hdr en.calcOff (offsetOf it.2) hash hf h.small
  have hl := h.located
  have hv : ({ en with offset := offsetOf it.2 } : Entry).verify x = .ok () := by
    unfold Entry.verify
    dsimp only
    obtain ⟨name, node⟩ := it
    generalize ho : offsetOf node = o at *
    rw [hs]
    cases hn with
    | dir o s kids =>
      obtain ⟨hle, c, bs, hc, hh, hi⟩ := hl
      rw [addU_ok (by omega), ht]
      show (if ¬ (o + s ≤ x.env.buf.length) then _ else _ : Except Err Unit) = _
      rw [if_neg (by omega)]
      have hr : (Rd.run (if x.hdr.isPkg2_64 = true then Rd.readWzInt64 else Rd.readWzInt) x.env ⟨o, 0⟩).1 = .ok c := by
        cases hp : x.hdr.isPkg2_64 with
        | true =>
          rw [hp] at hi
          exact Rd.Reads.fst (c := ⟨o, 0⟩) (Rd.Reads.wzInt64 hi hh hb)
        | false =>
          rw [hp] at hi
          exact Rd.Reads.fst (c := ⟨o, 0⟩) (Rd.Reads.wzInt hi hh hb)
      show ((Rd.run (if x.hdr.isPkg2_64 = true then Rd.readWzInt64 else Rd.readWzInt) x.env ⟨o, 0⟩).1 >>= _) = _
      rw [hr]
      show (if c < 0 then _ else _) = _
      rw [if_neg (by omega)]
      rfl
    | image o s =>
      obtain ⟨hle, b, hh, hv⟩ := hl
      rw [addU_ok (by omega), ht]
      show (if ¬ (o + s ≤ x.env.buf.length) then _ else _ : Except Err Unit) = _
      rw [if_neg (by omega)]
      show (readAt x.env.buf 1 o >>= _) = _
      rw [readAt_holds (w := 1) hh rfl]
      show (if validImageHeader (leNat [b]) = true then _ else _) = _
      rw [if_pos]
      · rfl
      · rcases hv with rfl | rfl | rfl <;> rfl
  unfold Entry.locate
  rw [h.stored, hcalc]
  show (match ({ en with offset := offsetOf it.2 } : Entry).verify x with
    | .ok () => _
    | .error e => _) = _
  rw [hv]
  rfl

theorem EntryFor.toNode {x : DirCtx} {hash : BitVec 64} {ver : OffsetVersion} {en : Entry} {it : List Char × DNode}
    (h : EntryFor x hash ver en it) :
    ({ en with offset := offsetOf it.2 } : Entry).toNode x = .ok (it.1, bareNode it.2) := by
  obtain ⟨t, s, hn, ht, hs⟩ := h.node
  have hnm := h.name
  unfold StrMeta.Is at hnm
  unfold Entry.toNode
  dsimp only
  rw [hnm]
  obtain ⟨name, node⟩ := it
  generalize ho : offsetOf node = o at *
  cases hn with
  | dir o s kids => subst hs; rw [ht]; rfl
  | image o s => subst hs; rw [ht]; rfl

/-! ### PKG1 blocks -/

theorem NodeIs.ty {t : Byte} {o s : Nat} {n : DNode} (h : NodeIs t o s n) :
    DirType.ofByte t.toNat = .dir ∨ DirType.ofByte t.toNat = .image := by
  cases h
  · exact .inl rfl
  · exact .inr rfl

theorem Located.size {x : DirCtx} {t : Byte} {o s : Nat} {n : DNode} (h : NodeIs t o s n) (hl : Located x n) :
    o + s ≤ x.env.buf.length := by
  cases h
  · exact hl.1
  · exact hl.1

theorem pkg1Tail_reads {x : DirCtx} {hash : BitVec 64} {p : Nat} {m : StrMeta} {t : Byte} {name : List Char}
    {node : DNode} {o s : Nat} {sum : Int} {sz sm : Bytes} (hb : x.env.buf.length < 2 ^ 63)
    (hn : NodeIs t o s node) (hl : Located x node) (ho : o < 2 ^ 32) (hm : m.Is x.env name)
    (hs : IsWzInt 4 s sz) (hsm : IsWzInt 4 sum sm)
    (hh : Holds x.env.buf p (sz ++ sm ++ offsetBytes x .pkg1 hash (p + (sz.length + sm.length)) o)) :
    ∃ en, (Rd.pkg1Tail m (DirType.ofByte t.toNat)).Reads x.env p en (p + (sz.length + sm.length) + 4) ∧
      EntryFor x hash .pkg1 en (name, node) ∧ en.ty = DirType.ofByte t.toNat := by
  have hoff := hh.right
  rw [List.length_append] at hoff
  obtain ⟨n, hr, hn'⟩ := Reads.offset hoff hb
  have hsz := Located.size hn hl
  refine ⟨⟨m, DirType.ofByte t.toNat, s, p + (sz.length + sm.length), BitVec.ofNat 32 n, 0, sum⟩,
    .bind (.wzInt hs hh.left.left hb) (.bind (.wzInt hsm hh.left.right hb) ?_), ?_, ?_⟩
  · rw [Nat.add_assoc p]
    refine .bind .getPos (.bind hr ?_)
    rw [asUsize_nonneg (by omega) (by omega)]
    exact .pure _
  · refine ⟨⟨hm, ⟨t, s, ?_, rfl, rfl⟩, hl, ?_⟩, ?_⟩
    · rw [NodeIs.offsetOf hn]; exact hn
    · rw [NodeIs.offsetOf hn]; exact ho
    · rw [NodeIs.offsetOf hn]; exact hn'
  · rfl

theorem Entry1.reads {x : DirCtx} {hash : BitVec 64} {p q : Nat} {it : List Char × DNode}
    (hb : x.env.buf.length < 2 ^ 63) (h : Entry1 x hash p it q) :
    ∃ en, (Rd.readPkg1Entry x.hdr.fstart).Reads x.env p en q ∧ EntryFor x hash .pkg1 en it ∧
      (en.ty = .dir ∨ en.ty = .image) := by
  cases h with
  | direct t name node o s sum nm sz sm hn hl ho hnm hsz hsm hh =>
    have h1 : Holds x.env.buf (p + 1) (nm ++ (sz ++ sm ++ offsetBytes x .pkg1 hash (p + (1 + nm.length + sz.length + sm.length)) o)) := by
      have := hh
      simp only [List.append_assoc] at this ⊢
      exact this.right
    obtain ⟨m, hm, hmi⟩ := Rd.Reads.wzStringMeta hnm h1.left hb
    have h2 := h1.right
    rw [show p + (1 + nm.length + sz.length + sm.length) = p + 1 + nm.length + (sz.length + sm.length) by omega] at h2 ⊢
    obtain ⟨en, hen, hfor, hty⟩ := pkg1Tail_reads hb hn hl ho hmi hsz hsm h2
    refine ⟨en, ?_, hfor, ?_⟩
    · unfold Rd.readPkg1Entry
      refine .bind (.readU8 hh.left.left.left.left hb) ?_
      rcases NodeIs.ty hn with h | h
      · rw [h] at hen ⊢
        exact .bind hm hen
      · rw [h] at hen ⊢
        exact .bind hm hen
    · rw [hty]; exact NodeIs.ty hn
  | byRef t name node o s so sum nm sz sm hn hl ho hso hnm hsz hsm hh2 hh =>
    have h1 : Holds x.env.buf (p + 1) (toLE 4 so ++ (sz ++ sm ++ offsetBytes x .pkg1 hash (p + (5 + sz.length + sm.length)) o)) := by
      have := hh
      simp only [List.append_assoc] at this ⊢
      exact this.right
    have hle := hh2.le
    simp only [List.length_append, List.length_cons, List.length_nil] at hle
    obtain ⟨m, hm, hmi⟩ := Rd.Reads.wzStringMeta hnm hh2.right hb
    have h2 := h1.right
    rw [length_toLE] at h2
    rw [show p + (5 + sz.length + sm.length) = p + 1 + 4 + (sz.length + sm.length) by omega] at h2 ⊢
    obtain ⟨en, hen, hfor, hty⟩ := pkg1Tail_reads hb hn hl ho hmi hsz hsm h2
    refine ⟨en, ?_, hfor, ?_⟩
    · unfold Rd.readPkg1Entry
      refine .bind (.readU8 hh.left.left.left.left hb) ?_
      show ((Rd.readI32 >>= _) : Rd Entry).Reads _ _ _ _
      refine .bind (a := (so : Int)) (.readInt_enc (w := 4) (by decide) (by simp) (by simp; omega) ?_ hb) ?_
      · rw [unsign_nat (by simp; omega)]; exact h1.left
      · refine .bind .getEnv ?_
        rw [asUsize_nonneg (by omega) (by omega)]
        refine .bind (.lift (addU_ok (by simp; omega))) ?_
        refine .bind (a := t.toNat) (q := p + 1 + 4) ?_ ?_
        · refine .bind .getEnv (.lift ?_)
          have := readAt_holds (w := 1) hh2.left rfl
          simpa [leNat] using this
        · refine .bind (.lift (addU_ok (by simp; omega))) ?_
          refine .bind (.metaAt (q := x.hdr.fstart + so + [t].length + nm.length) ?_) hen
          simpa using hm
    · rw [hty]; exact NodeIs.ty hn

theorem Entries1.reads {x : DirCtx} {hash : BitVec 64} (hb : x.env.buf.length < 2 ^ 63) {n p q : Nat}
    {items : List (List Char × DNode)} (h : Entries1 x hash n p items q) :
    ∃ es, All2 (EntryFor x hash .pkg1) es items ∧
      ∀ acc, (Rd.pkg1Loop x.hdr.fstart n acc).Reads x.env p (acc ++ es) q := by
  induction h with
  | nil p => exact ⟨[], .nil, fun acc => by rw [List.append_nil]; exact .pure _⟩
  | skip n p q items junk hj hh _ ih =>
    obtain ⟨es, ha, hr⟩ := ih
    refine ⟨es, ha, fun acc => ?_⟩
    have hle := hh.le
    simp only [List.length_append, List.length_cons, List.length_nil] at hle
    unfold Rd.pkg1Loop
    refine .bind (a := { ty := .unknown }) (q := p + 1) ?_ ?_
    · exact .bind (.readU8 hh.left hb) (.pure _)
    · dsimp only
      exact .bind (.skip (by omega)) (by rw [Nat.add_assoc]; exact hr acc)
  | cons n p q r it items h1 _ ih =>
    obtain ⟨es, ha, hr⟩ := ih
    obtain ⟨en, hen, hfor, hty⟩ := Entry1.reads hb h1
    refine ⟨en :: es, .cons hfor ha, fun acc => ?_⟩
    unfold Rd.pkg1Loop
    refine .bind hen ?_
    have := hr (acc ++ [en])
    rw [List.append_assoc] at this
    rcases hty with h | h
    · rw [h]; exact this
    · rw [h]; exact this

/-- the directory's entries are read as `items` -/
def ReadsBlock (x : DirCtx) (hash : BitVec 64) (ver : OffsetVersion) (p : Nat) (items : List (List Char × DNode)) : Prop :=
  ∃ es N, All2 (EntryFor x hash ver) es items ∧ ∀ fuel size, N ≤ fuel →
    prepareEntries x fuel { offset := p, blockSize := size, hash := hash, ver := ver } =
      .ok { offset := p, blockSize := size, hash := hash, ver := ver, entries := es, status := .created }

theorem Block1.reads {x : DirCtx} {hash : BitVec 64} (hv : x.hdr.ident = .v1) (hb : x.env.buf.length < 2 ^ 63)
    {p : Nat} {items : List (List Char × DNode)} (h : Block1 x hash p items) : ReadsBlock x hash .pkg1 p items := by
  obtain ⟨n, cb, q, hn, hc, hh, he⟩ := h
  obtain ⟨es, ha, hr⟩ := Entries1.reads hb he
  refine ⟨es, 0, ha, fun fuel size _ => ?_⟩
  unfold prepareEntries
  rw [if_neg (by simp)]
  dsimp only
  rw [hv]
  dsimp only
  have : (Rd.entriesPkg1 x.hdr.fstart).Reads x.env p es q := by
    unfold Rd.entriesPkg1
    refine .bind (.wzInt hc hh hb) ?_
    rw [if_neg (by omega)]
    exact hr []
  rw [Rd.Reads.fst (c := ⟨p, 0⟩) this]

/-! ### PKG2 blocks -/

theorem IsName2.reads {x : DirCtx} {first : Bool} {name : List Char} {nm : Bytes} {p : Nat}
    (hb : x.env.buf.length < 2 ^ 63) (h : IsName2 x first name nm) (hh : Holds x.env.buf p nm) :
    ∃ m, (Rd.readName2 x.keys2 x.hdr.isPkg2_64 first).Reads x.env p m (p + nm.length) ∧ m.Is x.env name := by
  unfold IsName2 at h
  unfold Rd.readName2
  cases hc : (first && x.keys2) with
  | false =>
    rw [hc] at h
    exact Rd.Reads.wzStringMeta h hh hb
  | true =>
    rw [hc] at h
    simp only [if_true] at h ⊢
    unfold IsPkg2Name at h
    obtain ⟨h0, h1, rfl⟩ := h
    cases hp : x.hdr.isPkg2_64 with
    | true =>
      rw [hp] at h1 hh
      simpa [hp] using Rd.Reads.pkg2DirMeta (w := 2) (.inr rfl) h0 h1 hh hb
    | false =>
      rw [hp] at h1 hh
      simpa [hp] using Rd.Reads.pkg2DirMeta (w := 1) (.inl rfl) h0 h1 hh hb

theorem readPkg2Entry_reads {x : DirCtx} {c : Int} {first : Bool} {p : Nat} {t : Byte} {name : List Char}
    {node : DNode} {o s : Nat} {sum : Int} {nm sz sm : Bytes} (hb : x.env.buf.length < 2 ^ 63)
    (hn : NodeIs t o s node) (hl : Located x node) (ho : o < 2 ^ 32)
    (hnm : IsName2 x first name nm) (hs : IsWzInt 4 s sz) (hsm : IsWzInt 4 sum sm)
    (hh : Holds x.env.buf p ([t] ++ nm ++ sz ++ sm)) :
    ∃ en, (Rd.readPkg2Entry x.keys2 x.hdr.isPkg2_64 c first).Reads x.env p en
        (p + (1 + nm.length + sz.length + sm.length)) ∧
      EntryHalf x en (name, node) ∧ (en.ty = .dir ∨ en.ty = .image) := by
  have h1 := hh.left.left.right
  have h2 := hh.left.right
  have h3 := hh.right
  simp only [List.length_append, List.length_cons, List.length_nil, Nat.zero_add] at h1 h2 h3
  obtain ⟨m, hm, hmi⟩ := IsName2.reads hb hnm h1
  have hsz := Located.size hn hl
  have hty := NodeIs.ty hn
  refine ⟨⟨m, DirType.ofByte t.toNat, s, 0, 0, 0, sum⟩, ?_, ?_, hty⟩
  · unfold Rd.readPkg2Entry
    refine .bind (.readU8 hh.left.left.left hb) ?_
    have tail : ∀ ty, (do
        let name ← Rd.readName2 x.keys2 x.hdr.isPkg2_64 first
        let size ← Rd.readWzInt
        let sum ← Rd.readWzInt
        return { name := name, ty := ty, size := asUsize size, checksum := sum } : Rd Entry).Reads x.env (p + 1)
          ⟨m, ty, s, 0, 0, 0, sum⟩ (p + (1 + nm.length + sz.length + sm.length)) := by
      intro ty
      refine .bind hm ?_
      rw [show p + 1 + nm.length = p + (1 + nm.length) by omega]
      refine .bind (.wzInt hs h2 hb) ?_
      rw [show p + (1 + nm.length) + sz.length = p + (1 + nm.length + sz.length) by omega]
      refine .bind (.wzInt hsm h3 hb) ?_
      rw [asUsize_nonneg (by omega) (by omega), Nat.add_assoc p]
      exact .pure _
    rcases hty with h | h
    · rw [h]; exact tail _
    · rw [h]; exact tail _
  · refine ⟨hmi, ⟨t, s, ?_, rfl, rfl⟩, hl, ?_⟩
    · rw [NodeIs.offsetOf hn]; exact hn
    · rw [NodeIs.offsetOf hn]; exact ho

theorem Entries2.reads32 {x : DirCtx} {c : Int} (hb : x.env.buf.length < 2 ^ 63) (h64 : x.hdr.isPkg2_64 = false)
    {first : Bool} {p q : Nat} {items : List (List Char × DNode)} (h : Entries2 x first p items q) :
    ∃ es, All2 (EntryHalf x) es items ∧ ∀ acc fuel res r, acc.isEmpty = first →
      (Rd.pkg2Loop x.keys2 c fuel (acc ++ es)).Reads x.env q res r →
      (Rd.pkg2Loop x.keys2 c (items.length + fuel) acc).Reads x.env p res r := by
  induction h with
  | nil first p => exact ⟨[], .nil, fun acc fuel res r _ h => by
      rw [List.append_nil] at h; simpa using h⟩
  | cons first p q t name node o s sum nm sz sm items hn hl ho hnm hs hsm hh _ ih =>
    obtain ⟨es, ha, hr⟩ := ih
    obtain ⟨en, hen, hhalf, hty⟩ := readPkg2Entry_reads (c := c) hb hn hl ho hnm hs hsm hh
    refine ⟨en :: es, .cons hhalf ha, fun acc fuel res r hacc h => ?_⟩
    rw [List.length_cons, show items.length + 1 + fuel = (items.length + fuel) + 1 by omega]
    unfold Rd.pkg2Loop
    rw [hacc]
    rw [h64] at hen
    refine .bind hen ?_
    have := hr (acc ++ [en]) fuel res r (by simp) (by simpa using h)
    rcases hty with h | h
    · rw [h]; exact this
    · rw [h]; exact this

theorem Entries2.reads64 {x : DirCtx} {c : Int} (hb : x.env.buf.length < 2 ^ 63) (h64 : x.hdr.isPkg2_64 = true)
    {first : Bool} {p q : Nat} {items : List (List Char × DNode)} (h : Entries2 x first p items q) :
    ∃ es, All2 (EntryHalf x) es items ∧ ∀ acc i, (i == 0) = first →
      (Rd.pkg2Loop64 x.keys2 c items.length i acc).Reads x.env p (acc ++ es) q := by
  induction h with
  | nil first p => exact ⟨[], .nil, fun acc i _ => by rw [List.append_nil]; exact .pure _⟩
  | cons first p q t name node o s sum nm sz sm items hn hl ho hnm hs hsm hh _ ih =>
    obtain ⟨es, ha, hr⟩ := ih
    obtain ⟨en, hen, hhalf, hty⟩ := readPkg2Entry_reads (c := c) hb hn hl ho hnm hs hsm hh
    refine ⟨en :: es, .cons hhalf ha, fun acc i hi => ?_⟩
    rw [List.length_cons]
    unfold Rd.pkg2Loop64
    rw [hi]
    rw [h64] at hen
    refine .bind hen ?_
    have := hr (acc ++ [en]) (i + 1) (by simp)
    rw [List.append_assoc] at this
    rcases hty with h | h
    · rw [h]; exact this
    · rw [h]; exact this

theorem Offsets2.reads {x : DirCtx} {ver : OffsetVersion} {hash : BitVec 64} (hb : x.env.buf.length < 2 ^ 63) {p : Nat}
    {items : List (List Char × DNode)} (h : Offsets2 x ver hash p items) {es : List Entry}
    (ha : All2 (EntryHalf x) es items) :
    ∃ es' q, All2 (EntryFor x hash ver) es' items ∧ (Rd.readOffsets es).Reads x.env p es' q := by
  induction h generalizing es with
  | nil p => cases ha; exact ⟨[], p, .nil, .pure _⟩
  | cons p it items hh _ ih =>
    cases ha with
    | @cons en _ es _ h1 ha =>
    obtain ⟨es', q, ha', hr⟩ := ih ha
    obtain ⟨n, hrd, hn⟩ := Reads.offset hh hb
    refine ⟨{ en with calcOff := p, encOff := BitVec.ofNat 32 n } :: es', q, .cons ⟨⟨h1.name, h1.node, h1.located, h1.small⟩, hn⟩ ha', ?_⟩
    unfold Rd.readOffsets
    exact .bind .getPos (.bind hrd (.bind hr (.pure _)))

theorem Block2.reads {x : DirCtx} {ver : OffsetVersion} {hash : BitVec 64} (hv : x.hdr.ident = .v2)
    (h64 : x.hdr.isPkg2_64 = false) (hb : x.env.buf.length < 2 ^ 63)
    {p : Nat} {items : List (List Char × DNode)} (h : Block2 x ver hash p items) : ReadsBlock x hash ver p items := by
  obtain ⟨c, cb, cb2, q, hc, hh, hne, he, hc2, hh2, ⟨b, rr, hcb, hbt⟩, hoff⟩ := h
  obtain ⟨es, ha, hr⟩ := Entries2.reads32 (c := c) hb h64 he
  obtain ⟨es', q', ha', hr'⟩ := Offsets2.reads hb hoff ha
  refine ⟨es', items.length + 1, ha', fun fuel size hfuel => ?_⟩
  unfold prepareEntries
  rw [if_neg (by simp)]
  dsimp only
  rw [hv, h64]
  dsimp only
  have : (Rd.entriesPkg2 x.keys2 fuel).Reads x.env p es' q' := by
    unfold Rd.entriesPkg2
    refine .bind (.wzInt hc hh hb) ?_
    refine .bind (a := es) (q := q) ?_ ?_
    · obtain ⟨k, rfl⟩ : ∃ k, fuel = items.length + (k + 1) := ⟨fuel - items.length - 1, by omega⟩
      refine hr [] (k + 1) es q rfl ?_
      unfold Rd.pkg2Loop
      refine .bind (a := { ty := .unknown }) (q := q) ?_ (.pure _)
      unfold Rd.readPkg2Entry
      rw [hcb] at hh2
      refine .bind (.readU8 hh2.head hb) ?_
      have hty : DirType.ofByte b.toNat = .other b.toNat := by
        unfold DirType.ofByte
        rw [if_neg (by omega), if_neg (by omega), if_neg (by omega), if_neg (by omega)]
      rw [hty]
      refine .bind .getPos (.bind .seek ?_)
      rw [Nat.add_sub_cancel]
      rw [← hcb] at hh2
      refine .bind (.wzInt hc2 hh2 hb) ?_
      rw [if_pos rfl]
      exact .bind .seek (.pure _)
    · refine .bind (.wzInt hc2 hh2 hb) ?_
      have : es ≠ [] := by
        intro h
        subst h
        cases ha
        exact hne rfl
      rw [if_neg (by simp [this])]
      exact hr'
  have := Rd.Reads.fst (c := ⟨p, 0⟩) this
  simp only [Bool.false_eq_true, if_false]
  rw [this]

theorem Block64.reads {x : DirCtx} {hash : BitVec 64} (hv : x.hdr.ident = .v2)
    (h64 : x.hdr.isPkg2_64 = true) (hb : x.env.buf.length < 2 ^ 63)
    {p : Nat} {items : List (List Char × DNode)} (h : Block64 x hash p items) : ReadsBlock x hash .pkg2_64V1 p items := by
  obtain ⟨noise, cb, q, hlen, hc, hh, he, hoff⟩ := h
  obtain ⟨es, ha, hr⟩ := Entries2.reads64
    (c := Int.bmod (storedCount x.hdr.hash1 hash items.length noise).toInt (2 ^ 32)) hb h64 he
  obtain ⟨es', q', ha', hr'⟩ := Offsets2.reads hb hoff ha
  refine ⟨es', 0, ha', fun fuel size _ => ?_⟩
  unfold prepareEntries
  rw [if_neg (by simp)]
  dsimp only
  rw [hv, h64]
  dsimp only
  have : (Rd.entriesPkg2_64 .pkg2_64V1 x.hdr hash x.keys2).Reads x.env p es' q' := by
    unfold Rd.entriesPkg2_64
    rw [if_neg (by simp)]
    refine .bind (.wzInt64 hc hh hb) ?_
    refine .bind (a := items.length) (.lift ?_) ?_
    · rw [BitVec.ofInt_toInt]
      exact Props.C10_count_stored _ _ _ _ (by omega)
    · rw [if_neg (by omega)]
      exact .bind (hr [] 0 rfl) hr'
  have := Rd.Reads.fst (c := ⟨p, 0⟩) this
  simp only [if_true]
  rw [this]

/-! ### whole directories -/

theorem EntryFor.both {x : DirCtx} {hash : BitVec 64} {ver : OffsetVersion} (hf : x.hdr.fstart < 2 ^ 32)
    (hb : x.env.buf.length < 2 ^ 63) {es : List Entry} {items : List (List Char × DNode)}
    (ha : All2 (EntryFor x hash ver) es items) :
    ∃ es', All2 (fun en en' => Entry.locate x hash ver en = .ok en') es es' ∧
      All2 (fun en n => Entry.toNode x en = .ok n) es' (items.map fun it => (it.1, bareNode it.2)) := by
  induction ha with
  | nil => exact ⟨[], .nil, .nil⟩
  | cons h _ ih =>
    obtain ⟨es', h1, h2⟩ := ih
    exact ⟨_, .cons (h.locate hf hb) h1, .cons h.toNode h2⟩

theorem HoldsDir.resolve {x : DirCtx} {hash : BitVec 64} {ver : OffsetVersion}
    {Block : Nat → List (List Char × DNode) → Prop} (hf : x.hdr.fstart < 2 ^ 32) (hb : x.env.buf.length < 2 ^ 63)
    (hBlock : ∀ p items, Block p items → ReadsBlock x hash ver p items)
    {p : Nat} {items : List (List Char × DNode)} (h : HoldsDir Block p items) :
    ∃ N, ∀ loopFuel fuel size, N ≤ loopFuel → N ≤ fuel → size ≠ 0 →
      resolveDir x loopFuel fuel { offset := p, blockSize := size, hash := hash, ver := ver } = .ok items := by
  induction h with
  | mk p items hblk h0 hnd hrec ih =>
    obtain ⟨es, N1, ha, hprep⟩ := hBlock p items hblk
    -- the recursive step, for each item
    let step : Nat → Nat → (List Char × DNode) → Except Err (List Char × DNode) := fun loopFuel fuel q =>
      match q.2 with
      | .dir off size _ => do
        let kids ← resolveDir x loopFuel fuel { offset := off, blockSize := size, hash := hash, ver := ver }
        return (q.1, .dir off size (childInsertAll [] kids))
      | n => return (q.1, n)
    have hstep : ∃ N, ∀ it ∈ items, ∀ loopFuel fuel, N ≤ loopFuel → N ≤ fuel →
        step loopFuel fuel (it.1, bareNode it.2) = .ok it := by
      have key : ∀ it ∈ items, ∃ N, ∀ loopFuel fuel, N ≤ loopFuel → N ≤ fuel →
          step loopFuel fuel (it.1, bareNode it.2) = .ok it := by
        rintro ⟨name, node⟩ hmem
        cases node with
        | image o s => exact ⟨0, fun _ _ _ _ => rfl⟩
        | none => exact ⟨0, fun _ _ _ _ => rfl⟩
        | dir o s kids =>
          have hres : ∃ N, ∀ loopFuel fuel, N ≤ loopFuel → N ≤ fuel →
              resolveDir x loopFuel fuel { offset := o, blockSize := s, hash := hash, ver := ver } = .ok kids := by
            by_cases hs : s = 0
            · subst hs
              have := h0 _ _ _ hmem
              subst this
              refine ⟨1, fun loopFuel fuel _ hfuel => ?_⟩
              obtain ⟨k, rfl⟩ : ∃ k, fuel = k + 1 := ⟨fuel - 1, by omega⟩
              rfl
            · obtain ⟨N, hN⟩ := ih name o s kids hmem hs
              exact ⟨N, fun loopFuel fuel h1 h2 => hN loopFuel fuel s h1 h2 hs⟩
          obtain ⟨N, hN⟩ := hres
          refine ⟨N, fun loopFuel fuel h1 h2 => ?_⟩
          show (resolveDir x loopFuel fuel { offset := o, blockSize := s, hash := hash, ver := ver } >>= _) = _
          rw [hN loopFuel fuel h1 h2]
          show Except.ok (name, DNode.dir o s (childInsertAll [] kids)) = _
          rw [childInsertAll_nodup kids [] (hnd name o s kids hmem)]
          rfl
      clear hprep ha hblk h0 hnd hrec ih
      induction items with
      | nil => exact ⟨0, fun _ h => nomatch h⟩
      | cons it items ihl =>
        obtain ⟨N, hN⟩ := key it List.mem_cons_self
        obtain ⟨M, hM⟩ := ihl (fun it h => key it (List.mem_cons_of_mem _ h))
        refine ⟨max N M, fun it' hmem lf fl h1 h2 => ?_⟩
        cases hmem with
        | head => exact hN lf fl (by omega) (by omega)
        | tail _ hmem => exact hM it' hmem lf fl (by omega) (by omega)
    obtain ⟨N2, hN2⟩ := hstep
    refine ⟨max N1 (N2 + 1), fun loopFuel fuel size h1 h2 hs => ?_⟩
    obtain ⟨k, rfl⟩ : ∃ k, fuel = k + 1 := ⟨fuel - 1, by omega⟩
    unfold resolveDir
    rw [if_neg hs, hprep loopFuel size (by omega)]
    obtain ⟨es', hloc, hnode⟩ := EntryFor.both hf hb ha
    have hcalc : calcVerify x { offset := p, blockSize := size, hash := hash, ver := ver, entries := es, status := .created } =
        .ok { offset := p, blockSize := size, hash := hash, ver := ver, entries := es', status := .created } := by
      unfold calcVerify
      dsimp only
      rw [hloc.mapM]
      rfl
    have h3 : (items.map fun it => (it.1, bareNode it.2)).mapM (step loopFuel k) = .ok items := by
      apply All2.mapM
      apply All2.map_left
      have : ∀ it ∈ items, step loopFuel k (it.1, bareNode it.2) = .ok it :=
        fun it hmem => hN2 it hmem loopFuel k (by omega) (by omega)
      clear hprep ha hblk h0 hnd hrec ih hN2 hnode
      induction items with
      | nil => exact .nil
      | cons it items ihl =>
        exact .cons (this it List.mem_cons_self) (ihl fun it h => this it (List.mem_cons_of_mem _ h))
    show ((calcVerify x _).mapError _ >>= _) = _
    rw [hcalc]
    show (es'.mapM (Entry.toNode x) >>= _) = _
    rw [hnode.mapM]
    exact h3

end Wz
