import Verif.Media.PayloadSpec
import Verif.Property.Lemmas
import Verif.Reader.LazyLemmas
/-!
# Lemmas for C64
-/

set_option autoImplicit false
variable {α β : Type}

namespace Wz
open Spec

/-- whatever is given out, it and the cursor behind it are so -/
def Rd.Post (e : Env) (m : Rd α) (Q : α → Cur → Prop) : Prop := ∀ c a c', m.run e c = (.ok a, c') → Q a c'

theorem Rd.Post.bind {e : Env} {m : Rd α} {f : α → Rd β} {Q : α → Cur → Prop} {R : β → Cur → Prop} (hm : m.Post e Q)
    (hf : ∀ a c b c', Q a c → (f a).run e c = (.ok b, c') → R b c') : (m >>= f).Post e R := by
  intro c b c' h
  rw [Rd.bind_run] at h
  rcases hr : m.run e c with ⟨r, c1⟩
  rw [hr] at h
  cases r with
  | error x => cases h
  | ok a => exact hf a c1 b c' (hm c a c1 hr) h

/-- nothing is known of the first part -/
theorem Rd.Post.after {e : Env} {m : Rd α} {f : α → Rd β} {R : β → Cur → Prop} (hf : ∀ a, (f a).Post e R) : (m >>= f).Post e R :=
  Rd.Post.bind (Q := fun _ _ => True) (fun _ _ _ _ => trivial) fun a c b c' _ h => hf a c b c' h

theorem Rd.Post.ret {e : Env} {a : α} {Q : α → Cur → Prop} (h : ∀ c, Q a c) : (Pure.pure a : Rd α).Post e Q := by
  intro c b c' hr
  cases hr
  exact h _

theorem Rd.Post.fail {e : Env} {x : Err} {Q : α → Cur → Prop} : (Rd.fail x : Rd α).Post e Q := fun _ _ _ h => by cases h

theorem Rd.Post.mono {e : Env} {m : Rd α} {Q R : α → Cur → Prop} (h : m.Post e Q) (hq : ∀ a c, Q a c → R a c) : m.Post e R :=
  fun c a c' hr => hq a c' (h c a c' hr)

theorem Rd.Post.readLE {e : Env} (hb : e.buf.length < 2 ^ 63) (w : Nat) : (Rd.readLE w).Post e fun _ c => w ≤ c.pos ∧ c.pos ≤ e.buf.length := by
  intro c a c' h
  unfold Rd.readLE at h
  dsimp only at h
  by_cases hr : c.pos + w ≤ e.buf.length
  · have ha : addU e.mode c.pos w = .ok (c.pos + w) := addU_ok (by omega)
    rw [ha] at h
    dsimp only at h
    unfold readAt at h
    rw [if_pos hr] at h
    cases h
    exact ⟨by dsimp only; omega, hr⟩
  · cases ha : addU e.mode c.pos w with
    | error x => rw [ha] at h; cases h
    | ok p =>
      rw [ha] at h
      dsimp only at h
      unfold readAt at h
      rw [if_neg hr] at h
      cases h

theorem Rd.Post.readInt {e : Env} (hb : e.buf.length < 2 ^ 63) (w : Nat) : (Rd.readInt w).Post e fun _ c => w ≤ c.pos ∧ c.pos ≤ e.buf.length :=
  Rd.Post.bind (Rd.Post.readLE hb w) fun a c b c' hq h => by cases h; exact hq

theorem Rd.Post.readWzInt {e : Env} (hb : e.buf.length < 2 ^ 63) : Rd.readWzInt.Post e fun _ c => c.pos ≤ e.buf.length := by
  refine Rd.Post.bind (Rd.Post.readInt hb 1) fun a c b c' hq h => ?_
  split at h
  · exact ((Rd.Post.readInt hb 4) c b c' h).2
  · cases h
    exact hq.2

/-! ### texts -/

/-- what is known of a text that was found in some bytes -/
def TextPlace (buf : Bytes) (m : StrMeta) : Prop :=
  m = StrMeta.none ∨ (m.offset ≤ buf.length ∧ m.length < 2 ^ 32 ∧ (m.ty = .ascii ∨ (m.ty = .unicode ∧ m.length % 2 = 0)))

theorem mulU32_two {m : Mode} {a n : Nat} (h : mulU32 m a 2 = .ok n) : n < 2 ^ 32 ∧ n % 2 = 0 := by
  unfold mulU32 at h
  split at h
  · cases h; omega
  · split at h
    · cases h
    · cases h; omega

theorem skip_ret {e : Env} {n : Nat} {a b : α} {c c' : Cur} (h : (Rd.skip n >>= fun _ => (Pure.pure a : Rd α)).run e c = (.ok b, c')) : b = a := by
  rw [Rd.bind_run] at h
  rcases hr : (Rd.skip n).run e c with ⟨r, c1⟩
  rw [hr] at h
  cases r with
  | error x => cases h
  | ok u => cases h; rfl

theorem uniTail {e : Env} {l : Nat} (c : Cur) (m : StrMeta) (c' : Cur) (hp : c.pos ≤ e.buf.length)
    (h : (Rd.getEnv >>= fun e => Rd.lift (mulU32 e.mode l 2) >>= fun length => Rd.getPos >>= fun p => Rd.skip length >>= fun _ =>
      (Pure.pure { offset := p, length := length, ty := .unicode } : Rd StrMeta)).run e c = (.ok m, c')) : TextPlace e.buf m := by
  change (Rd.lift (mulU32 e.mode l 2) >>= _).run e c = _ at h
  rw [Rd.bind_run] at h
  cases hm : mulU32 e.mode l 2 with
  | error x => rw [hm] at h; cases h
  | ok n =>
    rw [hm] at h
    change (Rd.skip n >>= fun _ => (Pure.pure { offset := c.pos, length := n, ty := .unicode } : Rd StrMeta)).run e c = _ at h
    have hn := mulU32_two hm
    rw [skip_ret h]
    exact .inr ⟨hp, hn.1, .inr ⟨rfl, hn.2⟩⟩

theorem ascTail {e : Env} {n k : Nat} (c : Cur) (m : StrMeta) (c' : Cur) (hp : c.pos ≤ e.buf.length) (hk : k < 2 ^ 32)
    (h : (Rd.getPos >>= fun p => Rd.skip n >>= fun _ => (Pure.pure { offset := p, length := k, ty := .ascii } : Rd StrMeta)).run e c = (.ok m, c')) :
    TextPlace e.buf m := by
  change (Rd.skip n >>= fun _ => (Pure.pure { offset := c.pos, length := k, ty := .ascii } : Rd StrMeta)).run e c = _ at h
  rw [skip_ret h]
  exact .inr ⟨hp, hk, .inl rfl⟩

theorem Rd.Post.stringMeta {e : Env} (hb : e.buf.length < 2 ^ 63) : Rd.readWzStringMeta.Post e fun m _ => TextPlace e.buf m := by
  refine Rd.Post.bind (Rd.Post.readInt hb 1) fun small c m c' hq h => ?_
  split at h
  · cases h
    exact .inl rfl
  · split at h
    · exact (Rd.Post.bind (Rd.Post.readInt hb 4) fun l c m c' hq h => uniTail c m c' hq.2 h) c m c' h
    · exact uniTail c m c' hq.2 h
  · split at h
    · exact (Rd.Post.bind (Rd.Post.readInt hb 4) fun l c m c' hq h => ascTail c m c' hq.2 (asU32_lt _) h) c m c' h
    · exact ascTail c m c' hq.2 (asU32_lt _) h
  · cases h

theorem Rd.Post.stringMetaAt {e : Env} (hb : e.buf.length < 2 ^ 63) (o : Nat) : (Rd.readWzStringMetaAt o).Post e fun m _ => TextPlace e.buf m := by
  intro c m c' h
  unfold Rd.readWzStringMetaAt at h
  dsimp only at h
  rcases hr : Rd.readWzStringMeta.run e ⟨o, c.pos⟩ with ⟨r, c1⟩
  rw [hr] at h
  dsimp only at h
  cases h
  exact Rd.Post.stringMeta hb _ _ _ hr

theorem Rd.Post.stringBlockMeta {e : Env} (hb : e.buf.length < 2 ^ 63) (o : Nat) :
    (Rd.readWzStringBlockMeta o).Post e fun m _ => TextPlace e.buf m := by
  refine Rd.Post.after fun t => ?_
  split
  · exact Rd.Post.stringMeta hb
  · split
    · exact Rd.Post.after fun _ => Rd.Post.after fun _ => Rd.Post.after fun _ => Rd.Post.stringMetaAt hb _
    · exact Rd.Post.ret fun _ => .inl rfl

theorem units_pairs : ∀ (n : Nat) (l : Bytes), l.length = 2 * n → ∃ us, units l = .ok us := by
  intro n
  induction n with
  | zero =>
    intro l h
    cases l with
    | nil => exact ⟨[], rfl⟩
    | cons a l => simp at h
  | succ n ih =>
    intro l h
    match l, h with
    | [], h => simp at h
    | [_], h => simp at h; omega
    | a :: b :: r, h =>
      obtain ⟨us, hu⟩ := ih r (by simp at h; omega)
      exact ⟨_, by rw [units, hu]; rfl⟩

theorem slice_in {m : Mode} {buf : Bytes} {ks : Nat → Byte} {off len : Nat} (hb : buf.length < 2 ^ 63) (h : off + len ≤ buf.length) :
    ∃ d, decryptSlice m buf ks off len = .ok d ∧ d.length = len := by
  refine ⟨decryptWith ks ((buf.drop off).take len), ?_, ?_⟩
  · unfold decryptSlice
    rw [addU_ok (by omega)]
    show (sliceOrError buf off (off + len) >>= _) = _
    unfold sliceOrError
    rw [if_pos ⟨by omega, h⟩, Nat.add_sub_cancel_left]
    rfl
  · simp [decryptWith]
    omega

theorem slice_out {m : Mode} {buf : Bytes} {ks : Nat → Byte} {off len : Nat} (h0 : off + len < 2 ^ 64) (h : buf.length < off + len) :
    decryptSlice m buf ks off len = .error (.outOfBounds (off + len) buf.length) := by
  unfold decryptSlice
  rw [addU_ok h0]
  show (sliceOrError buf off (off + len) >>= _) = _
  unfold sliceOrError
  rw [if_neg (by omega)]
  rfl

theorem text_accessed {e : Env} (hb : e.buf.length < 2 ^ 63) {m : StrMeta} (h : TextPlace e.buf m) : Accessed e (.str m) := by
  rcases h with rfl | ⟨h1, h2, h3⟩
  · exact ⟨fun _ => ⟨[], rfl⟩, fun h => (h rfl).elim⟩
  · have hne : m.ty ≠ .empty := by rcases h3 with h3 | h3 <;> simp [h3]
    constructor
    · intro h4
      have h4 : m.offset + m.length ≤ e.buf.length := h4.resolve_left hne
      obtain ⟨d, hd, hl⟩ := slice_in (m := e.mode) (ks := e.ks) hb h4
      rcases h3 with h3 | ⟨h3, h5⟩
      · rw [h3]
        show ∃ t, (resolveAsciiRaw e.mode e.buf e.ks m.offset m.length >>= _) = _
        unfold resolveAsciiRaw
        rw [hd]
        exact ⟨_, rfl⟩
      · rw [h3]
        obtain ⟨us, hu⟩ := units_pairs (m.length / 2) d (by omega)
        show ∃ t, (resolveUnicodeRaw e.mode e.buf e.ks m.offset m.length >>= _) = _
        unfold resolveUnicodeRaw
        rw [hd]
        show ∃ t, ((units d >>= _) >>= _) = _
        rw [hu]
        exact ⟨_, rfl⟩
    · intro _ h4
      have hd := slice_out (m := e.mode) (ks := e.ks) (by omega) h4
      rcases h3 with h3 | ⟨h3, h5⟩
      · rw [h3]
        show (resolveAsciiRaw e.mode e.buf e.ks m.offset m.length >>= _) = _
        unfold resolveAsciiRaw
        rw [hd]
        rfl
      · rw [h3]
        show (resolveUnicodeRaw e.mode e.buf e.ks m.offset m.length >>= _) = _
        unfold resolveUnicodeRaw
        rw [hd]
        rfl

/-! ### ranges -/

theorem range_gives {m : Mode} {buf : Bytes} {off size : Nat} (hb : buf.length < 2 ^ 63) (ho : off ≤ buf.length) (hs : size < 2 ^ 64) :
    (off + size ≤ buf.length → ∃ d, (addU m off size >>= sliceIdx buf off) = .ok d ∧ d.length = size ∧ Holds buf off d ∧
      addU m off size = .ok (off + size) ∧ sliceIdx buf off (off + size) = .ok d) ∧
    (buf.length < off + size → ∃ x, (∀ (γ : Type) (k : Bytes → Except Err γ), (addU m off size >>= fun t => sliceIdx buf off t >>= k) = .error x) ∧
      (addU m off size >>= sliceIdx buf off) = .error x ∧ x.isPanic = true) := by
  constructor
  · intro h
    have ha : addU m off size = .ok (off + size) := addU_ok (by omega)
    have hi : sliceIdx buf off (off + size) = .ok ((buf.drop off).take size) := by
      unfold sliceIdx
      rw [if_pos ⟨by omega, h⟩, Nat.add_sub_cancel_left]
    refine ⟨(buf.drop off).take size, ?_, by simp; omega, Holds.of_slice h, ha, hi⟩
    rw [ha]
    exact hi
  · intro h
    unfold addU
    by_cases h1 : off + size < 2 ^ 64
    · rw [if_pos h1]
      have hi : sliceIdx buf off (off + size) = .error .panicIndex := if_neg (by omega)
      refine ⟨.panicIndex, fun γ k => ?_, hi, rfl⟩
      show (sliceIdx buf off (off + size) >>= k) = _
      rw [hi]
      rfl
    · rw [if_neg h1]
      cases m with
      | checked => exact ⟨.panicOverflow, fun _ _ => rfl, rfl, rfl⟩
      | wrap =>
        have hi : sliceIdx buf off ((off + size) % 2 ^ 64) = .error .panicIndex := if_neg (by omega)
        refine ⟨.panicIndex, fun γ k => ?_, hi, rfl⟩
        show (sliceIdx buf off ((off + size) % 2 ^ 64) >>= k) = _
        rw [hi]
        rfl

theorem raw_accessed {e : Env} (hb : e.buf.length < 2 ^ 63) {off size : Nat} (ho : off ≤ e.buf.length) (hs : size < 2 ^ 64) :
    Accessed e (.raw off size) ∧ Accessed e (.video off size) := by
  obtain ⟨h1, h2⟩ := range_gives (m := e.mode) hb ho hs
  have key : GivesPart e.buf off size (addU e.mode off size >>= sliceIdx e.buf off) :=
    ⟨fun h => by obtain ⟨d, g1, g2, g3, _⟩ := h1 h; exact ⟨d, g1, g2, g3⟩, fun h => by obtain ⟨x, _, g2, g3⟩ := h2 h; exact ⟨x, g2, g3⟩⟩
  exact ⟨key, key⟩

theorem canvas_accessed {e : Env} (hb : e.buf.length < 2 ^ 63) {p : Png} (ho : p.offset ≤ e.buf.length) (hs : p.size < 2 ^ 64) :
    Accessed e (.canvas p) := by
  intro h inflate bc7 aes keys
  obtain ⟨x, h1, _, h3⟩ := (range_gives (m := e.mode) hb ho hs).2 h
  exact ⟨x, h1 _ _, h3⟩

/-- what is known of a sound that was found in some bytes -/
def SoundPlace (buf : Bytes) (s : Sound) : Prop :=
  s.headerOffset + s.headerSize = s.offset ∧ s.offset ≤ buf.length ∧ s.length < 2 ^ 32 ∧ (s.ty = .wav → s.headerSize = 70)

theorem sound_accessed {e : Env} (hb : e.buf.length < 2 ^ 63) {s : Sound} (h : SoundPlace e.buf s) : Accessed e (.sound s) := by
  obtain ⟨h1, h2, h3, h4⟩ := h
  obtain ⟨g1, g2⟩ := range_gives (m := e.mode) hb h2 (show s.length < 2 ^ 64 by omega)
  refine ⟨fun ht => ⟨fun hi => ?_, fun hi => ?_⟩, fun ht => ⟨fun hi hn => ?_, fun hi => ?_⟩⟩
  · obtain ⟨d, _, k2, k3, k4, k5⟩ := g1 hi
    refine ⟨d, ?_, k2, k3⟩
    unfold Sound.getBuffer
    rw [k4]
    show (sliceIdx e.buf s.offset (s.offset + s.length) >>= _) = _
    rw [k5]
    cases hty : s.ty with
    | wav => exact (ht hty).elim
    | _ => rfl
  · obtain ⟨x, k1, _, k3⟩ := g2 hi
    exact ⟨x, k1 _ _, k3⟩
  · obtain ⟨d, _, k2, k3, k4, k5⟩ := g1 hi
    have hh : Holds e.buf s.headerOffset ((e.buf.drop s.headerOffset).take 70) := by
      have := h4 ht
      exact Holds.of_slice (by omega)
    have hl : ((e.buf.drop s.headerOffset).take 70).length = 70 := by
      have := h4 ht
      simp
      omega
    obtain ⟨f, hf, hw⟩ := Props.C36_wav_partial e.mode e.buf _ d s hb ht (by rw [hl]; exact h4 ht) hh k2.symm k3 (by omega) (by omega)
    exact ⟨f, _, d, hf, hw, hh, hl, k3, k2⟩
  · obtain ⟨x, k1, _, k3⟩ := g2 hi
    exact ⟨x, k1 _ _, k3⟩

/-! ### the parser -/

theorem everyValue_iff {P : PObj → Prop} : ∀ (l : List (List Char × PNode)),
    EveryValue P l ↔ ∀ n o ks, (n, PNode.node o ks) ∈ l → P o ∧ EveryValue P ks := by
  intro l
  induction l with
  | nil => exact ⟨fun _ _ _ _ h => (by cases h), fun _ => .nil⟩
  | cons x l ih =>
    constructor
    · intro h n o ks hm
      cases h with
      | cons name o' ks' rest h1 h2 h3 =>
        rcases List.mem_cons.1 hm with hm | hm
        · cases hm; exact ⟨h1, h2⟩
        · exact ih.1 h3 n o ks hm
    · intro h
      obtain ⟨n, ⟨o, ks⟩⟩ := x
      obtain ⟨h1, h2⟩ := h n o ks List.mem_cons_self
      exact .cons n o ks l h1 h2 (ih.2 fun n o ks hm => h n o ks (List.mem_cons_of_mem _ hm))

theorem mem_insertOne {ν : Type} {m : List (List Char × ν)} {k : List Char} {v : ν} {x : List Char × ν} (h : x ∈ childInsert m k v) :
    x ∈ m ∨ x = (k, v) := by
  unfold childInsert at h
  split at h
  · obtain ⟨y, hy, rfl⟩ := List.mem_map.1 h
    split
    · exact .inr rfl
    · exact .inl hy
  · simpa using h

theorem everyValue_insert {P : PObj → Prop} {m : List (List Char × PNode)} {k : List Char} {v : PNode} (hm : EveryValue P m)
    (hv : EveryValue P [(k, v)]) : EveryValue P (childInsert m k v) := by
  rw [everyValue_iff] at hm hv ⊢
  intro n o ks hx
  rcases mem_insertOne hx with hx | hx
  · exact hm n o ks hx
  · exact hv n o ks (by rw [hx]; exact List.mem_singleton.2 rfl)

theorem everyValue_insertAll {P : PObj → Prop} : ∀ (l m : List (List Char × PNode)), EveryValue P m → EveryValue P l →
    EveryValue P (childInsertAll m l) := by
  intro l
  induction l with
  | nil => intro m hm _; exact hm
  | cons x l ih =>
    intro m hm hl
    cases hl with
    | cons n o ks rest h1 h2 h3 =>
      show EveryValue P (childInsertAll (childInsert m n (.node o ks)) l)
      exact ih _ (everyValue_insert hm (.cons n o ks [] h1 h2 .nil)) h3

theorem addU_lt {m : Mode} {a b n : Nat} (h : addU m a b = .ok n) : n < 2 ^ 64 := by
  unfold addU at h
  split at h
  · cases h; assumption
  · split at h
    · cases h
    · cases h; omega

/-- everything that an extended property can be is accessed as it should be -/
def ExtPost (e : Env) (ext : Rd.Ext) : Prop := ∀ eob name, eob < 2 ^ 64 → (ext eob name).Post e fun r _ => ∀ x, r = .ok x → EveryValue (Accessed e) [x]

theorem Rd.Post.plain {e : Env} (hb : e.buf.length < 2 ^ 63) (o ty : Nat) : (Rd.readPlain o ty).Post e fun v _ => Accessed e v := by
  unfold Rd.readPlain
  split
  · exact Rd.Post.ret fun _ => trivial
  split
  · exact Rd.Post.after fun _ => Rd.Post.ret fun _ => trivial
  split
  · exact Rd.Post.after fun _ => Rd.Post.ret fun _ => trivial
  split
  · exact Rd.Post.after fun _ => Rd.Post.ret fun _ => trivial
  split
  · refine Rd.Post.after fun t => ?_
    split
    · exact Rd.Post.after fun _ => Rd.Post.ret fun _ => trivial
    · exact Rd.Post.ret fun _ => trivial
  split
  · exact Rd.Post.after fun _ => Rd.Post.ret fun _ => trivial
  split
  · exact Rd.Post.bind (Rd.Post.stringBlockMeta hb o) fun m c b c' hq h => by
      cases h
      exact text_accessed hb hq
  · exact Rd.Post.fail

theorem Rd.Post.node {e : Env} (hb : e.buf.length < 2 ^ 63) {ext : Rd.Ext} (hx : ExtPost e ext) (o : Nat) (name : List Char) (ty : Nat) :
    (Rd.parseNode ext o name ty).Post e fun x _ => EveryValue (Accessed e) [x] := by
  unfold Rd.parseNode
  split
  · refine Rd.Post.after fun size => Rd.Post.after fun p => Rd.Post.after fun e' =>
      Rd.Post.bind (Q := fun n _ => n < 2 ^ 64) (fun c a c' h => addU_lt (congrArg Prod.fst h)) fun next c b c' hn h => ?_
    refine (Rd.Post.bind (R := fun x _ => EveryValue (Accessed e) [x]) (hx next name hn) fun r c b c' hq h => ?_) c b c' h
    cases r with
    | ok n =>
      cases h
      exact hq b rfl
    | error n' =>
      cases h
      exact .cons _ _ _ _ trivial .nil .nil
  · refine Rd.Post.bind (Rd.Post.plain hb o ty) fun v c b c' hq h => ?_
    cases h
    exact .cons _ _ _ _ hq .nil .nil

theorem Rd.Post.items {e : Env} (hb : e.buf.length < 2 ^ 63) {ext : Rd.Ext} (hx : ExtPost e ext) (o : Nat) : ∀ n : Nat,
    (Rd.parseItems ext o n).Post e fun l _ => EveryValue (Accessed e) l := by
  intro n
  induction n with
  | zero => exact Rd.Post.ret fun _ => .nil
  | succ n ih =>
    refine Rd.Post.bind (Q := fun x _ => EveryValue (Accessed e) [x]) (Rd.Post.after fun _ => Rd.Post.after fun _ => Rd.Post.node hb hx _ _ _) fun x c b c' hq h => ?_
    refine (Rd.Post.bind (R := fun l _ => EveryValue (Accessed e) l) ih fun xs c b c' hq2 h => ?_) c b c' h
    cases h
    cases hq with
    | cons n o ks _ h1 h2 _ => exact .cons n o ks xs h1 h2 hq2

theorem Rd.Post.list {e : Env} (hb : e.buf.length < 2 ^ 63) {ext : Rd.Ext} (hx : ExtPost e ext) (o : Nat) :
    (Rd.parseListWith ext o).Post e fun l _ => EveryValue (Accessed e) l := by
  refine Rd.Post.after fun n => ?_
  split
  · exact Rd.Post.fail
  · exact Rd.Post.items hb hx o _

theorem Rd.Post.kids {e : Env} (hb : e.buf.length < 2 ^ 63) {ext : Rd.Ext} (hx : ExtPost e ext) (o : Nat) :
    (Rd.parseKids ext o).Post e fun l _ => EveryValue (Accessed e) l := by
  refine Rd.Post.after fun _ => Rd.Post.bind (Rd.Post.list hb hx o) fun ks c b c' hq h => ?_
  cases h
  exact everyValue_insertAll ks [] .nil hq

theorem Rd.Post.kidsIf {e : Env} (hb : e.buf.length < 2 ^ 63) {ext : Rd.Ext} (hx : ExtPost e ext) (o : Nat) (has : Bool) :
    (Rd.parseKidsIf ext o has).Post e fun l _ => EveryValue (Accessed e) l := by
  unfold Rd.parseKidsIf
  split
  · exact Rd.Post.kids hb hx o
  · exact Rd.Post.ret fun _ => .nil

theorem Rd.Post.png {e : Env} (hb : e.buf.length < 2 ^ 63) : Rd.parsePng.Post e fun p _ => p.offset ≤ e.buf.length ∧ p.size < 2 ^ 64 := by
  refine Rd.Post.after fun w => Rd.Post.after fun h => Rd.Post.after fun f => Rd.Post.after fun sc => Rd.Post.after fun pg =>
    Rd.Post.after fun _ => Rd.Post.after fun _ => Rd.Post.after fun n => Rd.Post.after fun e' => Rd.Post.after fun n1 => Rd.Post.after fun _ => ?_
  intro c p c' hr
  change (Rd.readLE 2 >>= fun header => (Pure.pure (Png.mk c.pos (asUsize n1) (asU32 f) (asU32 sc) header pg (asU32 w) (asU32 h)) : Rd Png)).run e c = _ at hr
  rw [Rd.bind_run] at hr
  rcases hq : (Rd.readLE 2).run e c with ⟨r, c1⟩
  rw [hq] at hr
  cases r with
  | error x => cases hr
  | ok v =>
    cases hr
    have h2 := Rd.Post.readLE hb 2 c v c' hq
    refine ⟨?_, asUsize_lt _⟩
    dsimp only
    unfold Rd.readLE at hq
    dsimp only at hq
    cases ha : addU e.mode c.pos 2 with
    | error x => rw [ha] at hq; cases hq
    | ok q =>
      rw [ha] at hq
      dsimp only at hq
      unfold readAt at hq
      by_cases hin : c.pos + 2 ≤ e.buf.length
      · omega
      · rw [if_neg hin] at hq
        cases hq

theorem Rd.Post.sound {e : Env} (hb : e.buf.length < 2 ^ 63) {eob : Nat} (heob : eob < 2 ^ 64) : (Rd.parseSound eob).Post e fun v _ => Accessed e v := by
  refine Rd.Post.after fun _ => Rd.Post.after fun size => Rd.Post.bind (Rd.Post.readWzInt hb) fun duration c v c' hq h => ?_
  change (Rd.lift (subU e.mode eob (asU32 size)) >>= _).run e c = _ at h
  rw [Rd.bind_run] at h
  cases h1 : subU e.mode eob (asU32 size) with
  | error x => rw [h1] at h; cases h
  | ok off =>
    rw [h1] at h
    change (Rd.lift (subU e.mode off c.pos) >>= _).run e c = _ at h
    rw [Rd.bind_run] at h
    cases h2 : subU e.mode off c.pos with
    | error x => rw [h2] at h; cases h
    | ok hsize =>
      rw [h2] at h
      change (Rd.lift (addU e.mode c.pos hsize) >>= _).run e c = _ at h
      rw [Rd.bind_run] at h
      cases h3 : addU e.mode c.pos hsize with
      | error x => rw [h3] at h; cases h
      | ok hend =>
        rw [h3] at h
        change (Rd.lift (sliceIdx e.buf c.pos hend) >>= _).run e c = _ at h
        rw [Rd.bind_run] at h
        cases h4 : sliceIdx e.buf c.pos hend with
        | error x => rw [h4] at h; cases h
        | ok header =>
          rw [h4] at h
          cases h
          refine sound_accessed hb ?_
          unfold sliceIdx at h4
          split at h4
          · rename_i hr
            cases h4
            have hoff : off < 2 ^ 64 := by
              unfold subU at h1
              split at h1
              · cases h1; omega
              · split at h1
                · cases h1
                · cases h1; omega
            have hsum : c.pos + hsize = off ∧ hend = off := by
              unfold subU at h2
              unfold addU at h3
              split at h2
              · cases h2
                split at h3
                · cases h3; omega
                · split at h3
                  · cases h3
                  · cases h3; omega
              · split at h2
                · cases h2
                · cases h2
                  split at h3
                  · cases h3; omega
                  · split at h3
                    · cases h3
                    · cases h3
                      exfalso
                      omega
            obtain ⟨hs1, rfl⟩ := hsum
            refine ⟨hs1, hr.2, asU32_lt _, fun ht => ?_⟩
            dsimp only at ht ⊢
            unfold soundTypeOf at ht
            split at ht
            · rename_i hl
              simp at hl
              omega
            · cases ht
          · cases h4

theorem everyValue_one {P : PObj → Prop} {name : List Char} {v : PObj} (h : P v) : EveryValue P [(name, .node v [])] := .cons _ _ _ _ h .nil .nil

theorem Rd.Post.convex {e : Env} {ext : Rd.Ext} (hx : ExtPost e ext) {eob : Nat} (heob : eob < 2 ^ 64) : ∀ (n i : Nat) (acc : List (List Char × PNode)),
    EveryValue (Accessed e) acc → (Rd.convexLoop ext eob n i acc).Post e fun r _ => ∀ ks, r = .ok ks → EveryValue (Accessed e) ks := by
  intro n
  induction n with
  | zero =>
    intro i acc h
    exact Rd.Post.ret fun _ ks hk => by cases hk; exact h
  | succ n ih =>
    intro i acc h
    refine Rd.Post.bind (hx eob (decimal i) heob) fun r c b c' hq hr => ?_
    cases r with
    | ok kid => exact ih (i + 1) _ (everyValue_insert h (hq kid rfl)) c b c' hr
    | error n' =>
      cases hr
      intro ks hk
      cases hk

theorem Rd.Post.more {e : Env} (hb : e.buf.length < 2 ^ 63) {ext : Rd.Ext} (hx : ExtPost e ext) (o : Nat) {eob : Nat} (heob : eob < 2 ^ 64) (name : List Char) :
    ∀ k : Option Kind, (Rd.parseMore ext o eob name k).Post e fun r _ => ∀ x, r = .ok x → EveryValue (Accessed e) [x] := by
  intro k
  match k with
  | some .property =>
    refine Rd.Post.bind (Rd.Post.kids hb hx o) fun ks c b c' hq h x hxr => ?_
    cases h; cases hxr
    exact .cons _ _ _ _ trivial hq .nil
  | some .canvas =>
    refine Rd.Post.after fun _ => Rd.Post.after fun b => Rd.Post.bind (Rd.Post.kidsIf hb hx o (b == 1)) fun ks c r c' hq h => ?_
    refine (Rd.Post.bind (R := fun r _ => ∀ x, r = Except.ok x → EveryValue (Accessed e) [x]) (Rd.Post.png hb) fun p c r c' hp h x hxr => ?_) c r c' h
    cases h; cases hxr
    exact .cons _ _ _ _ (canvas_accessed hb hp.1 hp.2) hq .nil
  | some .convex =>
    refine Rd.Post.after fun count => ?_
    split
    · exact Rd.Post.fail
    · refine Rd.Post.bind (Rd.Post.convex hx heob count.toNat 0 [] .nil) fun r c b c' hq h x hxr => ?_
      cases r with
      | ok ks =>
        cases h; cases hxr
        exact .cons _ _ _ _ trivial (hq ks rfl) .nil
      | error n' => cases h; cases hxr
  | some .vector =>
    refine Rd.Post.after fun _ => Rd.Post.after fun _ => Rd.Post.ret fun _ x hxr => ?_
    cases hxr
    exact everyValue_one trivial
  | some .sound =>
    refine Rd.Post.bind (Rd.Post.sound hb heob) fun s c b c' hq h x hxr => ?_
    cases h; cases hxr
    exact everyValue_one hq
  | some .uol =>
    refine Rd.Post.after fun _ => Rd.Post.bind (Rd.Post.stringBlockMeta hb o) fun m c b c' hq h x hxr => ?_
    cases h; cases hxr
    exact everyValue_one (P := Accessed e) (v := .uol m) (text_accessed hb hq)
  | some .raw =>
    refine Rd.Post.after fun has => Rd.Post.bind (Rd.Post.kidsIf hb hx o has) fun ks c r c' hq h => ?_
    refine (Rd.Post.bind (R := fun r _ => ∀ x, r = Except.ok x → EveryValue (Accessed e) [x]) (Rd.Post.readWzInt hb) fun size c r c' hp h x hxr => ?_) c r c' h
    cases h; cases hxr
    exact .cons _ _ _ _ (raw_accessed hb hp (asUsize_lt _)).1 hq .nil
  | some .video =>
    refine Rd.Post.after fun _ => Rd.Post.bind (Rd.Post.readWzInt hb) fun size c r c' hp h x hxr => ?_
    cases h; cases hxr
    exact everyValue_one (raw_accessed hb hp (asUsize_lt _)).2
  | none => exact Rd.Post.ret fun _ x hxr => by cases hxr

theorem ext_post {e : Env} (hb : e.buf.length < 2 ^ 63) (o : Nat) : ∀ fuel : Nat, ExtPost e (Rd.parseExt o fuel) := by
  intro fuel
  induction fuel with
  | zero => exact fun _ _ _ => Rd.Post.fail
  | succ fuel ih => exact fun eob name heob => Rd.Post.after fun t => Rd.Post.more hb ih o heob name _

theorem Rd.Post.find {e : Env} (hb : e.buf.length < 2 ^ 63) {ext : Rd.Ext} (hx : ExtPost e ext) (o : Nat) (cur : List Char) (last : Bool) :
    ∀ n : Nat, (Rd.findItems ext o cur last n).Post e fun r _ => ∀ x, r = .node x → EveryValue (Accessed e) [x] := by
  intro n
  induction n with
  | zero => exact Rd.Post.ret fun _ x hx => by cases hx
  | succ n ih =>
    refine Rd.Post.after fun name => Rd.Post.after fun ty => ?_
    split
    · refine Rd.Post.bind (Rd.Post.node hb hx o name ty) fun y c b c' hq h x hxr => ?_
      cases h; cases hxr
      exact hq
    · split
      · split
        · exact Rd.Post.after fun _ => Rd.Post.after fun _ => Rd.Post.after fun _ => Rd.Post.ret fun _ x hx => by cases hx
        · exact Rd.Post.after fun _ => Rd.Post.after fun _ => ih
      · exact Rd.Post.after fun _ => ih

theorem Rd.Post.look {e : Env} (hb : e.buf.length < 2 ^ 63) {ext : Rd.Ext} (hx : ExtPost e ext) (o : Nat) :
    ∀ (rest : List (List Char)) (cur : List Char), (Rd.getNodeLoop ext o cur rest).Post e fun x _ => EveryValue (Accessed e) [x] := by
  intro rest
  induction rest with
  | nil =>
    intro cur
    refine Rd.Post.after fun count => Rd.Post.bind (Rd.Post.find hb hx o cur true count.toNat) fun r c b c' hq h => ?_
    cases r with
    | node x => cases h; exact hq b rfl
    | enter => cases h
    | none => cases h
  | cons next rest ih =>
    intro cur
    refine Rd.Post.after fun count => Rd.Post.bind (Rd.Post.find hb hx o cur false count.toNat) fun r c b c' hq h => ?_
    cases r with
    | node x => cases h; exact hq b rfl
    | enter => exact ih next c b c' h
    | none => exact ih cur c b c' h

/-! ### names -/

theorem splitDot_none : ∀ {name : List Char}, NoDot name → splitDot name = none := by
  intro name
  induction name with
  | nil => intro _; rfl
  | cons c s ih =>
    intro h
    have h1 : c ≠ '.' := fun hc => h (by rw [hc]; exact List.mem_cons_self)
    rw [splitDot, ih fun hm => h (List.mem_cons_of_mem _ hm)]
    exact if_neg h1

theorem splitDot_last : ∀ (a : List Char) {b : List Char}, NoDot b → splitDot (a ++ '.' :: b) = some (a, b) := by
  intro a b h
  induction a with
  | nil => rw [List.nil_append, splitDot, splitDot_none h]; rfl
  | cons c a ih => rw [List.cons_append, splitDot, ih]

theorem nameStem_plain {name : List Char} (h : NoDot name) : nameStem name = name := by
  unfold nameStem
  rw [splitDot_none h]
  split <;> rfl

theorem nameStem_dot {a b : List Char} (ha : a ≠ []) (ha2 : a ≠ ['.'] ∨ b ≠ []) (h : NoDot b) : nameStem (a ++ '.' :: b) = a := by
  unfold nameStem
  rw [splitDot_last a h]
  have hne : a ++ '.' :: b ≠ ['.', '.'] := by
    intro he
    cases a with
    | nil => exact ha rfl
    | cons x a =>
      cases a with
      | nil =>
        simp at he
        rcases ha2 with h2 | h2
        · exact h2 (by rw [he.1])
        · exact h2 he.2
      | cons y a => simp at he
  rw [if_neg hne]
  exact if_neg ha

end Wz
