import Verif.Whole.MediaSpec
import Verif.Whole.StateLemmas
import Verif.Node.PictureProps
import Verif.Media.PayloadProps

/-!
# Lemmas for C69
-/

set_option autoImplicit false

namespace Wz

open Spec

/-! ### the payload of a value -/

theorem givesPayload_of {aes : Aes} {e : Env} {g : NHeap} {j : Nat} {c : NCell} {v : AVal} (hb : e.buf.length < 2 ^ 63)
    (hc : g.cell j = some c) (hk : KindShows e c.kind v) : GivesPayload aes e g j v := by
  generalize hkk : c.kind = kk at hk
  have hleaf : g.leaf j = kk.leaf := by
    unfold NHeap.leaf
    rw [hc]
    exact congrArg NKind.leaf hkk
  have htext : g.nodeText e j = kk.text e := by
    unfold NHeap.nodeText
    rw [hc]
    exact congrArg (NKind.text e) hkk
  cases hk with
  | dir p s src =>
    refine ⟨⟨(fun _ h => nomatch h), fun _ => htext⟩, ⟨(fun _ _ _ h => nomatch h), fun _ => ?_⟩, ⟨(fun _ h => nomatch h), fun _ => ?_⟩,
      ⟨(fun _ h => nomatch h), fun _ => ?_⟩, ⟨(fun _ _ _ _ _ _ h => nomatch h), fun _ keys => ?_⟩⟩
    · unfold NHeap.soundFile; rw [hleaf]; try rfl
    · unfold NHeap.rawData; rw [hleaf]; try rfl
    · unfold NHeap.videoData; rw [hleaf]; try rfl
    · unfold NHeap.scriptText; rw [hleaf]; try rfl
  | image p src =>
    refine ⟨⟨(fun _ h => nomatch h), fun _ => htext⟩, ⟨(fun _ _ _ h => nomatch h), fun _ => ?_⟩, ⟨(fun _ h => nomatch h), fun _ => ?_⟩,
      ⟨(fun _ h => nomatch h), fun _ => ?_⟩, ⟨(fun _ _ _ _ _ _ h => nomatch h), fun _ keys => ?_⟩⟩
    · unfold NHeap.soundFile; rw [hleaf]; try rfl
    · unfold NHeap.rawData; rw [hleaf]; try rfl
    · unfold NHeap.videoData; rw [hleaf]; try rfl
    · unfold NHeap.scriptText; rw [hleaf]; try rfl
  | script n off data hd hh =>
    have hl2 := hleaf
    rw [show (NKind.other n).leaf = _ from hd] at hleaf
    rw [show (NKind.other n).text e = _ from rfl, NKind.text.eq_def] at htext
    dsimp only at htext
    rw [show (NKind.other n).leaf = _ from hd] at htext
    refine ⟨⟨(fun _ h => nomatch h), fun _ => htext⟩, ⟨(fun _ _ _ h => nomatch h), fun _ => ?_⟩, ⟨(fun _ h => nomatch h), fun _ => ?_⟩,
      ⟨(fun _ h => nomatch h), fun _ => ?_⟩, ⟨?_, fun h => absurd rfl (h data)⟩⟩
    · unfold NHeap.soundFile; rw [hleaf]; try rfl
    · unfold NHeap.rawData; rw [hleaf]; try rfl
    · unfold NHeap.videoData; rw [hleaf]; try rfl
    · rintro d s key a b c h ha ⟨before, iv, after, h1, h2, h3, h4⟩
      cases h
      unfold NHeap.scriptText
      rw [hleaf]
      dsimp only
      subst h2
      have hlen : (xorStream (keyByte aes key iv) (utf8EncStr s)).length = (utf8EncStr s).length := by simp [xorStream]
      rw [hlen, Props.C37_text_partial aes ha key a b c e.mode e.buf off s before after iv h1 hb hh h3 h4]
  | prop n o w hd hs =>
    have hl2 := hleaf
    rw [show (NKind.other n).leaf = _ from hd] at hleaf
    rw [show (NKind.other n).text e = _ from rfl, NKind.text.eq_def] at htext
    dsimp only at htext
    rw [show (NKind.other n).leaf = _ from hd] at htext
    refine ⟨⟨?_, ?_⟩, ⟨?_, ?_⟩, ⟨?_, ?_⟩, ⟨?_, ?_⟩, ⟨(by intro d s key a b c h; cases h), fun _ keys => ?_⟩⟩
    · rintro s h
      cases h
      cases hs with
      | str m _ hm => exact htext.trans hm
    · intro h
      cases hs with
      | str m s hm => exact absurd rfl (h s)
      | _ => exact htext
    · rintro d header data h hn
      cases h
      unfold NHeap.soundFile
      rw [hleaf]
      cases hs with
      | sound s _ _ h1 h2 h3 h4 h5 h6 =>
        obtain ⟨f, f1, f2, f3⟩ := Props.C36_stored_partial e s header data hb hn (.sound s header data h1 h2 h3 h4 h5 h6)
        exact ⟨f, congrArg some f1, f2, f3⟩
    · intro h
      unfold NHeap.soundFile
      rw [hleaf]
      cases hs with
      | sound s header data h1 h2 h3 h4 h5 h6 => exact absurd rfl (h _ _ _)
      | _ => rfl
    · rintro data h
      cases h
      obtain ⟨off, len, rfl, h2⟩ := (Props.C64_stored e hb o data).1 hs
      unfold NHeap.rawData
      rw [hleaf]
      exact congrArg some h2
    · intro h
      unfold NHeap.rawData
      rw [hleaf]
      cases hs with
      | raw off data => exact absurd rfl (h _)
      | _ => rfl
    · rintro data h
      cases h
      obtain ⟨off, len, rfl, h2⟩ := (Props.C64_stored e hb o data).2 hs
      unfold NHeap.videoData
      rw [hleaf]
      exact congrArg some h2
    · intro h
      unfold NHeap.videoData
      rw [hleaf]
      cases hs with
      | video off data => exact absurd rfl (h _)
      | _ => rfl
    · unfold NHeap.scriptText; rw [hleaf]; try rfl

/-! ### the picture of a value -/

theorem storedPicture_size {inflate : Inflate} {ks : Nat → Byte} {p : Png} {data px : Bytes} (m : Mode)
    (S : StoredPicture inflate ks p.width p.height (p.format1 + p.format2) data px) : p.buffSize m = .ok px.length := by
  have hwh : p.width * p.height ≤ (p.width + 3) * (p.height + 3) := Nat.mul_le_mul (by omega) (by omega)
  have hs := S.small
  have hq := Props.quarters (p.width + 3) (p.height + 3)
  have key : ∀ count, (p.format1 + p.format2, count) ∈ byteCount → count p.width p.height < 2 ^ 32 → p.buffSize m = .ok px.length := by
    intro count hc hl
    rw [S.count count hc]
    exact Props.C35_sizes m p _ count hc rfl hl
  have a : ∀ k : Nat, k * p.width * p.height = k * (p.width * p.height) := fun k => Nat.mul_assoc _ _ _
  have b : 16 * ((p.width + 3) / 4) * ((p.height + 3) / 4) = (p.width + 3) / 4 * ((p.height + 3) / 4) * 16 := by
    rw [Nat.mul_assoc, Nat.mul_comm]
  have hk := S.known
  simp only [List.mem_cons, List.not_mem_nil, or_false] at hk
  rcases hk with h | h | h | h | h | h | h | h | h
  · exact key _ (by rw [h]; exact .head _) (by rw [a]; omega)
  · exact key _ (by rw [h]; exact .tail _ (.head _)) (by rw [a]; omega)
  · exact key _ (by rw [h]; exact .tail _ (.tail _ (.head _))) (by rw [a]; omega)
  · exact key _ (by rw [h]; exact .tail _ (.tail _ (.tail _ (.head _)))) (by rw [a]; omega)
  · rw [(S.squares h).2.2.2]
    exact (Props.C35_other_sizes m p (by omega)).2.1 h
  · exact key _ (by rw [h]; exact .tail _ (.tail _ (.tail _ (.tail _ (.head _))))) (by rw [a]; omega)
  · exact key _ (by rw [h]; exact .tail _ (.tail _ (.tail _ (.tail _ (.tail _ (.tail _ (.head _))))))) (by rw [b]; omega)
  · exact key _ (by rw [h]; exact .tail _ (.tail _ (.tail _ (.tail _ (.tail _ (.tail _ (.tail _ (.head _)))))))) (by rw [b]; omega)
  · exact key _ (by rw [h]; exact .tail _ (.tail _ (.tail _ (.tail _ (.tail _ (.head _)))))) (by rw [a]; omega)

theorem extract_stored {inflate : Inflate} {bc7 : Bc7} {aes : Aes} {e : Env} {p : Png} {data px iv key : Bytes} {ops : List Props.KeyOp}
    (hb : e.buf.length < 2 ^ 63) (hs : p.size = data.length) (hh : Holds e.buf p.offset data) (hhd : p.header = leNat (data.take 2))
    (ha : aes.Sized) (hiv : iv.length = 4) (hks : e.ks = keyByte aes key iv)
    (S : StoredPicture inflate e.ks p.width p.height (p.format1 + p.format2) data px) :
    ∃ img keys, p.extract inflate bc7 aes e.mode e.buf (ops.foldl (Props.KeyOp.after aes) (Ecb.new iv key)) = .ok (img, keys) ∧
      Props.Decoded (p.format1 + p.format2) px p.width p.height img := by
  have hcap := storedPicture_size e.mode S
  have hle := hh.le
  have h16 : p.format1 + p.format2 = 517 → 0 < p.width ∧ p.width % 16 = 0 ∧ p.height % 16 = 0 :=
    fun h => ⟨(S.squares h).1, (S.squares h).2.1, (S.squares h).2.2.1⟩
  have hz : p.hasZlibHeader = true ↔ p.header ∈ [0x9C78, 0xDA78, 0x0178, 0x5E78] := by
    unfold Png.hasZlibHeader
    simp [or_assoc]
  suffices H : ∃ img, (p.extract inflate bc7 aes e.mode e.buf (ops.foldl (Props.KeyOp.after aes) (Ecb.new iv key))).map Prod.fst = .ok img ∧
      Props.Decoded (p.format1 + p.format2) px p.width p.height img by
    obtain ⟨img, h1, h2⟩ := H
    generalize p.extract inflate bc7 aes e.mode e.buf _ = r at h1 ⊢
    cases r with
    | error x => cases h1
    | ok y =>
      obtain ⟨i', k'⟩ := y
      cases h1
      exact ⟨_, _, rfl, h2⟩
  have hp := S.packed
  generalize hkk : e.ks = kk at hp
  cases hp with
  | plain _ _ h1 h2 =>
    obtain ⟨img, e1, e2⟩ := Props.C35_enough_partial bc7 e.mode p px S.known hcap S.small S.blocks h16
    refine ⟨img, ?_, e2⟩
    have hraw := Props.C34_plain inflate aes e.mode e.buf p data px (ops.foldl (Props.KeyOp.after aes) (Ecb.new iv key)) px.length hcap
      (by rw [hhd]; exact h1) h2
    have hfmt : p.format1 + p.format2 < 2 ^ 32 := by
      have hk := S.known
      simp only [List.mem_cons, List.not_mem_nil, or_false] at hk
      omega
    unfold Png.extract
    rw [addU_ok (by omega)]
    simp only [bind, Except.bind]
    rw [hs, Props.sliceIdx_holds hh]
    dsimp only
    rw [hraw]
    dsimp only
    rw [Props.format_ok hfmt]
    dsimp only
    rw [e1]
    rfl
  | pieces chunks head z _ h1 h2 h3 h4 h5 =>
    obtain ⟨pre, post, hbuf, hpre⟩ := hh
    rw [hks] at hkk
    subst hkk
    have := Props.C34_picture_partial inflate bc7 aes ha iv key hiv ops e.mode p pre post chunks head z px h1 h2 h3 hpre.symm hs (by omega) hcap h4
      (by
        rcases h5 with h5 | h5
        · refine .inl (Bool.eq_false_iff.2 fun h => h5 ?_)
          rw [← hhd]
          exact hz.1 h
        · exact .inr h5) S.known S.small S.blocks h16
    rw [hbuf]
    exact this

/-! ### inside an image that has been read -/

/-- an image that has been read: below it is what `look` says -/
structure OpenImage (e : Env) (g : NHeap) (q : Nat) (look : List (List Char) → Option AVal) : Prop where
  knows : Consistent g
  image : Image g q
  shows : ∀ ns, ns ≠ [] → match look ns with
    | some v => ∃ x c n, foldPath g.at q ns = some x ∧ g.cell x = some c ∧ c.kind = .other n ∧ KindShows e c.kind v
    | none => foldPath g.at q ns = none

variable {e : Env} {g : NHeap} {q : Nat} {look : List (List Char) → Option AVal}

theorem OpenImage.found (O : OpenImage e g q look) {ns : List (List Char)} {v : AVal} (hne : ns ≠ []) (hv : look ns = some v) :
    ∃ x c n, foldPath g.at q ns = some x ∧ g.cell x = some c ∧ c.kind = .other n ∧ KindShows e (.other n) v := by
  have := O.shows ns hne
  rw [hv] at this
  obtain ⟨x, c, n, h1, h2, h3, h4⟩ := this
  exact ⟨x, c, n, h1, h2, h3, by rw [← h3]; exact h4⟩

theorem OpenImage.back (O : OpenImage e g q look) {ns : List (List Char)} {x : Nat} (hne : ns ≠ []) (hx : foldPath g.at q ns = some x) :
    ∃ v c n, look ns = some v ∧ g.cell x = some c ∧ c.kind = .other n ∧ KindShows e (.other n) v := by
  cases hv : look ns with
  | none =>
    have := O.shows ns hne
    rw [hv] at this
    dsimp only at this
    rw [hx] at this
    cases this
  | some v =>
    obtain ⟨y, c, n, h1, h2, h3, h4⟩ := O.found hne hv
    rw [hx] at h1
    cases h1
    exact ⟨v, c, n, rfl, h2, h3, h4⟩

theorem foldPath_snoc {step : Nat → List Char → Option Nat} {a : List (List Char)} {n : List Char} {i x : Nat}
    (h : foldPath step i (a ++ [n]) = some x) : ∃ y, foldPath step i a = some y ∧ step y n = some x := by
  rw [foldPath_append53] at h
  cases hy : foldPath step i a with
  | none => rw [hy] at h; cases h
  | some y =>
    rw [hy] at h
    refine ⟨y, rfl, ?_⟩
    simp only [Option.bind_some, foldPath] at h
    cases hs : step y n with
    | none => rw [hs] at h; cases h
    | some z => rw [hs] at h; exact h

/-- the nearest image above everything in an image is the image -/
theorem OpenImage.nearest (O : OpenImage e g q look) : ∀ (ns : List (List Char)) (x : Nat), ns ≠ [] → foldPath g.at q ns = some x →
    NearestUp g (Image g) x q := by
  intro ns
  induction h : ns.length generalizing ns with
  | zero => intro x hne; exact absurd (List.eq_nil_of_length_eq_zero h) hne
  | succ k ih =>
    intro x hne hx
    obtain ⟨a, n, rfl⟩ : ∃ a n, ns = a ++ [n] := ⟨ns.dropLast, ns.getLast hne, (List.dropLast_append_getLast hne).symm⟩
    obtain ⟨y, h1, h2⟩ := foldPath_snoc hx
    have hp := (O.knows.kids y n x ((at_eq O.knows.maps).1 h2)).2
    by_cases ha : a = []
    · subst ha
      cases h1
      exact .here x q hp O.image
    · refine .above x y q hp ?_ (ih a (by simpa using h) y ha h1)
      obtain ⟨v, c, n', _, h4, h5, _⟩ := O.back ha h1
      rintro ⟨c', p, src, h6, h7⟩
      rw [h4] at h6
      cases h6
      rw [h5] at h7
      cases h7

theorem nearest_unique {h : NHeap} {P : Nat → Prop} {i a : Nat} (ha : NearestUp h P i a) : ∀ {b : Nat}, NearestUp h P i b → a = b := by
  have one : ∀ {x y z : Nat}, ParentOf h x y → ParentOf h x z → y = z := by
    rintro x y z ⟨c, _, h1, h2, _⟩ ⟨c', _, h3, h4, _⟩
    rw [h1] at h3
    cases h3
    rw [h2] at h4
    cases h4
    rfl
  induction ha with
  | here i p h1 h2 =>
    intro b hb
    cases hb with
    | here _ _ h3 _ => exact one h1 h3
    | above _ p' _ h3 h4 _ => exact absurd (one h1 h3 ▸ h2) h4
  | above i p a h1 h2 _ ih =>
    intro b hb
    cases hb with
    | here _ _ h3 h4 => exact absurd (one h1 h3 ▸ h4) h2
    | above _ p' _ h3 h4 h5 => exact ih (one h1 h3 ▸ h5)

theorem shows_str {n : Nat} {v : AVal} (h : KindShows e (.other n) v) (s : List Char) :
    leafText e n = some s ↔ v = .prop (.str s) := by
  cases h with
  | prop _ o w hd hs =>
    unfold leafText
    rw [hd]
    cases hs with
    | str m t hm =>
      dsimp only
      rw [hm]
      constructor
      · intro h; cases h; rfl
      · intro h; cases h; rfl
    | _ => exact ⟨(fun h => nomatch h), fun h => nomatch h⟩
  | script _ off data hd =>
    unfold leafText
    rw [hd]
    exact ⟨(fun h => nomatch h), fun h => nomatch h⟩

theorem shows_canvas {n : Nat} {v : AVal} (h : KindShows e (.other n) v) :
    leafPng n = true ↔ ∃ w h f s pages data, v = .prop (.canvas w h f s pages data) := by
  cases h with
  | prop _ o w hd hs =>
    unfold leafPng
    rw [hd]
    cases hs with
    | canvas g pages data h1 h2 h3 h4 => exact ⟨fun _ => ⟨_, _, _, _, _, _, rfl⟩, fun _ => rfl⟩
    | _ => exact ⟨(fun h => nomatch h), fun ⟨_, _, _, _, _, _, h⟩ => nomatch h⟩
  | script _ off data hd =>
    unfold leafPng
    rw [hd]
    exact ⟨(fun h => nomatch h), fun ⟨_, _, _, _, _, _, h⟩ => nomatch h⟩

theorem OpenImage.picture (O : OpenImage e g q look) {ns : List (List Char)} {x : Nat} (hne : ns ≠ []) (hx : foldPath g.at q ns = some x) :
    Picture leafPng g x ↔ CanvasAt look ns := by
  obtain ⟨v, c, n, h1, h2, h3, h4⟩ := O.back hne hx
  have hk := shows_canvas h4
  unfold CanvasAt
  constructor
  · rintro ⟨c', v', h5, h6, h7⟩
    rw [h2] at h5
    cases h5
    rw [h3] at h6
    cases h6
    obtain ⟨_, _, _, _, _, _, rfl⟩ := hk.1 h7
    exact ⟨_, _, _, _, _, _, h1⟩
  · rintro ⟨_, _, _, _, _, _, h5⟩
    rw [h1] at h5
    cases h5
    exact ⟨c, n, h2, h3, hk.2 ⟨_, _, _, _, _, _, rfl⟩⟩

theorem OpenImage.text (O : OpenImage e g q look) {ns : List (List Char)} {x : Nat} (hx : foldPath g.at q ns = some x)
    (name s : List Char) : TextOf (leafText e) g x name s ↔ look (ns ++ [name]) = some (.prop (.str s)) := by
  have happ : foldPath g.at q (ns ++ [name]) = g.at x name := by
    rw [foldPath_append53, hx]
    simp only [Option.bind_some, foldPath]
    cases g.at x name <;> rfl
  constructor
  · rintro ⟨j, c, h1, h2, h3⟩
    rw [(at_eq O.knows.maps).2 h1] at happ
    obtain ⟨v, c', n, a1, a2, a3, a4⟩ := O.back (by simp) happ
    rw [h2] at a2
    cases a2
    rcases h3 with h3 | ⟨v', h3, h4⟩
    · rw [a3] at h3; cases h3
    · rw [a3] at h3
      cases h3
      rw [a1, (shows_str a4 s).1 h4]
  · intro hl
    obtain ⟨y, c, n, a1, a2, a3, a4⟩ := O.found (by simp) hl
    rw [happ] at a1
    exact ⟨y, c, (at_eq O.knows.maps).1 a1, a2, .inr ⟨n, a3, (shows_str a4 s).2 rfl⟩⟩

theorem OpenImage.inlink (O : OpenImage e g q look) {ns : List (List Char)} {x t : Nat} (hne : ns ≠ []) (hx : foldPath g.at q ns = some x) :
    InlinkTo (leafText e) g x t ↔ ∃ ms, InlinkIn look ns ms ∧ foldPath g.at q ms = some t := by
  constructor
  · rintro ⟨s, q', ms, h1, h2, h3, h4⟩
    have hq : q' = q := by
      have := O.nearest ns x hne hx
      exact nearest_unique h2 this
    subst hq
    have hf := (foldPath_at O.knows.maps ms q' t).2 h4
    refine ⟨ms, ⟨s, (O.text hx _ s).1 h1, h3, ?_⟩, hf⟩
    obtain ⟨v, _, _, h5, _⟩ := O.back h3.some hf
    rw [h5]
    simp
  · rintro ⟨ms, ⟨s, h1, h2, _⟩, h3⟩
    exact ⟨s, q, ms, (O.text hx _ s).2 h1, O.nearest ns x hne hx, h2, (foldPath_at O.knows.maps ms q t).1 h3⟩

theorem OpenImage.inlinks (O : OpenImage e g q look) {ns ks : List (List Char)} (L : LinkedTo look ns ks) : ∀ {x : Nat}, ns ≠ [] →
    foldPath g.at q ns = some x → ∃ y, ks ≠ [] ∧ foldPath g.at q ks = some y ∧ InlinkPath leafPng (leafText e) g x y := by
  induction L with
  | here ns => intro x hne hx; exact ⟨x, hne, hx, .here x⟩
  | next ns ms ks h1 h2 _ ih =>
    intro x hne hx
    obtain ⟨s, a1, a2, a3⟩ := h2
    cases hv : look ms with
    | none => exact absurd hv a3
    | some v =>
      obtain ⟨t, _, _, b1, _⟩ := O.found a2.some hv
      obtain ⟨y, c1, c2, c3⟩ := ih a2.some b1
      exact ⟨y, c1, c2, .next x t y ((O.picture hne hx).2 h1) ((O.inlink hne hx).2 ⟨ms, ⟨s, a1, a2, a3⟩, b1⟩) c3⟩

theorem OpenImage.circle (O : OpenImage e g q look) {content : Content} {S : List (List Char) → Prop}
    (hS : ∀ ms, S ms → CanvasAt look ms ∧ ∃ ms', InlinkIn look ms ms' ∧ S ms') : ∀ (fuel : Nat) (held : List Nat) (ns : List (List Char))
    (x : Nat), S ns → ns ≠ [] → foldPath g.at q ns = some x →
    NHeap.getImage content leafPng (leafText e) fuel g held x = (.error .fuel, g)
  | 0, _, _, _, _, _, _ => rfl
  | fuel + 1, held, ns, x, hs, hne, hx => by
    obtain ⟨h1, ms, h2, h3⟩ := hS ns hs
    have h2' := h2
    obtain ⟨s, a1, a2, a3⟩ := h2
    cases hv : look ms with
    | none => exact absurd hv a3
    | some v =>
      obtain ⟨t, _, _, b1, _⟩ := O.found a2.some hv
      obtain ⟨N, hN⟩ := inTarget_some O.knows.maps ((O.inlink hne hx).2 ⟨ms, h2', b1⟩)
      rw [NHeap.getImage, if_pos (isPicture_iff.2 ((O.picture hne hx).2 h1))]
      cases hin : g.inTarget (leafText e) fuel x with
      | none => rfl
      | some r =>
        have := inTarget_more (Nat.le_max_left fuel N) hin
        rw [hN _ (Nat.le_max_right _ _)] at this
        cases this
        exact O.circle hS fuel (x :: held) ms t h3 a2.some b1

theorem givesPicture_of (O : OpenImage e g q look) (hb : e.buf.length < 2 ^ 63) {content : Content} {inflate : Inflate} {bc7 : Bc7}
    {aes : Aes} {alone : Prop} {ns : List (List Char)} {j : Nat} (hne : ns ≠ []) (hx : foldPath g.at q ns = some j)
    (hal : alone → ∀ ks y, foldPath g.at q ks = some y → ∃ l, Chain g y l ∧ ∀ z ∈ l.tail, ¬ BaseFile g z) :
    GivesPicture content inflate bc7 aes e alone g j look ns := by
  refine ⟨?_, ?_, ?_⟩
  · intro ks w h f s pages data px iv key ops L hv hno ho ha hiv hks S
    obtain ⟨y, hk, hy, P⟩ := O.inlinks L hne hx
    obtain ⟨y', c, n, h1, h2, h3, h4⟩ := O.found hk hv
    rw [hy] at h1
    cases h1
    have hpic := (O.picture hk hy).2 ⟨_, _, _, _, _, _, hv⟩
    have hin : NoInlink (leafText e) g y := by
      refine .inr ⟨.inl ⟨q, O.nearest ks y hk hy⟩, fun t ht => ?_⟩
      obtain ⟨ms, h5, _⟩ := (O.inlink hk hy).1 ht
      exact hno ms h5
    have hout : NoOutlink (leafText e) g y := by
      rcases ho with ho | ho
      · exact .inr (hal ho ks y hy)
      · exact .inl fun t ht => ho t ((O.text hy _ t).1 ht)
    obtain ⟨N, hN⟩ := Props.C57_inlinks (content := content) (held := []) O.knows.maps P hpic hin hout
    cases h4 with
    | prop _ o _ hd hs =>
      cases hs with
      | canvas p _ _ p1 p2 p3 p4 =>
        obtain ⟨img, keys, e1, e2⟩ := extract_stored (bc7 := bc7) (ops := ops) hb p2 p3 p4 ha hiv hks S
        refine ⟨img, keys, N, e2, fun fuel hf => ?_⟩
        have hleaf : g.leaf y = some (.prop (.canvas p)) := by
          unfold NHeap.leaf
          rw [h2]
          dsimp only
          rw [h3]
          exact hd
        unfold NHeap.picture
        rw [hN fuel hf]
        dsimp only
        rw [hleaf]
        dsimp only
        rw [e1]
  · intro ks keys L hv hno
    obtain ⟨y, hk, hy, P⟩ := O.inlinks L hne hx
    obtain ⟨N, hN⟩ := Props.C57_inlinks_elsewhere (content := content) (held := []) O.knows.maps P (fun h => hno ((O.picture hk hy).1 h))
    refine ⟨N, fun fuel hf => ?_⟩
    unfold NHeap.picture
    rw [hN fuel hf]
  · intro S keys hs hS fuel
    unfold NHeap.picture
    rw [O.circle hS fuel [] ns j hs hne hx]

/-! ### the image on a path -/

theorem goodImage_shows {t : ATree} {f : Forest} (T : TreeAt g q f) (hg : GoodImage e t f) (hu : NoUolIn t) (ns : List (List Char))
    (hne : ns ≠ []) : match belowImage t ns with
      | some v => ∃ x c n, foldPath g.at q ns = some x ∧ g.cell x = some c ∧ c.kind = .other n ∧ KindShows e c.kind v
      | none => foldPath g.at q ns = none := by
  obtain ⟨r, L, O⟩ := hg.leads (fun _ => .ok .nil) ns hne hu
  have hr := leads_values L hg.values
  have hT := T ns hne
  cases hs : Spec.Forest.showsAt f ns with
  | none =>
    rw [hs] at hr hT
    dsimp only at hr
    subst hr
    cases hf : foldPath g.at q ns with
    | some x => rw [hf] at hT; cases hT
    | none =>
      cases hv : belowImage t ns with
      | none => rfl
      | some v => rw [hv] at O; obtain ⟨_, _, h1, _⟩ := O; cases h1
  | some x =>
    rw [hs] at hr hT
    dsimp only at hr
    subst hr
    cases hf : foldPath g.at q ns with
    | none => rw [hf] at hT; cases hT
    | some y =>
      rw [hf] at hT
      simp only [Option.map_some, Option.some.injEq] at hT
      cases hv : belowImage t ns with
      | none => rw [hv] at O; cases O
      | some v =>
        rw [hv] at O
        obtain ⟨nm', k', h1, h2, h3⟩ := O
        cases h1
        cases hc : g.cell y with
        | none => rw [hc] at hT; cases hT
        | some c =>
          rw [hc] at hT
          simp only [Option.map_some, Option.some.injEq, Prod.mk.injEq] at hT
          have hkind : ∃ n, c.kind = .other n := by
            rw [hT.2]
            have hprop : v ≠ .dir ∧ v ≠ .image := by
              cases t with
              | dir ks => cases hv
              | image ps =>
                simp only [belowImage] at hv
                cases hp : propAt ps ns with
                | none => rw [hp] at hv; cases hv
                | some w => rw [hp] at hv; cases hv; exact ⟨(fun h => nomatch h), fun h => nomatch h⟩
              | text d =>
                simp only [belowImage] at hv
                split at hv
                · cases hv; exact ⟨(fun h => nomatch h), fun h => nomatch h⟩
                · cases hv
              | script d =>
                simp only [belowImage] at hv
                split at hv
                · cases hv; exact ⟨(fun h => nomatch h), fun h => nomatch h⟩
                · cases hv
            cases h3 with
            | dir => exact absurd rfl hprop.1
            | image => exact absurd rfl hprop.2
            | prop n => exact ⟨n, rfl⟩
            | script n => exact ⟨n, rfl⟩
          obtain ⟨n, hn⟩ := hkind
          exact ⟨y, c, n, rfl, hc, hn, by rw [hT.2]; exact h3⟩

theorem stands_open {fuel : Nat} {h : NHeap} {ms : List (List Char)} (hms : ms ≠ []) : ∀ (ds : List (List Char)) (j : Nat) (nm : List Char)
    (t : ATree), Stands58 e fuel h j nm t → valFrom t ds = some .image → freeFrom t (ds ++ ms) →
    ∃ q c p src u f, foldPath h.at j ds = some q ∧ h.cell q = some c ∧ c.kind = .image p src ∧ GoodImage e u f ∧ NoUolIn u ∧
      (p = true → TreeAt h q f) ∧ (p = false → c.kids = []) ∧ (∀ ns, ns ≠ [] → valFrom t (ds ++ ns) = belowImage u ns) ∧
      ∀ a b y, ds = a ++ b → foldPath h.at j a = some y → ¬ BaseFile h y := by
  intro ds j nm t H
  have top : ∀ (j : Nat) (nm : List Char) (t : ATree), Stands58 e fuel h j nm t → ¬ BaseFile h j := by
    rintro j nm t H ⟨c', p', s', h1, h2, _⟩
    cases H with
    | image _ c _ p o s _ f hc hn hk => rw [hc] at h1; cases h1; rw [hk] at h2; cases h2
    | dir _ c _ p src kids ids hc hn hk => rw [hc] at h1; cases h1; rw [hk] at h2; cases h2
  induction ds generalizing j nm t with
  | nil =>
    intro hv hu
    cases H with
    | dir _ c _ p src kids ids hc hn hk => cases hv
    | image _ c _ p o s _ f hc hn hk ht hr hg hp1 hp2 =>
      have hu' : NoUolIn t := by
        cases t with
        | dir ks => exact nomatch ht.stored
        | image ps => exact hu.resolve_left hms
        | _ => trivial
      refine ⟨j, c, p, _, t, f, rfl, hc, hk, hg, hu', fun hp => (hp1 hp).1 (hg.free hu'), hp2, fun ns hne => ?_, fun a b y hab hy => ?_⟩
      · cases t with
        | dir ks => exact nomatch ht.stored
        | image ps => simp only [List.nil_append, valFrom, if_neg hne]
        | text ps => simp only [List.nil_append, valFrom, if_neg hne]
        | script ps => simp only [List.nil_append, valFrom, if_neg hne]
      · obtain ⟨rfl, rfl⟩ := List.append_eq_nil_iff.1 hab.symm
        cases hy
        exact top j nm t (.image j c nm p o s t f hc hn hk ht hr hg hp1 hp2)
  | cons n ds ih =>
    intro hv hu
    have H' := H
    cases H with
    | image _ c _ p o s _ f hc hn hk ht hr hg hp1 hp2 =>
      exfalso
      cases t with
      | dir ks => exact nomatch ht.stored
      | image ps =>
        simp only [valFrom, belowImage] at hv
        rw [if_neg (by simp)] at hv
        cases hp : propAt ps (n :: ds) with
        | none => rw [hp] at hv; cases hv
        | some w => rw [hp] at hv; cases hv
      | text ps =>
        simp only [valFrom, belowImage] at hv
        rw [if_neg (by simp)] at hv
        split at hv <;> cases hv
      | script ps =>
        simp only [valFrom, belowImage] at hv
        rw [if_neg (by simp)] at hv
        split at hv <;> cases hv
    | dir _ c _ p src kids ids hc hn hk h1 h2 h3 =>
      have hv' : arcAt kids (n :: ds) = some .image := hv
      have hu' : NoUolOn kids (n :: (ds ++ ms)) := hu
      rw [arcAt_from] at hv'
      rw [noUolOn_from] at hu'
      cases hl : lastNamed kids n with
      | none => rw [hl] at hv'; cases hv'
      | some u =>
        rw [hl] at hv' hu'
        obtain ⟨q, cq, pq, sq, w, f, a1, a2, a3, a4, a5, a6, a7, a8, a9⟩ := ih (ids n) n u (h3 n u hl) hv' hu'
        refine ⟨q, cq, pq, sq, w, f, ?_, a2, a3, a4, a5, a6, a7, fun ns hne => ?_, fun a b y hab hy => ?_⟩
        · simp only [foldPath, h2 n u hl]
          exact a1
        · show arcAt kids (n :: (ds ++ ns)) = _
          rw [arcAt_from, hl]
          exact a8 ns hne
        · cases a with
          | nil => cases hy; exact top j nm _ H'
          | cons m a =>
            simp only [List.cons_append, List.cons.injEq] at hab
            obtain ⟨rfl, hab⟩ := hab
            simp only [foldPath, h2 n u hl] at hy
            exact a9 a b y hab hy

/-! ### upwards -/

theorem chain_down {h : NHeap} (K : Consistent h) {i : Nat} {l : List Nat} (hl : Chain h i l) : ∀ (ns : List (List Char)) (y : Nat),
    foldPath h.at i ns = some y → ∃ l', Chain h y l' ∧ ∀ z ∈ l', z ∈ l ∨ ∃ a b, ns = a ++ b ∧ a ≠ [] ∧ foldPath h.at i a = some z := by
  intro ns
  induction hlen : ns.length generalizing ns with
  | zero =>
    intro y hy
    obtain rfl := List.eq_nil_of_length_eq_zero hlen
    cases hy
    exact ⟨l, hl, fun z hz => .inl hz⟩
  | succ k ih =>
    intro y hy
    have hne : ns ≠ [] := by intro h; rw [h] at hlen; cases hlen
    obtain ⟨a, n, rfl⟩ : ∃ a n, ns = a ++ [n] := ⟨ns.dropLast, ns.getLast hne, (List.dropLast_append_getLast hne).symm⟩
    obtain ⟨x, h1, h2⟩ := foldPath_snoc hy
    have hp := (K.kids x n y ((at_eq K.maps).1 h2)).2
    obtain ⟨l', h3, h4⟩ := ih a (by simpa using hlen) x h1
    refine ⟨y :: l', .up y x l' hp h3, fun z hz => ?_⟩
    rcases List.mem_cons.1 hz with rfl | hz
    · exact .inr ⟨a ++ [n], [], by simp, by simp, hy⟩
    · rcases h4 z hz with h5 | ⟨b, b', h5, h6, h7⟩
      · exact .inl h5
      · exact .inr ⟨b, b' ++ [n], by rw [h5, List.append_assoc], h6, h7⟩

/-! ### the open file -/

/-- nothing is read below an image that is open -/
theorem OpenImage.folds {e : Env} {g : NHeap} {q : Nat} {look : List (List Char) → Option AVal} (O : OpenImage e g q look) (content : Content) :
    ∀ (ms ks : List (List Char)) (x y : Nat), ks ≠ [] → foldPath g.at q ks = some x → foldPath g.at x ms = some y →
    NHeap.foldParsed content q g x ms = (.ok y, g)
  | [], _, _, _, _, _, hy => by cases hy; rfl
  | m :: ms, ks, x, y, hks, hx, hy => by
    obtain ⟨_, c, n, _, h2, h3, _⟩ := O.back hks hx
    have hxq : x ≠ q := by
      rintro rfl
      obtain ⟨c', _, _, h4, h5⟩ := O.image
      rw [h2] at h4
      cases h4
      rw [h3] at h5
      cases h5
    rw [foldParsed_cons, if_neg hxq, parse_eq h2, quiet_plan (quiet_inImage (.inl ⟨n, h3⟩))]
    dsimp only
    rw [foldPath] at hy
    cases hz : g.at x m with
    | none => rw [hz] at hy; cases hy
    | some z =>
      rw [hz] at hy
      refine OpenImage.folds O content ms (ks ++ [m]) z y (by simp) ?_ hy
      rw [foldPath_append53, hx]
      simp only [Option.bind, foldPath, hz]

theorem OpenImage.finds {e : Env} {g : NHeap} {q : Nat} {look : List (List Char) → Option AVal} (O : OpenImage e g q look) (content : Content)
    {path : List Char} {ns : List (List Char)} {y : Nat} (hp : Pieces path ns) (hy : foldPath g.at q ns = some y) :
    g.atPathParsed content q path = (.ok y, g) := by
  unfold NHeap.atPathParsed
  rw [pieces_iff.1 hp]
  cases ns with
  | nil => exact absurd rfl hp.some
  | cons n ns =>
    dsimp only
    rw [foldPath] at hy
    cases hz : g.at q n with
    | none => rw [hz] at hy; cases hy
    | some z =>
      rw [hz] at hy
      exact O.folds content ns [n] z y (by simp) (by simp only [foldPath, hz]) hy

theorem atPathParsed_fold {content : Content} {h g : NHeap} {i j : Nat} {path : List Char} {ns : List (List Char)} (hp : Pieces path ns)
    (hi : g.cell i = h.cell i) (hf : h.atPathParsed content i path = (.ok j, g)) : foldPath g.at i ns = some j := by
  unfold NHeap.atPathParsed at hf
  rw [pieces_iff.1 hp] at hf
  cases ns with
  | nil => exact absurd rfl hp.some
  | cons n ns =>
    dsimp only at hf
    have hat : g.at i n = h.at i n := by unfold NHeap.at; rw [hi]
    cases ha : h.at i n with
    | none => rw [ha] at hf; cases hf
    | some k =>
      rw [ha] at hf
      simp only [foldPath, hat, ha]
      exact (foldParsed_ok ns h k j g hf).1

theorem fileStands_payloads {fuel : Nat} {content : Content} {h : NHeap} {i : Nat} {arch : List (List Char × ATree)}
    {inflate : Inflate} {bc7 : Bc7} {aes : Aes} {alone : Prop}
    (hcon : ∀ n o s, content (Encodable.encode (Src58.image n o s)) = readImage e fuel ⟨n, o, s⟩) (hb : e.buf.length < 2 ^ 63)
    (F : FileStands e fuel h i arch) (K : Consistent h) (hal : alone → OnItsOwn h i) :
    FindsPayloads content inflate bc7 aes e alone h i arch := by
  intro path ns v hp hu hv
  obtain ⟨Kp, Fd⟩ := find_stands hcon F hp hu
  rw [hv] at Fd
  obtain ⟨j, c, h1, h2, _, h4⟩ := Fd
  generalize hq : h.atPathParsed content i path = r at Kp h1 h2
  obtain ⟨r, g⟩ := r
  cases h1
  dsimp only at Kp h2
  refine ⟨j, g, rfl, givesPayload_of hb h2 h4, fun ds ms hns hms hds => ?_⟩
  subst hns
  obtain ⟨ci, pi, si, hci, hki⟩ := F.1
  have hgi := Kp.2.1 i ci pi si hci hki
  have hj := atPathParsed_fold hp (hgi.trans hci.symm) hq
  have F' := Kp.file F
  have K' := Kp.2.2 K
  cases ds with
  | nil => cases hds
  | cons n ds =>
    have hfn := F'.2 n
    rw [arcAt_from] at hds
    rw [List.cons_append, noUolOn_from] at hu
    cases hl : lastNamed arch n with
    | none => rw [hl] at hds; cases hds
    | some t =>
      rw [hl] at hfn hds hu
      obtain ⟨k, f1, f2⟩ := hfn
      obtain ⟨q, cq, pq, sq, u, f, a1, a2, a3, a4, a5, a6, a7, a8, a9⟩ := stands_open hms ds k n t f2 hds hu
      have hiq : foldPath g.at i (n :: ds) = some q := by simp only [foldPath, f1]; exact a1
      have hqj : foldPath g.at q ms = some j := by
        rw [foldPath_append53, hiq] at hj
        exact hj
      have hpt : pq = true := by
        cases pq with
        | true => rfl
        | false =>
          exfalso
          have hk := a7 rfl
          cases ms with
          | nil => exact hms rfl
          | cons m ms =>
            have : g.at q m = none := by
              unfold NHeap.at
              rw [a2]
              dsimp only
              rw [hk]
              rfl
            simp only [foldPath, this] at hqj
            cases hqj
      have O : OpenImage e g q (fun ks => arcAt arch (n :: ds ++ ks)) := by
        refine ⟨K', ⟨cq, pq, sq, a2, a3⟩, fun ks hks => ?_⟩
        have := goodImage_shows (a6 hpt) a4 a5 ks hks
        have hlook : arcAt arch (n :: ds ++ ks) = belowImage u ks := by
          rw [List.cons_append, arcAt_from, hl]
          exact a8 ks hks
        rw [hlook]
        exact this
      refine givesPicture_of O hb hms hqj fun hA ks y hy => ?_
      obtain ⟨cA, hcA, hpA, hnA⟩ := hal hA
      rw [hci] at hcA
      cases hcA
      have hroot : Chain g i [i] := .root i fun p ⟨c', _, hc', hp', _⟩ => by
        rw [hgi] at hc'
        cases hc'
        rw [hpA] at hp'
        cases hp'
      obtain ⟨l', c1, c2⟩ := chain_down K' hroot (n :: ds ++ ks) y (by rw [foldPath_append53, hiq]; exact hy)
      refine ⟨l', c1, fun z hz hB => ?_⟩
      rcases c2 z (List.mem_of_mem_tail hz) with h5 | ⟨a, b, h5, h6, h7⟩
      · rcases List.mem_singleton.1 h5 with rfl
        obtain ⟨c', _, _, b1, _, b3⟩ := hB
        rw [hgi] at b1
        cases b1
        exact hnA b3
      · rcases List.append_eq_append_iff.1 h5 with ⟨a', h8, h9⟩ | ⟨c', h8, h9⟩
        · subst h8
          by_cases ha' : a' = []
          · subst ha'
            rw [List.append_nil, hiq] at h7
            cases h7
            exact a9 ds [] q (by simp) a1 hB
          · rw [foldPath_append53, hiq] at h7
            obtain ⟨v', c'', n', _, b2, b3, _⟩ := O.back ha' h7
            obtain ⟨c3, _, _, b4, b5, _⟩ := hB
            rw [b2] at b4
            cases b4
            rw [b3] at b5
            cases b5
        · cases a with
          | nil => exact h6 rfl
          | cons m a =>
            simp only [List.cons_append, List.cons.injEq] at h8
            obtain ⟨rfl, h8⟩ := h8
            simp only [foldPath, f1] at h7
            exact a9 a c' z h8 h7 hB

end Wz
