import Verif.Property.DirectProps
import Verif.Image.TakenProps
/-!
# Properties of direct access into an image, from any bytes (C74)
-/

set_option autoImplicit false

namespace Wz.Spec

/-- the list of properties of an image is at `p`, behind a name and a number, one of which is right -/
def ImageList (e : Env) (img : Img) (p : Nat) : Prop :=
  ∃ name bs value, TextIs e.ks name bs ∧ value < 2 ^ 16 ∧ Holds e.buf img.offset (0x73#8 :: (bs ++ toLE 2 value)) ∧
    (name = "Property".toList ∨ value = 0) ∧ p = img.offset + 1 + bs.length + 2

end Wz.Spec

namespace Wz.Props
open Spec

theorem imgCheck_held {e : Env} {img : Img} {err : Err} {s : Nat} {c' : Cur} (hb : e.buf.length < 2 ^ 63) (hm : e.mode = .checked)
    (h73 : Holds e.buf img.offset [0x73#8]) (h : (Rd.imgCheck err).run e ⟨img.offset + 1, s⟩ = (.ok (), c')) : ImageList e img c'.pos := by
  unfold Rd.imgCheck at h
  obtain ⟨name, c3, h3, h1⟩ := Rd.bind_inv h
  obtain ⟨bs, k1, k2, k3⟩ := readWzString_inv hb hm h3
  dsimp only at k2 k3
  obtain ⟨value, c4, h4, h1⟩ := Rd.bind_inv h1
  obtain ⟨rfl, v1, v2⟩ := le_held hm h4
  have hv : value < 2 ^ 16 := by simpa using v1
  rw [k3] at v2
  by_cases hne : name ≠ ['P', 'r', 'o', 'p', 'e', 'r', 't', 'y'] ∧ value ≠ 0
  · rw [if_pos hne] at h1; cases h1
  · rw [if_neg hne] at h1
    cases h1
    refine ⟨name, bs, value, k1, hv, Holds.cons_of h73 (k2.append v2), ?_, by dsimp only; rw [k3]⟩
    by_cases hp : name = ['P', 'r', 'o', 'p', 'e', 'r', 't', 'y']
    · exact .inl hp
    · exact .inr (Classical.byContradiction fun hz => hne ⟨hp, hz⟩)

theorem imageList_reads {e : Env} {img : Img} {p : Nat} (hb : e.buf.length < 2 ^ 63) (h : ImageList e img p) (err : Err) :
    Rd.readU8.Reads e img.offset 0x73 (img.offset + 1) ∧ (Rd.imgCheck err).Reads e (img.offset + 1) () p := by
  obtain ⟨name, bs, value, h1, h2, h3, h4, rfl⟩ := h
  refine ⟨.readU8 h3.head hb, ?_⟩
  have hh2 : Holds e.buf (img.offset + 1) (bs ++ toLE 2 value) := h3.tail
  unfold Rd.imgCheck
  refine .bind (h1.reads hh2.left hb) (.bind (Rd.Reads.readLE_enc hh2.right (by omega) hb) ?_)
  rw [if_neg (fun hne => h4.elim hne.1 hne.2)]
  exact .pure _

theorem imageList_unique {e : Env} {img : Img} {p p' : Nat} (hb : e.buf.length < 2 ^ 63) (h : ImageList e img p) (h' : ImageList e img p') :
    p = p' := by
  obtain ⟨c, h1, h2⟩ := (imageList_reads hb h .decode).2 ⟨img.offset + 1, 0⟩ rfl
  obtain ⟨c', h1', h2'⟩ := (imageList_reads hb h' .decode).2 ⟨img.offset + 1, 0⟩ rfl
  rw [h1] at h1'
  cases h1'
  exact h2.symm.trans h2'

/-- looking up in the list of an image -/
theorem imgAtPath_at {e : Env} {img : Img} {p : Nat} (hb : e.buf.length < 2 ^ 63) (h : ImageList e img p) (path : List Char) (fuel : Nat) (c : Cur) :
    ∃ c1 : Cur, c1.pos = p ∧ (Rd.imgAtPath img path fuel).run e c = (Rd.getNode path img.offset fuel).run e c1 := by
  obtain ⟨h1, h2⟩ := imageList_reads hb h (.lib "ParseError")
  obtain ⟨c1, k1, l1⟩ := h1 { c with pos := img.offset } rfl
  obtain ⟨c2, k2, l2⟩ := h2 c1 l1
  refine ⟨c2, l2, ?_⟩
  unfold Rd.imgAtPath
  have hs : (Rd.seek img.offset).run e c = (.ok (), { c with pos := img.offset }) := rfl
  rw [Rd.bind_ok hs, Rd.bind_ok k1, if_neg (by decide), Rd.bind_ok k2]

/-- C74 for images: direct access gives `x` exactly if the image holds a list in which `x` is reached. -/
theorem C74_image (e : Env) (img : Img) (path cur : List Char) (rest : List (List Char)) (fuel : Nat) (x : List Char × PNode) (c : Cur)
    (hb : e.buf.length < 2 ^ 63) (hm : e.mode = .checked) (hf : e.buf.length + 2 ≤ fuel) (hp : path ≠ [])
    (hs : splitSlash path = cur :: rest) :
    ((Rd.imgAtPath img path fuel).run e c).1 = .ok x ↔ ∃ p, ImageList e img p ∧ Reached e img.offset cur rest p x := by
  constructor
  · intro h
    obtain ⟨c', h⟩ : ∃ c', (Rd.imgAtPath img path fuel).run e c = (.ok x, c') := ⟨_, by rw [← h]⟩
    have h0 := h
    unfold Rd.imgAtPath at h
    obtain ⟨_, c1, h1, h⟩ := Rd.bind_inv h
    cases h1
    obtain ⟨v, c1, h1, h⟩ := Rd.bind_inv h
    obtain ⟨b, rfl, rfl, hbt⟩ := byte_held hm h1
    by_cases h73 : b.toNat ≠ 0x73
    · rw [if_pos h73] at h; cases h
    rw [if_neg h73] at h
    obtain rfl := byte_eq_of (Classical.not_not.mp h73)
    obtain ⟨_, c2, h2, h⟩ := Rd.bind_inv h
    have hl := imgCheck_held hb hm hbt h2
    exact ⟨c2.pos, hl, (C74_direct e path cur rest img.offset fuel x c2 hb hm hf hp hs).mp (by rw [h])⟩
  · rintro ⟨p, hl, hr⟩
    obtain ⟨c1, hc, h1⟩ := imgAtPath_at hb hl path fuel c
    rw [h1]
    exact (C74_direct e path cur rest img.offset fuel x c1 hb hm hf hp hs).mpr (by rw [hc]; exact hr)

/-- C74 for images: where a full parse succeeds and the way is clear, direct access gives what a full parse gives. -/
theorem C74_image_same (e : Env) (img : Img) (p : Nat) (path cur : List Char) (rest : List (List Char)) (fuel : Nat)
    (kids : List (List Char × PNode)) (c : Cur)
    (hb : e.buf.length < 2 ^ 63) (hm : e.mode = .checked) (hf : e.buf.length + 2 ≤ fuel) (hp : path ≠ [])
    (hs : splitSlash path = cur :: rest) (hl : ImageList e img p) (ht : ¬ NameEnds img.name ".txt".toList)
    (h : ((Rd.imgChildren img fuel).run e c).1 = .ok (kids.map fun x => (x.1, .prop x.2)))
    (hw : ClearWay e img.offset cur rest p) :
    (∀ n, walk kids (cur :: rest) = some n →
      ((Rd.imgAtPath img path fuel).run e c).1 = .ok ((cur :: rest).getLast (by simp), n)) ∧
    (walk kids (cur :: rest) = none → ((Rd.imgAtPath img path fuel).run e c).1 = .error (.lib "NodeNotFound")) := by
  have h73 : Holds e.buf img.offset [0x73#8] := by obtain ⟨_, _, _, _, _, h3, _⟩ := hl; exact h3.head
  have htk : ∃ q, TakenList e img.offset kids p q := by
    have hi := C72_image_shown e img fuel _ c hb hm h
    generalize hk : (kids.map fun x => (x.1, ImgNode.prop x.2)) = ks at hi
    cases hi with
    | text b h1 _ => exact absurd h1 ht
    | script n nb _ _ hh => exact absurd (holds_one h73 hh.head) (by decide)
    | packed _ hh _ => exact absurd (holds_one h73 (Holds.head hh)) (by decide)
    | properties name bs value q kids' _ h1 h2 h3 h4 h5 =>
      have : kids = kids' := by
        have := congrArg (List.filterMap fun x : List Char × ImgNode => match x.2 with
          | .prop n => some (x.1, n)
          | .lua _ _ => none) hk
        simpa [List.filterMap_map, Function.comp_def] using this
      subst this
      obtain rfl := imageList_unique hb hl ⟨name, bs, value, h1, h2, h3, h4, rfl⟩
      exact ⟨q, h5⟩
  obtain ⟨q, htk⟩ := htk
  obtain ⟨c1, hc, h1⟩ := imgAtPath_at hb hl path fuel c
  obtain ⟨i1, i2⟩ := clear_walk hb hm hw htk (.inl rfl)
  rw [h1]
  refine ⟨fun n hn => (C74_direct e path cur rest img.offset fuel _ c1 hb hm hf hp hs).mpr ?_, fun hn =>
    C74_not_found e path cur rest img.offset fuel c1 hb hp hs ?_⟩
  · rw [hc]; exact i1 n hn
  · rw [hc]; exact i2 hn

/-- C74 in builds without overflow checks: what direct access gives there is reached, unless the other builds stop at an
overflow. -/
theorem C74_unchecked (buf : Bytes) (ks ks2 : Nat → Byte) (img : Img) (path cur : List Char) (rest : List (List Char)) (fuel : Nat)
    (x : List Char × PNode) (c : Cur) (hb : buf.length < 2 ^ 63) (hf : buf.length + 2 ≤ fuel) (hp : path ≠ [])
    (hs : splitSlash path = cur :: rest) (h : ((Rd.imgAtPath img path fuel).run ⟨.wrap, buf, ks, ks2⟩ c).1 = .ok x) :
    ((Rd.imgAtPath img path fuel).run ⟨.checked, buf, ks, ks2⟩ c).1 = .error .panicOverflow ∨
      ∃ p, ImageList ⟨.checked, buf, ks, ks2⟩ img p ∧ Reached ⟨.checked, buf, ks, ks2⟩ img.offset cur rest p x := by
  rcases (imgAtPath_ag (b := buf) (k := ks) (k2 := ks2) img path fuel c) with h1 | h1
  · exact .inl h1
  · exact .inr ((C74_image _ img path cur rest fuel x c hb rfl hf hp hs).mp (by rw [h1]; exact h))

/-! ### a concrete case -/

/-- an image with a number `a` -/
def directImgBuf : Bytes := sblk "Property".toList ++ [0#8, 0#8] ++ ([1#8] ++ sblk ['a'] ++ [3#8, 5#8])

/-- the image in `directImgBuf` -/
def directImg : Img := { name := "a.img".toList, offset := 0, blockSize := 18 }

theorem directImg_small : directImgBuf.length < 2 ^ 63 := by decide +kernel

theorem directImg_list : ImageList (envOf .checked directImgBuf) directImg 12 :=
  imgCheck_held (img := directImg) (c' := ⟨12, 0⟩) (s := 0) (err := .decode) directImg_small rfl (holdsAt 0 (by decide +kernel)) rfl

theorem directImg_clear : ClearWay (envOf .checked directImgBuf) 0 ['a'] [] 12 := by
  refine .last ['a'] 12 [(['a'], .node (.int 5) [])] ⟨[1#8], [(['a'], 3#8)], 18, .short (by decide) (by decide),
    holdsAt 12 (by decide +kernel), ?_, ?_, rfl⟩ (by decide)
  · exact .plain 13 16 18 ['a'] 3#8 (.int 5) [5#8] [] (textAt directImg_small (s' := 0) rfl) (.int 3#8 5 [5#8] (.inl rfl) (.short (by decide) (by decide)))
      (holdsAt 16 (by decide +kernel)) (.nil _)
  · exact .cons 13 16 18 18 ['a'] 3#8 [] (textAt directImg_small (s' := 0) rfl) (holdsAt 16 (by decide +kernel))
      (.int 3#8 17 5 [5#8] (.inl rfl) (.short (by decide) (by decide)) (holdsAt 17 (by decide +kernel))) (.nil _)

example : ((Rd.imgAtPath directImg ['a'] 30).run (envOf .checked directImgBuf) ⟨0, 0⟩).1 = .ok (['a'], .node (.int 5) []) :=
  (C74_image_same _ directImg 12 ['a'] ['a'] [] 30 [(['a'], .node (.int 5) [])] ⟨0, 0⟩ directImg_small rfl (by decide +kernel) (by decide) rfl
    directImg_list (fun h => absurd (endsWith_iff.mpr h) (by decide)) rfl directImg_clear).1 _ rfl

example : ((Rd.imgAtPath directImg ['a'] 30).run (envOf .wrap directImgBuf) ⟨0, 0⟩).1 = .ok (['a'], .node (.int 5) []) := rfl

end Wz.Props
