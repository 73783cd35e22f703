import Verif.Image.TakenSpec
import Verif.Image.Props
import Verif.Property.TakenProps
import Verif.Mode.Image
/-!
# C72: what is shown of an image is stored in it, and all of it
-/

set_option autoImplicit false

namespace Wz.Props

open Spec

theorem lua_not_txt {n : List Char} (hl : NameEnds n ".lua".toList) : ¬ NameEnds n ".txt".toList := by
  rintro ⟨s, hs⟩
  obtain ⟨t, ht⟩ := hl
  have h6 := congrArg (fun l : List Char => l.getLast?) (hs.symm.trans ht)
  simp at h6

/-- a packed text is known by its first nine bytes -/
theorem packed_iff (s : Bytes) : (s.map fun b => Char.ofNat b.toNat) = ['#', 'P', 'r', 'o', 'p', 'e', 'r', 't', 'y'] ↔
    s = [0x23#8, 0x50#8, 0x72#8, 0x6F#8, 0x70#8, 0x65#8, 0x72#8, 0x74#8, 0x79#8] := by
  constructor
  · intro h
    have h2 := congrArg (List.map fun c : Char => BitVec.ofNat 8 c.toNat) h
    rw [List.map_map] at h2
    have h3 : ∀ b : Byte, ((fun c : Char => BitVec.ofNat 8 c.toNat) ∘ fun b : Byte => Char.ofNat b.toNat) b = b := by
      intro b
      show BitVec.ofNat 8 (Char.ofNat b.toNat).toNat = b
      have hb : b.toNat < 256 := b.isLt
      have hc : (Char.ofNat b.toNat).toNat = b.toNat := by
        unfold Char.ofNat
        rw [dif_pos (show b.toNat.isValidChar from .inl (by omega))]
        rfl
      rw [hc, BitVec.ofNat_toNat, BitVec.setWidth_eq]
    rw [show (s.map ((fun c : Char => BitVec.ofNat 8 c.toNat) ∘ fun b : Byte => Char.ofNat b.toNat)) = s by
      rw [List.map_congr_left (fun b _ => h3 b)]; exact List.map_id s] at h2
    exact h2
  · rintro rfl
    decide +kernel

/-- C72: the children of an image that are shown are what its bytes may be taken for. -/
theorem C72_image_shown (e : Env) (img : Img) (fuel : Nat) (kids : List (List Char × ImgNode)) (c : Cur) (hb : e.buf.length < 2 ^ 63)
    (hm : e.mode = .checked) (h : ((Rd.imgChildren img fuel).run e c).1 = .ok kids) : TakenImage e img kids := by
  obtain ⟨c', h⟩ : ∃ c', (Rd.imgChildren img fuel).run e c = (.ok kids, c') := ⟨_, by rw [← h]⟩
  unfold Rd.imgChildren at h
  obtain ⟨_, c1, h1, h⟩ := Rd.bind_inv h
  cases h1
  obtain ⟨v, c1, h1, h⟩ := Rd.bind_inv h
  obtain ⟨b, rfl, rfl, hbt⟩ := byte_held hm h1
  dsimp only at hbt h
  by_cases ht : NameEnds img.name ".txt".toList
  · rw [if_pos (show endsWith img.name ['.', 't', 'x', 't'] = true from endsWith_iff.mpr ht)] at h
    cases h
    exact .text b ht hbt
  rw [if_neg (by rw [endsWith_false (suffix := ['.', 't', 'x', 't']) ht]; exact Bool.false_ne_true)] at h
  unfold ImgHeader.of at h
  by_cases h73 : b.toNat = 0x73
  · rw [if_pos h73] at h
    dsimp only at h
    obtain rfl := byte_eq_of h73
    obtain ⟨_, c1, h1, h⟩ := Rd.bind_inv h
    obtain ⟨ks, c2, h2, h⟩ := Rd.bind_inv h
    cases h
    unfold Rd.imgCheck at h1
    obtain ⟨name, c3, h3, h1⟩ := Rd.bind_inv h1
    obtain ⟨bs, k1, k2, k3⟩ := readWzString_inv hb hm h3
    dsimp only at k2 k3
    obtain ⟨value, c4, h4, h1⟩ := Rd.bind_inv h1
    obtain ⟨rfl, v1, v2⟩ := le_held hm h4
    have hv : value < 2 ^ 16 := by simpa using v1
    rw [k3] at v2
    by_cases hne : name ≠ ['P', 'r', 'o', 'p', 'e', 'r', 't', 'y'] ∧ value ≠ 0
    · rw [if_pos hne] at h1; cases h1
    · rw [if_neg hne] at h1
      cases h1
      have hl := C72_shown_is_stored e img.offset fuel ks _ _ hb hm h2
      dsimp only at hl
      rw [k3] at hl
      refine .properties name bs value _ ks ht k1 hv (Holds.cons_of hbt (k2.append v2)) ?_ hl
      by_cases hp : name = ['P', 'r', 'o', 'p', 'e', 'r', 't', 'y']
      · exact .inl hp
      · exact .inr (Classical.byContradiction fun hz => hne ⟨hp, hz⟩)
  rw [if_neg h73] at h
  by_cases h1b : b.toNat = 0x1B
  · rw [if_pos h1b] at h; cases h
  rw [if_neg h1b] at h
  by_cases h01 : b.toNat = 0x01
  · rw [if_pos h01] at h
    obtain rfl := byte_eq_of h01
    replace h : (Rd.imgLua img).run e { pos := img.offset + 1, saved := c.saved } = (.ok kids, c') := h
    unfold Rd.imgLua at h
    by_cases hl : NameEnds img.name ".lua".toList
    · rw [if_pos (show isLuaImage img.name = true from endsWith_iff.mpr hl)] at h
      obtain ⟨n, c1, h1, h⟩ := Rd.bind_inv h
      obtain ⟨nb, n1, n2, rfl⟩ := C01_int32_only _ _ _ _ hb h1
      cases h
      exact .script n nb hl n1 (Holds.cons_of hbt n2)
    · rw [if_neg (by rw [isLuaImage, endsWith_false (suffix := ['.', 'l', 'u', 'a']) hl]; exact Bool.false_ne_true)] at h
      cases h
  rw [if_neg h01] at h
  by_cases h23 : b.toNat = 0x23
  · rw [if_pos h23] at h
    replace h : (Rd.imgPacked img).run e { pos := img.offset + 1, saved := c.saved } = (.ok kids, c') := h
    unfold Rd.imgPacked at h
    obtain ⟨e', c1, h1, h⟩ := Rd.bind_inv h
    cases h1
    obtain ⟨stop, c1, h1, h⟩ := Rd.bind_inv h
    obtain ⟨k1, hc1⟩ := Rd.lift_inv h1
    rw [hc1] at h
    rw [hm] at k1
    obtain ⟨rfl, hlt⟩ := addU_inv k1
    obtain ⟨s, c2, h2, h⟩ := Rd.bind_inv h
    obtain ⟨k2, hc2⟩ := Rd.lift_inv h2
    rw [hc2] at h
    by_cases hs : (s.map fun b => Char.ofNat b.toNat) = ['#', 'P', 'r', 'o', 'p', 'e', 'r', 't', 'y']
    · rw [if_neg (fun hh => hh hs)] at h
      obtain ⟨off, c3, h3, h⟩ := Rd.bind_inv h
      obtain ⟨k3, hc3⟩ := Rd.lift_inv h3
      rw [hc3] at h
      rw [hm] at k3
      obtain ⟨rfl, _⟩ := addU_inv k3
      obtain ⟨size, c4, h4, h⟩ := Rd.bind_inv h
      obtain ⟨k4, hc4⟩ := Rd.lift_inv h4
      rw [hm] at k4
      obtain ⟨hsz, rfl⟩ := subU_inv k4
      cases h
      rw [packed_iff] at hs
      unfold sliceIdx at k2
      by_cases hle : img.offset ≤ img.offset + 9 ∧ img.offset + 9 ≤ e.buf.length
      · rw [if_pos hle, Nat.add_sub_cancel_left] at k2
        have hold := Holds.of_slice hle.2
        rw [Except.ok.inj k2, hs] at hold
        exact .packed ht hold hsz
      · rw [if_neg hle] at k2; cases k2
    · rw [if_pos hs] at h; cases h
  rw [if_neg h23] at h
  cases h

/-- C72: and all of it: an image is shown exactly if its bytes may be taken for what is shown. -/
theorem C72_image (e : Env) (img : Img) (fuel : Nat) (kids : List (List Char × ImgNode)) (c : Cur) (hb : e.buf.length < 2 ^ 63)
    (hm : e.mode = .checked) (hf : e.buf.length + 2 ≤ fuel) :
    ((Rd.imgChildren img fuel).run e c).1 = .ok kids ↔ TakenImage e img kids := by
  refine ⟨C72_image_shown e img fuel kids c hb hm, fun h => ?_⟩
  cases h with
  | text b ht hh =>
    unfold Rd.imgChildren
    obtain ⟨c2, e2, r2⟩ := runBind (f := _) (Rd.Reads.readU8 hh hb) (show ({ c with pos := img.offset } : Cur).pos = img.offset from rfl)
    refine (congrArg Prod.fst r2).trans ?_
    rw [if_pos (show endsWith img.name ['.', 't', 'x', 't'] = true from endsWith_iff.mpr ht)]
    rfl
  | script n nb hl hn hh =>
    unfold Rd.imgChildren
    obtain ⟨c2, e2, r2⟩ := runBind (f := _) (Rd.Reads.readU8 hh.head hb) (show ({ c with pos := img.offset } : Cur).pos = img.offset from rfl)
    refine (congrArg Prod.fst r2).trans ?_
    rw [if_neg (by rw [endsWith_false (suffix := ['.', 't', 'x', 't']) (lua_not_txt hl)]; exact Bool.false_ne_true)]
    show ((Rd.imgLua img).run e c2).1 = _
    have : (Rd.imgLua img).Reads e (img.offset + 1) [("Script".toList, .lua (img.offset + 1 + nb.length) (unsign 64 n))] (img.offset + 1 + nb.length) := by
      unfold Rd.imgLua
      rw [if_pos (show isLuaImage img.name = true from endsWith_iff.mpr hl)]
      exact .bind (.wzInt hn hh.tail hb) (.bind .getPos (.pure _))
    exact (this c2 e2).elim fun c3 h3 => by rw [h3.1]
  | packed ht hh hsz =>
    have hle := hh.le
    have hle' : img.offset + 9 ≤ e.buf.length := hle
    obtain ⟨c2, h4⟩ := packedRun e img fuel _ hb ht hh c
    rw [h4]
    have h5 : sliceIdx e.buf img.offset (img.offset + 9) =
        .ok [0x23#8, 0x50#8, 0x72#8, 0x6F#8, 0x70#8, 0x65#8, 0x72#8, 0x74#8, 0x79#8] := by
      unfold sliceIdx
      rw [if_pos ⟨by omega, by omega⟩, Nat.add_sub_cancel_left]
      exact congrArg _ hh.slice
    unfold Rd.imgPacked
    rw [Rd.bind_ok (Rd.getEnv_run _ _), addU_ok (by omega), Rd.bind_ok (Rd.lift_run _ _ _), h5, Rd.bind_ok (Rd.lift_run _ _ _),
      if_neg (fun hh => hh ((packed_iff _).mpr rfl)), Rd.bind_ok (Rd.lift_run _ _ _)]
    have h6 : subU e.mode img.blockSize 9 = .ok (img.blockSize - 9) := by unfold subU; rw [if_pos hsz]
    rw [h6, Rd.bind_ok (Rd.lift_run _ _ _)]
    rfl
  | properties name bs value q ks ht hn hv hh hok hl =>
    have hh2 : Holds e.buf (img.offset + 1) (bs ++ toLE 2 value) := hh.tail
    refine (imgChildren_reads (p := img.offset + 1 + bs.length + 2) (q := q) (.readU8 hh.head hb) (fun err => ?_) ?_ ht c.pos).fst
    · unfold Rd.imgCheck
      refine .bind (hn.reads hh2.left hb) (.bind (Rd.Reads.readLE_enc hh2.right (by omega) hb) ?_)
      rw [if_neg (fun hne => hok.elim hne.1 hne.2)]
      exact .pure _
    · intro c hc
      have := (C72_list e img.offset fuel q ks c hb hm hf).mpr (by rw [hc]; exact hl)
      exact this

/-- C72 in builds without overflow checks: what they show of an image is stored in it, unless the other builds stop at an
overflow.  Missing, and not so (`C72_unchecked_counterexample`): that it is stored in any case. -/
theorem C72_unchecked_partial (buf : Bytes) (ks ks2 : Nat → Byte) (img : Img) (fuel : Nat) (kids : List (List Char × ImgNode)) (c : Cur)
    (hb : buf.length < 2 ^ 63) (h : ((Rd.imgChildren img fuel).run ⟨.wrap, buf, ks, ks2⟩ c).1 = .ok kids) :
    ((Rd.imgChildren img fuel).run ⟨.checked, buf, ks, ks2⟩ c).1 = .error .panicOverflow ∨
      TakenImage ⟨.checked, buf, ks, ks2⟩ img kids := by
  rcases (imgChildren_ag (b := buf) (k := ks) (k2 := ks2) img fuel c) with h1 | h1
  · exact .inl h1
  · exact .inr (C72_image_shown _ img fuel kids c hb rfl (by rw [h1]; exact h))

/-- a packed text that the directory says is five bytes long -/
def shortPacked : Bytes := [0x23#8, 0x50#8, 0x72#8, 0x6F#8, 0x70#8, 0x65#8, 0x72#8, 0x74#8, 0x79#8, 0x41#8]

theorem shortPacked_none {m : Mode} {kids : List (List Char × ImgNode)}
    (h : TakenImage (envOf m shortPacked) ⟨"a.img".toList, 0, 5⟩ kids) : False := by
  have h0 : ∀ b r, Holds shortPacked 0 (b :: r) → b = 0x23#8 := by
    intro b r hh
    obtain ⟨pre, post, h1, h2⟩ := hh
    rw [List.length_eq_zero_iff.mp h2] at h1
    exact (List.cons.inj h1).1.symm
  cases h with
  | text b ht _ => exact absurd (endsWith_iff.mpr ht) (by decide)
  | script n nb hl _ _ => exact absurd (endsWith_iff.mpr hl) (by decide)
  | packed _ _ hs => exact absurd hs (by decide)
  | properties name bs value q ks _ _ _ hh _ _ => exact absurd (h0 _ _ hh) (by decide)

/-- C72 fails without overflow checks: of a packed text that the directory says is shorter than its head, nearly 2^64
bytes are shown. -/
theorem C72_unchecked_counterexample : ∃ (buf : Bytes) (img : Img) (kids : List (List Char × ImgNode)),
    ((Rd.imgChildren img 20).run (envOf .wrap buf) ⟨0, 0⟩).1 = .ok kids ∧ ¬ TakenImage (envOf .wrap buf) img kids :=
  ⟨shortPacked, ⟨"a.img".toList, 0, 5⟩, [("text.txt".toList, .prop (.node (.raw 9 (2 ^ 64 - 4)) []))], by rfl, shortPacked_none⟩

/-! ### examples -/

/-- an image no tool writes -/
def oddImage : Bytes := [0x55#8, 0x55#8] ++ (sblk "Prop".toList ++ toLE 2 0) ++ oddBuf

theorem oddImage_length : oddImage.length = 51 := by decide +kernel

theorem oddImage_shown : ((Rd.imgChildren ⟨"a.img".toList, 2, 49⟩ 60).run (envOf .checked oddImage) ⟨0, 0⟩).1 =
    .ok [(['p'], .prop (.node .property [(['a'], .node (.int 7) [])])),
      ([Char.ofNat 0xFFFD], .prop (.node (.str { offset := 49, length := 16, ty := .ascii }) []))] := by rfl

example : TakenImage (envOf .checked oddImage) ⟨"a.img".toList, 2, 49⟩
    [(['p'], .prop (.node .property [(['a'], .node (.int 7) [])])),
      ([Char.ofNat 0xFFFD], .prop (.node (.str { offset := 49, length := 16, ty := .ascii }) []))] :=
  (C72_image _ _ 60 _ ⟨0, 0⟩ (by show oddImage.length < _; rw [oddImage_length]; decide) rfl
    (by show oddImage.length + 2 ≤ 60; rw [oddImage_length]; decide)).mp oddImage_shown

/-- a script with a negative length is a huge script -/
example : TakenImage (envOf .checked [1#8, 0xFF#8, 0x41#8]) ⟨"a.lua".toList, 0, 3⟩ [("Script".toList, .lua 2 (2 ^ 64 - 1))] :=
  C72_image_shown _ _ 60 _ ⟨0, 0⟩ (by decide) rfl (by rfl)

example : TakenImage (envOf .checked shortPacked) ⟨"a.img".toList, 0, 10⟩ [("text.txt".toList, .prop (.node (.raw 9 1) []))] :=
  C72_image_shown _ _ 60 _ ⟨0, 0⟩ (by decide) rfl (by rfl)

example : TakenImage (envOf .checked shortPacked) ⟨"a.txt".toList, 0, 10⟩ [("text.txt".toList, .prop (.node (.raw 0 10) []))] :=
  C72_image_shown _ _ 60 _ ⟨0, 0⟩ (by decide) rfl (by rfl)

/-- the build without checks shows it as well, and the other does not stop -/
example : ((Rd.imgChildren ⟨"a.img".toList, 0, 10⟩ 20).run (envOf .wrap shortPacked) ⟨0, 0⟩).1 =
    .ok [("text.txt".toList, .prop (.node (.raw 9 1) []))] := by rfl

end Wz.Props
