import Verif.Image.Model
import Verif.Image.Spec
import Verif.Property.Props
/-! Helper lemmas: images. -/

set_option autoImplicit false
variable {α β γ : Type}

namespace Wz
open Spec

theorem endsWith_iff {s suffix : List Char} : endsWith s suffix = true ↔ NameEnds s suffix := by
  unfold endsWith NameEnds
  rw [List.isSuffixOf_iff_suffix]
  constructor
  · rintro ⟨t, h⟩; exact ⟨t, h.symm⟩
  · rintro ⟨t, h⟩; exact ⟨t, h.symm⟩

theorem endsWith_false {s suffix : List Char} (h : ¬ NameEnds s suffix) : endsWith s suffix = false := by
  rw [← endsWith_iff] at h
  exact Bool.eq_false_iff.mpr h

/-- the head of an image -/
theorem headRun {e : Env} {o value q : Nat} {name : List Char} {kids : List (List Char × PTree)} (hb : e.buf.length < 2 ^ 63)
    (h : HeadAndList e o name value kids q) :
    Rd.readU8.Reads e o 0x73 (o + 1) ∧ ∃ p, StoredList e o kids p q ∧
      (name = "Property".toList ∨ value = 0 → ∀ x, (Rd.imgCheck x).Reads e (o + 1) () p) ∧
      (¬ (name = "Property".toList ∨ value = 0) → ∀ x c, c.pos = o + 1 → ((Rd.imgCheck x).run e c).1 = .error x) := by
  obtain ⟨bs, hs, hv, hh, hl⟩ := h
  have h1 : Holds e.buf o [0x73#8] := Holds.left (a := [0x73#8]) hh
  have h2 : Holds e.buf (o + 1) (bs ++ toLE 2 value) := Holds.right (a := [0x73#8]) hh
  have h3 := Holds.left h2
  have h4 := Holds.right h2
  refine ⟨Rd.Reads.readU8 h1 hb, _, hl, fun hok x => ?_, fun hbad x c hc => ?_⟩
  · unfold Rd.imgCheck
    refine .bind (Rd.Reads.wzString hs h3 hb) (.bind (Rd.Reads.readLE_enc h4 (by omega) hb) ?_)
    rw [if_neg (fun hn => by
      rcases hok with h | h
      · exact hn.1 h
      · exact hn.2 h)]
    exact .pure _
  · unfold Rd.imgCheck
    obtain ⟨c1, e1, r1⟩ := Props.runBind (f := fun n => Rd.readU16 >>= fun v => if n ≠ ['P', 'r', 'o', 'p', 'e', 'r', 't', 'y'] ∧ v ≠ 0 then Rd.fail x else Pure.pure ())
      (Rd.Reads.wzString hs h3 hb) hc
    obtain ⟨c2, e2, r2⟩ := Props.runBind (f := fun v => if name ≠ ['P', 'r', 'o', 'p', 'e', 'r', 't', 'y'] ∧ v ≠ 0 then Rd.fail x else Pure.pure ())
      (Rd.Reads.readLE_enc (w := 2) h4 (by omega) hb) e1
    refine (congrArg Prod.fst (r1.trans r2)).trans ?_
    rw [if_pos (show name ≠ ['P', 'r', 'o', 'p', 'e', 'r', 't', 'y'] ∧ value ≠ 0 from ⟨fun h => hbad (.inl h), fun h => hbad (.inr h)⟩)]
    rfl

theorem ImgHeader.of_73 : ImgHeader.of 0x73 = .withoutOffset := rfl

/-- the children of an image with an accepted head are the list behind it -/
theorem imgChildren_reads {e : Env} {img : Img} {p q fuel : Nat} {ks : List (List Char × PNode)}
    (h1 : Rd.readU8.Reads e img.offset 0x73 (img.offset + 1)) (h2 : ∀ x, (Rd.imgCheck x).Reads e (img.offset + 1) () p)
    (h3 : (Rd.parseList img.offset fuel).Reads e p ks q) (ht : ¬ NameEnds img.name ".txt".toList) (p0 : Nat) :
    (Rd.imgChildren img fuel).Reads e p0 (ks.map fun x => (x.1, ImgNode.prop x.2)) q := by
  unfold Rd.imgChildren
  refine .bind .seek (.bind h1 ?_)
  rw [if_neg (by rw [endsWith_false (suffix := ['.', 't', 'x', 't']) ht]; exact Bool.false_ne_true), ImgHeader.of_73]
  exact .bind (h2 _) (.bind h3 (.pure _))

theorem imgAtPath_run {e : Env} {img : Img} {p fuel : Nat} (path : List Char)
    (h1 : Rd.readU8.Reads e img.offset 0x73 (img.offset + 1)) (h2 : ∀ x, (Rd.imgCheck x).Reads e (img.offset + 1) () p) (c : Cur) :
    ∃ c1 : Cur, c1.pos = p ∧ (Rd.imgAtPath img path fuel).run e c = (Rd.getNode path img.offset fuel).run e c1 := by
  unfold Rd.imgAtPath
  obtain ⟨c2, e2, r2⟩ := Props.runBind (f := fun b => if b ≠ 0x73 then Rd.fail (.lib "UnknownImageHeader") else Rd.imgCheck (.lib "ParseError") >>= fun _ => Rd.getNode path img.offset fuel)
    h1 (show ({ c with pos := img.offset } : Cur).pos = img.offset from rfl)
  obtain ⟨c3, e3, r3⟩ := Props.runBind (f := fun _ => Rd.getNode path img.offset fuel) (h2 (.lib "ParseError")) e2
  exact ⟨c3, e3, r2.trans r3⟩

end Wz
