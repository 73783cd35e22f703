import Verif.Mode.Reader
import Verif.Image.Model
/-!
# Properties and images with and without overflow checks
-/

set_option autoImplicit false

namespace Wz
variable {b : Bytes} {k k2 : Nat → Byte}

theorem subU_ag (x y : Nat) : AgE (subU .checked x y) (subU .wrap x y) := by
  unfold subU; split
  · exact .same _
  · exact .inl rfl
macro_rules | `(tactic| ag_step) => `(tactic| with_reducible exact subU_ag _ _)

theorem decI32_ag (x : Int) : AgE (decI32 .checked x) (decI32 .wrap x) := by
  unfold decI32; split
  · exact .same _
  · exact .inl rfl
macro_rules | `(tactic| ag_step) => `(tactic| with_reducible exact decI32_ag _)

theorem readFloatObj_ag : AgR b k k2 Rd.readFloatObj Rd.readFloatObj := by unfold Rd.readFloatObj; ag
macro_rules | `(tactic| ag_step) => `(tactic| with_reducible exact readFloatObj_ag)

theorem readPlain_ag (o ty : Nat) : AgR b k k2 (Rd.readPlain o ty) (Rd.readPlain o ty) := by unfold Rd.readPlain; ag
macro_rules | `(tactic| ag_step) => `(tactic| with_reducible exact readPlain_ag _ _)

/-- the readers of extended properties agree -/
def ExtAg (b : Bytes) (k k2 : Nat → Byte) (ext ext' : Rd.Ext) : Prop := ∀ eob name, AgR b k k2 (ext eob name) (ext' eob name)

section
variable {ext : Rd.Ext} (he : ExtAg b k k2 ext ext)
include he

theorem parseNode_ag (o : Nat) (name : List Char) (ty : Nat) : AgR b k k2 (Rd.parseNode ext o name ty) (Rd.parseNode ext o name ty) := by
  unfold Rd.parseNode
  refine .ite (fun _ => ?_) fun _ => by ag
  refine .bind (by ag) fun size => .bind (by ag) fun p => .getEnv (.bind (by ag) fun next => .bind (he _ _) fun r => ?_)
  cases r <;> dsimp only <;> ag

theorem parseItem_ag (o : Nat) : AgR b k k2 (Rd.parseItem ext o) (Rd.parseItem ext o) := by
  unfold Rd.parseItem
  exact .bind (by ag) fun _ => .bind (by ag) fun _ => parseNode_ag he _ _ _

theorem parseItems_ag (o n : Nat) : AgR b k k2 (Rd.parseItems ext o n) (Rd.parseItems ext o n) := by
  induction n with
  | zero => exact .pure _
  | succ n ih =>
    rw [Rd.parseItems]
    exact .bind (parseItem_ag he _) fun _ => .bind ih fun _ => .pure _

theorem parseListWith_ag (o : Nat) : AgR b k k2 (Rd.parseListWith ext o) (Rd.parseListWith ext o) := by
  unfold Rd.parseListWith
  exact .bind (by ag) fun _ => .ite (fun _ => .fail _) fun _ => parseItems_ag he _ _

theorem parseKids_ag (o : Nat) : AgR b k k2 (Rd.parseKids ext o) (Rd.parseKids ext o) := by
  unfold Rd.parseKids
  exact .bind (by ag) fun _ => .bind (parseListWith_ag he _) fun _ => .pure _

theorem parseKidsIf_ag (o : Nat) (has : Bool) : AgR b k k2 (Rd.parseKidsIf ext o has) (Rd.parseKidsIf ext o has) := by
  unfold Rd.parseKidsIf
  exact .ite (fun _ => parseKids_ag he _) fun _ => .pure _

theorem convexLoop_ag (eob n i : Nat) (acc : List (List Char × PNode)) :
    AgR b k k2 (Rd.convexLoop ext eob n i acc) (Rd.convexLoop ext eob n i acc) := by
  induction n generalizing i acc with
  | zero => exact .pure _
  | succ n ih =>
    rw [Rd.convexLoop]
    refine .bind (he _ _) fun r => ?_
    cases r with
    | ok kid => exact ih _ _
    | error name => exact .pure _

end

theorem parsePng_ag : AgR b k k2 Rd.parsePng Rd.parsePng := by unfold Rd.parsePng; ag
macro_rules | `(tactic| ag_step) => `(tactic| with_reducible exact parsePng_ag)

theorem parseSound_ag (eob : Nat) : AgR b k k2 (Rd.parseSound eob) (Rd.parseSound eob) := by unfold Rd.parseSound; ag
macro_rules | `(tactic| ag_step) => `(tactic| with_reducible exact parseSound_ag _)

theorem rawHasKids_ag : AgR b k k2 Rd.rawHasKids Rd.rawHasKids := by unfold Rd.rawHasKids; ag
macro_rules | `(tactic| ag_step) => `(tactic| with_reducible exact rawHasKids_ag)

theorem parseMore_ag {ext : Rd.Ext} (he : ExtAg b k k2 ext ext) (o eob : Nat) (name : List Char) (kind : Option Kind) :
    AgR b k k2 (Rd.parseMore ext o eob name kind) (Rd.parseMore ext o eob name kind) := by
  have h1 := parseKids_ag he o
  have h2 := parseKidsIf_ag he o
  cases kind with
  | none => exact .pure _
  | some kind =>
    cases kind <;> rw [Rd.parseMore]
    case property => ag
    case canvas =>
      exact .bind (by ag) fun _ => .bind (by ag) fun _ => .bind (h2 _) fun _ => .bind (by ag) fun _ => .pure _
    case convex =>
      refine .bind (by ag) fun _ => .ite (fun _ => .fail _) fun _ => .bind (convexLoop_ag he _ _ _ _) fun r => ?_
      cases r <;> exact .pure _
    case vector => ag
    case sound => ag
    case uol => ag
    case raw =>
      exact .bind (by ag) fun _ => .bind (h2 _) fun _ => by ag
    case video => ag

theorem parseExt_ag (o fuel : Nat) : ExtAg b k k2 (Rd.parseExt o fuel) (Rd.parseExt o fuel) := by
  induction fuel with
  | zero => exact fun _ _ => .fail _
  | succ fuel ih =>
    intro eob name
    rw [Rd.parseExt]
    exact .bind (by ag) fun _ => parseMore_ag ih _ _ _ _

theorem parseList_ag (o fuel : Nat) : AgR b k k2 (Rd.parseList o fuel) (Rd.parseList o fuel) := parseListWith_ag (parseExt_ag o fuel) o
macro_rules | `(tactic| ag_step) => `(tactic| with_reducible exact parseList_ag _ _)

theorem skipStr_ag : AgR b k k2 Rd.skipStr Rd.skipStr := by unfold Rd.skipStr; ag
macro_rules | `(tactic| ag_step) => `(tactic| with_reducible exact skipStr_ag)

theorem skipFloat_ag : AgR b k k2 Rd.skipFloat Rd.skipFloat := by unfold Rd.skipFloat; ag
macro_rules | `(tactic| ag_step) => `(tactic| with_reducible exact skipFloat_ag)

theorem skipPlain_ag (ty : Nat) : AgR b k k2 (Rd.skipPlain ty) (Rd.skipPlain ty) := by unfold Rd.skipPlain; ag
macro_rules | `(tactic| ag_step) => `(tactic| with_reducible exact skipPlain_ag _)

theorem findItems_ag {ext : Rd.Ext} (he : ExtAg b k k2 ext ext) (o : Nat) (cur : List Char) (last : Bool) (n : Nat) :
    AgR b k k2 (Rd.findItems ext o cur last n) (Rd.findItems ext o cur last n) := by
  induction n with
  | zero => exact .pure _
  | succ n ih =>
    rw [Rd.findItems]
    have h := fun name ty => parseNode_ag he o name ty
    refine .bind (by ag) fun name => .bind (by ag) fun ty => .ite (fun _ => .bind (h _ _) fun _ => .pure _) fun _ => ?_
    ag

theorem getNodeLoop_ag {ext : Rd.Ext} (he : ExtAg b k k2 ext ext) (o : Nat) (cur : List Char) (rest : List (List Char)) :
    AgR b k k2 (Rd.getNodeLoop ext o cur rest) (Rd.getNodeLoop ext o cur rest) := by
  induction rest generalizing cur with
  | nil =>
    rw [Rd.getNodeLoop]
    refine .bind (by ag) fun _ => .bind (findItems_ag he _ _ _ _) fun r => ?_
    cases r
    · exact .pure _
    · exact .fail _
    · exact .fail _
  | cons next rest ih =>
    rw [Rd.getNodeLoop]
    refine .bind (by ag) fun _ => .bind (findItems_ag he _ _ _ _) fun r => ?_
    cases r
    · exact .pure _
    · exact ih _
    · exact ih _

theorem getNode_ag (path : List Char) (o fuel : Nat) : AgR b k k2 (Rd.getNode path o fuel) (Rd.getNode path o fuel) := by
  unfold Rd.getNode
  refine .ite (fun _ => .fail _) fun _ => ?_
  cases splitSlash path with
  | nil => exact .fail _
  | cons x xs => exact getNodeLoop_ag (parseExt_ag _ _) _ _ _
macro_rules | `(tactic| ag_step) => `(tactic| with_reducible exact getNode_ag _ _ _)

theorem imgCheck_ag (x : Err) : AgR b k k2 (Rd.imgCheck x) (Rd.imgCheck x) := by unfold Rd.imgCheck; ag
macro_rules | `(tactic| ag_step) => `(tactic| with_reducible exact imgCheck_ag _)

theorem imgAtPath_ag (img : Img) (path : List Char) (fuel : Nat) : AgR b k k2 (Rd.imgAtPath img path fuel) (Rd.imgAtPath img path fuel) := by
  unfold Rd.imgAtPath; ag

theorem imgLua_ag (img : Img) : AgR b k k2 (Rd.imgLua img) (Rd.imgLua img) := by unfold Rd.imgLua; ag
macro_rules | `(tactic| ag_step) => `(tactic| with_reducible exact imgLua_ag _)

theorem imgPacked_ag (img : Img) : AgR b k k2 (Rd.imgPacked img) (Rd.imgPacked img) := by unfold Rd.imgPacked; ag
macro_rules | `(tactic| ag_step) => `(tactic| with_reducible exact imgPacked_ag _)

theorem imgChildren_ag (img : Img) (fuel : Nat) : AgR b k k2 (Rd.imgChildren img fuel) (Rd.imgChildren img fuel) := by
  unfold Rd.imgChildren; ag

theorem verifyImgIv_ag (ks : Bytes → Nat → Byte) (iv : Bytes) : AgE (verifyImgIv .checked ks b iv) (verifyImgIv .wrap ks b iv) := by
  unfold verifyImgIv
  rcases (readWzString_ag (b := b) (k := ks iv) (k2 := ks iv) ⟨1, 0⟩).fst with h | h
  · rw [h]; exact .inl rfl
  · rw [h]; exact .inr rfl
macro_rules | `(tactic| ag_step) => `(tactic| with_reducible exact verifyImgIv_ag _ _)

theorem guessImgLoop_ag (ks : Bytes → Nat → Byte) (vs : List MapleVersion) : AgE (guessImgLoop .checked ks b vs) (guessImgLoop .wrap ks b vs) := by
  induction vs with
  | nil => exact .same _
  | cons v vs ih =>
    rw [guessImgLoop, guessImgLoop]
    ag

theorem guessImgIv_ag (ks : Bytes → Nat → Byte) : AgE (guessImgIv .checked ks b) (guessImgIv .wrap ks b) := by
  unfold guessImgIv
  cases b with
  | nil => exact .same _
  | cons x xs => exact .ite (fun _ => .same _) fun _ => guessImgLoop_ag _ _
macro_rules | `(tactic| ag_step) => `(tactic| with_reducible exact guessImgIv_ag _)

theorem imgFromFile_ag (ks : Bytes → Nat → Byte) (name : List Char) (iv : Option Bytes) :
    AgE (imgFromFile .checked ks name b iv) (imgFromFile .wrap ks name b iv) := by
  cases iv with
  | none =>
    rw [imgFromFile, imgFromFile]
    ag
  | some iv =>
    rw [imgFromFile, imgFromFile]
    ag

end Wz
