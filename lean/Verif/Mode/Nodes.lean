import Verif.Mode.Rel
import Verif.Node.PictureModel
/-!
# What is done with nodes, with and without overflow checks
-/

set_option autoImplicit false

namespace Wz

/-- what is read for the sources agrees -/
def AgC (c c' : Content) : Prop := ∀ s, AgE (c s) (c' s)

theorem AgP.split {α σ : Type} {x y : Except Err α × σ} (h : AgP x y) : (∃ s, x = (.error .panicOverflow, s)) ∨ x = y := by
  rcases h with h | h
  · obtain ⟨r, s⟩ := x
    cases h
    exact .inl ⟨s, rfl⟩
  · exact .inr h

section
variable {c c' : Content} (hc : AgC c c')
include hc

theorem plan_ag (k : NKind) : k.plan c = some (.error .panicOverflow) ∨ k.plan c = k.plan c' := by
  have key : ∀ (s : Nat) (g : Forest → Forest × NKind), some ((c s).map g) = some (.error .panicOverflow) ∨ some ((c s).map g) = some ((c' s).map g) := by
    intro s g
    rcases (hc s).map g with h | h
    · exact .inl (congrArg some h)
    · exact .inr (congrArg some h)
  cases k with
  | dir p sp s =>
    cases p
    · cases sp
      · exact key s _
      · exact .inr rfl
    · exact .inr rfl
  | file p s =>
    cases p
    · exact key s _
    · exact .inr rfl
  | msFile p s =>
    cases p
    · exact key s _
    · exact .inr rfl
  | image p s =>
    cases p
    · exact key s _
    · exact .inr rfl
  | msImage s => exact key s _
  | uol t => exact .inr rfl
  | other v => exact .inr rfl

theorem nodeParse_ag (h : NHeap) (i : Nat) : AgP (h.parse c i) (h.parse c' i) := by
  unfold NHeap.parse
  cases h.cell i with
  | none => exact .same _
  | some x =>
    dsimp only
    rcases plan_ag hc x.kind with hp | hp
    · rw [hp]; exact .inl rfl
    · rw [hp]; exact .same _

theorem foldParsed_ag (held : Nat) (ns : List (List Char)) (h : NHeap) (i : Nat) : AgP (NHeap.foldParsed c held h i ns) (NHeap.foldParsed c' held h i ns) := by
  induction ns generalizing h i with
  | nil => exact .same _
  | cons x xs ih =>
    rw [NHeap.foldParsed, NHeap.foldParsed]
    refine .ite (fun _ => .same _) fun _ => ?_
    rcases (nodeParse_ag hc h i).split with ⟨s, hp⟩ | hp
    · rw [hp]; exact .inl rfl
    rw [hp]
    rcases h.parse c' i with ⟨e | _, g⟩
    · exact .same _
    · dsimp only
      cases g.at i x with
      | none => exact .same _
      | some j => exact ih g j

theorem atPathParsed_ag (h : NHeap) (i : Nat) (path : List Char) : AgP (h.atPathParsed c i path) (h.atPathParsed c' i path) := by
  unfold NHeap.atPathParsed
  cases splitSlash path with
  | nil => exact .same _
  | cons x xs =>
    dsimp only
    cases h.at i x with
    | none => exact .same _
    | some j => exact foldParsed_ag hc _ _ _ _

theorem foldHeld_ag (held : List Nat) (ns : List (List Char)) (h : NHeap) (i : Nat) : AgP (NHeap.foldHeld c held h i ns) (NHeap.foldHeld c' held h i ns) := by
  induction ns generalizing h i with
  | nil => exact .same _
  | cons x xs ih =>
    rw [NHeap.foldHeld, NHeap.foldHeld]
    refine .ite (fun _ => .same _) fun _ => ?_
    rcases (nodeParse_ag hc h i).split with ⟨s, hp⟩ | hp
    · rw [hp]; exact .inl rfl
    rw [hp]
    rcases h.parse c' i with ⟨e | _, g⟩
    · exact .same _
    · dsimp only
      cases g.at i x with
      | none => exact .same _
      | some j => exact ih g j

theorem atPathHeld_ag (h : NHeap) (held : List Nat) (i : Nat) (path : List Char) : AgP (h.atPathHeld c held i path) (h.atPathHeld c' held i path) := by
  unfold NHeap.atPathHeld
  cases splitSlash path with
  | nil => exact .same _
  | cons x xs =>
    dsimp only
    cases h.at i x with
    | none => exact .same _
    | some j => exact foldHeld_ag hc _ _ _ _

theorem outlinkRead_ag (h : NHeap) (held : List Nat) (fuel i : Nat) (path : List Char) :
    AgP (h.outlinkRead c held fuel i path) (h.outlinkRead c' held fuel i path) := by
  unfold NHeap.outlinkRead
  rcases h.filterParent NCell.isBase fuel i with _ | _ | b
  · exact .same _
  · exact .same _
  · dsimp only
    rcases (atPathHeld_ag hc h held b path).split with ⟨s, hp⟩ | hp
    · rw [hp]; exact .inl rfl
    · rw [hp]; exact .same _

theorem outTarget_ag (text : Nat → Option (List Char)) (h : NHeap) (held : List Nat) (fuel i : Nat) :
    AgP (h.outTarget c text held fuel i) (h.outTarget c' text held fuel i) := by
  unfold NHeap.outTarget
  cases h.linkText text i ['_', 'o', 'u', 't', 'l', 'i', 'n', 'k'] with
  | none => exact .same _
  | some s => exact outlinkRead_ag hc _ _ _ _ _

theorem getImage_ag (png : Nat → Bool) (text : Nat → Option (List Char)) (fuel : Nat) (h : NHeap) (held : List Nat) (i : Nat) :
    AgP (NHeap.getImage c png text fuel h held i) (NHeap.getImage c' png text fuel h held i) := by
  induction fuel generalizing h held i with
  | zero => exact .same _
  | succ fuel ih =>
    rw [NHeap.getImage, NHeap.getImage]
    refine .ite (fun _ => ?_) fun _ => .same _
    rcases h.inTarget text fuel i with _ | _ | t
    · exact .same _
    · dsimp only
      rcases (outTarget_ag hc text h (i :: held) fuel i).split with ⟨s, hp⟩ | hp
      · rw [hp]; exact .inl rfl
      rw [hp]
      rcases h.outTarget c' text (i :: held) fuel i with ⟨_ | _ | t, g⟩
      · exact .same _
      · exact .same _
      · exact ih _ _ _
    · exact ih _ _ _

omit hc in
theorem forceLoop_ag {f g : NHeap → Nat → Except Err (List (Nat × Option NCell) × NHeap)} (hf : ∀ h j, AgE (f h j) (g h j)) (ks : List (List Char × Nat)) (h : NHeap) :
    AgE (NHeap.forceLoop f h ks) (NHeap.forceLoop g h ks) := by
  induction ks generalizing h with
  | nil => exact .same _
  | cons x ks ih =>
    obtain ⟨n, j⟩ := x
    rw [NHeap.forceLoop, NHeap.forceLoop]
    rcases hf h j with hp | hp
    · rw [hp]; exact .inl rfl
    rw [hp]
    rcases g h j with e | ⟨a, h'⟩
    · exact .same _
    · dsimp only
      rcases ih h' with hq | hq
      · rw [hq]; exact .inl rfl
      · rw [hq]; exact .same _

theorem walkForce_ag (fuel : Nat) (h : NHeap) (held : List Nat) (i : Nat) : AgE (NHeap.walkForce c fuel h held i) (NHeap.walkForce c' fuel h held i) := by
  induction fuel generalizing h held i with
  | zero => exact .same _
  | succ fuel ih =>
    rw [NHeap.walkForce, NHeap.walkForce]
    refine .ite (fun _ => .same _) fun _ => ?_
    rcases (nodeParse_ag hc h i).split with ⟨s, hp⟩ | hp
    · rw [hp]; exact .inl rfl
    rw [hp]
    cases panicOf (h.parse c' i).1 with
    | some e => exact .same _
    | none =>
      dsimp only
      cases (h.parse c' i).2.cell i with
      | none => exact .same _
      | some x =>
        dsimp only
        rcases forceLoop_ag (fun g j => ih g (i :: held) j) x.kids (h.parse c' i).2 with hq | hq
        · rw [hq]; exact .inl rfl
        · rw [hq]; exact .same _

end

end Wz
