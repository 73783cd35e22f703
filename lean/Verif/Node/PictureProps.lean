import Verif.Node.PictureLemmas
import Verif.Node.FindProps
import Verif.Node.MapsLemmas

/-!
# C57: the picture of a node with links
-/

set_option autoImplicit false

namespace Wz.Props

open Wz Wz.Spec

/-- `get_image` comes back: with `r`, the node whose own data is unpacked, or an error, and the nodes in memory are
`g`.  `held` are the nodes whose pictures are being looked up already, `[]` for a call from outside. -/
def Gives57 (content : Content) (png : Nat → Bool) (text : Nat → Option (List Char)) (h : NHeap) (held : List Nat) (i : Nat)
    (r : Except Err Nat) (g : NHeap) : Prop :=
  ∃ N, ∀ fuel, N ≤ fuel → NHeap.getImage content png text fuel h held i = (r, g)

section

variable {content : Content} {png : Nat → Bool} {text : Nat → Option (List Char)} {h : NHeap} {held : List Nat} {i : Nat}

/-- **One answer.**  There is at most one result; where there is none, the call never comes back. -/
theorem C57_one_answer : (∀ r g r' g', Gives57 content png text h held i r g → Gives57 content png text h held i r' g' →
      r = r' ∧ g = g') ∧
    ((∃ r g, r ≠ .error .fuel ∧ Gives57 content png text h held i r g) ∨
      ∀ fuel, (NHeap.getImage content png text fuel h held i).1 = .error .fuel) := by
  constructor
  · rintro r g r' g' ⟨N, hN⟩ ⟨M, hM⟩
    have h1 := hN (max N M) (Nat.le_max_left _ _)
    have h2 := hM (max N M) (Nat.le_max_right _ _)
    rw [h1] at h2
    simpa using h2
  · by_cases hall : ∀ fuel, (NHeap.getImage content png text fuel h held i).1 = .error .fuel
    · exact .inr hall
    · left
      have ⟨fuel, hf⟩ : ∃ fuel, (NHeap.getImage content png text fuel h held i).1 ≠ .error .fuel :=
        Classical.byContradiction fun hn => hall fun fuel => Classical.byContradiction fun hx => hn ⟨fuel, hx⟩
      exact ⟨_, _, hf, fuel, fun fuel' hl => getImage_more fuel fuel' h held i hl hf⟩

/-- **No picture.**  Anything but a picture is refused, its children are not looked at. -/
theorem C57_not_a_picture (hp : ¬ Picture png h i) :
    Gives57 content png text h held i (.error (.lib "NotPngProperty")) h := by
  refine ⟨1, fun fuel hf => ?_⟩
  obtain ⟨f, rfl⟩ : ∃ f, fuel = f + 1 := ⟨fuel - 1, by omega⟩
  rw [NHeap.getImage, if_neg (fun hx => hp (isPicture_iff.1 hx))]

/-- **No link that leads anywhere.**  A picture without links, or whose inlink leads nowhere and that has no outlink
or no "Base" above it, gives its own data.  Nothing is read. -/
theorem C57_own (hm : MapsOk h) (hp : Picture png h i) (hi : NoInlink text h i) (ho : NoOutlink text h i) :
    Gives57 content png text h held i (.ok i) h := by
  obtain ⟨N, hN⟩ := inTarget_none hm hi
  obtain ⟨M, hM⟩ := outTarget_none (content := content) hm ho
  refine ⟨N + M + 1, fun fuel hf => ?_⟩
  obtain ⟨f, rfl⟩ : ∃ f, fuel = f + 1 := ⟨fuel - 1, by omega⟩
  rw [NHeap.getImage, if_pos (isPicture_iff.2 hp), hN f (by omega)]
  dsimp only
  rw [hM f _ (by omega)]

/-- **The inlink goes first.**  If it leads to a node the result is what that node gives, whatever it is; the picture's
own data and its outlink do not matter. -/
theorem C57_inlink (hm : MapsOk h) (hp : Picture png h i) {t : Nat} (hi : InlinkTo text h i t) {r : Except Err Nat}
    {g : NHeap} : Gives57 content png text h held i r g ↔ Gives57 content png text h (i :: held) t r g := by
  obtain ⟨N, hN⟩ := inTarget_some hm hi
  constructor
  · rintro ⟨M, hM⟩
    refine ⟨N + M, fun fuel hf => ?_⟩
    have := hM (fuel + 1) (by omega)
    rw [NHeap.getImage, if_pos (isPicture_iff.2 hp), hN fuel (by omega)] at this
    exact this
  · rintro ⟨M, hM⟩
    refine ⟨N + M + 1, fun fuel hf => ?_⟩
    obtain ⟨f, rfl⟩ : ∃ f, fuel = f + 1 := ⟨fuel - 1, by omega⟩
    rw [NHeap.getImage, if_pos (isPicture_iff.2 hp), hN f (by omega)]
    exact hM f (by omega)

/-- **A row of inlinks** gives the data of its last picture, and nothing is read. -/
theorem C57_inlinks (hm : MapsOk h) {k : Nat} (hpath : InlinkPath png text h i k) (hp : Picture png h k)
    (hi : NoInlink text h k) (ho : NoOutlink text h k) : Gives57 content png text h held i (.ok k) h := by
  induction hpath generalizing held with
  | here i => exact C57_own hm hp hi ho
  | next i t k h1 h2 _ ih => exact (C57_inlink hm h1 h2).2 (ih hp hi ho)

/-- …and an error if it ends at something that is not a picture, even though all the others have data. -/
theorem C57_inlinks_elsewhere (hm : MapsOk h) {k : Nat} (hpath : InlinkPath png text h i k) (hp : ¬ Picture png h k) :
    Gives57 content png text h held i (.error (.lib "NotPngProperty")) h := by
  induction hpath generalizing held with
  | here i => exact C57_not_a_picture hp
  | next i t k h1 h2 _ ih => exact (C57_inlink hm h1 h2).2 (ih hp)

/-! ## outlinks -/

theorem outStep57 (hm : MapsOk h) (hp : Picture png h i) (hi : NoInlink text h i) {b : Nat} {s : List Char}
    (ho : OutlinkFrom text h i b s) : ∃ N, ∀ fuel, N ≤ fuel → NHeap.getImage content png text (fuel + 1) h held i =
      match h.atPathHeld content (i :: held) b s with
      | (.ok t, h') => NHeap.getImage content png text fuel h' (i :: held) t
      | (.error e, h') => if e.stops then (.error e, h') else (.ok i, h') := by
  obtain ⟨N, hN⟩ := inTarget_none hm hi
  obtain ⟨M, hM⟩ := outTarget_from (content := content) hm ho
  refine ⟨N + M, fun fuel hf => ?_⟩
  rw [NHeap.getImage, if_pos (isPicture_iff.2 hp), hN fuel (by omega)]
  dsimp only
  rw [hM fuel _ (by omega)]
  cases h.atPathHeld content (i :: held) b s with
  | mk r g =>
    cases r with
    | ok t => rfl
    | error e =>
      dsimp only
      cases e.stops <;> rfl

/-- **The outlink.**  No inlink leads anywhere: the outlink is looked up from "Base", and everything on the way is
read, as by `at_path_parsed` (C53).  If a node is found there, the result is what that node gives. -/
theorem C57_outlink_partial (hm : MapsOk h) (hp : Picture png h i) (hi : NoInlink text h i) {b : Nat} {s : List Char}
    (ho : OutlinkFrom text h i b s) {t : Nat} {g : NHeap} (hf : h.atPathParsed content b s = (.ok t, g))
    (hw : ∀ x ∈ i :: held, ¬ PathThrough g b s x) {r : Except Err Nat} {g' : NHeap} :
    Gives57 content png text h held i r g' ↔ Gives57 content png text g (i :: held) t r g' := by
  obtain ⟨N, hN⟩ := outStep57 (content := content) (held := held) hm hp hi ho
  have he : h.atPathHeld content (i :: held) b s = (.ok t, g) := by
    rw [atPathHeld_free (by rw [hf]; exact hw), hf]
  rw [he] at hN
  dsimp only at hN
  constructor
  · rintro ⟨M, hM⟩
    refine ⟨N + M, fun fuel hl => ?_⟩
    rw [← hN fuel (by omega)]
    exact hM (fuel + 1) (by omega)
  · rintro ⟨M, hM⟩
    refine ⟨N + M + 1, fun fuel hl => ?_⟩
    obtain ⟨f, rfl⟩ : ∃ f, fuel = f + 1 := ⟨fuel - 1, by omega⟩
    rw [hN f (by omega)]
    exact hM f (by omega)

/-- Missing in `C57_outlink_partial`: **an outlink that goes through the picture itself**, or through a picture whose
link led here.  The call never comes back: the node is locked, and reading it wants to lock it again. -/
theorem C57_outlink_through_itself (hm : MapsOk h) (hp : Picture png h i) (hi : NoInlink text h i) {b : Nat} {s : List Char}
    (ho : OutlinkFrom text h i b s) {t : Nat} {g : NHeap} (hf : h.atPathParsed content b s = (.ok t, g))
    (hw : ∃ x ∈ i :: held, PathThrough g b s x) : ∃ g', Gives57 content png text h held i (.error (.lib "deadlock")) g' := by
  obtain ⟨N, hN⟩ := outStep57 (content := content) (held := held) hm hp hi ho
  have he := atPathHeld_hangs hf hw
  cases hq : h.atPathHeld content (i :: held) b s with
  | mk a g' =>
    rw [hq] at he hN
    dsimp only at he
    subst he
    refine ⟨g', N + 1, fun fuel hl => ?_⟩
    obtain ⟨f, rfl⟩ : ∃ f, fuel = f + 1 := ⟨fuel - 1, by omega⟩
    rw [hN f (by omega)]
    rfl

/-- **An outlink that cannot be followed**: the picture's own data, without an error.  What was read on the way
stays read. -/
theorem C57_broken_outlink (hm : MapsOk h) (hp : Picture png h i) (hi : NoInlink text h i) {b : Nat} {s : List Char}
    (ho : OutlinkFrom text h i b s) {e : Err} {g : NHeap} (hf : h.atPathParsed content b s = (.error e, g))
    (hw : ∀ x ∈ i :: held, ¬ PathThrough g b s x) (he : e.isPanic = false) (hfu : e ≠ .fuel) (hd : e ≠ .lib "deadlock") :
    Gives57 content png text h held i (.ok i) g := by
  obtain ⟨N, hN⟩ := outStep57 (content := content) (held := held) hm hp hi ho
  have hq : h.atPathHeld content (i :: held) b s = (.error e, g) := by
    rw [atPathHeld_free (by rw [hf]; exact hw), hf]
  rw [hq] at hN
  have hs : e.stops = false := by simp [Err.stops, he, hfu, hd]
  refine ⟨N + 1, fun fuel hl => ?_⟩
  obtain ⟨f, rfl⟩ : ∃ f, fuel = f + 1 := ⟨fuel - 1, by omega⟩
  rw [hN f (by omega)]
  simp [hs]

/-- **A panic of a parser** on the way of an outlink is a panic of the call. -/
theorem C57_outlink_panics (hm : MapsOk h) (hp : Picture png h i) (hi : NoInlink text h i) {b : Nat} {s : List Char}
    (ho : OutlinkFrom text h i b s) {e : Err} {g : NHeap} (hf : h.atPathParsed content b s = (.error e, g))
    (hw : ∀ x ∈ i :: held, ¬ PathThrough g b s x) (he : e.isPanic = true) :
    Gives57 content png text h held i (.error e) g := by
  obtain ⟨N, hN⟩ := outStep57 (content := content) (held := held) hm hp hi ho
  have hq : h.atPathHeld content (i :: held) b s = (.error e, g) := by
    rw [atPathHeld_free (by rw [hf]; exact hw), hf]
  rw [hq] at hN
  refine ⟨N + 1, fun fuel hl => ?_⟩
  obtain ⟨f, rfl⟩ : ∃ f, fuel = f + 1 := ⟨fuel - 1, by omega⟩
  rw [hN f (by omega)]
  simp [Err.stops, he]

/-- **Links in a circle.**  Pictures whose links all lead to one of them again: the call never comes back. -/
theorem C57_circle (hm : MapsOk h) {S : Nat → Prop}
    (hS : ∀ i, S i → Picture png h i ∧ ((∃ t, InlinkTo text h i t ∧ S t) ∨
      (NoInlink text h i ∧ ∃ b s t, OutlinkFrom text h i b s ∧ h.atPathParsed content b s = (.ok t, h) ∧ S t)))
    (hi : S i) (fuel : Nat) : ∃ e, (NHeap.getImage content png text fuel h held i).1 = .error e ∧
      (e = .fuel ∨ e = .lib "deadlock") := by
  induction fuel generalizing held i with
  | zero => exact ⟨_, rfl, .inl rfl⟩
  | succ fuel ih =>
    obtain ⟨hp, hcase⟩ := hS i hi
    rw [NHeap.getImage, if_pos (isPicture_iff.2 hp)]
    rcases hcase with ⟨t, ht, hst⟩ | ⟨hno, b, s, t, ho, hf, hst⟩
    · obtain ⟨N, hN⟩ := inTarget_some hm ht
      cases hin : h.inTarget text fuel i with
      | none => exact ⟨_, rfl, .inl rfl⟩
      | some r =>
        have := inTarget_more (Nat.le_max_left fuel N) hin
        rw [hN _ (Nat.le_max_right _ _)] at this
        cases this
        exact ih hst
    · obtain ⟨N, hN⟩ := inTarget_none hm hno
      cases hin : h.inTarget text fuel i with
      | none => exact ⟨_, rfl, .inl rfl⟩
      | some r =>
        have := inTarget_more (Nat.le_max_left fuel N) hin
        rw [hN _ (Nat.le_max_right _ _)] at this
        cases this
        dsimp only
        obtain ⟨M, hM⟩ := outTarget_from (content := content) hm ho
        by_cases hfu : (h.outTarget content text (i :: held) fuel i).1 = .error .fuel
        · cases hq : h.outTarget content text (i :: held) fuel i with
          | mk a g =>
            rw [hq] at hfu
            dsimp only at hfu
            subst hfu
            exact ⟨_, rfl, .inl rfl⟩
        · have h1 := outTarget_more (Nat.le_max_left fuel M) hfu
          rw [hM _ _ (Nat.le_max_right _ _)] at h1
          rw [← h1]
          by_cases hw : ∃ x ∈ i :: held, PathThrough h b s x
          · have he := atPathHeld_hangs hf hw
            cases hq : h.atPathHeld content (i :: held) b s with
            | mk a g' =>
              rw [hq] at he
              dsimp only at he
              subst he
              exact ⟨_, rfl, .inr rfl⟩
          · have hq : h.atPathHeld content (i :: held) b s = (.ok t, h) := by
              rw [atPathHeld_free (by rw [hf]; intro x hx hb; exact hw ⟨x, hx, hb⟩), hf]
            rw [hq]
            exact ih hst

/-- The names of the children of every node stay different from each other, so all of this applies again after the
call: to the target of an outlink, and to the next picture. -/
theorem C57_again (hm : MapsOk h) : (∀ b s, MapsOk (h.atPathParsed content b s).2) ∧
    ∀ r g, Gives57 content png text h held i r g → MapsOk g := by
  refine ⟨fun b s => mapsOk_atPathParsed hm, ?_⟩
  rintro r g ⟨N, hN⟩
  have := mapsOk_getImage (content := content) (png := png) (text := text) N h held i hm
  rw [hN N (Nat.le_refl _)] at this
  exact this

end

end Wz.Props
