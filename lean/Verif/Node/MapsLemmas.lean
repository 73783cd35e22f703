import Verif.Node.PictureModel
import Verif.Node.ParseLemmas
import Verif.Node.MergeLemmas

/-!
# The maps of children stay maps
-/

set_option autoImplicit false

namespace Wz

open Wz.Spec

theorem mapsOk_mem {h : NHeap} : MapsOk h ↔ ∀ c, some c ∈ h → (c.kids.map Prod.fst).Nodup := by
  constructor
  · intro hm c hc
    obtain ⟨i, hi, he⟩ := List.getElem_of_mem hc
    refine hm i c ?_
    unfold NHeap.cell
    rw [List.getElem?_eq_getElem hi, he]
    rfl
  · intro hm i c hc
    refine hm c ?_
    unfold NHeap.cell at hc
    cases hq : h[i]? with
    | none => rw [hq] at hc; cases hc
    | some o =>
      rw [hq] at hc
      have : o = some c := hc
      subst this
      exact List.mem_of_getElem? hq

theorem mapsOk_all {h : NHeap} (ha : (h.all fun o => o.all fun c => decide (c.kids.map Prod.fst).Nodup) = true) : MapsOk h := by
  rw [mapsOk_mem]
  intro c hc
  simpa using List.all_eq_true.1 ha _ hc

theorem childInsertAll_fst_nodup {ν : Type} : ∀ (l m : List (List Char × ν)), (m.map Prod.fst).Nodup →
    ((childInsertAll m l).map Prod.fst).Nodup
  | [], _, hm => hm
  | b :: l, m, hm => childInsertAll_fst_nodup l (childInsert m b.1 b.2) (childInsert_nodup m b.1 b.2 hm)

theorem cells_maps : ∀ (f : Forest) (p i : Nat) (live : Bool) (c : NCell), some c ∈ f.cells p i live →
    (c.kids.map Prod.fst).Nodup
  | .nil, _, _, _, c, hc => by cases hc
  | .node n k ks rest, p, i, live, c, hc => by
    simp only [Forest.cells, List.mem_cons, List.mem_append] at hc
    rcases hc with hc | hc | hc
    · split at hc
      · cases hc
        exact childInsertAll_fst_nodup _ [] (by simp)
      · cases hc
    · exact cells_maps ks _ _ _ c hc
    · exact cells_maps rest _ _ _ c hc

theorem mapsOk_fresh {h : NHeap} (hm : MapsOk h) {i : Nat} {c : NCell} {f : Forest} (hc : (c.kids.map Prod.fst).Nodup) :
    MapsOk (fresh h i c f) := by
  rw [mapsOk_mem] at hm ⊢
  intro d hd
  unfold fresh at hd
  rw [List.mem_append] at hd
  rcases hd with hd | hd
  · rcases List.mem_or_eq_of_mem_set hd with hd | hd
    · exact hm d hd
    · cases hd; exact hc
  · exact cells_maps f _ _ _ d hd

theorem mapsOk_replaceKid {h : NHeap} (hm : MapsOk h) (p t : Nat) (n : List Char) : MapsOk (h.replaceKid p n t) := by
  unfold NHeap.replaceKid
  cases hc : h.cell p with
  | none => exact hm
  | some c =>
    dsimp only
    split
    · have h1 := hm p c hc
      rw [mapsOk_mem] at hm ⊢
      intro d hd
      rcases List.mem_or_eq_of_mem_set hd with hd | hd
      · exact hm d hd
      · cases hd
        exact childInsert_nodup _ _ _ h1
    · exact hm

theorem mapsOk_resolveUols {l : Option Nat} : ∀ (us : List Nat) (h g : NHeap), MapsOk h →
    NHeap.resolveUols l h us = .ok g → MapsOk g
  | [], h, g, hm, hr => by cases hr; exact hm
  | u :: us, h, g, hm, hr => by
    simp only [NHeap.resolveUols] at hr
    split at hr
    · cases hr
    · rename_i h' h1
      refine mapsOk_resolveUols us h' g ?_ hr
      unfold NHeap.resolveUol at h1
      split at h1
      · cases h1
      · split at h1
        · split at h1
          · cases h1; exact hm
          · cases h1; exact mapsOk_replaceKid hm _ _ _
        · cases h1; exact hm

theorem mapsOk_parse {h : NHeap} (hm : MapsOk h) {content : Content} {i : Nat} : MapsOk (h.parse content i).2 := by
  cases hc : h.cell i with
  | none => unfold NHeap.parse; rw [hc]; exact hm
  | some c =>
    rw [parse_eq hc]
    cases hpl : c.kind.plan content with
    | none => exact hm
    | some r =>
      cases r with
      | error e => exact hm
      | ok fk =>
        obtain ⟨f, k⟩ := fk
        dsimp only
        have hfr : MapsOk (fresh h i { c with kind := k, kids := childInsertAll c.kids (f.roots h.length) } f) :=
          mapsOk_fresh hm (childInsertAll_fst_nodup _ _ (hm i c hc))
        cases hr : NHeap.resolveUols (some i)
            (fresh h i { c with kind := k, kids := childInsertAll c.kids (f.roots h.length) } f) (f.uols h.length) with
        | error e => exact hfr
        | ok g => exact mapsOk_resolveUols _ _ g hfr hr

theorem mapsOk_foldHeld {content : Content} {held : List Nat} : ∀ (ns : List (List Char)) (h : NHeap) (i : Nat), MapsOk h →
    MapsOk (NHeap.foldHeld content held h i ns).2
  | [], _, _, hm => hm
  | n :: ns, h, i, hm => by
    simp only [NHeap.foldHeld]
    split
    · exact hm
    · have hp := mapsOk_parse hm (content := content) (i := i)
      cases hq : h.parse content i with
      | mk r g =>
        rw [hq] at hp
        cases r with
        | error e => exact hp
        | ok u =>
          dsimp only
          cases g.at i n with
          | none => exact hp
          | some j => exact mapsOk_foldHeld ns g j hp

theorem mapsOk_foldParsed {content : Content} {held : Nat} : ∀ (ns : List (List Char)) (h : NHeap) (i : Nat), MapsOk h →
    MapsOk (NHeap.foldParsed content held h i ns).2
  | [], _, _, hm => hm
  | n :: ns, h, i, hm => by
    simp only [NHeap.foldParsed]
    split
    · exact hm
    · have hp := mapsOk_parse hm (content := content) (i := i)
      cases hq : h.parse content i with
      | mk r g =>
        rw [hq] at hp
        cases r with
        | error e => exact hp
        | ok u =>
          dsimp only
          cases g.at i n with
          | none => exact hp
          | some j => exact mapsOk_foldParsed ns g j hp

theorem mapsOk_atPathParsed {h : NHeap} (hm : MapsOk h) {content : Content} {i : Nat} {path : List Char} :
    MapsOk (h.atPathParsed content i path).2 := by
  unfold NHeap.atPathParsed
  cases splitSlash path with
  | nil => exact hm
  | cons x xs =>
    dsimp only
    cases h.at i x with
    | none => exact hm
    | some j => exact mapsOk_foldParsed xs h j hm

theorem mapsOk_outTarget {h : NHeap} (hm : MapsOk h) {content : Content} {text : Nat → Option (List Char)} {held : List Nat}
    {fuel i : Nat} : MapsOk (h.outTarget content text held fuel i).2 := by
  unfold NHeap.outTarget
  split
  · exact hm
  · unfold NHeap.outlinkRead
    split
    · exact hm
    · exact hm
    · rename_i s _ _ b _
      have hp : MapsOk (h.atPathHeld content held b s).2 := by
        unfold NHeap.atPathHeld
        cases splitSlash s with
        | nil => exact hm
        | cons x xs =>
          dsimp only
          cases h.at b x with
          | none => exact hm
          | some j => exact mapsOk_foldHeld xs h j hm
      cases hq : h.atPathHeld content held b s with
      | mk r g =>
        rw [hq] at hp
        cases r with
        | ok t => exact hp
        | error e => dsimp only; split <;> exact hp

theorem mapsOk_getImage {content : Content} {png : Nat → Bool} {text : Nat → Option (List Char)} : ∀ (fuel : Nat) (h : NHeap)
    (held : List Nat) (i : Nat), MapsOk h → MapsOk (NHeap.getImage content png text fuel h held i).2
  | 0, _, _, _, hm => hm
  | fuel + 1, h, held, i, hm => by
    simp only [NHeap.getImage]
    split
    · split
      · exact hm
      · exact mapsOk_getImage fuel h _ _ hm
      · have hp := mapsOk_outTarget hm (content := content) (text := text) (held := i :: held) (fuel := fuel) (i := i)
        cases hq : h.outTarget content text (i :: held) fuel i with
        | mk r g =>
          rw [hq] at hp
          cases r with
          | error e => exact hp
          | ok t =>
            cases t with
            | none => exact hp
            | some t => exact mapsOk_getImage fuel g _ _ hp
    · exact hm

end Wz
