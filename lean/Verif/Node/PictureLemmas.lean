import Verif.Node.PictureModel
import Verif.Node.PictureSpec
import Verif.Node.FindLemmas
import Verif.Node.PathProps

/-!
# Following the links of a picture
-/

set_option autoImplicit false

namespace Wz

open Wz.Spec Wz.Props

/-! ## texts and pictures -/

theorem inText : "_inlink".toList = ['_', 'i', 'n', 'l', 'i', 'n', 'k'] := by decide
theorem outText : "_outlink".toList = ['_', 'o', 'u', 't', 'l', 'i', 'n', 'k'] := by decide

theorem isPicture_iff {h : NHeap} {png : Nat → Bool} {i : Nat} : h.isPicture png i = true ↔ Picture png h i := by
  unfold NHeap.isPicture Picture
  cases hc : h.cell i with
  | none => simp
  | some c =>
    cases hk : c.kind <;> simp [hk]

theorem linkText_iff {h : NHeap} (hm : MapsOk h) {text : Nat → Option (List Char)} {i : Nat} {n s : List Char} :
    h.linkText text i n = some s ↔ TextOf text h i n s := by
  unfold NHeap.linkText TextOf
  constructor
  · intro hl
    cases ha : h.at i n with
    | none => rw [ha] at hl; cases hl
    | some j =>
      rw [ha] at hl
      dsimp only at hl
      cases hc : h.cell j with
      | none => rw [hc] at hl; cases hl
      | some c =>
        rw [hc] at hl
        dsimp only at hl
        refine ⟨j, c, (at_eq hm).1 ha, hc, ?_⟩
        cases hk : c.kind <;> rw [hk] at hl <;> dsimp only at hl <;> try cases hl
        · exact .inl rfl
        · exact .inr ⟨_, rfl, hl⟩
  · rintro ⟨j, c, hj, hc, hk⟩
    rw [(at_eq hm).2 hj]
    dsimp only
    rw [hc]
    dsimp only
    rcases hk with hk | ⟨v, hk, ht⟩
    · rw [hk]
    · rw [hk]; exact ht

theorem linkText_none {h : NHeap} (hm : MapsOk h) {text : Nat → Option (List Char)} {i : Nat} {n : List Char}
    (hno : ∀ s, ¬ TextOf text h i n s) : h.linkText text i n = none := by
  cases hl : h.linkText text i n with
  | none => rfl
  | some s => exact absurd ((linkText_iff hm).1 hl) (hno s)

/-! ## up the tree -/

theorem filterLoop_more {h : NHeap} {cb : NCell → Bool} {r : Option Nat} : ∀ (fuel fuel' : Nat) (p : Option Nat),
    fuel ≤ fuel' → h.filterLoop cb fuel p = some r → h.filterLoop cb fuel' p = some r
  | 0, fuel', none, _, he => by cases fuel' <;> exact he
  | 0, _, some _, _, he => by cases he
  | fuel + 1, 0, _, hl, _ => by omega
  | fuel + 1, fuel' + 1, none, _, he => he
  | fuel + 1, fuel' + 1, some p, hl, he => by
    simp only [NHeap.filterLoop] at he ⊢
    cases hc : h.cell p with
    | none => rw [hc] at he; exact he
    | some c =>
      rw [hc] at he
      dsimp only at he ⊢
      by_cases hcb : cb c = true
      · rw [if_pos hcb] at he ⊢; exact he
      · rw [if_neg hcb] at he ⊢
        exact filterLoop_more fuel fuel' _ (by omega) he

/-- the way up ends: at the nearest image, or at the root -/
theorem chain_cases {h : NHeap} {i : Nat} {l : List Nat} (P : Nat → Prop) (hc : Chain h i l) :
    (∃ q, NearestUp h P i q) ∨ ∀ j ∈ l.tail, ¬ P j := by
  induction hc with
  | root i hno => right; intro j hj; cases hj
  | up i p l hp hc ih =>
    by_cases hpp : P p
    · exact .inl ⟨p, .here i p hp hpp⟩
    · rcases ih with ⟨q, hq⟩ | hno
      · exact .inl ⟨q, .above i p q hp hpp hq⟩
      · right
        intro j hj
        obtain ⟨r, rfl⟩ := chain_head hc
        simp only [List.tail_cons, List.mem_cons] at hj
        rcases hj with rfl | hj
        · exact hpp
        · exact hno j hj

/-! ## inlinks -/

theorem inTarget_some {h : NHeap} (hm : MapsOk h) {text : Nat → Option (List Char)} {i t : Nat} (hi : InlinkTo text h i t) :
    ∃ N, ∀ fuel, N ≤ fuel → h.inTarget text fuel i = some (some t) := by
  obtain ⟨s, q, ns, ht, hq, hp, hs⟩ := hi
  obtain ⟨N, hN⟩ := C25_inlink hm hq s
  refine ⟨N, fun fuel hf => ?_⟩
  obtain ⟨r, h1, h2⟩ := hN fuel hf
  rw [inText] at ht
  rw [NHeap.inTarget, (linkText_iff hm).2 ht]
  dsimp only
  rw [h1, (h2 t).2 ⟨ns, hp, hs⟩]

theorem inTarget_none {h : NHeap} (hm : MapsOk h) {text : Nat → Option (List Char)} {i : Nat} (hi : NoInlink text h i) :
    ∃ N, ∀ fuel, N ≤ fuel → h.inTarget text fuel i = some none := by
  cases hl : h.linkText text i ['_', 'i', 'n', 'l', 'i', 'n', 'k'] with
  | none =>
    refine ⟨0, fun fuel _ => ?_⟩
    rw [NHeap.inTarget, hl]
  | some s =>
    have ht := (linkText_iff hm).1 hl
    rw [← inText] at ht
    rcases hi with hno | ⟨hup, hno⟩
    · exact absurd ht (hno s)
    · have hup : (∃ q, NearestUp h (Image h) i q) ∨ ∃ l, Chain h i l ∧ ∀ j ∈ l.tail, ¬ Image h j := by
        rcases hup with hq | ⟨l, hc⟩
        · exact .inl hq
        · exact (chain_cases (Image h) hc).imp id fun hn => ⟨l, hc, hn⟩
      rcases hup with ⟨q, hq⟩ | ⟨l, hc, hn⟩
      · obtain ⟨N, hN⟩ := C25_inlink hm hq s
        refine ⟨N, fun fuel hf => ?_⟩
        obtain ⟨r, h1, h2⟩ := hN fuel hf
        rw [NHeap.inTarget, hl]
        dsimp only
        rw [h1]
        cases r with
        | none => rfl
        | some t =>
          obtain ⟨ns, hp, hs⟩ := (h2 t).1 rfl
          exact absurd ⟨s, q, ns, ht, hq, hp, hs⟩ (hno t)
      · refine ⟨l.length, fun fuel hf => ?_⟩
        rw [NHeap.inTarget, hl]
        exact C25_inlink_none hc hn (by omega) s

/-! ## outlinks -/

theorem foldHeld_cons {content : Content} {held : List Nat} {h : NHeap} {i : Nat} {x : List Char} {xs : List (List Char)} :
    NHeap.foldHeld content held h i (x :: xs) =
    if i ∈ held then (.error (.lib "deadlock"), h)
    else match h.parse content i with
      | (.error e, h') => (.error e, h')
      | (.ok _, h') => match h'.at i x with
        | none => (.error (.lib "NodeNotFound"), h')
        | some j => NHeap.foldHeld content held h' j xs := rfl

/-- nodes that are held but not on the way do not matter -/
theorem foldHeld_free {content : Content} {b : Nat} {held : List Nat} : ∀ (ns : List (List Char)) (h : NHeap) (i : Nat),
    (∀ ms n rest x, ns = ms ++ n :: rest → foldPath (NHeap.foldParsed content b h i ns).2.at i ms = some x → x ∉ held) →
    NHeap.foldHeld content (b :: held) h i ns = NHeap.foldParsed content b h i ns
  | [], _, _, _ => rfl
  | n :: ns, h, i, hw => by
    have hi : i ∉ held := hw [] n ns i rfl rfl
    rw [foldHeld_cons]
    rw [foldParsed_cons] at hw ⊢
    by_cases hb : i = b
    · rw [if_pos hb, if_pos (by simp [hb])]
    · rw [if_neg hb, if_neg (by simp [hb, hi])]
      rw [if_neg hb] at hw
      cases hp : h.parse content i with
      | mk r h' =>
        rw [hp] at hw
        cases r with
        | error e => rfl
        | ok u =>
          dsimp only at hw ⊢
          cases ha : h'.at i n with
          | none => rfl
          | some j =>
            rw [ha] at hw
            dsimp only at hw ⊢
            refine foldHeld_free ns h' j fun ms m rest x e hf => hw (n :: ms) m rest x (by rw [e]; rfl) ?_
            have hs : h'.cell i = h.cell i ∨ Settled content h' i := by
              cases hc : h.cell i with
              | none => rw [parse_dead hc] at hp; cases hp; exact .inl hc
              | some c => exact .inr (parse_settles hc hp)
            have hg : (NHeap.foldParsed content b h' j ns).2.at i n = some j := by
              rcases hs with hs | hs
              · cases hc : h.cell i with
                | none =>
                  rw [hc] at hs
                  unfold NHeap.at at ha
                  rw [hs] at ha
                  cases ha
                | some c =>
                  have := (foldParsed_frame (held := b) ns h' j).2.1 i (parse_settles hc hp)
                  rw [at_cell this, ha]
              · have := (foldParsed_frame (held := b) ns h' j).2.1 i hs
                rw [at_cell this, ha]
            simp only [foldPath]
            rw [hg]
            exact hf

/-- a held node on the way: the call hangs -/
theorem foldHeld_hangs {content : Content} {b : Nat} {held : List Nat} : ∀ (ns : List (List Char)) (h : NHeap) (i k : Nat)
    (g : NHeap), NHeap.foldParsed content b h i ns = (.ok k, g) →
    (∃ ms n rest x, ns = ms ++ n :: rest ∧ foldPath g.at i ms = some x ∧ x ∈ held) →
    (NHeap.foldHeld content (b :: held) h i ns).1 = .error (.lib "deadlock")
  | [], _, _, _, _, _, hw => by
    obtain ⟨ms, n, rest, x, e, _⟩ := hw
    cases ms <;> cases e
  | n :: ns, h, i, k, g, hf, hw => by
    rw [foldHeld_cons]
    by_cases hi : i ∈ b :: held
    · rw [if_pos hi]
    · have hb : i ≠ b := by intro e; exact hi (by simp [e])
      rw [foldParsed_cons, if_neg hb] at hf
      rw [if_neg hi]
      cases hp : h.parse content i with
      | mk r h' =>
        rw [hp] at hf
        cases r with
        | error e => cases hf
        | ok u =>
          dsimp only at hf ⊢
          cases ha : h'.at i n with
          | none => rw [ha] at hf; cases hf
          | some j =>
            rw [ha] at hf
            dsimp only at hf ⊢
            refine foldHeld_hangs ns h' j k g hf ?_
            obtain ⟨ms, m, rest, x, e, hx, hh⟩ := hw
            cases ms with
            | nil =>
              simp only [foldPath, Option.some.injEq] at hx
              subst hx
              exact absurd hh (fun hh => hi (by simp [hh]))
            | cons m' ms =>
              simp only [List.cons_append, List.cons.injEq] at e
              obtain ⟨rfl, e⟩ := e
              refine ⟨ms, m, rest, x, e, ?_, hh⟩
              have hg : g.at i n = some j := by
                cases hc : h.cell i with
                | none =>
                  rw [parse_dead hc] at hp
                  cases hp
                  unfold NHeap.at at ha
                  rw [hc] at ha
                  cases ha
                | some c =>
                  have := (foldParsed_frame (held := b) ns h' j).2.1 i (parse_settles hc hp)
                  rw [hf] at this
                  rw [at_cell this, ha]
              simp only [foldPath] at hx
              rw [hg] at hx
              exact hx

theorem pathThrough_iff {h : NHeap} {b x j : Nat} {path m : List Char} {ms : List (List Char)} (hp : splitSlash path = m :: ms)
    (ha : h.at b m = some j) :
    PathThrough h b path x ↔ ∃ ns n rest, ms = ns ++ n :: rest ∧ foldPath h.at j ns = some x := by
  unfold PathThrough
  constructor
  · rintro ⟨ns, n, rest, h1, h2, h3⟩
    rw [pieces_iff, hp] at h1
    cases ns with
    | nil => exact absurd rfl h2
    | cons a ns =>
      simp only [List.cons_append, List.cons.injEq] at h1
      obtain ⟨rfl, e⟩ := h1
      refine ⟨ns, n, rest, e, ?_⟩
      rw [follow_eq] at h3
      simp only [foldPath] at h3
      rw [ha] at h3
      exact h3
  · rintro ⟨ns, n, rest, e, hf⟩
    refine ⟨m :: ns, n, rest, pieces_iff.2 (by rw [hp, e]; rfl), by simp, ?_⟩
    rw [follow_eq]
    simp only [foldPath]
    rw [ha]
    exact hf

theorem at_alive {h : NHeap} {i j : Nat} {n : List Char} (ha : h.at i n = some j) : i < h.length := by
  cases hc : h.cell i with
  | none => unfold NHeap.at at ha; rw [hc] at ha; cases ha
  | some c => exact cell_lt hc

theorem atPathHeld_free {content : Content} {h : NHeap} {b : Nat} {held : List Nat} {path : List Char}
    (hw : ∀ x ∈ held, ¬ PathThrough (h.atPathParsed content b path).2 b path x) :
    h.atPathHeld content held b path = h.atPathParsed content b path := by
  unfold NHeap.atPathParsed at hw ⊢
  unfold NHeap.atPathHeld
  cases hp : splitSlash path with
  | nil => rfl
  | cons m ms =>
    rw [hp] at hw
    dsimp only at hw ⊢
    cases ha : h.at b m with
    | none => rfl
    | some j =>
      rw [ha] at hw
      dsimp only at hw ⊢
      refine foldHeld_free ms h j fun ns n rest x e hf hx => hw x hx ?_
      have hb : (NHeap.foldParsed content b h j ms).2.at b m = some j := by
        rw [at_cell ((foldParsed_frame ms h j).2.2 (at_alive ha)), ha]
      exact (pathThrough_iff hp hb).2 ⟨ns, n, rest, e, hf⟩

theorem atPathHeld_hangs {content : Content} {h g : NHeap} {b t : Nat} {held : List Nat} {path : List Char}
    (hf : h.atPathParsed content b path = (.ok t, g)) (hw : ∃ x ∈ held, PathThrough g b path x) :
    (h.atPathHeld content held b path).1 = .error (.lib "deadlock") := by
  unfold NHeap.atPathParsed at hf
  unfold NHeap.atPathHeld
  cases hp : splitSlash path with
  | nil => rw [hp] at hf; cases hf
  | cons m ms =>
    rw [hp] at hf
    dsimp only at hf ⊢
    cases ha : h.at b m with
    | none => rw [ha] at hf; cases hf
    | some j =>
      rw [ha] at hf
      dsimp only at hf ⊢
      obtain ⟨x, hx, hbt⟩ := hw
      have hb : g.at b m = some j := by
        have := (foldParsed_frame (content := content) (held := b) ms h j).2.2 (at_alive ha)
        rw [hf] at this
        rw [at_cell this, ha]
      obtain ⟨ns, n, rest, e, hfo⟩ := (pathThrough_iff hp hb).1 hbt
      exact foldHeld_hangs ms h j t g hf ⟨ns, n, rest, x, e, hfo, hx⟩

theorem outTarget_none {h : NHeap} (hm : MapsOk h) {content : Content} {text : Nat → Option (List Char)} {i : Nat}
    (hi : NoOutlink text h i) : ∃ N, ∀ fuel held, N ≤ fuel → h.outTarget content text held fuel i = (.ok none, h) := by
  cases hl : h.linkText text i ['_', 'o', 'u', 't', 'l', 'i', 'n', 'k'] with
  | none =>
    refine ⟨0, fun fuel held _ => ?_⟩
    rw [NHeap.outTarget, hl]
  | some s =>
    have ht := (linkText_iff hm).1 hl
    rw [← outText] at ht
    rcases hi with hno | ⟨l, hc, hno⟩
    · exact absurd ht (hno s)
    · refine ⟨l.length, fun fuel held hf => ?_⟩
      rw [NHeap.outTarget, hl]
      dsimp only
      rw [NHeap.outlinkRead, C25_filter_parent_none isBase_cell hc hno (by omega)]

theorem outTarget_from {h : NHeap} (hm : MapsOk h) {content : Content} {text : Nat → Option (List Char)} {i b : Nat}
    {s : List Char} (hi : OutlinkFrom text h i b s) : ∃ N, ∀ fuel held, N ≤ fuel →
    h.outTarget content text held fuel i = match h.atPathHeld content held b s with
      | (.ok t, h') => (.ok (some t), h')
      | (.error e, h') => if e.stops then (.error e, h') else (.ok none, h') := by
  obtain ⟨ht, hq⟩ := hi
  obtain ⟨N, hN⟩ := C25_filter_parent isBase_cell hq
  refine ⟨N, fun fuel held hf => ?_⟩
  rw [outText] at ht
  rw [NHeap.outTarget, (linkText_iff hm).2 ht]
  dsimp only
  rw [NHeap.outlinkRead, hN fuel hf]
  dsimp only
  generalize h.atPathHeld content held b s = z
  obtain ⟨r, g⟩ := z
  cases r <;> rfl

/-! ## more fuel -/

theorem inTarget_more {h : NHeap} {text : Nat → Option (List Char)} {fuel fuel' i : Nat} {r : Option Nat} (hf : fuel ≤ fuel')
    (he : h.inTarget text fuel i = some r) : h.inTarget text fuel' i = some r := by
  unfold NHeap.inTarget at *
  cases hl : h.linkText text i ['_', 'i', 'n', 'l', 'i', 'n', 'k'] with
  | none => rw [hl] at he; exact he
  | some s =>
    rw [hl] at he
    dsimp only at he ⊢
    unfold NHeap.inlink at *
    cases hp : h.filterParent NCell.isImage fuel i with
    | none => rw [hp] at he; cases he
    | some q =>
      rw [hp] at he
      have : h.filterParent NCell.isImage fuel' i = some q := filterLoop_more fuel fuel' _ hf hp
      rw [this]
      exact he

theorem outTarget_more {h : NHeap} {content : Content} {text : Nat → Option (List Char)} {held : List Nat} {fuel fuel' i : Nat}
    (hf : fuel ≤ fuel') (he : (h.outTarget content text held fuel i).1 ≠ .error .fuel) :
    h.outTarget content text held fuel' i = h.outTarget content text held fuel i := by
  unfold NHeap.outTarget at *
  cases hl : h.linkText text i ['_', 'o', 'u', 't', 'l', 'i', 'n', 'k'] with
  | none => rfl
  | some s =>
    rw [hl] at he
    dsimp only at he ⊢
    unfold NHeap.outlinkRead at *
    cases hp : h.filterParent NCell.isBase fuel i with
    | none => rw [hp] at he; exact absurd rfl he
    | some q =>
      have : h.filterParent NCell.isBase fuel' i = some q := filterLoop_more fuel fuel' _ hf hp
      rw [this]

theorem getImage_more {content : Content} {png : Nat → Bool} {text : Nat → Option (List Char)} : ∀ (fuel fuel' : Nat)
    (h : NHeap) (held : List Nat) (i : Nat), fuel ≤ fuel' →
    (NHeap.getImage content png text fuel h held i).1 ≠ .error .fuel →
    NHeap.getImage content png text fuel' h held i = NHeap.getImage content png text fuel h held i
  | 0, _, h, held, i, _, he => absurd rfl he
  | fuel + 1, 0, _, _, _, hl, _ => by omega
  | fuel + 1, fuel' + 1, h, held, i, hl, he => by
    simp only [NHeap.getImage] at he ⊢
    by_cases hp : h.isPicture png i = true
    · rw [if_pos hp] at he
      rw [if_pos hp, if_pos hp]
      cases hi : h.inTarget text fuel i with
      | none => rw [hi] at he; exact absurd rfl he
      | some r =>
        rw [hi] at he
        rw [inTarget_more (by omega) hi]
        cases r with
        | some t => exact getImage_more fuel fuel' h _ t (by omega) he
        | none =>
          dsimp only at he ⊢
          have hne : (h.outTarget content text (i :: held) fuel i).1 ≠ .error .fuel := by
            intro h0
            cases ho : h.outTarget content text (i :: held) fuel i with
            | mk a g =>
              rw [ho] at h0 he
              dsimp only at h0
              rw [h0] at he
              exact he rfl
          rw [outTarget_more (by omega) hne]
          cases ho : h.outTarget content text (i :: held) fuel i with
          | mk a g =>
            rw [ho] at he
            cases a with
            | error e => rfl
            | ok r =>
              cases r with
              | none => rfl
              | some t => exact getImage_more fuel fuel' g _ t (by omega) he
    · rw [if_neg hp, if_neg hp]

end Wz
