import Verif.Whole.JsonLemmas

/-!
# Lemmas for the JSON of whole archives (C83)
-/

set_option autoImplicit false

namespace Wz

open Spec

/-! ### the export -/

theorem childrenOf_cell {h : NHeap} {i : Nat} {c : NCell} (hc : h.cell i = some c) : childrenOf h i = c.kids := by
  unfold childrenOf
  rw [hc]

theorem lastNamed_none {α : Type} {kids : List (List Char × α)} (h : ∀ n, lastNamed kids n = none) : kids = [] := by
  cases kids with
  | nil => rfl
  | cons a rest =>
    obtain ⟨t, ht⟩ := lastNamed_some (n := a.1) (x := a.2) (kids := a :: rest) List.mem_cons_self
    rw [h] at ht
    cases ht

theorem export_stands {e : Env} {fuel : Nat} {h : NHeap} (hm : MapsOk h) {i : Nat} {j : Nat} {nm : List Char} {t : ATree}
    (H : Stands58 e fuel h j nm t) : ∀ d, foldPath h.at i d = some j → (∀ ns props, imageFrom t ns = some props → NoUol props ∧ FiniteNumbers props) →
    ∃ x D, (∀ fu, D ≤ fu → h.exportJson e fu j = some (.ok x)) ∧ ShowsArc (IsRead h i) d t x := by
  induction H with
  | image j c nm p o s t f hc hn hk ht hr hg hp1 hp2 =>
    intro d hd hfine
    obtain ⟨props, hp⟩ : ∃ props, propsOf t = some props := by
      cases t with
      | dir ks => exact nomatch ht.stored
      | _ => exact ⟨_, rfl⟩
    have hfrom : imageFrom t [] = some props := by
      cases t with
      | dir ks => exact nomatch ht.stored
      | _ => exact hp
    obtain ⟨hu, hf⟩ := hfine [] props hfrom
    have hread : IsRead h i d ↔ p = true := by
      unfold IsRead
      rw [follow_eq, hd]
      constructor
      · rintro ⟨k, c', s', h1, h2, h3⟩
        cases h1
        rw [hc] at h2
        cases h2
        rw [hk] at h3
        cases h3
        rfl
      · rintro rfl
        exact ⟨j, c, _, rfl, hc, hk⟩
    have hobj : Carries (objOf e h j) .sub := by
      unfold objOf
      rw [hc]
      dsimp only
      rw [hk]
      exact ⟨fun _ => ⟨_, rfl, .sub⟩, fun n => rfl⟩
    cases p with
    | false =>
      refine ⟨.null, 1, export_leaf ((childrenOf_cell hc).trans (hp2 rfl)) ?_, .unread d t props hp fun h => by cases hread.1 h⟩
      unfold objOf
      rw [hc]
      dsimp only
      rw [hk]
      rfl
    | true =>
      have hut : NoUolIn t := by
        cases t with
        | image ps => cases hp; exact hu
        | _ => trivial
      have hb := props_below ((hp1 rfl).1 (hg.free hut)) hg hut hp
      obtain ⟨x, D, x1, x2⟩ := export_props hm _ props (Nat.lt_succ_self _) j .sub hf hb hobj ⟨fun b hb => (by cases hb), fun b hb => (by cases hb)⟩
      exact ⟨x, D, x1, .image d t props x hp (hread.2 rfl) x2⟩
  | dir j c nm p src kids ids hc hn hk h1 h2 h3 ih =>
    intro d hd hfine
    have hk' := export_kids (e := e) hm (i := j) (last := lastNamed kids) (P := fun n t x => ShowsArc (IsRead h i) (d ++ [n]) t x) h1 (by
      intro n t hl
      obtain ⟨x, D, x1, x2⟩ := ih n t hl (d ++ [n]) (by rw [foldPath_append53, hd, Option.bind_some]; simp only [foldPath, h2 n t hl]) (by
        intro ns props hi
        refine hfine (n :: ns) props ?_
        change imageAt kids (n :: ns) = some props
        rw [imageAt_cons, hl]
        exact hi)
      exact ⟨ids n, x, D, h2 n t hl, x1, x2⟩)
    rcases hk' with ⟨hch, hall⟩ | ⟨⟨n, t, ht⟩, m, B, F, a1, a2, a3, a4⟩
    · obtain rfl := lastNamed_none hall
      refine ⟨.null, 1, export_leaf hch ?_, .empty d⟩
      unfold objOf
      rw [hc]
      dsimp only
      rw [hk]
      rfl
    · refine ⟨.obj m, B, a1, .dir d kids m F (by rintro rfl; cases ht) a2 (fun n t ht => (a3 n t ht).1) (fun n t ht => (a3 n t ht).2) fun n hn => ?_⟩
      rw [a4 n hn]
      unfold objOf
      rw [hc]
      dsimp only
      rw [hk]
      rfl

theorem export_root {e : Env} {fuel : Nat} {h : NHeap} (hm : MapsOk h) {i : Nat} {arch : List (List Char × ATree)} (F : FileStands e fuel h i arch)
    (hfine : Exportable arch) :
    ∃ x D, (∀ fu, D ≤ fu → h.exportJson e fu i = some (.ok x)) ∧ ShowsArc (IsRead h i) [] (.dir arch) x := by
  obtain ⟨⟨c, p, s, hc, hk⟩, F⟩ := F
  have hk' := export_kids (e := e) hm (i := i) (last := lastNamed arch) (P := fun n t x => ShowsArc (IsRead h i) [n] t x) (fun n hn => by
      have := F n
      rw [hn] at this
      exact this) (by
    intro n t hl
    have := F n
    rw [hl] at this
    obtain ⟨k, h1, h2⟩ := this
    obtain ⟨x, D, x1, x2⟩ := export_stands hm (i := i) h2 [n] (by simp only [foldPath, h1]) (by
      intro ns props hi
      refine hfine (n :: ns) props ?_
      rw [imageAt_cons, hl]
      exact hi)
    exact ⟨k, x, D, h1, x1, x2⟩)
  rcases hk' with ⟨hch, hall⟩ | ⟨⟨n, t, ht⟩, m, B, F, a1, a2, a3, a4⟩
  · obtain rfl := lastNamed_none hall
    refine ⟨.null, 1, export_leaf hch ?_, .empty []⟩
    unfold objOf
    rw [hc]
    dsimp only
    rw [hk]
    rfl
  · refine ⟨.obj m, B, a1, .dir [] arch m F (by rintro rfl; cases ht) a2 (fun n t ht => (a3 n t ht).1) (fun n t ht => (a3 n t ht).2) fun n hn => ?_⟩
    rw [a4 n hn]
    unfold objOf
    rw [hc]
    dsimp only
    rw [hk]
    rfl

/-- what is shown does not depend on what else has been read -/
theorem showsArc_all {read : List (List Char) → Prop} {d : List (List Char)} {t : ATree} {j : Json} (H : ShowsArc read d t j) :
    (∀ ns props, imageFrom t ns = some props → read (d ++ ns)) → ShowsArc (fun _ => True) d t j := by
  induction H with
  | unread d t props hp hr =>
    intro h
    refine absurd (h [] props ?_) (by rw [List.append_nil]; exact hr)
    cases t with
    | dir ks => cases hp
    | _ => exact hp
  | image d t props j hp hr hs => exact fun _ => .image d t props j hp trivial hs
  | empty d => exact fun _ => .empty d
  | dir d kids m f h1 h2 h3 _ h5 ih =>
    intro h
    refine .dir d kids m f h1 h2 h3 (fun n t hl => ih n t hl fun ns props hi => ?_) h5
    rw [List.append_assoc]
    refine h (n :: ns) props ?_
    change imageAt kids (n :: ns) = some props
    rw [imageAt_cons, hl]
    exact hi

/-! ### what has been read stays read -/

/-- nodes that have been read stay as they are; directories keep their children -/
def StaysRead (h g : NHeap) : Prop :=
  (∀ x c s, h.cell x = some c → c.kind = .image true s → g.cell x = some c) ∧
  (∀ x c s, h.cell x = some c → c.kind = .file true s → g.cell x = some c) ∧
  ∀ x c p s, h.cell x = some c → c.kind = .dir p true s → ∃ p', g.cell x = some { c with kind := .dir p' true s }

theorem StaysRead.refl (h : NHeap) : StaysRead h h :=
  ⟨fun _ _ _ hc _ => hc, fun _ _ _ hc _ => hc, fun _ c p s hc hk => ⟨p, by rw [hc, ← hk]⟩⟩

theorem StaysRead.trans {h g k : NHeap} (a : StaysRead h g) (b : StaysRead g k) : StaysRead h k := by
  refine ⟨fun x c s hc hk => b.1 x c s (a.1 x c s hc hk) hk, fun x c s hc hk => b.2.1 x c s (a.2.1 x c s hc hk) hk, fun x c p s hc hk => ?_⟩
  obtain ⟨p', h1⟩ := a.2.2 x c p s hc hk
  obtain ⟨p'', h2⟩ := b.2.2 x _ p' s h1 rfl
  exact ⟨p'', h2⟩

theorem staysRead_parse (content : Content) (h : NHeap) (i : Nat) : StaysRead h (h.parse content i).2 := by
  refine ⟨fun x c s hc hk => ?_, fun x c s hc hk => ?_, fun x c p s hc hk => ?_⟩
  · by_cases hx : x = i
    · subst hx
      rw [parse_eq hc, hk]
      exact hc
    · rw [parse_frame (cell_lt hc) hx, hc]
  · by_cases hx : x = i
    · subst hx
      rw [parse_eq hc, hk]
      exact hc
    · rw [parse_frame (cell_lt hc) hx, hc]
  · by_cases hx : x = i
    · subst hx
      cases p with
      | true =>
        refine ⟨true, ?_⟩
        rw [parse_eq hc, hk]
        show h.cell x = _
        rw [hc, ← hk]
      | false =>
        refine ⟨true, ?_⟩
        have hg : h.parse content x = (.ok (), fresh h x { c with kind := .dir true true s } .nil) := by
          rw [parse_eq hc, hk]
          rfl
        rw [hg, show fresh h x { c with kind := .dir true true s } .nil = h.set x (some { c with kind := .dir true true s }) by
          unfold fresh; simp [Forest.cells]]
        rw [cell_set (cell_lt hc), if_pos rfl]
    · exact ⟨p, by rw [parse_frame (cell_lt hc) hx, hc, ← hk]⟩

theorem staysRead_fold (content : Content) (held : Nat) : ∀ (ns : List (List Char)) (h : NHeap) (i : Nat),
    StaysRead h (NHeap.foldParsed content held h i ns).2
  | [], h, _ => .refl h
  | n :: ns, h, i => by
    simp only [NHeap.foldParsed]
    split
    · exact .refl h
    · have hp := staysRead_parse content h i
      split
      · rename_i e h' he
        rw [he] at hp; exact hp
      · rename_i u h' he
        rw [he] at hp
        split
        · exact hp
        · exact hp.trans (staysRead_fold content held ns h' _)

theorem staysRead_find (content : Content) (h : NHeap) (i : Nat) (path : List Char) : StaysRead h (h.atPathParsed content i path).2 := by
  unfold NHeap.atPathParsed
  cases splitSlash path with
  | nil => exact .refl h
  | cons n ns =>
    dsimp only
    split
    · exact .refl h
    · exact staysRead_fold content _ ns h _

/-- the way to an image goes through directories only -/
theorem staysRead_path {e : Env} {fuel : Nat} {h g : NHeap} (R : StaysRead h g) {x : Nat} {props : List (List Char × PTree)} :
    ∀ (ns : List (List Char)) (k : Nat) (nm : List Char) (t : ATree), Stands58 e fuel h k nm t → imageFrom t ns = some props →
    foldPath h.at k ns = some x → foldPath g.at k ns = some x
  | [], _, _, _, _, _, hf => hf
  | n :: ns, k, nm, t, H, hi, hf => by
    cases H with
    | image _ c _ p o s _ f hc hn hk ht =>
      have := (imageFrom_image (t := t) (by rintro ks rfl; exact nomatch ht.stored) hi).1
      cases this
    | dir _ c _ p src kids ids hc hn hk h1 h2 h3 =>
      change imageAt kids (n :: ns) = some props at hi
      rw [imageAt_cons] at hi
      cases hl : lastNamed kids n with
      | none => rw [hl] at hi; cases hi
      | some u =>
        rw [hl] at hi
        obtain ⟨p', hg⟩ := R.2.2 k c p src hc hk
        have ha : g.at k n = h.at k n := by unfold NHeap.at; rw [hg, hc]
        simp only [foldPath, ha, h2 n u hl] at hf ⊢
        exact staysRead_path R ns (ids n) n u (h3 n u hl) hi hf

theorem staysRead_root {e : Env} {fuel : Nat} {h g : NHeap} (R : StaysRead h g) {i : Nat} {arch : List (List Char × ATree)}
    (F : FileStands e fuel h i arch) (hr : g.cell i = h.cell i) {x : Nat} {ns : List (List Char)} {props : List (List Char × PTree)}
    (hi : imageAt arch ns = some props) (hf : foldPath h.at i ns = some x) : foldPath g.at i ns = some x := by
  cases ns with
  | nil => cases hi
  | cons n ns =>
    rw [imageAt_cons] at hi
    cases hl : lastNamed arch n with
    | none => rw [hl] at hi; cases hi
    | some t =>
      rw [hl] at hi
      have := F.2 n
      rw [hl] at this
      obtain ⟨k, h1, h2⟩ := this
      have ha : g.at i n = h.at i n := by unfold NHeap.at; rw [hr]
      simp only [foldPath, ha, h1] at hf ⊢
      exact staysRead_path R ns k n t h2 hi hf

theorem Keeps58.root {e : Env} {fuel : Nat} {h g : NHeap} (K : Keeps58 e fuel h g) {i : Nat} {arch : List (List Char × ATree)}
    (F : FileStands e fuel h i arch) : g.cell i = h.cell i := by
  obtain ⟨⟨c, p, s, hc, hk⟩, _⟩ := F
  rw [K.2.1 i c p s hc hk, hc]

theorem isRead_keep {e : Env} {fuel : Nat} {h g : NHeap} (R : StaysRead h g) {i : Nat} {arch : List (List Char × ATree)}
    (F : FileStands e fuel h i arch) (hr : g.cell i = h.cell i) {ns : List (List Char)} {props : List (List Char × PTree)}
    (hi : imageAt arch ns = some props) (hread : IsRead h i ns) : IsRead g i ns := by
  obtain ⟨k, c, s, h1, h2, h3⟩ := hread
  rw [follow_eq] at h1
  exact ⟨k, c, s, by rw [follow_eq]; exact staysRead_root R F hr hi h1, R.1 k c s h2 h3, h3⟩

/-- an image that was loaded has been read -/
theorem isRead_load {e : Env} {fuel : Nat} {content : Content}
    (hcon : ∀ n o s, content (Encodable.encode (Src58.image n o s)) = readImage e fuel ⟨n, o, s⟩) {h : NHeap} {i : Nat}
    {arch : List (List Char × ATree)} (F : FileStands e fuel h i arch) {path : List Char} {ns : List (List Char)} (hp : Pieces path ns)
    {props : List (List Char × PTree)} (hi : imageAt arch ns = some props) (hu : NoUol props) :
    ∃ j g g', h.atPathParsed content i path = (.ok j, g) ∧ g.parse content j = (.ok (), g') ∧ Keeps58 e fuel h g' ∧ IsRead g' i ns := by
  obtain ⟨j, nm, t, g, h1, K, H, hpo⟩ := find_image83 (content := content) F hp hi
  have hut : NoUolIn t := by
    cases t with
    | image ps => cases hpo; exact hu
    | _ => trivial
  have hfold := atPathParsed_fold hp (K.root F) h1
  cases hH : H with
  | dir => cases hpo
  | image _ c _ p o s _ f hc hn hk ht hr hg hp1 hp2 =>
    obtain ⟨g', q1, q2, _⟩ := parse_image58 (hcon nm o s) hc hk hr (hg.free hut) hp1 hp2
    refine ⟨j, g, g', h1, q1, K.trans q2, ?_⟩
    have hR := staysRead_parse content g j
    rw [q1] at hR
    have hf' := staysRead_root hR (K.file F) (q2.root (K.file F)) hi hfold
    obtain ⟨c', hc', hset⟩ := parse_settles hc q1
    cases q2.1 _ _ _ H with
    | dir => cases hpo
    | image _ c2 _ p2 o2 s2 _ f2 hc2 hn2 hk2 =>
      rw [hc'] at hc2
      cases hc2
      cases p2 with
      | true => exact ⟨j, c', _, by rw [follow_eq]; exact hf', hc', hk2⟩
      | false => rw [hk2] at hset; cases hset

/-- a history without forgetting in which the image is loaded -/
theorem isRead_run {e : Env} {fuel : Nat} {content : Content}
    (hcon : ∀ n o s, content (Encodable.encode (Src58.image n o s)) = readImage e fuel ⟨n, o, s⟩) {i : Nat}
    {arch : List (List Char × ATree)} {ns : List (List Char)} {props : List (List Char × PTree)} (hi : imageAt arch ns = some props)
    (hu : NoUol props) : ∀ (ops : List ArcOp) (h : NHeap), FileStands e fuel h i arch → (∀ op ∈ ops, AllowedArc arch op) →
    (∀ p, ArcOp.close p ∉ ops) → (IsRead h i ns ∨ ∃ p, ArcOp.load p ∈ ops ∧ Pieces p ns) → IsRead (runArc content i h ops) i ns
  | [], h, _, _, _, hr => hr.elim id fun ⟨p, hp, _⟩ => by cases hp
  | op :: ops, h, F, ha, hc, hr => by
    have hone : ∀ g, Keeps58 e fuel h g → (IsRead h i ns → IsRead g i ns) → (∀ p, op = .load p → Pieces p ns → IsRead g i ns) →
        IsRead (runArc content i g ops) i ns := by
      intro g K h1 h2
      refine isRead_run hcon hi hu ops g (K.file F) (fun op ho => ha op (List.mem_cons_of_mem _ ho)) (fun p hp => hc p (List.mem_cons_of_mem _ hp)) ?_
      rcases hr with hr | ⟨p, hp, hpp⟩
      · exact .inl (h1 hr)
      · rcases List.mem_cons.1 hp with rfl | hp
        · exact .inl (h2 p rfl hpp)
        · exact .inr ⟨p, hp, hpp⟩
    have K : Keeps58 e fuel h (runArc content i h [op]) := run_keeps hcon [op] h F fun o ho => by
      rw [List.mem_singleton] at ho
      subst ho
      exact ha _ List.mem_cons_self
    cases op with
    | close p => exact absurd List.mem_cons_self (hc p)
    | find p =>
      exact hone _ K (fun hr => isRead_keep (staysRead_find content h i p) F (K.root F) hi hr) fun p' hp => by cases hp
    | load p =>
      have hR := staysRead_find content h i p
      simp only [runArc] at K ⊢
      cases hq : h.atPathParsed content i p with
      | mk r g =>
        rw [hq] at K hR
        cases r with
        | error er =>
          refine hone g K (fun hr => isRead_keep hR F (K.root F) hi hr) fun p' hp hpp => ?_
          cases hp
          obtain ⟨j, g1, g2, h1, _⟩ := isRead_load hcon F hpp hi hu
          rw [h1] at hq
          cases hq
        | ok j =>
          refine hone _ K (fun hr => isRead_keep (hR.trans (staysRead_parse content g j)) F (K.root F) hi hr) fun p' hp hpp => ?_
          cases hp
          obtain ⟨j', g1, g2, h1, h2, _, h4⟩ := isRead_load hcon F hpp hi hu
          rw [h1] at hq
          cases hq
          rw [h2]
          exact h4

end Wz
