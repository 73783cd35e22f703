import Verif.Whole.JsonLinkLemmas
import Verif.Whole.JsonArchiveLemmas

/-!
# The JSON of archives whose images have links: lemmas
-/

set_option autoImplicit false

namespace Wz

open Spec

theorem export_stands_links {e : Env} {fuel : Nat} {h : NHeap} (hm : MapsOk h) {i : Nat} {j : Nat} {nm : List Char} {t : ATree}
    (H : Stands58 e fuel h j nm t) : ∀ d, foldPath h.at i d = some j → (∀ ns props, imageFrom t ns = some props →
      DistinctProps props ∧ DirectLinks (linkPlaces props) ∧ ¬ GoesRound props ∧ FiniteNumbers props) →
    ∃ x D, (∀ fu, D ≤ fu → h.exportJson e fu j = some (.ok x)) ∧ ShowsLinked (IsRead h i) d t x := by
  induction H with
  | image j c nm p o s t f hc hn hk ht hr hg hp1 hp2 =>
    intro d hd hfine
    obtain ⟨props, hp⟩ : ∃ props, propsOf t = some props := by
      cases t with
      | dir ks => exact nomatch ht.stored
      | _ => exact ⟨_, rfl⟩
    have hfrom : imageFrom t [] = some props := by
      cases t with
      | dir ks => exact nomatch ht.stored
      | _ => exact hp
    obtain ⟨hdi, hl, hro, hf⟩ := hfine [] props hfrom
    have hread : IsRead h i d ↔ p = true := by
      unfold IsRead
      rw [follow_eq, hd]
      constructor
      · rintro ⟨k, c', s', h1, h2, h3⟩
        cases h1
        rw [hc] at h2
        cases h2
        rw [hk] at h3
        cases h3
        rfl
      · rintro rfl
        exact ⟨j, c, _, rfl, hc, hk⟩
    cases p with
    | false =>
      refine ⟨.null, 1, export_leaf ((childrenOf_cell hc).trans (hp2 rfl)) ?_, .unread d t props hp fun h => by cases hread.1 h⟩
      unfold objOf
      rw [hc]
      dsimp only
      rw [hk]
      rfl
    | true =>
      have hnd : ∀ ks, t ≠ .dir ks := by rintro ks rfl; cases hp
      have hlt : LinksIn t := by
        cases t with
        | image ps => cases hp; exact .inr ⟨hdi, hl⟩
        | _ => trivial
      obtain ⟨node, L⟩ := (hp1 rfl).nodes (goodImage_follow hg hnd hlt)
      have hpl : f.places = linkPlaces props := (goodImage_treePlaces hg hnd).trans (tree_link_places hp)
      have hx := export_places hm hc hk hg L hp hpl hl hf hro ((forestPlaces f).length + 2) [] [] [] (by simp) .nil
        (fun x hx => by cases hx) (.here [])
      rw [L.top] at hx
      obtain ⟨x, D, x1, x2⟩ := hx
      exact ⟨x, D, x1, .image d t props x hp (hread.2 rfl) x2⟩
  | dir j c nm p src kids ids hc hn hk h1 h2 h3 ih =>
    intro d hd hfine
    have hk' := export_kids (e := e) hm (i := j) (last := lastNamed kids) (P := fun n t x => ShowsLinked (IsRead h i) (d ++ [n]) t x) h1 (by
      intro n t hl
      obtain ⟨x, D, x1, x2⟩ := ih n t hl (d ++ [n]) (by rw [foldPath_append53, hd, Option.bind_some]; simp only [foldPath, h2 n t hl]) (by
        intro ns props hi
        refine hfine (n :: ns) props ?_
        change imageAt kids (n :: ns) = some props
        rw [imageAt_cons, hl]
        exact hi)
      exact ⟨ids n, x, D, h2 n t hl, x1, x2⟩)
    rcases hk' with ⟨hch, hall⟩ | ⟨⟨n, t, ht⟩, m, B, F, a1, a2, a3, a4⟩
    · obtain rfl := lastNamed_none hall
      refine ⟨.null, 1, export_leaf hch ?_, .empty d⟩
      unfold objOf
      rw [hc]
      dsimp only
      rw [hk]
      rfl
    · refine ⟨.obj m, B, a1, .dir d kids m F (by rintro rfl; cases ht) a2 (fun n t ht => (a3 n t ht).1) (fun n t ht => (a3 n t ht).2) fun n hn => ?_⟩
      rw [a4 n hn]
      unfold objOf
      rw [hc]
      dsimp only
      rw [hk]
      rfl

theorem export_root_links {e : Env} {fuel : Nat} {h : NHeap} (hm : MapsOk h) {i : Nat} {arch : List (List Char × ATree)} (F : FileStands e fuel h i arch)
    (hfine : ExportableLinks arch) :
    ∃ x D, (∀ fu, D ≤ fu → h.exportJson e fu i = some (.ok x)) ∧ ShowsLinked (IsRead h i) [] (.dir arch) x := by
  obtain ⟨⟨c, p, s, hc, hk⟩, F⟩ := F
  have hk' := export_kids (e := e) hm (i := i) (last := lastNamed arch) (P := fun n t x => ShowsLinked (IsRead h i) [n] t x) (fun n hn => by
      have := F n
      rw [hn] at this
      exact this) (by
    intro n t hl
    have := F n
    rw [hl] at this
    obtain ⟨k, h1, h2⟩ := this
    obtain ⟨x, D, x1, x2⟩ := export_stands_links hm (i := i) h2 [n] (by simp only [foldPath, h1]) (by
      intro ns props hi
      refine hfine (n :: ns) props ?_
      rw [imageAt_cons, hl]
      exact hi)
    exact ⟨k, x, D, h1, x1, x2⟩)
  rcases hk' with ⟨hch, hall⟩ | ⟨⟨n, t, ht⟩, m, B, F, a1, a2, a3, a4⟩
  · obtain rfl := lastNamed_none hall
    refine ⟨.null, 1, export_leaf hch ?_, .empty []⟩
    unfold objOf
    rw [hc]
    dsimp only
    rw [hk]
    rfl
  · refine ⟨.obj m, B, a1, .dir [] arch m F (by rintro rfl; cases ht) a2 (fun n t ht => (a3 n t ht).1) (fun n t ht => (a3 n t ht).2) fun n hn => ?_⟩
    rw [a4 n hn]
    unfold objOf
    rw [hc]
    dsimp only
    rw [hk]
    rfl

/-- what is shown does not depend on what else has been read -/
theorem showsLinked_all {read : List (List Char) → Prop} {d : List (List Char)} {t : ATree} {j : Json} (H : ShowsLinked read d t j) :
    (∀ ns props, imageFrom t ns = some props → read (d ++ ns)) → ShowsLinked (fun _ => True) d t j := by
  induction H with
  | unread d t props hp hr =>
    intro h
    refine absurd (h [] props ?_) (by rw [List.append_nil]; exact hr)
    cases t with
    | dir ks => cases hp
    | _ => exact hp
  | image d t props j hp hr hs => exact fun _ => .image d t props j hp trivial hs
  | empty d => exact fun _ => .empty d
  | dir d kids m f h1 h2 h3 _ h5 ih =>
    intro h
    refine .dir d kids m f h1 h2 h3 (fun n t hl => ih n t hl fun ns props hi => ?_) h5
    rw [List.append_assoc]
    refine h (n :: ns) props ?_
    change imageAt kids (n :: ns) = some props
    rw [imageAt_cons, hl]
    exact hi

/-- an image that has been read and goes round: no export of the archive ends -/
theorem export_root_round {e : Env} {fuel : Nat} {h : NHeap} (hm : MapsOk h) {i : Nat} {arch : List (List Char × ATree)}
    (F : FileStands e fuel h i arch) {ns : List (List Char)} {props : List (List Char × PTree)} (hi : imageAt arch ns = some props)
    (hr : IsRead h i ns) (hd : DistinctProps props) (hl : DirectLinks (linkPlaces props)) (hg : GoesRound props) (fu : Nat) (x : Json) :
    h.exportJson e fu i ≠ some (.ok x) := by
  obtain ⟨k, c, s, h1, h2, h3⟩ := hr
  rw [follow_eq] at h1
  have key : ∀ (ns : List (List Char)) (q : Nat) (nm : List Char) (t : ATree), Stands58 e fuel h q nm t → imageFrom t ns = some props →
      foldPath h.at q ns = some k → ∃ nm t, Stands58 e fuel h k nm t ∧ propsOf t = some props := by
    intro ns
    induction ns with
    | nil =>
      intro q nm t H hi hf
      cases hf
      cases t with
      | dir ks => cases hi
      | _ => exact ⟨nm, _, H, (imageFrom_image (by intro ks; simp) hi).2⟩
    | cons n ns ih =>
      intro q nm t H hi hf
      cases H with
      | image _ c _ p o s _ f hc hn hk ht =>
        have := (imageFrom_image (t := t) (by rintro ks rfl; exact nomatch ht.stored) hi).1
        cases this
      | dir _ c _ p src kids ids hc hn hk a1 a2 a3 =>
        change imageAt kids (n :: ns) = some props at hi
        rw [imageAt_cons] at hi
        cases hln : lastNamed kids n with
        | none => rw [hln] at hi; cases hi
        | some u =>
          rw [hln] at hi
          simp only [foldPath, a2 n u hln] at hf
          exact ih (ids n) n u (a3 n u hln) hi hf
  obtain ⟨nm, t, H, hpo⟩ : ∃ nm t, Stands58 e fuel h k nm t ∧ propsOf t = some props := by
    cases ns with
    | nil => cases hi
    | cons n ns =>
      rw [imageAt_cons] at hi
      cases hln : lastNamed arch n with
      | none => rw [hln] at hi; cases hi
      | some t =>
        rw [hln] at hi
        have := F.2 n
        rw [hln] at this
        obtain ⟨q, a1, a2⟩ := this
        simp only [foldPath, a1] at h1
        exact key ns q n t a2 hi h1
  have hnd : ∀ ks, t ≠ .dir ks := by rintro ks rfl; cases hpo
  have hlt : LinksIn t := by
    cases t with
    | image ps => cases hpo; exact .inr ⟨hd, hl⟩
    | _ => trivial
  cases H with
  | dir => cases hpo
  | image _ c' _ p o s' _ f hc hn hk ht hr hgd hp1 hp2 =>
    rw [h2] at hc
    cases hc
    rw [h3] at hk
    cases hk
    obtain ⟨node, L⟩ := (hp1 rfl).nodes (goodImage_follow hgd hnd hlt)
    have hpl : f.places = linkPlaces props := (goodImage_treePlaces hgd hnd).trans (tree_link_places hpo)
    obtain ⟨ms, qs, d, hne, b1, b2⟩ := hg
    obtain ⟨a1, a2⟩ := nodes_fold L (hpl ▸ b1) (.inl rfl)
    have a3 := (nodes_fold L (hpl ▸ b2) (a2 d rfl)).1
    rw [L.top] at a1
    intro hj
    rw [exportJson_eq] at hj
    exact ((Props.C46_succeeds_iff_partial (objOf e h) h i).1 ⟨fu, x, hj⟩).1
      ⟨node d, ns ++ ms, qs, Props.steps_append (steps_fold hm ns h1) (steps_fold hm ms a1), hne, steps_fold hm qs a3⟩

theorem Keeps70.root {e : Env} {fuel : Nat} {h g : NHeap} (K : Keeps70 e fuel h g) {i : Nat} {arch : List (List Char × ATree)}
    (F : FileStands e fuel h i arch) : g.cell i = h.cell i := by
  obtain ⟨⟨c, p, s, hc, hk⟩, _⟩ := F
  rw [K.2 i c p s hc hk, hc]

/-- an image that was loaded has been read -/
theorem isRead_load_links {e : Env} {fuel : Nat} {content : Content}
    (hcon : ∀ n o s, content (Encodable.encode (Src58.image n o s)) = readImage e fuel ⟨n, o, s⟩) {h : NHeap} {i : Nat}
    {arch : List (List Char × ATree)} (F : FileStands e fuel h i arch) {path : List Char} {ns : List (List Char)} (hp : Pieces path ns)
    {props : List (List Char × PTree)} (hi : imageAt arch ns = some props) (hd : DistinctProps props) (hl : DirectLinks (linkPlaces props)) :
    ∃ j g g', h.atPathParsed content i path = (.ok j, g) ∧ g.parse content j = (.ok (), g') ∧ Keeps70 e fuel h g' ∧ IsRead g' i ns := by
  obtain ⟨j, nm, t, g, h1, K, H, hpo⟩ := find_image83 (content := content) F hp hi
  have hnd : ∀ ks, t ≠ .dir ks := by rintro ks rfl; cases hpo
  have hlt : LinksIn t := by
    cases t with
    | image ps => cases hpo; exact .inr ⟨hd, hl⟩
    | _ => trivial
  have hfold := atPathParsed_fold hp (K.root F) h1
  cases hH : H with
  | dir => cases hpo
  | image _ c _ p o s _ f hc hn hk ht hr hg hp1 hp2 =>
    obtain ⟨g', _, _, q1, q2, _⟩ := parse_image70 (hcon nm o s) hc hk hr (goodImage_follow hg hnd hlt) hp1 hp2
    refine ⟨j, g, g', h1, q1, K.keeps70.trans q2, ?_⟩
    have hR := staysRead_parse content g j
    rw [q1] at hR
    have hf' := staysRead_root hR (K.file F) (q2.root (K.file F)) hi hfold
    obtain ⟨c', hc', hset⟩ := parse_settles hc q1
    cases q2.1 _ _ _ H with
    | dir => cases hpo
    | image _ c2 _ p2 o2 s2 _ f2 hc2 hn2 hk2 =>
      rw [hc'] at hc2
      cases hc2
      cases p2 with
      | true => exact ⟨j, c', _, by rw [follow_eq]; exact hf', hc', hk2⟩
      | false => rw [hk2] at hset; cases hset

/-- a history without forgetting in which the image is loaded -/
theorem isRead_run_links {e : Env} {fuel : Nat} {content : Content}
    (hcon : ∀ n o s, content (Encodable.encode (Src58.image n o s)) = readImage e fuel ⟨n, o, s⟩) {i : Nat}
    {arch : List (List Char × ATree)} {ns : List (List Char)} {props : List (List Char × PTree)} (hi : imageAt arch ns = some props)
    (hd : DistinctProps props) (hl : DirectLinks (linkPlaces props)) : ∀ (ops : List ArcOp) (h : NHeap), FileStands e fuel h i arch → (∀ op ∈ ops, AllowedLinks arch op) →
    (∀ p, ArcOp.close p ∉ ops) → (IsRead h i ns ∨ ∃ p, ArcOp.load p ∈ ops ∧ Pieces p ns) → IsRead (runArc content i h ops) i ns
  | [], h, _, _, _, hr => hr.elim id fun ⟨p, hp, _⟩ => by cases hp
  | op :: ops, h, F, ha, hc, hr => by
    have hone : ∀ g, Keeps70 e fuel h g → (IsRead h i ns → IsRead g i ns) → (∀ p, op = .load p → Pieces p ns → IsRead g i ns) →
        IsRead (runArc content i g ops) i ns := by
      intro g K h1 h2
      refine isRead_run_links hcon hi hd hl ops g (K.file F) (fun op ho => ha op (List.mem_cons_of_mem _ ho)) (fun p hp => hc p (List.mem_cons_of_mem _ hp)) ?_
      rcases hr with hr | ⟨p, hp, hpp⟩
      · exact .inl (h1 hr)
      · rcases List.mem_cons.1 hp with rfl | hp
        · exact .inl (h2 p rfl hpp)
        · exact .inr ⟨p, hp, hpp⟩
    have K : Keeps70 e fuel h (runArc content i h [op]) := run_keeps70 hcon [op] h F fun o ho => by
      rw [List.mem_singleton] at ho
      subst ho
      exact ha _ List.mem_cons_self
    cases op with
    | close p => exact absurd List.mem_cons_self (hc p)
    | find p =>
      exact hone _ K (fun hr => isRead_keep (staysRead_find content h i p) F (K.root F) hi hr) fun p' hp => by cases hp
    | load p =>
      have hR := staysRead_find content h i p
      simp only [runArc] at K ⊢
      cases hq : h.atPathParsed content i p with
      | mk r g =>
        rw [hq] at K hR
        cases r with
        | error er =>
          refine hone g K (fun hr => isRead_keep hR F (K.root F) hi hr) fun p' hp hpp => ?_
          cases hp
          obtain ⟨j, g1, g2, h1, _⟩ := isRead_load_links hcon F hpp hi hd hl
          rw [h1] at hq
          cases hq
        | ok j =>
          refine hone _ K (fun hr => isRead_keep (hR.trans (staysRead_parse content g j)) F (K.root F) hi hr) fun p' hp hpp => ?_
          cases hp
          obtain ⟨j', g1, g2, h1, h2, _, h4⟩ := isRead_load_links hcon F hpp hi hd hl
          rw [h1] at hq
          cases hq
          rw [h2]
          exact h4

end Wz
