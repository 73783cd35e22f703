import Verif.Whole.JsonLinkSpec
import Verif.Whole.JsonLemmas
import Verif.Whole.LinkLemmas
import Verif.Value.JsonHeapProps

/-!
# The JSON of an image with links: lemmas
-/

set_option autoImplicit false

namespace Wz

open Wz.Spec

/-! ### the places of an image are finitely many -/

/-- all places -/
def forestPlaces : Forest → List (List (List Char))
  | .nil => []
  | .node n _ ks rest => [n] :: ((forestPlaces ks).map fun x => n :: x) ++ forestPlaces rest

theorem shows_places {n : List Char} {k : NKind} {ks : Forest} : ∀ {f : Forest}, Spec.Forest.shows f n = some (k, ks) →
    [n] ∈ forestPlaces f ∧ ∀ x ∈ forestPlaces ks, (n :: x) ∈ forestPlaces f
  | .nil, h => by cases h
  | .node m k' ks' rest, h => by
    rw [Spec.Forest.shows] at h
    cases hr : Spec.Forest.shows rest n with
    | some x =>
      rw [hr] at h
      cases h
      obtain ⟨h1, h2⟩ := shows_places hr
      exact ⟨List.mem_append_right _ h1, fun x hx => List.mem_append_right _ (h2 x hx)⟩
    | none =>
      rw [hr] at h
      dsimp only at h
      split at h
      · rename_i e
        subst e
        cases h
        exact ⟨List.mem_append_left _ (List.mem_cons_self ..), fun x hx => List.mem_append_left _ (List.mem_cons_of_mem _ (List.mem_map.2 ⟨x, hx, rfl⟩))⟩
      · cases h

theorem showsAt_places : ∀ (d : List (List Char)) (f : Forest) (x : List Char × NKind), Spec.Forest.showsAt f d = some x → d ∈ forestPlaces f
  | [], f, x, h => by cases h
  | [n], f, x, h => by
    rw [Spec.Forest.showsAt] at h
    cases hs : Spec.Forest.shows f n with
    | none => rw [hs] at h; cases h
    | some y => exact (shows_places (k := y.1) (ks := y.2) hs).1
  | n :: m :: ns, f, x, h => by
    rw [Spec.Forest.showsAt] at h
    cases hs : Spec.Forest.shows f n with
    | none => rw [hs] at h; cases h
    | some y =>
      obtain ⟨k, ks⟩ := y
      rw [hs] at h
      exact (shows_places hs).2 (m :: ns) (showsAt_places (m :: ns) ks x h)

theorem nodup_within {α : Type} [DecidableEq α] : ∀ (P l : List α), l.Nodup → (∀ x ∈ l, x ∈ P) → l.length ≤ P.length
  | P, [], _, _ => Nat.zero_le _
  | P, a :: l, hd, hs => by
    obtain ⟨h1, h2⟩ := List.nodup_cons.1 hd
    have ha := hs a (List.mem_cons_self ..)
    have := nodup_within (P.erase a) l h2 fun x hx =>
      (List.mem_erase_of_ne (by rintro rfl; exact h1 hx)).2 (hs x (List.mem_cons_of_mem _ hx))
    rw [List.length_erase_of_mem ha] at this
    have : 0 < P.length := List.length_pos_of_mem ha
    simp only [List.length_cons]
    omega

/-! ### what is seen -/

theorem seen_append {look : Places} {d ns : List (List Char)} {r : Option (List (List Char))} (V : SeenAt look d ns r) :
    ∀ {t ms : List (List Char)} {r' : Option (List (List Char))}, r = some t → SeenAt look t ms r' → SeenAt look d (ns ++ ms) r' := by
  induction V with
  | here d => intro t ms r' ht W; cases ht; exact W
  | missing d n ns hl => intro t ms r' ht; cases ht
  | plain d n ns r hl _ ih => intro t ms r' ht W; exact .plain d n _ _ hl (ih ht W)
  | link d n ns s us u r hl hs hw _ ih => intro t ms r' ht W; exact .link d n _ s us u _ hl hs hw (ih ht W)
  | dead d n ns s us r hl hs hw _ ih => intro t ms r' ht W; exact .dead d n _ s us _ hl hs hw (ih ht W)

/-- one name leads nowhere exactly if there is nothing of that name -/
theorem seen_none {look : Places} (D : DirectLinks look) {d : List (List Char)} {n : List Char} :
    SeenAt look d [n] none ↔ look (d ++ [n]) = none := by
  constructor
  · intro V
    generalize hns : [n] = ns at V
    generalize hr : (none : Option (List (List Char))) = r at V
    cases V with
    | here => cases hns
    | missing _ m ns hl => cases hns; exact hl
    | plain _ m ns _ hl V =>
      cases hns
      generalize hns : ([] : List (List Char)) = ns at V
      cases V with
      | here => cases hr
      | _ => cases hns
    | link _ m ns s us u _ hl hs hw V =>
      cases hns
      generalize hns : ([] : List (List Char)) = ns at V
      cases V with
      | here => cases hr
      | _ => cases hns
    | dead _ m ns s us _ hl hs hw V =>
      cases hns
      generalize hns : ([] : List (List Char)) = ns at V
      cases V with
      | here => cases hr
      | _ => cases hns
  · exact fun h => .missing d n [] h

/-! ### nodes and their values -/

/-- the node has the value, links included -/
def CarriesL (o : Obj) (v : PVal) : Prop := Carries o v ∨ ∃ s, v = .uol s ∧ o = .value (.parsed s)

theorem carries_link {e : Env} {k : NKind} {v : PVal} (h : LinkShows e k (.prop v)) : CarriesL (kindObject e k) v := by
  cases h with
  | uol s => exact .inr ⟨s, rfl, rfl⟩
  | other _ _ hu hk => exact .inl (carries_kind hk fun s hs => hu s (by rw [hs]))

theorem tree_link_places {t : ATree} {props : List (List Char × PTree)} (hp : propsOf t = some props) : treePlaces t = linkPlaces props := by
  funext d
  cases t with
  | dir ks => cases hp
  | image ps => cases hp; rfl
  | text b =>
    cases hp
    show (if d = [] then none else (belowImage (.text b) d).map fun _ => none) = _
    unfold linkPlaces
    cases d with
    | nil => rfl
    | cons n ns =>
      rw [propAt_single, if_neg (by simp)]
      simp only [belowImage]
      split <;> rfl
  | script b =>
    cases hp
    show (if d = [] then none else (belowImage (.script b) d).map fun _ => none) = _
    unfold linkPlaces
    cases d with
    | nil => rfl
    | cons n ns =>
      rw [propAt_single, if_neg (by simp)]
      simp only [belowImage]
      split <;> rfl

/-- the node of a place has the value of the place -/
theorem place_carries {e : Env} {g : NHeap} {i src : Nat} {t : ATree} {f : Forest} {node : List (List Char) → Nat} {ci : NCell}
    {props : List (List Char × PTree)} (hci : g.cell i = some ci) (hki : ci.kind = .image true src) (G : GoodImage e t f)
    (L : LinkNodes g i f node) (hp : propsOf t = some props) {d : List (List Char)} {v : PVal} (hv : placeValue props d = some v) :
    CarriesL (objOf e g (node d)) v := by
  unfold placeValue at hv
  by_cases hd : d = []
  · rw [if_pos hd] at hv
    cases hv
    subst hd
    unfold objOf
    rw [L.top, hci]
    dsimp only
    rw [hki]
    exact .inl ⟨fun _ => ⟨_, rfl, .sub⟩, fun n => rfl⟩
  · rw [if_neg hd] at hv
    have hpl := G.places d hd
    have key : (∃ x, belowImage t d = some x ∧ ∀ k, LinkShows e k x → CarriesL (kindObject e k) v) := by
      obtain ⟨n, ns, rfl⟩ : ∃ n ns, d = n :: ns := by
        cases d with
        | nil => exact absurd rfl hd
        | cons n ns => exact ⟨n, ns, rfl⟩
      cases t with
      | dir ks => cases hp
      | image ps =>
        obtain rfl : ps = props := Option.some.inj hp
        exact ⟨.prop v, by rw [show belowImage (.image ps) (n :: ns) = (propAt ps (n :: ns)).map .prop from rfl, hv]; rfl, fun k => carries_link⟩
      | text b =>
        cases hp
        rw [propAt_single] at hv
        by_cases hx : n :: ns = ["text.txt".toList]
        · rw [if_pos hx] at hv
          cases hv
          exact ⟨.prop (.raw b), by unfold belowImage; dsimp only; rw [if_pos hx], fun k => carries_link⟩
        · rw [if_neg hx] at hv
          cases hv
      | script b =>
        cases hp
        rw [propAt_single] at hv
        by_cases hx : n :: ns = ["Script".toList]
        · rw [if_pos hx] at hv
          cases hv
          refine ⟨.script b, by unfold belowImage; dsimp only; rw [if_pos hx], fun k hk => ?_⟩
          cases hk with
          | other _ _ hu hk => exact .inl (carries_script hk)
        · rw [if_neg hx] at hv
          cases hv
    obtain ⟨x, hx, hc⟩ := key
    rw [hx] at hpl
    obtain ⟨nm, k, h1, h2, h3⟩ := hpl
    obtain ⟨c, h4, h5, h6⟩ := L.cells d _ hd h1
    unfold objOf
    rw [h4]
    dsimp only
    rw [h6]
    exact hc k h3

/-! ### the export -/

theorem linkPlaces_none {ps : List (List Char × PTree)} {d : List (List Char)} : linkPlaces ps d = none ↔ propAt ps d = none := by
  unfold linkPlaces
  cases propAt ps d <;> simp

theorem export_places {e : Env} {g : NHeap} {i src : Nat} {t : ATree} {f : Forest} {node : List (List Char) → Nat} {ci : NCell}
    {props : List (List Char × PTree)} (hm : MapsOk g) (hci : g.cell i = some ci) (hki : ci.kind = .image true src) (G : GoodImage e t f)
    (L : LinkNodes g i f node) (hp : propsOf t = some props) (hpl : f.places = linkPlaces props) (D : DirectLinks (linkPlaces props))
    (hf : FiniteNumbers props) (hr : ¬ GoesRound props) :
    ∀ (N : Nat) (trail : List (List (List Char))) (ms d : List (List Char)), (forestPlaces f).length + 1 < N + trail.length → trail.Nodup →
    (∀ x ∈ trail, x ∈ [] :: forestPlaces f ∧ (∃ ks, SeenAt (linkPlaces props) [] ks (some x)) ∧
      ∃ ns, ns ≠ [] ∧ SeenAt (linkPlaces props) x ns (some d)) →
    SeenAt (linkPlaces props) [] ms (some d) →
    ∃ j B, (∀ fuel, B ≤ fuel → g.exportJson e fuel (node d) = some (.ok j)) ∧ ShowsPlace props d j
  | 0, trail, ms, d, hN, hnd, ht, hs => by
    have := nodup_within ([] :: forestPlaces f) trail hnd fun x hx => (ht x hx).1
    simp only [List.length_cons] at this
    omega
  | N + 1, trail, ms, d, hN, hnd, ht, hs => by
    have hthere : d = [] ∨ ∃ v, f.places d = some v := (nodes_fold L (hpl ▸ hs) (.inl rfl)).2 d rfl
    have hin : d ∈ [] :: forestPlaces f := by
      rcases hthere with rfl | ⟨v, hv⟩
      · exact List.mem_cons_self ..
      · obtain ⟨x, hx⟩ := places_some hv
        exact List.mem_cons_of_mem _ (showsAt_places d f x hx)
    have hnew : d ∉ trail := fun hd => by
      obtain ⟨_, ⟨ks, hk⟩, ns, hne, hns⟩ := ht d hd
      exact hr ⟨ks, ns, d, hne, hk, hns⟩
    have hval : ∃ v, placeValue props d = some v := by
      unfold placeValue
      by_cases hd : d = []
      · rw [if_pos hd]; exact ⟨_, rfl⟩
      · rw [if_neg hd]
        rcases hthere with h | ⟨v, hv⟩
        · exact absurd h hd
        · rw [hpl] at hv
          cases hx : propAt props d with
          | none => rw [linkPlaces_none.2 hx] at hv; cases hv
          | some w => exact ⟨w, rfl⟩
    obtain ⟨v, hv⟩ := hval
    have hc := place_carries hci hki G L hp hv
    have hfin : (∀ b, v = .float b → ¬ NotFinite32 b) ∧ ∀ b, v = .double b → ¬ NotFinite64 b := by
      unfold placeValue at hv
      by_cases hd : d = []
      · rw [if_pos hd] at hv
        cases hv
        exact ⟨fun b hb => (by cases hb), fun b hb => (by cases hb)⟩
      · rw [if_neg hd] at hv
        exact hf d v hv
    have hone : ∀ n, ∃ r, SeenAt (linkPlaces props) d [n] r := fun n => seen_total D [n] d
    obtain ⟨last, hlast⟩ := Classical.axiomOfChoice hone
    have hsome : ∀ n t, last n = some t → SeenAt (linkPlaces props) d [n] (some t) := fun n t h => h ▸ hlast n
    have hnone : ∀ n, last n = none ↔ propAt props (d ++ [n]) = none := fun n => by
      rw [← linkPlaces_none, ← seen_none D]
      exact ⟨fun h => h ▸ hlast n, fun h => seen_unique (hlast n) h⟩
    have hat : ∀ n, g.at (node d) n = (last n).map node := fun n => by
      have := (nodes_fold L (hpl ▸ hlast n) hthere).1
      simp only [foldPath] at this
      rw [← this]
      cases g.at (node d) n <;> rfl
    have hk := export_kids (e := e) hm (i := node d) (last := last) (P := fun _ t j => ShowsPlace props t j)
      (fun n hn => by rw [hat, hn]; rfl) (by
        intro n u hl
        obtain ⟨j, B, j1, j2⟩ := export_places hm hci hki G L hp hpl D hf hr N (d :: trail) (ms ++ [n]) u
          (by simp only [List.length_cons]; omega) (List.nodup_cons.2 ⟨hnew, hnd⟩) (by
            intro x hx
            rcases List.mem_cons.1 hx with rfl | hx
            · exact ⟨hin, ⟨ms, hs⟩, [n], by simp, hsome n u hl⟩
            · obtain ⟨a1, a2, ns, a3, a4⟩ := ht x hx
              exact ⟨a1, a2, ns ++ [n], by simp, seen_append a4 rfl (hsome n u hl)⟩)
          (seen_append hs rfl (hsome n u hl))
        exact ⟨node u, j, B, by rw [hat, hl]; rfl, j1, j2⟩)
    rcases hk with ⟨hch, hall⟩ | ⟨⟨n, u, hu⟩, m, B, F, h1, h2, h3, h4⟩
    · have hno : ∀ n, propAt props (d ++ [n]) = none := fun n => (hnone n).1 (hall n)
      rcases hc with hc | ⟨s, rfl, ho⟩
      · obtain ⟨j, j1, j2⟩ := hc.1 hfin
        exact ⟨j, 1, export_leaf hch j1, .leaf d v j hv hno j2⟩
      · exact ⟨.str s, 1, export_leaf hch (by rw [ho]; rfl), .dead d s hv hno⟩
    · have hown : ∀ n, entry (objOf e g (node d)).ownEntries n = fieldsOf v n := by
        rcases hc with hc | ⟨s, rfl, ho⟩
        · exact hc.2
        · rw [ho]; intro n; rfl
      refine ⟨.obj m, B, h1, .node d v m F hv ?_ h2 (fun n t ht => ?_) (fun n t ht => ?_) fun n hn => ?_⟩
      · cases hx : propAt props (d ++ [n]) with
        | none => rw [(hnone n).2 hx] at hu; cases hu
        | some w => exact ⟨n, w, hx⟩
      · exact (h3 n t (seen_unique (hlast n) ht)).1
      · exact (h3 n t (seen_unique (hlast n) ht)).2
      · rw [h4 n ((hnone n).2 hn), hown]
termination_by N => N

theorem steps_fold {h : NHeap} (hm : MapsOk h) : ∀ (ns : List (List Char)) {i k : Nat}, foldPath h.at i ns = some k → Steps h i ns k
  | [], i, k, H => by
    cases H; exact .here _
  | n :: ns, i, k, H => by
    simp only [foldPath] at H
    cases ha : h.at i n with
    | none => rw [ha] at H; cases H
    | some j =>
      rw [ha] at H
      exact .step i j k n ns ((at_eq hm).1 ha) (steps_fold hm ns H)

/-- an image whose links go round in a circle: its export does not end -/
theorem export_round {e : Env} {g : NHeap} {i : Nat} {f : Forest} {node : List (List Char) → Nat}
    {props : List (List Char × PTree)} (hm : MapsOk g) (L : LinkNodes g i f node) (hpl : f.places = linkPlaces props)
    (hr : GoesRound props) (fuel : Nat) (j : Json) :
    g.exportJson e fuel i ≠ some (.ok j) := by
  obtain ⟨ms, ns, d, hne, h1, h2⟩ := hr
  obtain ⟨a1, a2⟩ := nodes_fold L (hpl ▸ h1) (.inl rfl)
  have b1 := (nodes_fold L (hpl ▸ h2) (a2 d rfl)).1
  rw [L.top] at a1
  intro hj
  rw [exportJson_eq] at hj
  exact ((Props.C46_succeeds_iff_partial (objOf e g) g i).1 ⟨fuel, j, hj⟩).1 ⟨node d, ms, ns, steps_fold hm ms a1, hne, steps_fold hm ns b1⟩

/-- an image that stands is read and exported -/
theorem export_image_links {e : Env} {fuel : Nat} {content : Content} {h : NHeap} {j : Nat} {nm : List Char} {t : ATree}
    (hcon : ∀ n o s, content (Encodable.encode (Src58.image n o s)) = readImage e fuel ⟨n, o, s⟩) (hm : MapsOk h)
    (H : Stands58 e fuel h j nm t) {props : List (List Char × PTree)} (hp : propsOf t = some props) (hd : DistinctProps props)
    (hl : DirectLinks (linkPlaces props)) :
    ∃ g, h.parse content j = (.ok (), g) ∧
      (¬ GoesRound props → FiniteNumbers props → ∃ r N, (∀ fuel, N ≤ fuel → g.exportJson e fuel j = some (.ok r)) ∧ ShowsPlace props [] r) ∧
      (GoesRound props → ∀ fuel r, g.exportJson e fuel j ≠ some (.ok r)) := by
  have ht : ∀ ks, t ≠ .dir ks := by rintro ks rfl; cases hp
  have hlt : LinksIn t := by
    cases t with
    | image ps => cases hp; exact .inr ⟨hd, hl⟩
    | _ => trivial
  cases hH : H with
  | dir => cases hp
  | image _ c _ p o s _ f hc hn hk htt hr hg hp1 hp2 =>
    have hfo := goodImage_follow hg ht hlt
    obtain ⟨g, c', src, h1, _, h3, h4, _, h6⟩ := parse_image70 (hcon nm o s) hc hk hr hfo hp1 hp2
    obtain ⟨node, L⟩ := h3.nodes hfo
    have hmg : MapsOk g := by
      have := mapsOk_parse (content := content) (i := j) hm
      rw [h1] at this
      exact this
    have hpl : f.places = linkPlaces props := (goodImage_treePlaces hg ht).trans (tree_link_places hp)
    refine ⟨g, h1, fun hr hf => ?_, fun hr fuel r => export_round hmg L hpl hr fuel r⟩
    have := export_places hmg h4 h6 hg L hp hpl hl hf hr ((forestPlaces f).length + 2) [] [] [] (by simp) .nil
      (fun x hx => by cases hx) (.here [])
    rwa [L.top] at this

end Wz
