import Verif.Whole.StateLemmas

/-!
# Archives whose images hold links
-/

set_option autoImplicit false

namespace Wz

open Spec

/-! ### images -/

theorem goodImage_treePlaces {e : Env} {t : ATree} {f : Forest} (G : GoodImage e t f) (ht : ∀ ks, t ≠ .dir ks) :
    f.places = treePlaces t := by
  funext d
  by_cases hd : d = []
  · subst hd
    cases t with
    | dir ks => exact absurd rfl (ht ks)
    | _ => rfl
  · have := G.places d hd
    have key : treePlaces t d = (belowImage t d).map fun v => match v with
        | .prop (.uol s) => some s
        | _ => none := by
      cases t with
      | dir ks => exact absurd rfl (ht ks)
      | image ps =>
        show (propAt ps d).map _ = ((propAt ps d).map AVal.prop).map _
        cases propAt ps d with
        | none => rfl
        | some v => cases v <;> rfl
      | text data =>
        show (if d = [] then none else (belowImage (.text data) d).map fun _ => none) = _
        rw [if_neg hd]
        simp only [belowImage]
        split <;> rfl
      | script data =>
        show (if d = [] then none else (belowImage (.script data) d).map fun _ => none) = _
        rw [if_neg hd]
        simp only [belowImage]
        split <;> rfl
    rw [key]
    unfold Forest.places
    cases hv : belowImage t d with
    | none =>
      rw [hv] at this
      rw [show Spec.Forest.showsAt f d = none from this]
      rfl
    | some v =>
      rw [hv] at this
      obtain ⟨nm, k, h1, _, h3⟩ := this
      rw [h1]
      simp only [Option.map_some]
      cases h3 with
      | uol s => rfl
      | other _ _ hu hk =>
        cases hk with
        | dir => rfl
        | image => rfl
        | script => rfl
        | prop w o x _ _ =>
          cases x with
          | uol s => exact absurd rfl (hu s)
          | _ => rfl

/-- the links of the image can be followed -/
def LinksIn : ATree → Prop
  | .image ps => NoUol ps ∨ (DistinctProps ps ∧ DirectLinks (linkPlaces ps))
  | _ => True

theorem goodImage_follow {e : Env} {t : ATree} {f : Forest} (G : GoodImage e t f) (ht : ∀ ks, t ≠ .dir ks) (hl : LinksIn t) :
    Followable f := by
  cases t with
  | dir ks => exact absurd rfl (ht ks)
  | image ps =>
    rcases hl with hl | ⟨h1, h2⟩
    · exact .inl (G.free hl)
    · exact .inr ⟨G.distinct h1, by rw [goodImage_treePlaces G ht]; exact h2⟩
  | text d => exact .inl (G.free trivial)
  | script d => exact .inl (G.free trivial)

theorem noUol_last {kids : List (List Char × PTree)} (h : NoUol kids) : ∀ n v ks, lastNamed kids n = some (.node v ks) →
    (∀ s, v ≠ .uol s) ∧ NoUol ks := by
  induction h with
  | nil => intro n v ks hl; cases hl
  | cons name w kk rest h1 h2 _ _ ih =>
    intro n v ks hl
    rw [lastNamed_cons] at hl
    cases hr : lastNamed rest n with
    | some y => rw [hr] at hl; cases hl; exact ih n v ks hr
    | none =>
      rw [hr] at hl
      dsimp only at hl
      split at hl
      · cases hl; exact ⟨h1, h2⟩
      · cases hl

theorem noUol_propAt : ∀ (d : List (List Char)) {ps : List (List Char × PTree)}, NoUol ps → ∀ s, propAt ps d ≠ some (.uol s)
  | [], ps, _, s, h => by cases h
  | n :: d, ps, hu, s, h => by
    rw [propAt_one] at h
    cases hl : lastNamed ps n with
    | none => rw [hl] at h; cases h
    | some t =>
      obtain ⟨v, ks⟩ := t
      rw [hl] at h
      obtain ⟨h1, h2⟩ := noUol_last hu n v ks hl
      dsimp only at h
      split at h
      · cases h; exact h1 s rfl
      · exact noUol_propAt d h2 s h

theorem linkPlaces_uol {ps : List (List Char × PTree)} {d : List (List Char)} {s : List Char} (h : linkPlaces ps d = some (some s)) :
    propAt ps d = some (.uol s) := by
  unfold linkPlaces at h
  rw [Option.map_eq_some_iff] at h
  obtain ⟨v, hv, hs⟩ := h
  rw [hv]
  split at hs
  · cases hs; rfl
  · cases hs

theorem noUol_direct {ps : List (List Char × PTree)} (h : NoUol ps) : DirectLinks (linkPlaces ps) := by
  intro d n s us hl
  exact absurd (linkPlaces_uol hl) (noUol_propAt _ h s)

theorem text_places (t : ATree) (ht : (∃ data, t = .text data) ∨ ∃ data, t = .script data) (d : List (List Char)) (n s : List Char) :
    treePlaces t (d ++ [n]) ≠ some (some s) := by
  intro h
  have h' : (if d ++ [n] = [] then none else (belowImage t (d ++ [n])).map fun _ => (none : Option (List Char))) = some (some s) := by
    rcases ht with ⟨data, rfl⟩ | ⟨data, rfl⟩ <;> exact h
  rw [if_neg (by simp)] at h'
  cases hb : belowImage t (d ++ [n]) with
  | none => rw [hb] at h'; cases h'
  | some v => rw [hb] at h'; cases h'

theorem linksIn_direct {t : ATree} (ht : ∀ ks, t ≠ .dir ks) (hl : LinksIn t) : DirectLinks (treePlaces t) := by
  cases t with
  | dir ks => exact absurd rfl (ht ks)
  | image ps =>
    rcases hl with hl | ⟨_, h2⟩
    · exact noUol_direct hl
    · exact h2
  | text data => exact fun d n s us h => absurd h (text_places _ (.inl ⟨data, rfl⟩) d n s)
  | script data => exact fun d n s us h => absurd h (text_places _ (.inr ⟨data, rfl⟩) d n s)

/-- what a place in an image is seen as -/
def SeesIn (t : ATree) (nm : List Char) (w : Option (List (List Char))) (r : Option (List Char × AVal)) : Prop :=
  (w = none ∧ r = none) ∨ (w = some [] ∧ r = some (nm, .image)) ∨
    ∃ d m v, w = some (d ++ [m]) ∧ belowImage t (d ++ [m]) = some v ∧ r = some (m, v)

/-- what is seen at the end of a path that starts at a tree called `nm` -/
def SeesFrom (t : ATree) (nm : List Char) (ns : List (List Char)) (r : Option (List Char × AVal)) : Prop :=
  match t with
  | .dir ks => (ns = [] ∧ r = some (nm, .dir)) ∨ (ns ≠ [] ∧ ArcSees ks ns r)
  | t => ∃ w, SeenAt (treePlaces t) [] ns w ∧ SeesIn t nm w r

theorem one_seen {look : Places} {x : List Char} (h1 : look [x] = some none) (h2 : ∀ d, d ≠ [x] → look d = none) (ns : List (List Char)) :
    SeenAt look [] ns (if ns = [] then some [] else if ns = [x] then some [x] else none) := by
  match ns with
  | [] => exact .here []
  | [n] =>
    by_cases e : n = x
    · subst e
      rw [if_neg (by simp), if_pos rfl]
      exact .plain [] n [] _ h1 (.here [n])
    · rw [if_neg (by simp), if_neg (by simpa using e)]
      exact .missing [] n [] (h2 [n] (by simpa using e))
  | n :: m :: ns =>
    rw [if_neg (by simp), if_neg (by simp)]
    by_cases e : n = x
    · subst e
      exact .plain [] n (m :: ns) _ h1 (.missing [n] m ns (h2 [n, m] (by simp)))
    · exact .missing [] n _ (h2 [n] (by simpa using e))

theorem arcSees_from (kids : List (List Char × ATree)) (n : List Char) (ns : List (List Char)) (r : Option (List Char × AVal)) :
    ArcSees kids (n :: ns) r ↔ match lastNamed kids n with
      | none => r = none
      | some t => SeesFrom t n ns r := by
  simp only [ArcSees]
  cases hl : lastNamed kids n with
  | none => rfl
  | some t =>
    have one : ∀ (t : ATree) (x : List Char) (v : AVal), (∀ d, belowImage t d = if d = [x] then some v else none) →
        (treePlaces t = fun d => if d = [] then none else (belowImage t d).map fun _ => none) →
        ((r = if ns = [] then some (n, .image) else if ns = [x] then some (x, v) else none) ↔
          ∃ w, SeenAt (treePlaces t) [] ns w ∧ SeesIn t n w r) := by
      intro t x v hb hp
      have hs := one_seen (look := treePlaces t) (x := x) (by rw [hp]; simp [hb]) (by
        intro d hd
        rw [hp]
        dsimp only
        split
        · rfl
        · rw [hb, if_neg hd]; rfl) ns
      constructor
      · intro h
        refine ⟨_, hs, ?_⟩
        rw [h]
        by_cases e1 : ns = []
        · rw [if_pos e1, if_pos e1]
          exact .inr (.inl ⟨rfl, rfl⟩)
        · rw [if_neg e1, if_neg e1]
          by_cases e2 : ns = [x]
          · rw [if_pos e2, if_pos e2]
            exact .inr (.inr ⟨[], x, v, rfl, by rw [hb]; simp, rfl⟩)
          · rw [if_neg e2, if_neg e2]
            exact .inl ⟨rfl, rfl⟩
      · rintro ⟨w, V, S⟩
        have := seen_unique V hs
        subst this
        by_cases e1 : ns = []
        · rw [if_pos e1] at S ⊢
          rcases S with ⟨h, _⟩ | ⟨_, h⟩ | ⟨d, m, v', h, _⟩
          · cases h
          · exact h
          · simp at h
        · rw [if_neg e1] at S ⊢
          by_cases e2 : ns = [x]
          · rw [if_pos e2] at S ⊢
            rcases S with ⟨h, _⟩ | ⟨h, _⟩ | ⟨d, m, v', h, h2, h3⟩
            · cases h
            · simp at h
            · have : d = [] ∧ m = x := by
                cases d with
                | nil => simpa using h.symm
                | cons a d => simp at h
              obtain ⟨rfl, rfl⟩ := this
              rw [hb] at h2
              simp only [List.nil_append, if_true, Option.some.injEq] at h2
              rw [h3, h2]
          · rw [if_neg e2] at S ⊢
            rcases S with ⟨_, h⟩ | ⟨h, _⟩ | ⟨d, m, v', h, _⟩
            · exact h
            · cases h
            · cases h
    cases t with
    | dir ks => rfl
    | text d => exact one (.text d) _ _ (fun d => rfl) rfl
    | script d => exact one (.script d) _ _ (fun d => rfl) rfl
    | image ps =>
      show (_ ∨ _ ∨ _) ↔ ∃ w, SeenAt (linkPlaces ps) [] ns w ∧ SeesIn (.image ps) n w r
      constructor
      · rintro (⟨h1, h2⟩ | ⟨h1, h2⟩ | ⟨d, m, v, h1, h2, h3⟩)
        · exact ⟨_, h1, .inl ⟨rfl, h2⟩⟩
        · exact ⟨_, h1, .inr (.inl ⟨rfl, h2⟩)⟩
        · exact ⟨_, h1, .inr (.inr ⟨d, m, .prop v, rfl, by show (propAt ps _).map AVal.prop = _; rw [h2]; rfl, h3⟩)⟩
      · rintro ⟨w, V, ⟨h1, h2⟩ | ⟨h1, h2⟩ | ⟨d, m, v, h1, h2, h3⟩⟩
        · subst h1; exact .inl ⟨V, h2⟩
        · subst h1; exact .inr (.inl ⟨V, h2⟩)
        · subst h1
          have h4 : (propAt ps (d ++ [m])).map AVal.prop = some v := h2
          rw [Option.map_eq_some_iff] at h4
          obtain ⟨v', h5, rfl⟩ := h4
          exact .inr (.inr ⟨d, m, v', V, h5, h3⟩)

/-- what is asked of the image on the way -/
def LinksFrom : ATree → List (List Char) → Prop
  | .dir ks, ns => LinksOn ks ns
  | .image ps, ns => ns = [] ∨ NoUol ps ∨ (DistinctProps ps ∧ DirectLinks (linkPlaces ps))
  | _, _ => True

theorem linksOn_from (kids : List (List Char × ATree)) (n : List Char) (ns : List (List Char)) :
    LinksOn kids (n :: ns) ↔ match lastNamed kids n with
      | none => True
      | some t => LinksFrom t ns := by
  simp only [LinksOn]
  cases lastNamed kids n with
  | none => rfl
  | some t => cases t <;> rfl

/-- where a path is seen there is something -/
theorem seen_there {look : Places} (hpre : ∀ d x v, look (d ++ [x]) = some v → d = [] ∨ ∃ w, look d = some w)
    {d ns : List (List Char)} {r : Option (List (List Char))} (V : SeenAt look d ns r) :
    (d = [] ∨ ∃ v, look d = some v) → ∀ t, r = some t → t = [] ∨ ∃ v, look t = some v := by
  induction V with
  | here d => intro hd t ht; cases ht; exact hd
  | missing => intro _ t ht; cases ht
  | plain d n ns r hl _ ih => intro _; exact ih (.inr ⟨_, hl⟩)
  | link d n ns s us t r hl hs W _ ih => intro hd; exact ih (way_there W hpre t rfl hd)
  | dead d n ns s us r hl _ _ _ ih => intro _; exact ih (.inr ⟨_, hl⟩)

theorem propAt_prefix : ∀ (d : List (List Char)) {ps : List (List Char × PTree)} {x : List Char} {v : PVal},
    propAt ps (d ++ [x]) = some v → d = [] ∨ ∃ w, propAt ps d = some w
  | [], _, _, _, _ => .inl rfl
  | [a], ps, x, v, h => by
    rw [List.cons_append, propAt_one] at h
    rw [propAt_one]
    cases hl : lastNamed ps a with
    | none => rw [hl] at h; cases h
    | some t => obtain ⟨w, ks⟩ := t; exact .inr ⟨w, rfl⟩
  | a :: b :: d, ps, x, v, h => by
    rw [List.cons_append, propAt_one] at h
    rw [propAt_one]
    cases hl : lastNamed ps a with
    | none => rw [hl] at h; cases h
    | some t =>
      obtain ⟨w, ks⟩ := t
      rw [hl] at h
      dsimp only at h ⊢
      rw [if_neg (by simp)] at h ⊢
      exact (propAt_prefix (b :: d) h).elim (fun h => by simp at h) .inr

theorem linkPlaces_prefix {ps : List (List Char × PTree)} : ∀ d x v, linkPlaces ps (d ++ [x]) = some v →
    d = [] ∨ ∃ w, linkPlaces ps d = some w := by
  intro d x v h
  unfold linkPlaces at h ⊢
  rw [Option.map_eq_some_iff] at h
  obtain ⟨w, hw, _⟩ := h
  rcases propAt_prefix d hw with rfl | ⟨w', hw'⟩
  · exact .inl rfl
  · exact .inr ⟨_, by rw [hw']; rfl⟩

/-- something is seen, or it is seen that there is nothing -/
theorem arcSees_total : ∀ (ns : List (List Char)) (arch : List (List Char × ATree)), ns ≠ [] → LinksOn arch ns → ∃ r, ArcSees arch ns r
  | [], _, h, _ => absurd rfl h
  | n :: ns, arch, _, h => by
    simp only [LinksOn] at h
    simp only [ArcSees]
    cases hl : lastNamed arch n with
    | none => exact ⟨_, rfl⟩
    | some t =>
      rw [hl] at h
      cases t with
      | text d => exact ⟨_, rfl⟩
      | script d => exact ⟨_, rfl⟩
      | dir ks =>
        by_cases e : ns = []
        · exact ⟨_, .inl ⟨e, rfl⟩⟩
        · obtain ⟨r, hr⟩ := arcSees_total ns ks e h
          exact ⟨r, .inr ⟨e, hr⟩⟩
      | image ps =>
        have hs : ∃ w, SeenAt (linkPlaces ps) [] ns w := by
          rcases h with h | h | ⟨_, h⟩
          · subst h; exact ⟨_, .here []⟩
          · exact seen_total (noUol_direct h) ns []
          · exact seen_total h ns []
        obtain ⟨w, V⟩ := hs
        cases w with
        | none => exact ⟨_, .inl ⟨V, rfl⟩⟩
        | some t =>
          rcases seen_there linkPlaces_prefix V (.inl rfl) t rfl with rfl | ⟨v, hv⟩
          · exact ⟨_, .inr (.inl ⟨V, rfl⟩)⟩
          · by_cases ht : t = []
            · subst ht; exact ⟨_, .inr (.inl ⟨V, rfl⟩)⟩
            · have e := List.dropLast_concat_getLast ht
              unfold linkPlaces at hv
              rw [Option.map_eq_some_iff] at hv
              obtain ⟨x, hx, _⟩ := hv
              rw [← e] at V hx
              exact ⟨_, .inr (.inr ⟨_, _, x, V, hx, rfl⟩)⟩

theorem arcSees_unique : ∀ (ns : List (List Char)) (arch : List (List Char × ATree)) (r r' : Option (List Char × AVal)),
    ArcSees arch ns r → ArcSees arch ns r' → r = r'
  | [], _, _, _, h, _ => h.elim
  | n :: ns, arch, r, r', h, h' => by
    rw [arcSees_from] at h h'
    cases hl : lastNamed arch n with
    | none => rw [hl] at h h'; exact h.trans h'.symm
    | some t =>
      rw [hl] at h h'
      have img : (∃ w, SeenAt (treePlaces t) [] ns w ∧ SeesIn t n w r) → (∃ w, SeenAt (treePlaces t) [] ns w ∧ SeesIn t n w r') → r = r' := by
        rintro ⟨w, V, S⟩ ⟨w', V', S'⟩
        have := seen_unique V V'
        subst this
        rcases S with ⟨rfl, rfl⟩ | ⟨rfl, rfl⟩ | ⟨d, m, v, rfl, hv, rfl⟩
        · rcases S' with ⟨_, h⟩ | ⟨h, _⟩ | ⟨_, _, _, h, _⟩
          · exact h.symm
          · cases h
          · cases h
        · rcases S' with ⟨h, _⟩ | ⟨_, h⟩ | ⟨_, _, _, h, _⟩
          · cases h
          · exact h.symm
          · simp at h
        · rcases S' with ⟨h, _⟩ | ⟨h, _⟩ | ⟨d', m', v', h, hv', rfl⟩
          · cases h
          · simp at h
          · have e := Option.some.inj h
            obtain ⟨_, e2⟩ := List.append_inj' e rfl
            cases e2
            rw [e, hv'] at hv
            cases hv
            rfl
      cases t with
      | dir ks =>
        rcases h with ⟨h1, h2⟩ | ⟨h1, h2⟩ <;> rcases h' with ⟨h3, h4⟩ | ⟨h3, h4⟩
        · exact h2.trans h4.symm
        · exact absurd h1 h3
        · exact absurd h3 h1
        · exact arcSees_unique ns ks r r' h2 h4
      | image ps => exact img h h'
      | text d => exact img h h'
      | script d => exact img h h'

/-! ### the heap -/

/-- everything still stands for what it stood for; files are as before -/
def Keeps70 (e : Env) (fuel : Nat) (h g : NHeap) : Prop :=
  (∀ j nm t, Stands58 e fuel h j nm t → Stands58 e fuel g j nm t) ∧
  (∀ i c p s, h.cell i = some c → c.kind = .file p s → g.cell i = some c)

theorem Keeps58.keeps70 {e : Env} {fuel : Nat} {h g : NHeap} (K : Keeps58 e fuel h g) : Keeps70 e fuel h g := ⟨K.1, K.2.1⟩

theorem Keeps70.refl {e : Env} {fuel : Nat} {h : NHeap} : Keeps70 e fuel h h := ⟨fun _ _ _ H => H, fun _ _ _ _ hc _ => hc⟩

theorem Keeps70.trans {e : Env} {fuel : Nat} {h g k : NHeap} (a : Keeps70 e fuel h g) (b : Keeps70 e fuel g k) : Keeps70 e fuel h k :=
  ⟨fun j nm t H => b.1 j nm t (a.1 j nm t H), fun i c p s hc hk => b.2 i c p s (a.2 i c p s hc hk) hk⟩

theorem Step58.keeps70 {e : Env} {fuel : Nat} {h g : NHeap} {k : Nat} (S : Step58 e fuel h g k) : Keeps70 e fuel h g := by
  refine ⟨fun j nm t H => S.stands H, fun i c p s hc hk => ?_⟩
  obtain ⟨so, c0, c1, s1, s2, s3, s4⟩ := S
  rw [so i (cell_lt hc) ?_, hc]
  rintro rfl
  rw [hc] at s1
  cases s1
  rcases s4 with ⟨_, _, hd, _⟩ | ⟨_, _, _, hd, _⟩ <;> rw [hk] at hd <;> cases hd

theorem Keeps70.file {e : Env} {fuel : Nat} {h g : NHeap} {i : Nat} {arch : List (List Char × ATree)} (K : Keeps70 e fuel h g)
    (F : FileStands e fuel h i arch) : FileStands e fuel g i arch := by
  obtain ⟨⟨c, p, s, hc, hk⟩, H⟩ := F
  have hg := K.2 i c p s hc hk
  refine ⟨⟨c, p, s, hg, hk⟩, fun n => ?_⟩
  have := H n
  cases hl : lastNamed arch n with
  | none =>
    rw [hl] at this
    dsimp only at this ⊢
    rw [at_cell (hg.trans hc.symm)]
    exact this
  | some t =>
    rw [hl] at this
    obtain ⟨k, h1, h2⟩ := this
    exact ⟨k, by rw [at_cell (hg.trans hc.symm)]; exact h1, K.1 _ _ _ h2⟩

/-- reading an image whose links can be followed -/
theorem parse_image70 {e : Env} {fuel : Nat} {content : Content} {h : NHeap} {j : Nat} {c : NCell} {nm : List Char} {p : Bool} {o s : Nat}
    {f : Forest} (hcon : content (Encodable.encode (Src58.image nm o s)) = readImage e fuel ⟨nm, o, s⟩) (hc : h.cell j = some c)
    (hk : c.kind = .image p (Encodable.encode (Src58.image nm o s))) (hr : readImage e fuel ⟨nm, o, s⟩ = .ok f)
    (hl : Followable f) (h1 : p = true → ImgAt h j f) (h2 : p = false → c.kids = []) :
    ∃ g c' src, h.parse content j = (.ok (), g) ∧ Keeps70 e fuel h g ∧ ImgAt g j f ∧ g.cell j = some c' ∧ c'.name = c.name ∧
      c'.kind = .image true src := by
  cases p with
  | true =>
    refine ⟨h, c, _, ?_, .refl, h1 rfl, hc, rfl, hk⟩
    rw [parse_eq hc, hk]
    rfl
  | false =>
    have hrd : ReadsFrom c.kind (Encodable.encode (Src58.image nm o s)) := by rw [hk]; exact .image _
    have hco := hcon.trans hr
    obtain ⟨g, hg, I, c', hc', hn', hk'⟩ := parse_reads_img hc hrd hco (h2 rfl) hl
    have hk2 : c'.kind = .image true (Encodable.encode (Src58.image nm o s)) := by rw [hk', hk]; rfl
    refine ⟨g, c', _, hg, ?_, I, hc', hn', hk2⟩
    have hg2 : g = (h.parse content j).2 := by rw [hg]
    refine Step58.keeps70 (k := j) ⟨fun x hx hne => by rw [hg2]; exact parse_frame hx hne, ⟨c, c', hc, hc', hn',
      .inr ⟨false, true, _, hk, hk2, fun h => (by cases h), fun _ n' o' s' f' he hr' => ?_⟩⟩⟩
    have := Encodable.encode_injective he
    cases this
    rw [hr] at hr'
    cases hr'
    exact I

/-- the node of the place that is seen -/
def seenNode (node : List (List Char) → Nat) : Option (List (List Char)) → Except Err Nat
  | some t => .ok (node t)
  | none => .error (.lib "NodeNotFound")

/-- in an image that was read nothing more is read -/
theorem fold_nodes {content : Content} {held : Nat} {h : NHeap} {i src : Nat} {f : Forest} {node : List (List Char) → Nat} {ci : NCell}
    (hh : ∃ c, h.cell held = some c ∧ ¬ InImage c.kind) (hi : held ≠ i) (hci : h.cell i = some ci) (hki : ci.kind = .image true src)
    (A : Spec.Forest.All InImage f) (L : LinkNodes h i f node) {d ns : List (List Char)} {r : Option (List (List Char))}
    (V : SeenAt f.places d ns r) : (d = [] ∨ ∃ v, f.places d = some v) →
    NHeap.foldParsed content held h (node d) ns = (seenNode node r, h) := by
  have step : ∀ (d : List (List Char)) (n : List Char) (ns : List (List Char)), (d = [] ∨ ∃ v, f.places d = some v) →
      NHeap.foldParsed content held h (node d) (n :: ns) = match h.at (node d) n with
        | none => (.error (.lib "NodeNotFound"), h)
        | some q => NHeap.foldParsed content held h q ns := by
    intro d n ns hd
    have : node d ≠ held ∧ h.parse content (node d) = (.ok (), h) := by
      by_cases hne : d = []
      · subst hne
        rw [L.top]
        refine ⟨fun e => hi e.symm, ?_⟩
        rw [parse_eq hci, hki]
        rfl
      · rcases hd with hd | ⟨v, hv⟩
        · exact absurd hd hne
        · obtain ⟨x, hx⟩ := places_some hv
          obtain ⟨c, h1, _, h3⟩ := L.cells d x hne hx
          have hI : InImage c.kind := by rw [h3]; exact all_showsAt70 d f x A hx
          refine ⟨?_, ?_⟩
          · intro e
            obtain ⟨c', h4, h5⟩ := hh
            rw [← e, h1] at h4
            cases h4
            exact h5 hI
          · rw [parse_eq h1, quiet_plan (quiet_inImage hI)]
    rw [foldParsed_cons, if_neg this.1, this.2]
    dsimp only
    cases h.at (node d) n <;> rfl
  induction V with
  | here d => intro _; rfl
  | missing d n ns hl =>
    intro hd
    rw [step d n ns hd, L.nothing d n hd hl]
    rfl
  | plain d n ns r hl _ ih =>
    intro hd
    rw [step d n ns hd, L.value d n hd hl]
    exact ih (.inr ⟨_, hl⟩)
  | link d n ns s us t r hl hs W _ ih =>
    intro hd
    rw [step d n ns hd, L.link d n s us t hd hl hs W]
    exact ih (way_there W places_prefix t rfl hd)
  | dead d n ns s us r hl hs W _ ih =>
    intro hd
    rw [step d n ns hd, L.dead d n s us hd hl hs W]
    exact ih (.inr ⟨_, hl⟩)

/-! an image on its own -/

theorem alone_step {content : Content} {h : NHeap} {i src : Nat} {f : Forest} {node : List (List Char) → Nat} {ci : NCell}
    (hci : h.cell i = some ci) (hki : ci.kind = .image true src) (A : Spec.Forest.All InImage f) (L : LinkNodes h i f node)
    (d : List (List Char)) (n : List Char) (ns : List (List Char)) (hd : d ≠ [] ∧ ∃ v, f.places d = some v) :
    NHeap.foldParsed content i h (node d) (n :: ns) = match h.at (node d) n with
      | none => (.error (.lib "NodeNotFound"), h)
      | some q => NHeap.foldParsed content i h q ns := by
  have : node d ≠ i ∧ h.parse content (node d) = (.ok (), h) := by
    obtain ⟨hne, v, hv⟩ := hd
    obtain ⟨x, hx⟩ := places_some hv
    obtain ⟨c, h1, _, h3⟩ := L.cells d x hne hx
    have hI : InImage c.kind := by rw [h3]; exact all_showsAt70 d f x A hx
    refine ⟨?_, ?_⟩
    · intro e
      rw [e, hci] at h1
      cases h1
      rw [hki] at hI
      rcases hI with ⟨_, h⟩ | ⟨_, h⟩ <;> cases h
    · rw [parse_eq h1, quiet_plan (quiet_inImage hI)]
  rw [foldParsed_cons, if_neg this.1, this.2]
  dsimp only
  cases h.at (node d) n <;> rfl

theorem alone_fold {content : Content} {h : NHeap} {i src : Nat} {f : Forest} {node : List (List Char) → Nat} {ci : NCell}
    (hci : h.cell i = some ci) (hki : ci.kind = .image true src) (A : Spec.Forest.All InImage f) (L : LinkNodes h i f node)
    (hb : ∀ d n s us, f.places (d ++ [n]) = some (some s) → Pieces s us → ¬ LinkWay f.places d us (some []))
    {d ns : List (List Char)} {r : Option (List (List Char))} (V : SeenAt f.places d ns r) : (d ≠ [] ∧ ∃ v, f.places d = some v) →
    NHeap.foldParsed content i h (node d) ns = (seenNode node r, h) := by
  induction V with
  | here d => intro _; rfl
  | missing d n ns hl =>
    intro hd
    rw [alone_step hci hki A L d n ns hd, L.nothing d n (.inr hd.2) hl]
    rfl
  | plain d n ns r hl _ ih =>
    intro hd
    rw [alone_step hci hki A L d n ns hd, L.value d n (.inr hd.2) hl]
    exact ih ⟨by simp, _, hl⟩
  | link d n ns s us t r hl hs W _ ih =>
    intro hd
    rw [alone_step hci hki A L d n ns hd, L.link d n s us t (.inr hd.2) hl hs W]
    have ht : t ≠ [] := by
      rintro rfl
      exact hb d n s us hl hs W
    exact ih ⟨ht, (way_there W places_prefix t rfl (.inr hd.2)).resolve_left ht⟩
  | dead d n ns s us r hl hs W _ ih =>
    intro hd
    rw [alone_step hci hki A L d n ns hd, L.dead d n s us (.inr hd.2) hl hs W]
    exact ih ⟨by simp, _, hl⟩

theorem alone_hangs {content : Content} {h : NHeap} {i src : Nat} {f : Forest} {node : List (List Char) → Nat} {ci : NCell}
    (hci : h.cell i = some ci) (hki : ci.kind = .image true src) (A : Spec.Forest.All InImage f) (L : LinkNodes h i f node) (x : List Char)
    {d ns : List (List Char)} {r : Option (List (List Char))} (V : SeenAt f.places d ns r) : (d = [] ∨ ∃ v, f.places d = some v) →
    r = some [] → NHeap.foldParsed content i h (node d) (ns ++ [x]) = (.error (.lib "deadlock"), h) := by
  have first : ∀ (n : List Char) (ns : List (List Char)), NHeap.foldParsed content i h (node []) (n :: ns) = (.error (.lib "deadlock"), h) := by
    intro n ns
    rw [foldParsed_cons, if_pos L.top]
  induction V with
  | here d => intro _ hr; cases hr; exact first x []
  | missing d n ns hl => intro _ hr; cases hr
  | plain d n ns r hl _ ih =>
    intro hd hr
    by_cases e : d = []
    · subst e; exact first n _
    · rw [List.cons_append, alone_step hci hki A L d n _ ⟨e, hd.resolve_left e⟩, L.value d n hd hl]
      exact ih (.inr ⟨_, hl⟩) hr
  | link d n ns s us t r hl hs W _ ih =>
    intro hd hr
    by_cases e : d = []
    · subst e; exact first n _
    · rw [List.cons_append, alone_step hci hki A L d n _ ⟨e, hd.resolve_left e⟩, L.link d n s us t hd hl hs W]
      exact ih (way_there W places_prefix t rfl hd) hr
  | dead d n ns s us r hl hs W _ ih =>
    intro hd hr
    by_cases e : d = []
    · subst e; exact first n _
    · rw [List.cons_append, alone_step hci hki A L d n _ ⟨e, hd.resolve_left e⟩, L.dead d n s us hd hl hs W]
      exact ih (.inr ⟨_, hl⟩) hr

/-- the result of a look-up -/
def Found70 (e : Env) (g : NHeap) (r : Option (List Char × AVal)) (x : Except Err Nat) : Prop :=
  match r with
  | some (nm, v) => ∃ j c, x = .ok j ∧ g.cell j = some c ∧ c.name = nm ∧ LinkShows e c.kind v
  | none => x = .error (.lib "NodeNotFound")

/-- the node of a place shows what is seen there -/
theorem nodes_found {e : Env} {h : NHeap} {i src : Nat} {t : ATree} {f : Forest} {node : List (List Char) → Nat} {ci : NCell}
    (hci : h.cell i = some ci) (hki : ci.kind = .image true src) (G : GoodImage e t f) (L : LinkNodes h i f node)
    {w : Option (List (List Char))} {r : Option (List Char × AVal)} (S : SeesIn t ci.name w r) :
    Found70 e h r (seenNode node w) := by
  rcases S with ⟨rfl, rfl⟩ | ⟨rfl, rfl⟩ | ⟨d, m, v, rfl, hv, rfl⟩
  · rfl
  · exact ⟨node [], ci, rfl, by rw [L.top]; exact hci, rfl, .other _ _ (fun s h => by cases h) (by rw [hki]; exact .image _ _)⟩
  · have hp := G.places (d ++ [m]) (by simp)
    rw [hv] at hp
    obtain ⟨nm, k, h1, h2, h3⟩ := hp
    obtain ⟨c, h4, h5, h6⟩ := L.cells (d ++ [m]) _ (by simp) h1
    refine ⟨_, c, rfl, h4, ?_, by rw [h6]; exact h3⟩
    rw [h5]
    simpa using h2.symm

theorem fold_stands70 {e : Env} {fuel : Nat} {content : Content} {held : Nat}
    (hcon : ∀ n o s, content (Encodable.encode (Src58.image n o s)) = readImage e fuel ⟨n, o, s⟩) :
    ∀ (ns : List (List Char)) (h : NHeap) (k : Nat) (nm : List Char) (t : ATree) (r : Option (List Char × AVal)),
    (∃ c p s, h.cell held = some c ∧ c.kind = .file p s) → Stands58 e fuel h k nm t → LinksFrom t ns → SeesFrom t nm ns r →
    Keeps70 e fuel h (NHeap.foldParsed content held h k ns).2 ∧
      Found70 e (NHeap.foldParsed content held h k ns).2 r (NHeap.foldParsed content held h k ns).1
  | [], h, k, nm, t, r, _, H, _, V => by
    refine ⟨.refl, ?_⟩
    cases H with
    | image _ c _ p o s _ f hc hn hk ht =>
      have hr : r = some (nm, .image) := by
        have : ∃ w, SeenAt (treePlaces t) [] [] w ∧ SeesIn t nm w r := by
          cases t with
          | dir ks => exact nomatch ht.stored
          | _ => exact V
        obtain ⟨w, hw, hs⟩ := this
        cases hw
        rcases hs with ⟨h, _⟩ | ⟨_, h⟩ | ⟨d, m, v, h, _⟩
        · cases h
        · exact h
        · simp at h
      subst hr
      exact ⟨k, c, rfl, hc, hn, .other _ _ (fun s h => by cases h) (by rw [hk]; exact .image _ _)⟩
    | dir _ c _ p src kids ids hc hn hk =>
      rcases V with ⟨_, rfl⟩ | ⟨h, _⟩
      · exact ⟨k, c, rfl, hc, hn, .other _ _ (fun s h => by cases h) (by rw [hk]; exact .dir _ _ _)⟩
      · exact absurd rfl h
  | n :: ns, h, k, nm, t, r, hh, H, hu, V => by
    obtain ⟨ch, ph, sh, hch, hkh⟩ := hh
    cases H with
    | image _ c _ p o s _ f hc hn hk ht hr hg hp1 hp2 =>
      have hne : k ≠ held := by
        rintro rfl
        rw [hc] at hch
        cases hch
        rw [hk] at hkh
        cases hkh
      have hnd : ∀ ks, t ≠ .dir ks := by
        rintro ks rfl
        exact nomatch ht.stored
      have hu' : LinksIn t := by
        cases t with
        | dir ks => exact nomatch ht.stored
        | image ps => exact hu.resolve_left (by simp)
        | _ => trivial
      have hV : ∃ w, SeenAt (treePlaces t) [] (n :: ns) w ∧ SeesIn t nm w r := by
        cases t with
        | dir ks => exact nomatch ht.stored
        | _ => exact V
      obtain ⟨w, V1, V2⟩ := hV
      have hfol := goodImage_follow hg hnd hu'
      obtain ⟨g, c', src, h1, h2, h3, h4, h5, h6⟩ := parse_image70 (hcon nm o s) hc hk hr hfol hp1 hp2
      obtain ⟨node, L⟩ := h3.nodes hfol
      have hheld := h2.2 held ch ph sh hch hkh
      have hsame : NHeap.foldParsed content held h k (n :: ns) = NHeap.foldParsed content held g k (n :: ns) := by
        rw [foldParsed_cons, foldParsed_cons, if_neg hne, if_neg hne, h1]
        have : g.parse content k = (.ok (), g) := by
          rw [parse_eq h4, h6]
          rfl
        rw [this]
      rw [← goodImage_treePlaces hg hnd] at V1
      have hfold := fold_nodes (content := content) ⟨ch, hheld, by
        rw [hkh]; rintro (⟨_, h⟩ | ⟨_, h⟩) <;> cases h⟩ (fun e => hne e.symm) h4 h6 hg.values L V1 (.inl rfl)
      rw [L.top] at hfold
      rw [hsame, hfold]
      have hnm : c'.name = nm := h5.trans hn
      exact ⟨h2, nodes_found h4 h6 hg L (by rw [hnm]; exact V2)⟩
    | dir _ c _ p src kids ids hc hn hk h1 h2 h3 =>
      have hne : k ≠ held := by
        rintro rfl
        rw [hc] at hch
        cases hch
        rw [hk] at hkh
        cases hkh
      obtain ⟨g, g1, g2, g3⟩ := parse_dir58 (e := e) (fuel := fuel) (content := content) hc hk
      have hstep : NHeap.foldParsed content held h k (n :: ns) = match h.at k n with
          | none => (.error (.lib "NodeNotFound"), g)
          | some q => NHeap.foldParsed content held g q ns := by
        rw [foldParsed_cons, if_neg hne, g1]
        dsimp only
        rw [g3]
        cases h.at k n <;> rfl
      have hf : LinksOn kids (n :: ns) := hu
      have hV : ArcSees kids (n :: ns) r := by
        rcases V with ⟨h, _⟩ | ⟨_, h⟩
        · cases h
        · exact h
      rw [linksOn_from] at hf
      rw [arcSees_from] at hV
      rw [hstep]
      cases hl : lastNamed kids n with
      | none =>
        rw [hl] at hV
        rw [h1 n hl]
        subst hV
        exact ⟨g2.keeps70, rfl⟩
      | some u =>
        rw [hl] at hf hV
        rw [h2 n u hl]
        obtain ⟨r1, r2⟩ := fold_stands70 hcon ns g (ids n) n u r ⟨ch, ph, sh, g2.2.1 held ch ph sh hch hkh, hkh⟩ (g2.1 _ _ _ (h3 n u hl)) hf hV
        exact ⟨g2.keeps70.trans r1, r2⟩

/-- **a look-up in an open archive** -/
theorem find_stands70 {e : Env} {fuel : Nat} {content : Content} {h : NHeap} {i : Nat} {arch : List (List Char × ATree)}
    (hcon : ∀ n o s, content (Encodable.encode (Src58.image n o s)) = readImage e fuel ⟨n, o, s⟩) (F : FileStands e fuel h i arch)
    {path : List Char} {ns : List (List Char)} {r : Option (List Char × AVal)} (hp : Pieces path ns) (hu : LinksOn arch ns)
    (V : ArcSees arch ns r) :
    Keeps70 e fuel h (h.atPathParsed content i path).2 ∧
      Found70 e (h.atPathParsed content i path).2 r (h.atPathParsed content i path).1 := by
  have hs := pieces_iff.1 hp
  unfold NHeap.atPathParsed
  rw [hs]
  cases ns with
  | nil => exact absurd rfl hp.some
  | cons n ns =>
    dsimp only
    have := F.2 n
    rw [linksOn_from] at hu
    rw [arcSees_from] at V
    cases hl : lastNamed arch n with
    | none =>
      rw [hl] at this V
      dsimp only at this
      rw [this]
      subst V
      exact ⟨.refl, rfl⟩
    | some t =>
      rw [hl] at this hu V
      obtain ⟨k, h1, h2⟩ := this
      rw [h1]
      exact fold_stands70 hcon ns h k n t r F.1 h2 hu V

theorem linksOn_prefix (x : List Char) : ∀ (ns : List (List Char)) (arch : List (List Char × ATree)), LinksOn arch (ns ++ [x]) → LinksOn arch ns
  | [], _, _ => trivial
  | n :: ns, arch, h => by
    rw [List.cons_append, linksOn_from] at h
    rw [linksOn_from]
    cases hl : lastNamed arch n with
    | none => trivial
    | some t =>
      rw [hl] at h
      cases t with
      | dir ks => exact linksOn_prefix x ns ks h
      | image ps => exact .inr (h.resolve_left (by simp))
      | text d => trivial
      | script d => trivial

theorem keeps_load70 {e : Env} {fuel : Nat} {content : Content} {h g : NHeap} {i j : Nat} {arch : List (List Char × ATree)}
    (hcon : ∀ n o s, content (Encodable.encode (Src58.image n o s)) = readImage e fuel ⟨n, o, s⟩) (F : FileStands e fuel h i arch)
    {path : List Char} {ns : List (List Char)} (hp : Pieces path ns) (hu : LinksOn arch (ns ++ [[]]))
    (hf : h.atPathParsed content i path = (.ok j, g)) (hj : j ≠ i) : Keeps70 e fuel h (g.parse content j).2 := by
  obtain ⟨r, V⟩ := arcSees_total (ns ++ [[]]) arch (by simp) hu
  have hs := pieces_iff.1 hp
  unfold NHeap.atPathParsed at hf
  rw [hs] at hf
  cases ns with
  | nil => exact absurd rfl hp.some
  | cons n ns =>
    dsimp only at hf
    have := F.2 n
    rw [List.cons_append] at V hu
    rw [linksOn_from] at hu
    rw [arcSees_from] at V
    cases hl : lastNamed arch n with
    | none =>
      rw [hl] at this
      dsimp only at this
      rw [this] at hf
      cases hf
    | some t =>
      rw [hl] at this hu V
      obtain ⟨k, h1, h2⟩ := this
      rw [h1] at hf
      dsimp only at hf
      have hk := (fold_stands70 hcon (ns ++ [[]]) h k n t r F.1 h2 hu V).1
      rw [foldParsed_append, hf] at hk
      dsimp only at hk
      rw [foldParsed_cons, if_neg hj] at hk
      cases hq : g.parse content j with
      | mk r g' =>
        rw [hq] at hk
        cases r with
        | error e => exact hk
        | ok u =>
          dsimp only at hk ⊢
          cases ha : g'.at j [] with
          | none => rw [ha] at hk; exact hk
          | some q => rw [ha] at hk; exact hk

/-- **any history** -/
theorem run_keeps70 {e : Env} {fuel : Nat} {content : Content} {i : Nat} {arch : List (List Char × ATree)}
    (hcon : ∀ n o s, content (Encodable.encode (Src58.image n o s)) = readImage e fuel ⟨n, o, s⟩) :
    ∀ (ops : List ArcOp) (h : NHeap), FileStands e fuel h i arch → (∀ op ∈ ops, AllowedLinks arch op) →
    Keeps70 e fuel h (runArc content i h ops)
  | [], h, F, _ => .refl
  | .find p :: ops, h, F, ha => by
    obtain ⟨ns, h1, h2⟩ := ha _ (List.mem_cons_self ..)
    obtain ⟨r, V⟩ := arcSees_total ns arch h1.some h2
    have K := (find_stands70 hcon F h1 h2 V).1
    exact K.trans (run_keeps70 hcon ops _ (K.file F) fun op ho => ha op (List.mem_cons_of_mem _ ho))
  | .load p :: ops, h, F, ha => by
    obtain ⟨ns, h1, h2⟩ := ha _ (List.mem_cons_self ..)
    have h2' := linksOn_prefix _ _ _ h2
    obtain ⟨v, V⟩ := arcSees_total ns arch h1.some h2'
    have hr := find_stands70 hcon F h1 h2' V
    simp only [runArc]
    cases hq : h.atPathParsed content i p with
    | mk r g =>
      rw [hq] at hr
      cases r with
      | error er => exact hr.1.trans (run_keeps70 hcon ops _ (hr.1.file F) fun op ho => ha op (List.mem_cons_of_mem _ ho))
      | ok j =>
        have hj : j ≠ i := by
          rintro rfl
          obtain ⟨c, p, s, hc, hk⟩ := (hr.1.file F).1
          have hf := hr.2
          cases v with
          | none => cases hf
          | some v =>
            obtain ⟨j', c', e1, e2, _, e3⟩ := hf
            cases e1
            dsimp only at hc e2
            rw [hc] at e2
            cases e2
            rw [hk] at e3
            cases e3 with
            | other _ _ _ e3 => cases e3
        have K := keeps_load70 hcon F h1 h2 hq hj
        exact K.trans (run_keeps70 hcon ops _ (K.file F) fun op ho => ha op (List.mem_cons_of_mem _ ho))
  | .close p :: ops, h, F, ha => by
    obtain ⟨ns, h1, h2, h3⟩ := ha _ (List.mem_cons_self ..)
    obtain ⟨v, V⟩ := arcSees_total ns arch h1.some h2
    have hr := find_stands70 hcon F h1 h2 V
    simp only [runArc]
    cases hq : h.atPathParsed content i p with
    | mk r g =>
      rw [hq] at hr
      cases r with
      | error er => exact hr.1.trans (run_keeps70 hcon ops _ (hr.1.file F) fun op ho => ha op (List.mem_cons_of_mem _ ho))
      | ok j =>
        have K : Keeps70 e fuel g (g.unparse j) := by
          have hf := hr.2
          cases v with
          | none => cases hf
          | some v =>
            obtain ⟨nm, v⟩ := v
            obtain ⟨j', c', e1, e2, _, e3⟩ := hf
            cases e1
            dsimp only at e2
            have hno : InImage c'.kind → Keeps70 e fuel g (g.unparse j) := by
              intro hk
              have : g.unparse j = g := by
                unfold NHeap.unparse
                rw [e2]
                dsimp only
                rcases hk with ⟨v, hk⟩ | ⟨v, hk⟩ <;> rw [hk] <;> rfl
              rw [this]
              exact .refl
            generalize hk : c'.kind = kk at e3
            cases e3 with
            | uol s => exact hno (.inr ⟨_, hk⟩)
            | other _ _ _ e3 =>
              cases e3 with
              | dir => exact absurd V (h3 _)
              | image p src => exact (unparse_image58 e2 hk).keeps70
              | prop v => exact hno (.inl ⟨v, hk⟩)
              | script v => exact hno (.inl ⟨v, hk⟩)
        have K2 := hr.1.trans K
        exact K2.trans (run_keeps70 hcon ops _ (K2.file F) fun op ho => ha op (List.mem_cons_of_mem _ ho))

end Wz
