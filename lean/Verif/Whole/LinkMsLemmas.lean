import Verif.Whole.LinkMsSpec
import Verif.Whole.LinkLemmas
import Verif.Whole.MsLemmas

/-!
# MS archives whose images hold links
-/

set_option autoImplicit false

namespace Wz

open Spec

variable {A : Prop}

theorem linksWork_in {t : ATree} (h : LinksWork t) : LinksIn t := by
  cases t with
  | image ps => exact h ps rfl
  | _ => trivial

/-- the images still stand for what they stood for; the roots are as before -/
def KeepsMs70 (content : Content) (h g : NHeap) : Prop :=
  (∀ e j nm t, MsNode content e h j nm t → MsNode content e g j nm t) ∧
  (∀ i c p s, h.cell i = some c → c.kind = .msFile p s → g.cell i = some c)

theorem KeepsMs70.refl {content : Content} {h : NHeap} : KeepsMs70 content h h := ⟨fun _ _ _ _ H => H, fun _ _ _ _ hc _ => hc⟩

theorem KeepsMs.keeps70 {content : Content} {h g : NHeap} (K : KeepsMs content h g) : KeepsMs70 content h g := ⟨K.1, K.2.1⟩

theorem MsStep.keeps70 {content : Content} {h g : NHeap} {k : Nat} (S : MsStep content h g k) : KeepsMs70 content h g := by
  refine ⟨fun e j nm t H => S.node H, fun i c p s hc hk => ?_⟩
  rw [S.others i (cell_lt hc) ?_, hc]
  rintro rfl
  exact (msStep_image S hc).2 p s hk

theorem KeepsMs70.stands {content : Content} {reader : List Char → Env} {h g : NHeap} {i : Nat} {arch : List (List Char × ATree)}
    (K : KeepsMs70 content h g) (F : MsStands False A content reader h i arch) : MsStands False A content reader g i arch := by
  obtain ⟨⟨c, p, s, hc, hk⟩, H1, H2, H3, H4⟩ := F
  have hg := K.2 i c p s hc hk
  have hat : ∀ n, g.at i n = h.at i n := by
    intro n
    unfold NHeap.at
    rw [hg, hc]
  refine ⟨⟨c, p, s, hg, hk⟩, fun n hn => by rw [hat]; exact H1 n hn, fun n t hn => ?_, fun hP => hP.elim, fun hA => by rw [hg, ← hc]; exact H4 hA⟩
  obtain ⟨k, h1, h2⟩ := H2 n t hn
  exact ⟨k, by rw [hat]; exact h1, K.1 _ _ _ _ h2⟩

theorem MsStands.weaken {P : Prop} {content : Content} {reader : List Char → Env} {h : NHeap} {i : Nat} {arch : List (List Char × ATree)}
    (F : MsStands P A content reader h i arch) : MsStands False A content reader h i arch :=
  ⟨F.root, F.missing, F.there, fun h => h.elim, F.lone⟩

/-- reading an image whose links can be followed -/
theorem parse_ms70 {content : Content} {e : Env} {h : NHeap} {k : Nat} {nm : List Char} {t : ATree} (H : MsNode content e h k nm t)
    (hnd : ∀ ks, t ≠ .dir ks) (hl : LinksIn t) :
    ∃ g f c' src, h.parse content k = (.ok (), g) ∧ KeepsMs70 content h g ∧ ImgAt g k f ∧ GoodImage e t f ∧ Followable f ∧
      g.cell k = some c' ∧ c'.name = nm ∧ c'.kind = .image true src := by
  obtain ⟨c, src, f, hc, hn, hs, hg, hk⟩ := H
  have hfol := goodImage_follow hg hnd hl
  have key : ReadsFrom c.kind src → c.kids = [] → (c.kind = .msImage src ∨ ∃ p, c.kind = .image p src) → parsedKind c.kind = .image true src →
      ∃ g f c' src, h.parse content k = (.ok (), g) ∧ KeepsMs70 content h g ∧ ImgAt g k f ∧ GoodImage e t f ∧ Followable f ∧
        g.cell k = some c' ∧ c'.name = nm ∧ c'.kind = .image true src := by
    intro hrd hks hkk hpk
    obtain ⟨g, hp, I, c', hc', hn', hk'⟩ := parse_reads_img hc hrd hs hks hfol
    rw [hpk] at hk'
    refine ⟨g, f, c', src, hp, ?_, I, hg, hfol, hc', hn'.trans hn, hk'⟩
    have hg2 : g = (h.parse content k).2 := by rw [hp]
    refine MsStep.keeps70 (k := k) ⟨fun x hx hne => by rw [hg2]; exact parse_frame hx hne, ⟨c, c', src, hc, hc', hn', hkk, .inr ⟨hk', fun f' hf' => ?_⟩⟩⟩
    rw [hs] at hf'
    cases hf'
    exact I
  rcases hk with ⟨hk, hks⟩ | ⟨hk, hks⟩ | ⟨hk, T⟩
  · exact key (by rw [hk]; exact .msImage _) hks (.inl hk) (by rw [hk]; rfl)
  · exact key (by rw [hk]; exact .image _) hks (.inr ⟨_, hk⟩) (by rw [hk]; rfl)
  · refine ⟨h, f, c, src, ?_, .refl, T, hg, hfol, hc, hn, hk⟩
    rw [parse_eq hc, hk]
    rfl

/-- the result of a look-up -/
def FoundMs70 (e : Env) (g : NHeap) (r : Option (List Char × AVal)) (x : Except Err Nat) : Prop :=
  match r with
  | some (nm, v) => ∃ j c, x = .ok j ∧ g.cell j = some c ∧ c.name = nm ∧ MsLinkShows e c.kind v
  | none => x = .error (.lib "NodeNotFound")

theorem found_ms70 {e : Env} {g : NHeap} {r : Option (List Char × AVal)} {x : Except Err Nat} (h : Found70 e g r x) : FoundMs70 e g r x := by
  cases r with
  | none => exact h
  | some v =>
    obtain ⟨j, c, h1, h2, h3, h4⟩ := h
    exact ⟨j, c, h1, h2, h3, .kind _ _ h4⟩

theorem fold_ms70 {content : Content} {e : Env} {held : Nat} (ns : List (List Char)) (h : NHeap) (k : Nat) (nm : List Char) (t : ATree)
    (r : Option (List Char × AVal)) (hh : ∃ c p s, h.cell held = some c ∧ c.kind = .msFile p s) (H : MsNode content e h k nm t)
    (hd : ∀ ks, t ≠ .dir ks) (hu : LinksFrom t ns) (V : SeesFrom t nm ns r) :
    KeepsMs70 content h (NHeap.foldParsed content held h k ns).2 ∧
      FoundMs70 e (NHeap.foldParsed content held h k ns).2 r (NHeap.foldParsed content held h k ns).1 := by
  have hV : ∃ w, SeenAt (treePlaces t) [] ns w ∧ SeesIn t nm w r := by
    cases t with
    | dir ks => exact absurd rfl (hd ks)
    | _ => exact V
  obtain ⟨w, V1, V2⟩ := hV
  cases ns with
  | nil =>
    refine ⟨.refl, ?_⟩
    have hr : r = some (nm, .image) := by
      cases V1
      rcases V2 with ⟨h, _⟩ | ⟨_, h⟩ | ⟨d, m, v, h, _⟩
      · cases h
      · exact h
      · simp at h
    subst hr
    obtain ⟨c, src, f, hc, hn, hs, hg, hk⟩ := H
    refine ⟨k, c, rfl, hc, hn, ?_⟩
    rcases hk with ⟨hk, _⟩ | ⟨hk, _⟩ | ⟨hk, _⟩
    · rw [hk]; exact .unread _
    · rw [hk]; exact .kind _ _ (.other _ _ (fun s h => by cases h) (.image _ _))
    · rw [hk]; exact .kind _ _ (.other _ _ (fun s h => by cases h) (.image _ _))
  | cons n ns =>
    obtain ⟨ch, ph, sh, hch, hkh⟩ := hh
    have hu' : LinksIn t := by
      cases t with
      | dir ks => exact absurd rfl (hd ks)
      | image ps => exact hu.resolve_left (by simp)
      | _ => trivial
    have hne : k ≠ held := by
      rintro rfl
      obtain ⟨c, src, f, hc, _, _, _, hk⟩ := H
      rw [hc] at hch
      cases hch
      rw [hkh] at hk
      rcases hk with ⟨hk, _⟩ | ⟨hk, _⟩ | ⟨hk, _⟩ <;> cases hk
    obtain ⟨g, f, c', src, h1, h2, h3, hg, hfol, h4, h5, h6⟩ := parse_ms70 H hd hu'
    obtain ⟨node, L⟩ := h3.nodes hfol
    have hheld := h2.2 held ch ph sh hch hkh
    have hsame : NHeap.foldParsed content held h k (n :: ns) = NHeap.foldParsed content held g k (n :: ns) := by
      rw [foldParsed_cons, foldParsed_cons, if_neg hne, if_neg hne, h1]
      have : g.parse content k = (.ok (), g) := by
        rw [parse_eq h4, h6]
        rfl
      rw [this]
    rw [← goodImage_treePlaces hg hd] at V1
    have hfold := fold_nodes (content := content) ⟨ch, hheld, by
      rw [hkh]; rintro (⟨_, h⟩ | ⟨_, h⟩) <;> cases h⟩ (fun e => hne e.symm) h4 h6 hg.values L V1 (.inl rfl)
    rw [L.top] at hfold
    rw [hsame, hfold]
    exact ⟨h2, found_ms70 (nodes_found h4 h6 hg L (by rw [h5]; exact V2))⟩

theorem find_ms70 {content : Content} {reader : List Char → Env} {h : NHeap} {i : Nat} {arch : List (List Char × ATree)} (hd : FlatMs arch)
    (F : MsStands False A content reader h i arch) {path : List Char} {n : List Char} {ns : List (List Char)} {r : Option (List Char × AVal)}
    (hp : Pieces path (n :: ns)) (hu : LinksOn arch (n :: ns)) (V : ArcSees arch (n :: ns) r) :
    KeepsMs70 content h (h.atPathParsed content i path).2 ∧
      FoundMs70 (reader n) (h.atPathParsed content i path).2 r (h.atPathParsed content i path).1 := by
  have hs := pieces_iff.1 hp
  unfold NHeap.atPathParsed
  rw [hs]
  dsimp only
  rw [linksOn_from] at hu
  rw [arcSees_from] at V
  cases hl : lastNamed arch n with
  | none =>
    rw [hl] at V
    subst V
    rw [F.missing n hl]
    exact ⟨.refl, rfl⟩
  | some t =>
    rw [hl] at hu V
    obtain ⟨k, h1, h2⟩ := F.there n t hl
    rw [h1]
    exact fold_ms70 ns h k n t r F.root h2 (fun ks e => hd n ks (by rw [hl, e])) hu V

theorem load_ms70 {content : Content} {reader : List Char → Env} {h g : NHeap} {i j : Nat} {arch : List (List Char × ATree)} (hd : FlatMs arch)
    (F : MsStands False A content reader h i arch) {path : List Char} {n : List Char} {ns : List (List Char)} (hp : Pieces path (n :: ns))
    (hu : LinksOn arch (n :: ns ++ [[]])) (hf : h.atPathParsed content i path = (.ok j, g)) (hj : j ≠ i) :
    KeepsMs70 content h (g.parse content j).2 := by
  obtain ⟨r, V⟩ := arcSees_total (n :: ns ++ [[]]) arch (by simp) hu
  have hs := pieces_iff.1 hp
  unfold NHeap.atPathParsed at hf
  rw [hs] at hf
  dsimp only at hf
  rw [List.cons_append] at hu V
  rw [linksOn_from] at hu
  rw [arcSees_from] at V
  cases hl : lastNamed arch n with
  | none =>
    rw [F.missing n hl] at hf
    cases hf
  | some t =>
    rw [hl] at hu V
    obtain ⟨k, h1, h2⟩ := F.there n t hl
    rw [h1] at hf
    dsimp only at hf
    have hk := (fold_ms70 (ns ++ [[]]) h k n t r F.root h2 (fun ks e => hd n ks (by rw [hl, e])) hu V).1
    rw [foldParsed_append, hf] at hk
    dsimp only at hk
    rw [foldParsed_cons, if_neg hj] at hk
    cases hq : g.parse content j with
    | mk r g' =>
      rw [hq] at hk
      cases r with
      | error e => exact hk
      | ok u =>
        dsimp only at hk ⊢
        cases ha : g'.at j [] with
        | none => rw [ha] at hk; exact hk
        | some q => rw [ha] at hk; exact hk

theorem run_ms70 {content : Content} {reader : List Char → Env} {i : Nat} {arch : List (List Char × ATree)} (hd : FlatMs arch) (op : ArcOp)
    (h : NHeap) (F : MsStands False A content reader h i arch) (ha : AllowedLinks arch op) :
    MsStands False A content reader (runArc content i h [op]) i arch := by
  cases op with
  | find p =>
    obtain ⟨ns, h1, h2⟩ := ha
    obtain ⟨r, V⟩ := arcSees_total ns arch h1.some h2
    cases ns with
    | nil => exact absurd rfl h1.some
    | cons n ns => exact (find_ms70 hd F h1 h2 V).1.stands F
  | load p =>
    obtain ⟨ns, h1, h2⟩ := ha
    have h2' := linksOn_prefix _ _ _ h2
    obtain ⟨v, V⟩ := arcSees_total ns arch h1.some h2'
    cases ns with
    | nil => exact absurd rfl h1.some
    | cons n ns =>
    have hr := find_ms70 hd F h1 h2' V
    simp only [runArc]
    cases hq : h.atPathParsed content i p with
    | mk r g =>
      rw [hq] at hr
      cases r with
      | error er => exact hr.1.stands F
      | ok j =>
        have hj : j ≠ i := by
          rintro rfl
          obtain ⟨c, p, s, hc, hk⟩ := (hr.1.stands F).root
          have hf := hr.2
          cases v with
          | none => cases hf
          | some v =>
            obtain ⟨j', c', e1, e2, _, e3⟩ := hf
            cases e1
            dsimp only at hc e2
            rw [hc] at e2
            cases e2
            rw [hk] at e3
            cases e3 with
            | kind _ _ e3 =>
              cases e3 with
              | other _ _ _ e3 => cases e3
        exact (load_ms70 hd F h1 h2 hq hj).stands F
  | close p =>
    obtain ⟨ns, h1, h2, h3⟩ := ha
    obtain ⟨v, V⟩ := arcSees_total ns arch h1.some h2
    cases ns with
    | nil => exact absurd rfl h1.some
    | cons n ns =>
    have hr := find_ms70 hd F h1 h2 V
    simp only [runArc]
    cases hq : h.atPathParsed content i p with
    | mk r g =>
      rw [hq] at hr
      have hF := hr.1.stands F
      cases r with
      | error er => exact hF
      | ok j =>
        have hf := hr.2
        cases v with
        | none => cases hf
        | some v =>
          obtain ⟨nm, v⟩ := v
          obtain ⟨j', c', e1, e2, _, e3⟩ := hf
          cases e1
          dsimp only at e2 hF ⊢
          have hno : c'.kind.unparsed = none → MsStands False A content reader (g.unparse j) i arch := by
            intro hk
            have : g.unparse j = g := by
              unfold NHeap.unparse
              rw [e2]
              dsimp only
              rw [hk]
            rw [this]
            exact hF
          generalize hk : c'.kind = kk at e3
          cases e3 with
          | unread s => exact hno (by rw [hk]; rfl)
          | kind _ _ e3 =>
            cases e3 with
            | uol s => exact hno (by rw [hk]; rfl)
            | other _ _ _ e3 =>
              cases e3 with
              | dir => exact absurd V (h3 _)
              | image p src => exact (unparse_ms e2 hk).keeps70.stands hF
              | prop v => exact hno (by rw [hk]; rfl)
              | script v => exact hno (by rw [hk]; rfl)

/-- looking something up below an image that was read changes nothing -/
theorem alone_same {content : Content} {h : NHeap} {i src : Nat} {f : Forest} {node : List (List Char) → Nat} {ci : NCell}
    (hci : h.cell i = some ci) (hki : ci.kind = .image true src) (A : Spec.Forest.All InImage f) (L : LinkNodes h i f node)
    {d ns : List (List Char)} {r : Option (List (List Char))} (V : SeenAt f.places d ns r) : (d = [] ∨ ∃ v, f.places d = some v) →
    (NHeap.foldParsed content i h (node d) ns).2 = h := by
  have first : ∀ (n : List Char) (ns : List (List Char)), (NHeap.foldParsed content i h (node []) (n :: ns)).2 = h := by
    intro n ns
    rw [foldParsed_cons, if_pos L.top]
  induction V with
  | here d => intro _; rfl
  | missing d n ns hl =>
    intro hd
    by_cases e : d = []
    · subst e; exact first n _
    · rw [alone_step hci hki A L d n _ ⟨e, hd.resolve_left e⟩, L.nothing d n hd hl]
  | plain d n ns r hl _ ih =>
    intro hd
    by_cases e : d = []
    · subst e; exact first n _
    · rw [alone_step hci hki A L d n _ ⟨e, hd.resolve_left e⟩, L.value d n hd hl]
      exact ih (.inr ⟨_, hl⟩)
  | link d n ns s us t r hl hs W _ ih =>
    intro hd
    by_cases e : d = []
    · subst e; exact first n _
    · rw [alone_step hci hki A L d n _ ⟨e, hd.resolve_left e⟩, L.link d n s us t hd hl hs W]
      exact ih (way_there W places_prefix t rfl hd)
  | dead d n ns s us r hl hs W _ ih =>
    intro hd
    by_cases e : d = []
    · subst e; exact first n _
    · rw [alone_step hci hki A L d n _ ⟨e, hd.resolve_left e⟩, L.dead d n s us hd hl hs W]
      exact ih (.inr ⟨_, hl⟩)

theorem below_same {content : Content} {e : Env} {h : NHeap} {k src : Nat} {c : NCell} {f : Forest} {t : ATree} (hc : h.cell k = some c)
    (hk : c.kind = .image true src) (I : ImgAt h k f) (G : GoodImage e t f) (hnd : ∀ ks, t ≠ .dir ks) (hl : LinksIn t) (path : List Char) :
    (h.atPathParsed content k path).2 = h := by
  obtain ⟨ns, hp⟩ := pieces_exist path
  have hfol := goodImage_follow G hnd hl
  obtain ⟨node, L⟩ := I.nodes hfol
  have hdir := linksIn_direct hnd hl
  rw [← goodImage_treePlaces G hnd] at hdir
  obtain ⟨w, V⟩ := seen_total hdir ns []
  unfold NHeap.atPathParsed
  rw [pieces_iff.1 hp]
  cases V with
  | here => exact absurd rfl hp.some
  | missing _ n ns hl =>
    dsimp only
    rw [← L.top, L.nothing [] n (.inl rfl) hl]
  | plain _ n ns _ hl V3 =>
    dsimp only
    have := L.value [] n (.inl rfl) hl
    rw [L.top] at this
    rw [this]
    exact alone_same hc hk G.values L V3 (.inr ⟨_, hl⟩)
  | link _ n ns s us d _ hl hs W V3 =>
    dsimp only
    have := L.link [] n s us d (.inl rfl) hl hs W
    rw [L.top] at this
    rw [this]
    exact alone_same hc hk G.values L V3 (way_there W places_prefix d rfl (.inl rfl))
  | dead _ n ns s us _ hl hs W V3 =>
    dsimp only
    have := L.dead [] n s us (.inl rfl) hl hs W
    rw [L.top] at this
    rw [this]
    exact alone_same hc hk G.values L V3 (.inr ⟨_, hl⟩)

theorem step_ms70 {content : Content} {reader : List Char → Env} {i : Nat} {arch : List (List Char × ATree)} (hd : FlatMs arch)
    (op : MsOp) (h : NHeap) (F : MsStands False A content reader h i arch) (ha : AllowedMsLinks arch op) :
    MsStands False A content reader (stepMs content i h op) i arch := by
  cases op with
  | path op => exact run_ms70 hd op h F ha
  | «open» name =>
    show MsStands False A content reader (match h.at i name with
      | none => h
      | some k => (h.parse content k).2) i arch
    cases hl : lastNamed arch name with
    | none =>
      rw [F.missing name hl]
      exact F
    | some t =>
      obtain ⟨k, h1, h2⟩ := F.there name t hl
      obtain ⟨g, f, c', src, g1, g2, _⟩ := parse_ms70 h2 (fun ks e => hd name ks (by rw [hl, e])) (linksWork_in (ha t hl))
      rw [h1]
      dsimp only
      rw [g1]
      exact g2.stands F
  | below name p =>
    show MsStands False A content reader (match h.at i name with
      | none => h
      | some k => (h.atPathParsed content k p).2) i arch
    cases hl : lastNamed arch name with
    | none =>
      rw [F.missing name hl]
      exact F
    | some t =>
      obtain ⟨k, h1, h2⟩ := F.there name t hl
      rw [h1]
      dsimp only
      obtain ⟨c, src, f, hc, hn, hs, hg, hk⟩ := h2
      have hsame : (h.atPathParsed content k p).2 = h := by
        have hno : c.kids = [] → (h.atPathParsed content k p).2 = h := by
          intro hks
          unfold NHeap.atPathParsed
          cases splitSlash p with
          | nil => rfl
          | cons n ns =>
            dsimp only
            have : h.at k n = none := by
              unfold NHeap.at
              rw [hc]
              simp [hks, kidAt]
            rw [this]
        rcases hk with ⟨_, hk⟩ | ⟨_, hk⟩ | ⟨hk, T⟩
        · exact hno hk
        · exact hno hk
        · exact below_same hc hk T hg (fun ks e => hd name ks (by rw [hl, e])) (linksWork_in (ha t hl)) p
      rw [hsame]
      exact F
  | shut name => exact step_ms hd (.shut name) h F trivial

theorem runMs_stands70 {content : Content} {reader : List Char → Env} {i : Nat} {arch : List (List Char × ATree)} (hd : FlatMs arch) :
    ∀ (ops : List MsOp) (h : NHeap), MsStands False A content reader h i arch → (∀ op ∈ ops, AllowedMsLinks arch op) →
    MsStands False A content reader (runMs content i h ops) i arch
  | [], _, F, _ => F
  | op :: ops, h, F, ha => runMs_stands70 hd ops _ (step_ms70 hd op h F (ha _ List.mem_cons_self)) (fun o ho => ha o (List.mem_cons_of_mem _ ho))

theorem stands_finds70 {content : Content} {reader : List Char → Env} {g : NHeap} {i : Nat} {arch : List (List Char × ATree)} (hd : FlatMs arch)
    (F : MsStands False A content reader g i arch) : FindsMsLinks content reader g i arch := by
  intro path n ns r hp hu V
  have := (find_ms70 hd F hp hu V).2
  cases r with
  | none => exact this
  | some v =>
    obtain ⟨j, c, h1, h2, h3, h4⟩ := this
    exact ⟨j, _, c, Prod.ext h1 rfl, h2, h3, h4⟩

end Wz
