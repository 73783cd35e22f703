import Verif.Whole.MsSpec
import Verif.Whole.StateLemmas
import Verif.Whole.Props

/-!
# Lemmas for C65
-/

set_option autoImplicit false

namespace Wz

open Spec

/-- an image of an MS archive that stands for `t`: not read, read, or forgotten -/
def MsNode (content : Content) (e : Env) (h : NHeap) (k : Nat) (nm : List Char) (t : ATree) : Prop :=
  ∃ c src f, h.cell k = some c ∧ c.name = nm ∧ content src = .ok f ∧ GoodImage e t f ∧
    ((c.kind = .msImage src ∧ c.kids = []) ∨ (c.kind = .image false src ∧ c.kids = []) ∨ (c.kind = .image true src ∧ ImgAt h k f))

/-- the nodes of an MS archive stand for what is in it -/
structure MsStands (P A : Prop) (content : Content) (reader : List Char → Env) (h : NHeap) (i : Nat) (arch : List (List Char × ATree)) : Prop where
  root : ∃ c p s, h.cell i = some c ∧ c.kind = .msFile p s
  missing : ∀ n, lastNamed arch n = none → h.at i n = none
  there : ∀ n t, lastNamed arch n = some t → ∃ k, h.at i n = some k ∧ MsNode content (reader n) h k n t
  knows : P → Consistent h
  lone : A → ∃ c, h.cell i = some c ∧ c.parent = none ∧ c.name ≠ "Base".toList

variable {P A : Prop}

/-- a change of one image -/
structure MsStep (content : Content) (h g : NHeap) (k : Nat) : Prop where
  others : ∀ x, x < h.length → x ≠ k → g.cell x = h.cell x
  it : ∃ c c' src, h.cell k = some c ∧ g.cell k = some c' ∧ c'.name = c.name ∧ (c.kind = .msImage src ∨ ∃ p, c.kind = .image p src) ∧
    ((c'.kind = .image false src ∧ c'.kids = []) ∨ (c'.kind = .image true src ∧ ∀ f, content src = .ok f → ImgAt g k f))

theorem msStep_image {content : Content} {h g : NHeap} {k : Nat} (S : MsStep content h g k) {c : NCell} (hc : h.cell k = some c) :
    ¬ InImage c.kind ∧ ∀ p s, c.kind ≠ .msFile p s := by
  obtain ⟨c0, c1, src, s1, s2, s3, s4, s5⟩ := S.it
  rw [hc] at s1
  cases s1
  rcases s4 with s4 | ⟨p, s4⟩ <;> rw [s4] <;>
    exact ⟨(by rintro (⟨_, h⟩ | ⟨_, h⟩) <;> cases h), fun _ _ h => (by cases h)⟩

theorem MsStep.node {content : Content} {e : Env} {h g : NHeap} {k : Nat} (S : MsStep content h g k) {j : Nat} {nm : List Char} {t : ATree}
    (H : MsNode content e h j nm t) : MsNode content e g j nm t := by
  obtain ⟨c, src, f, hc, hn, hs, hg, hk⟩ := H
  by_cases e' : j = k
  · subst e'
    obtain ⟨c0, c1, src', s1, s2, s3, s4, s5⟩ := S.it
    rw [hc] at s1
    cases s1
    have hsrc : src' = src := by
      rcases hk with ⟨hk, _⟩ | ⟨hk, _⟩ | ⟨hk, _⟩ <;> rcases s4 with s4 | ⟨p, s4⟩ <;> rw [hk] at s4 <;> cases s4 <;> rfl
    subst hsrc
    refine ⟨c1, src', f, s2, by rw [s3, hn], hs, hg, ?_⟩
    rcases s5 with ⟨a, b⟩ | ⟨a, b⟩
    · exact .inr (.inl ⟨a, b⟩)
    · exact .inr (.inr ⟨a, b f hs⟩)
  · have hj := S.others j (cell_lt hc) e'
    refine ⟨c, src, f, by rw [hj, hc], hn, hs, hg, ?_⟩
    rcases hk with hk | hk | ⟨hk, T⟩
    · exact .inl hk
    · exact .inr (.inl hk)
    · refine .inr (.inr ⟨hk, imgAt_values (fun x c' hx hI => ?_) T hg.values hj⟩)
      refine S.others x (cell_lt hx) ?_
      rintro rfl
      exact (msStep_image S hx).1 hI

/-- what is not touched by steps -/
def KeepsMs (content : Content) (h g : NHeap) : Prop :=
  (∀ e j nm t, MsNode content e h j nm t → MsNode content e g j nm t) ∧
  (∀ i c p s, h.cell i = some c → c.kind = .msFile p s → g.cell i = some c) ∧ (Consistent h → Consistent g)

theorem KeepsMs.refl {content : Content} {h : NHeap} : KeepsMs content h h := ⟨fun _ _ _ _ H => H, fun _ _ _ _ hc _ => hc, id⟩

theorem MsStep.keeps {content : Content} {h g : NHeap} {k : Nat} (S : MsStep content h g k) (hK : Consistent h → Consistent g) : KeepsMs content h g := by
  refine ⟨fun e j nm t H => S.node H, fun i c p s hc hk => ?_, hK⟩
  rw [S.others i (cell_lt hc) ?_, hc]
  rintro rfl
  exact (msStep_image S hc).2 p s hk

theorem KeepsMs.stands {content : Content} {reader : List Char → Env} {h g : NHeap} {i : Nat} {arch : List (List Char × ATree)}
    (K : KeepsMs content h g) (F : MsStands P A content reader h i arch) : MsStands P A content reader g i arch := by
  obtain ⟨⟨c, p, s, hc, hk⟩, H1, H2, H3, H4⟩ := F
  have hg := K.2.1 i c p s hc hk
  have hat : ∀ n, g.at i n = h.at i n := by
    intro n
    unfold NHeap.at
    rw [hg, hc]
  refine ⟨⟨c, p, s, hg, hk⟩, fun n hn => by rw [hat]; exact H1 n hn, fun n t hn => ?_, fun hP => K.2.2 (H3 hP), fun hA => by rw [hg, ← hc]; exact H4 hA⟩
  obtain ⟨k, h1, h2⟩ := H2 n t hn
  exact ⟨k, by rw [hat]; exact h1, K.1 _ _ _ _ h2⟩

/-- reading an image -/
theorem parse_ms {content : Content} {e : Env} {h : NHeap} {k : Nat} {nm : List Char} {t : ATree} (H : MsNode content e h k nm t) (hu : NoUolIn t) :
    ∃ g f, h.parse content k = (.ok (), g) ∧ KeepsMs content h g ∧ TreeAt g k f ∧ GoodImage e t f := by
  obtain ⟨c, src, f, hc, hn, hs, hg, hk⟩ := H
  have hl := hg.free hu
  have key : ReadsFrom c.kind src → c.kids = [] → (c.kind = .msImage src ∨ ∃ p, c.kind = .image p src) → parsedKind c.kind = .image true src →
      ∃ g f, h.parse content k = (.ok (), g) ∧ KeepsMs content h g ∧ TreeAt g k f ∧ GoodImage e t f := by
    intro hrd hks hkk hpk
    obtain ⟨g, hp, I, _⟩ := parse_reads_img hc hrd hs hks (.inl hl)
    refine ⟨g, f, hp, ?_, I.1 hl, hg⟩
    have hgc : g.cell k = some { c with kind := .image true src, kids := childInsertAll c.kids (f.roots h.length) } := by
      have := congrArg Prod.snd hp
      rw [parse_eq hc, parsedKind_plan hrd hs] at this
      dsimp only at this
      rw [uols_linkFree f _ hl] at this
      dsimp only [NHeap.resolveUols] at this
      rw [← this, fresh_old (cell_lt hc) (cell_lt hc), if_pos rfl, hpk]
    have hg2 : g = (h.parse content k).2 := by rw [hp]
    refine MsStep.keeps (k := k) ⟨fun x hx hne => by rw [hg2]; exact parse_frame hx hne, ⟨c, _, src, hc, hgc, rfl, hkk, .inr ⟨rfl, fun f' hf' => ?_⟩⟩⟩ fun K => ?_
    swap
    · rw [hg2, parse_eq hc, parsedKind_plan hrd hs]
      dsimp only
      rw [uols_linkFree f _ hl]
      exact consistent_fresh K hc hl
    rw [hs] at hf'
    cases hf'
    exact I
  rcases hk with ⟨hk, hks⟩ | ⟨hk, hks⟩ | ⟨hk, T⟩
  · exact key (by rw [hk]; exact .msImage _) hks (.inl hk) (by rw [hk]; rfl)
  · exact key (by rw [hk]; exact .image _) hks (.inr ⟨_, hk⟩) (by rw [hk]; rfl)
  · refine ⟨h, f, ?_, .refl, T.1 hl, hg⟩
    rw [parse_eq hc, hk]
    rfl

/-- forgetting an image -/
theorem unparse_ms {content : Content} {h : NHeap} {j : Nat} {c : NCell} {p : Bool} {src : Nat}
    (hc : h.cell j = some c) (hk : c.kind = .image p src) : KeepsMs content h (h.unparse j) :=
  MsStep.keeps (k := j) ⟨fun x _ hne => unparse_frame hne, ⟨c, _, src, hc, unparse_cell hc (k := .image false src) (by rw [hk]; rfl), rfl, .inr ⟨p, hk⟩,
      .inl ⟨rfl, rfl⟩⟩⟩ fun K => consistent_unparse K j

/-- no directories in an MS archive -/
def FlatMs (arch : List (List Char × ATree)) : Prop := ∀ n ks, lastNamed arch n ≠ some (.dir ks)

/-- what `at_path_parsed` gives -/
def FoundMs (e : Env) (g : NHeap) (ns : List (List Char)) (v : Option AVal) (r : Except Err Nat) : Prop :=
  match v with
  | some v => ∃ j c, r = .ok j ∧ g.cell j = some c ∧ ns.getLast? = some c.name ∧ MsShows e c.kind v
  | none => r = .error (.lib "NodeNotFound")

theorem found_ms {e : Env} {g : NHeap} {ns : List (List Char)} {v : Option AVal} {r : Except Err Nat} (h : Found58 e g ns v r) :
    FoundMs e g ns v r := by
  cases v with
  | none => exact h
  | some v =>
    obtain ⟨j, c, h1, h2, h3, h4⟩ := h
    exact ⟨j, c, h1, h2, h3, .kind _ _ h4⟩

theorem fold_ms {content : Content} {e : Env} {held : Nat} : ∀ (ns : List (List Char)) (h : NHeap) (k : Nat) (nm : List Char) (t : ATree),
    (∃ c p s, h.cell held = some c ∧ c.kind = .msFile p s) → MsNode content e h k nm t → (∀ ks, t ≠ .dir ks) → freeFrom t ns →
    KeepsMs content h (NHeap.foldParsed content held h k ns).2 ∧
      FoundMs e (NHeap.foldParsed content held h k ns).2 (nm :: ns) (valFrom t ns) (NHeap.foldParsed content held h k ns).1
  | [], h, k, nm, t, _, H, hd, _ => by
    refine ⟨.refl, ?_⟩
    obtain ⟨c, src, f, hc, hn, hs, hg, hk⟩ := H
    have : valFrom t [] = some .image := by
      cases t with
      | dir ks => exact (hd ks rfl).elim
      | _ => rfl
    rw [this]
    refine ⟨k, c, rfl, hc, by rw [hn]; rfl, ?_⟩
    rcases hk with ⟨hk, _⟩ | ⟨hk, _⟩ | ⟨hk, _⟩
    · rw [hk]; exact .unread _
    · rw [hk]; exact .kind _ _ (.image _ _)
    · rw [hk]; exact .kind _ _ (.image _ _)
  | n :: ns, h, k, nm, t, hh, H, hd, hu => by
    obtain ⟨ch, ph, sh, hch, hkh⟩ := hh
    have hu' : NoUolIn t := by
      cases t with
      | dir ks => exact (hd ks rfl).elim
      | image ps => exact hu.resolve_left (by simp)
      | _ => trivial
    have hne : k ≠ held := by
      rintro rfl
      obtain ⟨c, src, f, hc, _, _, _, hk⟩ := H
      rw [hc] at hch
      cases hch
      rw [hkh] at hk
      rcases hk with ⟨hk, _⟩ | ⟨hk, _⟩ | ⟨hk, _⟩ <;> cases hk
    obtain ⟨g, f, h1, h2, h3, h4⟩ := parse_ms H hu'
    have hstep : NHeap.foldParsed content held h k (n :: ns) = match g.at k n with
        | none => (.error (.lib "NodeNotFound"), g)
        | some q => NHeap.foldParsed content held g q ns := by
      rw [foldParsed_cons, if_neg hne, h1]
      dsimp only
      cases g.at k n <;> rfl
    have hv : valFrom t (n :: ns) = belowImage t (n :: ns) := by
      cases t with
      | dir ks => exact (hd ks rfl).elim
      | _ => rfl
    rw [hstep, hv]
    obtain ⟨a, b⟩ := fold_image58 (content := content) (held := held) (nm := nm) (n := n) (ns := ns) ⟨ch, h2.2.1 held ch ph sh hch hkh, by
      rw [hkh]; rintro (⟨_, h⟩ | ⟨_, h⟩) <;> cases h⟩ h3 h4 hu'
    cases ha : g.at k n with
    | none =>
      rw [ha] at a b
      exact ⟨h2, found_ms a⟩
    | some q =>
      rw [ha] at a b
      dsimp only at a b ⊢
      rw [b]
      exact ⟨h2, found_ms a⟩

theorem find_ms {content : Content} {reader : List Char → Env} {h : NHeap} {i : Nat} {arch : List (List Char × ATree)} (hd : FlatMs arch)
    (F : MsStands P A content reader h i arch) {path : List Char} {n : List Char} {ns : List (List Char)} (hp : Pieces path (n :: ns))
    (hu : NoUolOn arch (n :: ns)) :
    KeepsMs content h (h.atPathParsed content i path).2 ∧
      FoundMs (reader n) (h.atPathParsed content i path).2 (n :: ns) (arcAt arch (n :: ns)) (h.atPathParsed content i path).1 := by
  have hs := pieces_iff.1 hp
  unfold NHeap.atPathParsed
  rw [hs]
  dsimp only
  rw [noUolOn_from] at hu
  rw [arcAt_from]
  cases hl : lastNamed arch n with
  | none =>
    rw [F.missing n hl]
    exact ⟨.refl, rfl⟩
  | some t =>
    rw [hl] at hu
    obtain ⟨k, h1, h2⟩ := F.there n t hl
    rw [h1]
    exact fold_ms ns h k n t F.root h2 (fun ks e => hd n ks (by rw [hl, e])) hu

theorem load_ms {content : Content} {reader : List Char → Env} {h g : NHeap} {i j : Nat} {arch : List (List Char × ATree)} (hd : FlatMs arch)
    (F : MsStands P A content reader h i arch) {path : List Char} {n : List Char} {ns : List (List Char)} (hp : Pieces path (n :: ns))
    (hu : NoUolOn arch (n :: ns ++ [[]])) (hf : h.atPathParsed content i path = (.ok j, g)) (hj : j ≠ i) : KeepsMs content h (g.parse content j).2 := by
  have hs := pieces_iff.1 hp
  unfold NHeap.atPathParsed at hf
  rw [hs] at hf
  dsimp only at hf
  rw [List.cons_append, noUolOn_from] at hu
  cases hl : lastNamed arch n with
  | none =>
    rw [F.missing n hl] at hf
    cases hf
  | some t =>
    rw [hl] at hu
    obtain ⟨k, h1, h2⟩ := F.there n t hl
    rw [h1] at hf
    dsimp only at hf
    have hk := (fold_ms (ns ++ [[]]) h k n t F.root h2 (fun ks e => hd n ks (by rw [hl, e])) hu).1
    rw [foldParsed_append, hf] at hk
    dsimp only at hk
    rw [foldParsed_cons, if_neg hj] at hk
    cases hq : g.parse content j with
    | mk r g' =>
      rw [hq] at hk
      cases r with
      | error e => exact hk
      | ok u =>
        dsimp only at hk ⊢
        cases ha : g'.at j [] with
        | none => rw [ha] at hk; exact hk
        | some q => rw [ha] at hk; exact hk

/-- a place that is found is not the root -/
theorem found_not_root {content : Content} {reader : List Char → Env} {g : NHeap} {i j : Nat} {arch : List (List Char × ATree)} {e : Env}
    {ns : List (List Char)} {v : Option AVal} (F : MsStands P A content reader g i arch) (hf : FoundMs e g ns v (.ok j)) : j ≠ i := by
  rintro rfl
  obtain ⟨c, p, s, hc, hk⟩ := F.root
  cases v with
  | none => cases hf
  | some v =>
    obtain ⟨j', c', e1, e2, _, e3⟩ := hf
    cases e1
    rw [hc] at e2
    cases e2
    rw [hk] at e3
    cases e3 with
    | kind _ _ h => cases h

theorem run_ms {content : Content} {reader : List Char → Env} {i : Nat} {arch : List (List Char × ATree)} (hd : FlatMs arch) :
    ∀ (ops : List ArcOp) (h : NHeap), MsStands P A content reader h i arch → (∀ op ∈ ops, AllowedArc arch op) →
    MsStands P A content reader (runArc content i h ops) i arch
  | [], h, F, _ => F
  | .find p :: ops, h, F, ha => by
    obtain ⟨ns, h1, h2⟩ := ha _ (List.mem_cons_self ..)
    cases ns with
    | nil => exact absurd rfl h1.some
    | cons n ns => exact run_ms hd ops _ ((find_ms hd F h1 h2).1.stands F) (fun op ho => ha op (List.mem_cons_of_mem _ ho))
  | .load p :: ops, h, F, ha => by
    obtain ⟨ns, h1, h2⟩ := ha _ (List.mem_cons_self ..)
    cases ns with
    | nil => exact absurd rfl h1.some
    | cons n ns =>
    have hr := find_ms hd F h1 (noUolOn_prefix _ _ _ h2)
    simp only [runArc]
    cases hq : h.atPathParsed content i p with
    | mk r g =>
      rw [hq] at hr
      cases r with
      | error er => exact run_ms hd ops _ (hr.1.stands F) (fun op ho => ha op (List.mem_cons_of_mem _ ho))
      | ok j =>
        have hj : j ≠ i := found_not_root (hr.1.stands F) hr.2
        exact run_ms hd ops _ ((load_ms hd F h1 h2 hq hj).stands F) (fun op ho => ha op (List.mem_cons_of_mem _ ho))
  | .close p :: ops, h, F, ha => by
    obtain ⟨ns, h1, h2, h3⟩ := ha _ (List.mem_cons_self ..)
    cases ns with
    | nil => exact absurd rfl h1.some
    | cons n ns =>
    have hr := find_ms hd F h1 h2
    simp only [runArc]
    cases hq : h.atPathParsed content i p with
    | mk r g =>
      rw [hq] at hr
      have hF := hr.1.stands F
      cases r with
      | error er => exact run_ms hd ops _ hF (fun op ho => ha op (List.mem_cons_of_mem _ ho))
      | ok j =>
        refine run_ms hd ops _ ?_ (fun op ho => ha op (List.mem_cons_of_mem _ ho))
        have hf := hr.2
        cases hv : arcAt arch (n :: ns) with
        | none => rw [hv] at hf; cases hf
        | some v =>
          rw [hv] at hf h3
          obtain ⟨j', c', e1, e2, _, e3⟩ := hf
          cases e1
          dsimp only at e2 hF
          have hno : c'.kind.unparsed = none → MsStands P A content reader (g.unparse j) i arch := by
            intro hk
            have : g.unparse j = g := by
              unfold NHeap.unparse
              rw [e2]
              dsimp only
              rw [hk]
            rw [this]
            exact hF
          generalize hk : c'.kind = kk at e3
          cases e3 with
          | unread s => exact hno (by rw [hk]; rfl)
          | kind _ _ e3 =>
            cases e3 with
            | dir => exact absurd rfl h3
            | image p src => exact (unparse_ms e2 hk).stands hF
            | prop v => exact hno (by rw [hk]; rfl)
            | script v => exact hno (by rw [hk]; rfl)

/-- looking something up below an image that was read -/
theorem below_read {content : Content} {e : Env} {h : NHeap} {k : Nat} {c : NCell} {f : Forest} {t : ATree} (hc : h.cell k = some c)
    (hI : ¬ InImage c.kind) (T : TreeAt h k f) (G : GoodImage e t f) (hu : NoUolIn t) {path : List Char} {ns : List (List Char)}
    (hp : Pieces path ns) (nm : List Char) :
    (h.atPathParsed content k path).2 = h ∧ Found58 e h (nm :: ns) (belowImage t ns) (h.atPathParsed content k path).1 := by
  have hs := pieces_iff.1 hp
  cases ns with
  | nil => exact absurd rfl hp.some
  | cons n ns =>
    unfold NHeap.atPathParsed
    rw [hs]
    dsimp only
    obtain ⟨a, b⟩ := fold_image58 (content := content) (held := k) (nm := nm) (n := n) (ns := ns) ⟨c, hc, hI⟩ T G hu
    cases ha : h.at k n with
    | none => rw [ha] at a b; exact ⟨b, a⟩
    | some q => rw [ha] at a b; exact ⟨b, a⟩

theorem image_not_in {p : Bool} {s : Nat} : ¬ InImage (.image p s) := by
  rintro (⟨_, h⟩ | ⟨_, h⟩) <;> cases h

theorem pieces_exist (path : List Char) : ∃ ns, Pieces path ns :=
  ⟨_, pieces_iff.2 rfl⟩

theorem noUolIn_of {t : ATree} (h : ∀ ps, t = .image ps → NoUol ps) : NoUolIn t := by
  cases t with
  | image ps => exact h ps rfl
  | _ => trivial

theorem step_ms {content : Content} {reader : List Char → Env} {i : Nat} {arch : List (List Char × ATree)} (hd : FlatMs arch)
    (op : MsOp) (h : NHeap) (F : MsStands P A content reader h i arch) (ha : AllowedMs arch op) :
    MsStands P A content reader (stepMs content i h op) i arch := by
  cases op with
  | path op => exact run_ms hd [op] h F (fun o ho => by rw [List.mem_singleton.mp ho]; exact ha)
  | «open» name =>
    cases hl : lastNamed arch name with
    | none =>
      show MsStands P A content reader (match h.at i name with
        | none => h
        | some k => (h.parse content k).2) i arch
      rw [F.missing name hl]
      exact F
    | some t =>
      obtain ⟨k, h1, h2⟩ := F.there name t hl
      obtain ⟨g, f, g1, g2, _⟩ := parse_ms h2 (noUolIn_of fun ps e => ha ps (by rw [hl, e]))
      show MsStands P A content reader (match h.at i name with
        | none => h
        | some k => (h.parse content k).2) i arch
      rw [h1]
      dsimp only
      rw [g1]
      exact g2.stands F
  | below name p =>
    cases hl : lastNamed arch name with
    | none =>
      show MsStands P A content reader (match h.at i name with
        | none => h
        | some k => (h.atPathParsed content k p).2) i arch
      rw [F.missing name hl]
      exact F
    | some t =>
      obtain ⟨k, h1, h2⟩ := F.there name t hl
      show MsStands P A content reader (match h.at i name with
        | none => h
        | some k => (h.atPathParsed content k p).2) i arch
      rw [h1]
      dsimp only
      obtain ⟨c, src, f, hc, hn, hs, hg, hk⟩ := h2
      have hsame : (h.atPathParsed content k p).2 = h := by
        have hno : c.kids = [] → (h.atPathParsed content k p).2 = h := by
          intro hks
          unfold NHeap.atPathParsed
          cases splitSlash p with
          | nil => rfl
          | cons n ns =>
            dsimp only
            have : h.at k n = none := by
              unfold NHeap.at
              rw [hc]
              simp [hks, kidAt]
            rw [this]
        rcases hk with ⟨_, hk⟩ | ⟨_, hk⟩ | ⟨hk, T⟩
        · exact hno hk
        · exact hno hk
        · obtain ⟨ns, hp⟩ := pieces_exist p
          exact (below_read hc (by rw [hk]; exact image_not_in) (T.1 (hg.free (noUolIn_of fun ps e => ha ps (by rw [hl, e])))) hg (noUolIn_of fun ps e => ha ps (by rw [hl, e])) hp []).1
      rw [hsame]
      exact F
  | shut name =>
    cases hl : lastNamed arch name with
    | none =>
      show MsStands P A content reader (match h.at i name with
        | none => h
        | some k => h.unparse k) i arch
      rw [F.missing name hl]
      exact F
    | some t =>
      obtain ⟨k, h1, h2⟩ := F.there name t hl
      show MsStands P A content reader (match h.at i name with
        | none => h
        | some k => h.unparse k) i arch
      rw [h1]
      dsimp only
      obtain ⟨c, src, f, hc, hn, hs, hg, hk⟩ := h2
      rcases hk with ⟨hk, _⟩ | ⟨hk, _⟩ | ⟨hk, _⟩
      · have : h.unparse k = h := by
          unfold NHeap.unparse
          rw [hc]
          dsimp only
          rw [hk]
          rfl
        rw [this]
        exact F
      · exact (unparse_ms hc hk).stands F
      · exact (unparse_ms hc hk).stands F

theorem runMs_stands {content : Content} {reader : List Char → Env} {i : Nat} {arch : List (List Char × ATree)} (hd : FlatMs arch) :
    ∀ (ops : List MsOp) (h : NHeap), MsStands P A content reader h i arch → (∀ op ∈ ops, AllowedMs arch op) →
    MsStands P A content reader (runMs content i h ops) i arch
  | [], _, F, _ => F
  | op :: ops, h, F, ha => runMs_stands hd ops _ (step_ms hd op h F (ha _ List.mem_cons_self)) (fun o ho => ha o (List.mem_cons_of_mem _ ho))

theorem stands_children {content : Content} {reader : List Char → Env} {g : NHeap} {i : Nat} {arch : List (List Char × ATree)} (hd : FlatMs arch)
    (F : MsStands P A content reader g i arch) : ChildrenMs content reader g i arch := by
  intro name
  cases hl : lastNamed arch name with
  | none => exact F.missing name hl
  | some t =>
    obtain ⟨k, h1, h2⟩ := F.there name t hl
    refine ⟨k, h1, fun hu => ?_⟩
    obtain ⟨g', f, p1, p2, p3, p4⟩ := parse_ms h2 (noUolIn_of hu)
    refine ⟨g', p1, fun path ns hp => ?_⟩
    obtain ⟨c, src, f', hc, _, _, _, hk⟩ := p2.1 _ _ _ _ h2
    have hI : ¬ InImage c.kind := by
      rcases hk with ⟨hk, _⟩ | ⟨hk, _⟩ | ⟨hk, _⟩ <;> rw [hk] <;> rintro (⟨_, h⟩ | ⟨_, h⟩) <;> cases h
    obtain ⟨a, b⟩ := below_read (content := content) hc hI p3 p4 (noUolIn_of hu) hp []
    have hat : arcAt [(name, t)] (name :: ns) = belowImage t ns := by
      have hns := hp.some
      simp only [arcAt, lastNamed, if_pos]
      cases t with
      | dir ks => exact (hd name ks hl).elim
      | image ps => simp only [hns, if_false]; rfl
      | text d => simp only [hns, if_false]; rfl
      | script d => simp only [hns, if_false]; rfl
    rw [hat]
    cases hv : belowImage t ns with
    | none => rw [hv] at b; exact b
    | some v =>
      rw [hv] at b
      obtain ⟨j, c', b1, b2, b3, b4⟩ := b
      cases ns with
      | nil => exact absurd rfl hp.some
      | cons n ns => exact ⟨j, g', c', Prod.ext b1 a, b2, b3, b4⟩

theorem stands_finds {content : Content} {reader : List Char → Env} {g : NHeap} {i : Nat} {arch : List (List Char × ATree)} (hd : FlatMs arch)
    (F : MsStands P A content reader g i arch) : FindsMs content reader g i arch := by
  intro path n ns hp hu
  have := (find_ms hd F hp hu).2
  cases hv : arcAt arch (n :: ns) with
  | none => rw [hv] at this; exact this
  | some v =>
    rw [hv] at this
    obtain ⟨j, c, h1, h2, h3, h4⟩ := this
    exact ⟨j, _, c, Prod.ext h1 rfl, h2, h3, h4⟩

/-! ### opening -/

theorem lastNamed_map {α β : Type} (q : α → β) (n : List Char) : ∀ l : List (List Char × α),
    lastNamed (l.map fun x => (x.1, q x.2)) n = (lastNamed l n).map q := by
  intro l
  induction l with
  | nil => rfl
  | cons x l ih =>
    obtain ⟨a, b⟩ := x
    rw [List.map_cons, lastNamed_cons, ih, lastNamed_cons]
    cases lastNamed l n with
    | some y => rfl
    | none =>
      dsimp only [Option.map]
      split <;> rfl

theorem lastNamed_mem {α : Type} {n : List Char} {a : α} : ∀ {l : List (List Char × α)}, lastNamed l n = some a → (n, a) ∈ l := by
  intro l
  induction l with
  | nil => intro h; cases h
  | cons x l ih =>
    intro h
    obtain ⟨m, b⟩ := x
    rw [lastNamed_cons] at h
    cases hl : lastNamed l n with
    | some y =>
      rw [hl] at h ih
      exact List.mem_cons_of_mem _ (ih h)
    | none =>
      rw [hl] at h
      dsimp only at h
      split at h
      · rename_i he
        cases h
        rw [he]
        exact List.mem_cons_self
      · cases h

/-- the images of the list are read as they should be -/
inductive MsRead (content : Content) (env : Bytes → Env) : Nat → List MsImage → List (List Char × MsItem) → Prop
  | nil (k : Nat) : MsRead content env k [] []
  | cons (k : Nat) (im : MsImage) (x : MsItem) (f : Forest) (ims : List MsImage) (xs : List (List Char × MsItem)) : content k = .ok f →
      GoodImage (env x.data) x.tree f → MsRead content env (k + 1) ims xs → MsRead content env k (im :: ims) ((im.entry.name, x) :: xs)

theorem msRead_last {content : Content} {env : Bytes → Env} {k : Nat} {ims : List MsImage} {files : List (List Char × MsItem)}
    (R : MsRead content env k ims files) (n : List Char) :
    match lastNamed files n with
    | none => Spec.Forest.shows (msForest k ims) n = none
    | some x => ∃ s f, Spec.Forest.shows (msForest k ims) n = some (.msImage s, .nil) ∧ content s = .ok f ∧ GoodImage (env x.data) x.tree f := by
  induction R with
  | nil k => rfl
  | cons k im x f ims xs hf hg _ ih =>
    rw [lastNamed_cons, msForest]
    simp only [Spec.Forest.shows]
    cases hl : lastNamed xs n with
    | some y =>
      rw [hl] at ih
      obtain ⟨s, f', h1, h2, h3⟩ := ih
      dsimp only
      rw [h1]
      exact ⟨s, f', rfl, h2, h3⟩
    | none =>
      rw [hl] at ih
      dsimp only at ih ⊢
      rw [ih]
      dsimp only
      by_cases he : im.entry.name = n
      · rw [if_pos he, if_pos he]
        exact ⟨k, f, rfl, hf, hg⟩
      · rw [if_neg he, if_neg he]

theorem msForest_noLink : ∀ (ims : List MsImage) (k : Nat), Spec.Forest.All NoLink (msForest k ims)
  | [], _ => trivial
  | im :: ims, k => ⟨fun t h => (by cases h), trivial, msForest_noLink ims (k + 1)⟩

/-- **the fresh archive** -/
theorem ms_fresh {content : Content} {m : Mode} {ks2 : Nat → Byte} {ims : List MsImage} {files : List (List Char × MsItem)}
    (R : MsRead content (plainReader m ks2) 1 ims files) {h : NHeap} {i : Nat} {c : NCell} (hc : h.cell i = some c)
    (hk : c.kind = .msFile false 0) (hks : c.kids = []) (h0 : content 0 = .ok (msForest 1 ims)) :
    ∃ g, h.parse content i = (.ok (), g) ∧
      MsStands (Consistent h) (c.parent = none ∧ c.name ≠ "Base".toList) content (msReader m ks2 files) g i (msTree files) := by
  have hrd : ReadsFrom c.kind 0 := by rw [hk]; exact .msFile _
  obtain ⟨g, hg, T⟩ := parse_reads_tree hc hrd h0 hks (msForest_noLink ims 1)
  have hgi : g.cell i = some { c with kind := .msFile true 0, kids := childInsertAll c.kids ((msForest 1 ims).roots h.length) } := by
    have := congrArg Prod.snd hg
    rw [parse_eq hc, parsedKind_plan hrd h0] at this
    dsimp only at this
    rw [uols_linkFree _ _ (msForest_noLink ims 1)] at this
    dsimp only [NHeap.resolveUols] at this
    rw [← this, fresh_old (cell_lt hc) (cell_lt hc), if_pos rfl, hk]
    rfl
  refine ⟨g, hg, ⟨_, true, 0, hgi, rfl⟩,
    fun n hn => ?_, fun n t hn => ?_, fun K => ?_, fun hA => ⟨_, hgi, hA⟩⟩
  rotate_left 2
  · rw [show g = (h.parse content i).2 by rw [hg], parse_eq hc, parsedKind_plan hrd h0]
    dsimp only
    rw [uols_linkFree _ _ (msForest_noLink ims 1)]
    exact consistent_fresh K hc (msForest_noLink ims 1)
  · have a := msRead_last R n
    have b := treeAt_step T n
    unfold msTree at hn
    rw [lastNamed_map] at hn
    cases hl : lastNamed files n with
    | some x => rw [hl] at hn; cases hn
    | none =>
      rw [hl] at a
      dsimp only at a
      rw [a] at b
      exact b
  · have a := msRead_last R n
    have b := treeAt_step T n
    unfold msTree at hn
    rw [lastNamed_map] at hn
    cases hl : lastNamed files n with
    | none => rw [hl] at hn; cases hn
    | some x =>
      rw [hl] at a hn
      cases hn
      obtain ⟨s, f, a1, a2, a3⟩ := a
      rw [a1] at b
      obtain ⟨j, c', b1, b2, b3, b4, b5⟩ := b
      refine ⟨j, b1, c', s, f, b2, b3, a2, ?_, .inl ⟨b4, treeAt_childless b5 b2⟩⟩
      unfold msReader
      rw [hl]
      exact a3

theorem msOpened_ok {m : Mode} {C : ChaCha} {f : MsFile} {im : MsImage} {o : MsOpened} (h : f.toWzImage m C im = .ok o) :
    o = ⟨im.entry.name, o.data, asUsize im.entry.size⟩ := by
  have key : ∀ d : Except Err Bytes, (d >>= fun data => (pure ⟨im.entry.name, data, asUsize im.entry.size⟩ : Except Err MsOpened)) = .ok o →
      o = ⟨im.entry.name, o.data, asUsize im.entry.size⟩ := by
    intro d hd
    cases d with
    | error e => cases hd
    | ok b => cases hd; rfl
  unfold MsFile.toWzImage at h
  dsimp only at h
  split at h
  · exact key _ h
  · split at h
    · exact key _ h
    · exact key (.error .panicUnwrap) h

theorem holds_some {buf bs : Bytes} {p : Nat} (h : Holds buf p bs) (hb : bs ≠ []) : buf ≠ [] := by
  obtain ⟨pre, post, e, _⟩ := h
  rintro rfl
  have := congrArg List.length e
  simp only [List.length_append, List.length_nil] at this
  exact hb (List.length_eq_zero_iff.mp (by omega))

theorem storedImage_some {e : Env} {name : List Char} {o s : Nat} {t : ATree} (h : StoredImage e name o s t) : e.buf ≠ [] := by
  cases h with
  | props kids q _ hp =>
    obtain ⟨bs, _, _, h, _⟩ := hp
    exact holds_some h (by simp)
  | text data _ hd _ h => exact holds_some h hd
  | script nb data _ _ h => exact holds_some h (by simp)

theorem msEnv_plain {m : Mode} {ks2 : Nat → Byte} {data : Bytes} (h : data ≠ []) : msEnv m ks2 data = plainReader m ks2 data := by
  unfold msEnv plainReader
  rw [if_neg h]

/-- one bound for all images -/
theorem msRead_all {m : Mode} {C : ChaCha} {ks2 : Nat → Byte} {f : MsFile} {all : List MsImage} (hp : f.parse m C = .ok all)
    {ims : List MsImage} {files : List (List Char × MsItem)}
    (hd : All2 (fun im (x : List Char × MsItem) => f.toWzImage m C im = .ok ⟨x.1, x.2.data, x.2.data.length⟩) ims files)
    (hs : ∀ x ∈ files, MsStored m ks2 x) : ∃ N, ∀ fuel, N ≤ fuel → ∀ pre, all = pre ++ ims →
      MsRead (msContent m C ks2 fuel f) (plainReader m ks2) (pre.length + 1) ims files := by
  induction hd with
  | nil => exact ⟨0, fun _ _ _ _ => .nil _⟩
  | @cons im x ims files h1 _ ih =>
    obtain ⟨N, hN⟩ := ih fun y hy => hs y (List.mem_cons_of_mem _ hy)
    obtain ⟨nm, x⟩ := x
    obtain ⟨k1, k2⟩ := hs _ List.mem_cons_self
    dsimp only at h1 k1 k2
    obtain ⟨M, hM⟩ := storedImage_reads (show (plainReader m ks2 x.data).buf.length < 2 ^ 63 from k1) (by decide) k2
    have hname : im.entry.name = nm := by
      exact (congrArg MsOpened.name (msOpened_ok h1)).symm
    refine ⟨N + M, fun fuel hf pre hpre => ?_⟩
    obtain ⟨fr, r1, r2⟩ := hM fuel (by omega)
    subst hname
    refine .cons _ im x fr ims files ?_ r2 ?_
    · show (f.parse m C >>= _) = _
      rw [hp]
      show (match all[pre.length]? with
        | none => Except.error (Err.lib "not a source")
        | some im => msImageForest m C ks2 fuel f im) = _
      rw [hpre, List.getElem?_append_right (Nat.le_refl _), Nat.sub_self]
      show msImageForest m C ks2 fuel f im = _
      unfold msImageForest
      rw [h1]
      show readImage (msEnv m ks2 x.data) fuel _ = _
      rw [msEnv_plain (show x.data ≠ [] from storedImage_some k2)]
      exact r1
    · have := hN fuel (by omega) (pre ++ [im]) (by rw [hpre]; simp)
      simpa using this

end Wz
