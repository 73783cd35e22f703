import Verif.Whole.Lemmas
import Verif.Node.HistoryLemmas

/-!
# Lemmas for C58: an archive in use
-/

set_option autoImplicit false

namespace Wz

open Spec

/-- node `j`, called `nm`, stands for a tree of the archive; its images may have been read or not -/
inductive Stands58 (e : Env) (fuel : Nat) (h : NHeap) : Nat → List Char → ATree → Prop
  | image (j : Nat) (c : NCell) (nm : List Char) (p : Bool) (o s : Nat) (t : ATree) (f : Forest) : h.cell j = some c → c.name = nm →
      c.kind = .image p (Encodable.encode (Src58.image nm o s)) → Looks58 e fuel nm o s t → readImage e fuel ⟨nm, o, s⟩ = .ok f →
      GoodImage e t f → (p = true → ImgAt h j f) → (p = false → c.kids = []) → Stands58 e fuel h j nm t
  | dir (j : Nat) (c : NCell) (nm : List Char) (p : Bool) (src : Nat) (kids : List (List Char × ATree)) (ids : List Char → Nat) :
      h.cell j = some c → c.name = nm → c.kind = .dir p true src → (∀ n, lastNamed kids n = none → h.at j n = none) →
      (∀ n t, lastNamed kids n = some t → h.at j n = some (ids n)) →
      (∀ n t, lastNamed kids n = some t → Stands58 e fuel h (ids n) n t) → Stands58 e fuel h j nm (.dir kids)

/-- the file is open and its children stand for the archive -/
def FileStands (e : Env) (fuel : Nat) (h : NHeap) (i : Nat) (arch : List (List Char × ATree)) : Prop :=
  (∃ c p s, h.cell i = some c ∧ c.kind = .file p s) ∧
  ∀ n, match lastNamed arch n with
    | none => h.at i n = none
    | some t => ∃ k, h.at i n = some k ∧ Stands58 e fuel h k n t

/-! ### a file that was just opened -/

theorem stands_fresh {e : Env} {fuel : Nat} {items : List (List Char × DNode)} {arch : List (List Char × ATree)}
    (R : ReadArchive e fuel items arch) : ∀ (n : List Char) (t : ATree), lastNamed arch n = some t → ∀ (h : NHeap) (j : Nat) (c : NCell)
      (ks : Forest), h.cell j = some c → c.name = n → Spec.Forest.shows (dirForest items) n = some (c.kind, ks) → TreeAt h j ks →
      Stands58 e fuel h j n t := by
  induction R with
  | nil => intro n t hl; cases hl
  | image name o s t' f rest rest' ht hr hg hR ih =>
    intro n t hl h j c ks hc hn hs T
    have hlast := readArchive_last hR n
    rw [lastNamed_cons] at hl
    rw [dirForest_image] at hs
    simp only [Spec.Forest.shows] at hs
    cases hq : lastNamed rest' n with
    | some u =>
      rw [hq] at hl
      cases hl
      refine ih n t hq h j c ks hc hn ?_ T
      rw [hq] at hlast
      cases t with
      | dir ks' => obtain ⟨_, _, h1, _⟩ := hlast; rw [h1] at hs ⊢; exact hs
      | image ps => obtain ⟨_, _, _, h1, _⟩ := hlast; rw [h1] at hs ⊢; exact hs
      | text ps => obtain ⟨_, _, _, h1, _⟩ := hlast; rw [h1] at hs ⊢; exact hs
      | script ps => obtain ⟨_, _, _, h1, _⟩ := hlast; rw [h1] at hs ⊢; exact hs
    | none =>
      rw [hq] at hl hlast
      dsimp only at hl hlast
      rw [hlast] at hs
      dsimp only at hs
      split at hl
      · rename_i e'
        subst e'
        rw [if_pos rfl] at hs
        cases hl
        injection hs with hs
        injection hs with h1 h2
        subst h2
        exact .image j c name false o s _ f hc hn h1.symm ht hr hg (by intro h; cases h) (fun _ => treeAt_childless T hc)
      · cases hl
  | dir name o s ks0 rest ks' rest' hk hR ih1 ih =>
    intro n t hl h j c ks hc hn hs T
    have hlast := readArchive_last hR n
    rw [lastNamed_cons] at hl
    rw [dirForest_dir] at hs
    simp only [Spec.Forest.shows] at hs
    cases hq : lastNamed rest' n with
    | some u =>
      rw [hq] at hl
      cases hl
      refine ih n t hq h j c ks hc hn ?_ T
      rw [hq] at hlast
      cases t with
      | dir ks' => obtain ⟨_, _, h1, _⟩ := hlast; rw [h1] at hs ⊢; exact hs
      | image ps => obtain ⟨_, _, _, h1, _⟩ := hlast; rw [h1] at hs ⊢; exact hs
      | text ps => obtain ⟨_, _, _, h1, _⟩ := hlast; rw [h1] at hs ⊢; exact hs
      | script ps => obtain ⟨_, _, _, h1, _⟩ := hlast; rw [h1] at hs ⊢; exact hs
    | none =>
      rw [hq] at hl hlast
      dsimp only at hl hlast
      rw [hlast] at hs
      dsimp only at hs
      split at hl
      · rename_i e'
        subst e'
        rw [if_pos rfl] at hs
        cases hl
        injection hs with hs
        injection hs with h1 h2
        subst h2
        have hstep := fun m => treeAt_step T m
        have hl1 := fun m => readArchive_last hk m
        refine .dir j c name false _ ks' (fun m => (h.at j m).getD 0) hc hn h1.symm ?_ ?_ ?_
        · intro m hm
          have a := hl1 m
          rw [hm] at a
          have b := hstep m
          dsimp only at a
          rw [a] at b
          exact b
        · intro m u hm
          have b := hstep m
          cases hsh : Spec.Forest.shows (dirForest ks0) m with
          | none =>
            have a := hl1 m
            rw [hm] at a
            cases u with
            | dir ks' => obtain ⟨_, _, h1, _⟩ := a; rw [h1] at hsh; cases hsh
            | image ps => obtain ⟨_, _, _, h1, _⟩ := a; rw [h1] at hsh; cases hsh
            | text ps => obtain ⟨_, _, _, h1, _⟩ := a; rw [h1] at hsh; cases hsh
            | script ps => obtain ⟨_, _, _, h1, _⟩ := a; rw [h1] at hsh; cases hsh
          | some x =>
            rw [hsh] at b
            obtain ⟨q, c', h1, _⟩ := b
            rw [h1]
            rfl
        · intro m u hm
          have b := hstep m
          cases hsh : Spec.Forest.shows (dirForest ks0) m with
          | none =>
            have a := hl1 m
            rw [hm] at a
            cases u with
            | dir ks' => obtain ⟨_, _, h1, _⟩ := a; rw [h1] at hsh; cases hsh
            | image ps => obtain ⟨_, _, _, h1, _⟩ := a; rw [h1] at hsh; cases hsh
            | text ps => obtain ⟨_, _, _, h1, _⟩ := a; rw [h1] at hsh; cases hsh
            | script ps => obtain ⟨_, _, _, h1, _⟩ := a; rw [h1] at hsh; cases hsh
          | some x =>
            obtain ⟨kk, fk⟩ := x
            rw [hsh] at b
            obtain ⟨q, c', h1, h2, h3, h4, h5⟩ := b
            rw [h1]
            exact ih1 m u hm h q c' fk h2 h3 (by rw [hsh, h4]) h5
      · cases hl

theorem fileStands_fresh {e : Env} {fuel : Nat} {items : List (List Char × DNode)} {arch : List (List Char × ATree)} {h : NHeap} {i : Nat}
    {c : NCell} {p : Bool} {s : Nat} (hc : h.cell i = some c) (hk : c.kind = .file p s) (R : ReadArchive e fuel items arch)
    (T : TreeAt h i (dirForest items)) : FileStands e fuel h i arch := by
  refine ⟨⟨c, p, s, hc, hk⟩, fun n => ?_⟩
  have b := treeAt_step T n
  have a := readArchive_last R n
  cases hl : lastNamed arch n with
  | none =>
    rw [hl] at a
    dsimp only at a
    rw [a] at b
    exact b
  | some t =>
    cases hsh : Spec.Forest.shows (dirForest items) n with
    | none =>
      rw [hl] at a
      cases t with
      | dir ks' => obtain ⟨_, _, h1, _⟩ := a; rw [h1] at hsh; cases hsh
      | image ps => obtain ⟨_, _, _, h1, _⟩ := a; rw [h1] at hsh; cases hsh
      | text ps => obtain ⟨_, _, _, h1, _⟩ := a; rw [h1] at hsh; cases hsh
      | script ps => obtain ⟨_, _, _, h1, _⟩ := a; rw [h1] at hsh; cases hsh
    | some x =>
      obtain ⟨kk, fk⟩ := x
      rw [hsh] at b
      obtain ⟨q, c', h1, h2, h3, h4, h5⟩ := b
      exact ⟨q, h1, stands_fresh R n t hl h q c' fk h2 h3 (by rw [hsh, h4]) h5⟩

/-! ### one node is read or forgotten -/

theorem foldPath_values {h g : NHeap} (hag : ∀ x c, h.cell x = some c → InImage c.kind → g.cell x = h.cell x) :
    ∀ (ns : List (List Char)) (j : Nat) (f : Forest), TreeAt h j f → Spec.Forest.All InImage f → g.cell j = h.cell j →
    foldPath g.at j ns = foldPath h.at j ns ∧ ∀ q, foldPath h.at j ns = some q → g.cell q = h.cell q
  | [], j, _, _, _, hj => ⟨rfl, fun q hq => by simp only [foldPath, Option.some.injEq] at hq; rw [← hq]; exact hj⟩
  | n :: ns, j, f, T, A, hj => by
    have b := treeAt_step T n
    simp only [foldPath]
    rw [at_cell hj]
    cases hsh : Spec.Forest.shows f n with
    | none =>
      rw [hsh] at b
      dsimp only at b
      rw [b]
      exact ⟨rfl, fun q hq => by cases hq⟩
    | some x =>
      obtain ⟨k, ks⟩ := x
      rw [hsh] at b
      obtain ⟨q, c, h1, h2, h3, h4, h5⟩ := b
      rw [h1]
      obtain ⟨a1, a2⟩ := all_shows58 A hsh
      exact foldPath_values hag ns q ks h5 a2 (hag q c h2 (by rw [h4]; exact a1))

theorem treeAt_values {h g : NHeap} (hag : ∀ x c, h.cell x = some c → InImage c.kind → g.cell x = h.cell x) {j : Nat} {f : Forest}
    (T : TreeAt h j f) (A : Spec.Forest.All InImage f) (hj : g.cell j = h.cell j) : TreeAt g j f := by
  intro ns hne
  obtain ⟨h1, h2⟩ := foldPath_values hag ns j f T A hj
  rw [h1, ← T ns hne]
  cases hf : foldPath h.at j ns with
  | none => rfl
  | some q => simp only [Option.map_some]; rw [h2 q hf]

theorem imgAt_values {h g : NHeap} (hag : ∀ x c, h.cell x = some c → InImage c.kind → g.cell x = h.cell x) {j : Nat} {f : Forest}
    (I : ImgAt h j f) (A : Spec.Forest.All InImage f) (hj : g.cell j = h.cell j) : ImgAt g j f := by
  refine ⟨fun hl => treeAt_values hag (I.1 hl) A hj, fun h1 h2 => ?_⟩
  obtain ⟨node, L⟩ := I.2 h1 h2
  exact ⟨node, linkNodes_values hag L A hj⟩

/-- what the calls do to the heap: a directory is marked, an image is read or forgotten -/
structure Step58 (e : Env) (fuel : Nat) (h g : NHeap) (k : Nat) : Prop where
  others : ∀ x, x < h.length → x ≠ k → g.cell x = h.cell x
  it : ∃ c c', h.cell k = some c ∧ g.cell k = some c' ∧ c'.name = c.name ∧
    ((∃ p src, c.kind = .dir p true src ∧ c'.kind = .dir true true src ∧ c'.kids = c.kids) ∨
     ∃ p p' src, c.kind = .image p src ∧ c'.kind = .image p' src ∧ (p' = false → c'.kids = []) ∧
      (p' = true → ∀ n o s f, src = Encodable.encode (Src58.image n o s) → readImage e fuel ⟨n, o, s⟩ = .ok f → ImgAt g k f))

theorem Step58.stands {e : Env} {fuel : Nat} {h g : NHeap} {k : Nat} (S : Step58 e fuel h g k) {j : Nat} {nm : List Char} {t : ATree}
    (H : Stands58 e fuel h j nm t) : Stands58 e fuel g j nm t := by
  obtain ⟨so, c0, c1, s1, s2, s3, s4⟩ := S
  induction H with
  | image j c nm p o s t f hc hn hk ht hr hg hp1 hp2 =>
    by_cases e' : j = k
    · subst e'
      rw [hc] at s1
      cases s1
      rcases s4 with ⟨_, _, hd, _⟩ | ⟨p0, p', src, h1, h2, h3, h4⟩
      · rw [hk] at hd; cases hd
      · rw [hk] at h1
        cases h1
        exact .image j c1 nm p' o s t f s2 (s3.trans hn) h2 ht hr hg (fun hp => h4 hp nm o s f rfl hr) h3
    · have hcj := so j (cell_lt hc) e'
      refine .image j c nm p o s t f (hcj.trans hc) hn hk ht hr hg (fun hp => ?_) hp2
      refine imgAt_values ?_ (hp1 hp) hg.values hcj
      intro x c' hx hI
      refine so x (cell_lt hx) ?_
      rintro rfl
      rw [s1] at hx
      cases hx
      rcases s4 with ⟨_, _, hd, _⟩ | ⟨_, _, _, hd, _⟩ <;> rw [hd] at hI <;> rcases hI with ⟨_, hI⟩ | ⟨_, hI⟩ <;> cases hI
  | dir j c nm p src kids ids hc hn hk h1 h2 _ ih =>
    by_cases e' : j = k
    · subst e'
      rw [hc] at s1
      cases s1
      rcases s4 with ⟨p0, src0, hd, hd', hks⟩ | ⟨_, _, _, hd, _⟩
      · have hat : ∀ n, g.at j n = h.at j n := by
          intro n
          unfold NHeap.at
          rw [s2, hc]
          dsimp only
          rw [hks]
        exact .dir j c1 nm true src0 kids ids s2 (s3.trans hn) hd' (fun n hl => by rw [hat]; exact h1 n hl)
          (fun n t hl => by rw [hat]; exact h2 n t hl) ih
      · rw [hk] at hd; cases hd
    · have hcj := so j (cell_lt hc) e'
      exact .dir j c nm p src kids ids (hcj.trans hc) hn hk (fun n hl => by rw [at_cell hcj]; exact h1 n hl)
        (fun n t hl => by rw [at_cell hcj]; exact h2 n t hl) ih

/-- everything still stands for what it stood for; files are as before; children still know their parents -/
def Keeps58 (e : Env) (fuel : Nat) (h g : NHeap) : Prop :=
  (∀ j nm t, Stands58 e fuel h j nm t → Stands58 e fuel g j nm t) ∧
  (∀ i c p s, h.cell i = some c → c.kind = .file p s → g.cell i = some c) ∧ (Consistent h → Consistent g)

theorem Keeps58.refl {e : Env} {fuel : Nat} {h : NHeap} : Keeps58 e fuel h h := ⟨fun _ _ _ H => H, fun _ _ _ _ hc _ => hc, id⟩

theorem Keeps58.trans {e : Env} {fuel : Nat} {h g k : NHeap} (a : Keeps58 e fuel h g) (b : Keeps58 e fuel g k) : Keeps58 e fuel h k :=
  ⟨fun j nm t H => b.1 j nm t (a.1 j nm t H), fun i c p s hc hk => b.2.1 i c p s (a.2.1 i c p s hc hk) hk,
    fun K => b.2.2 (a.2.2 K)⟩

theorem Step58.keeps {e : Env} {fuel : Nat} {h g : NHeap} {k : Nat} (S : Step58 e fuel h g k) (hK : Consistent h → Consistent g) :
    Keeps58 e fuel h g := by
  refine ⟨fun j nm t H => S.stands H, fun i c p s hc hk => ?_, hK⟩
  obtain ⟨so, c0, c1, s1, s2, s3, s4⟩ := S
  rw [so i (cell_lt hc) ?_, hc]
  rintro rfl
  rw [hc] at s1
  cases s1
  rcases s4 with ⟨_, _, hd, _⟩ | ⟨_, _, _, hd, _⟩ <;> rw [hk] at hd <;> cases hd

theorem Keeps58.file {e : Env} {fuel : Nat} {h g : NHeap} {i : Nat} {arch : List (List Char × ATree)} (K : Keeps58 e fuel h g)
    (F : FileStands e fuel h i arch) : FileStands e fuel g i arch := by
  obtain ⟨⟨c, p, s, hc, hk⟩, H⟩ := F
  have hg := K.2.1 i c p s hc hk
  refine ⟨⟨c, p, s, hg, hk⟩, fun n => ?_⟩
  have := H n
  cases hl : lastNamed arch n with
  | none =>
    rw [hl] at this
    dsimp only at this ⊢
    rw [at_cell (hg.trans hc.symm)]
    exact this
  | some t =>
    rw [hl] at this
    obtain ⟨k, h1, h2⟩ := this
    exact ⟨k, by rw [at_cell (hg.trans hc.symm)]; exact h1, K.1 _ _ _ h2⟩

/-! ### the calls -/

/-- reading a directory -/
theorem parse_dir58 {e : Env} {fuel : Nat} {content : Content} {h : NHeap} {j : Nat} {c : NCell} {p : Bool} {src : Nat}
    (hc : h.cell j = some c) (hk : c.kind = .dir p true src) :
    ∃ g, h.parse content j = (.ok (), g) ∧ Keeps58 e fuel h g ∧ ∀ n, g.at j n = h.at j n := by
  cases p with
  | true =>
    refine ⟨h, ?_, .refl, fun n => rfl⟩
    rw [parse_eq hc, hk]
    rfl
  | false =>
    have hg : h.parse content j = (.ok (), fresh h j { c with kind := .dir true true src } .nil) := by
      rw [parse_eq hc, hk]
      rfl
    have hcell : ∀ y, (fresh h j { c with kind := .dir true true src } .nil).cell y =
        if y = j then some { c with kind := .dir true true src } else h.cell y := by
      intro y
      have : fresh h j { c with kind := .dir true true src } .nil = h.set j (some { c with kind := .dir true true src }) := by
        unfold fresh; simp [Forest.cells]
      rw [this, cell_set (cell_lt hc)]
    have hcon : Consistent h → Consistent (fresh h j { c with kind := .dir true true src } .nil) := fun K =>
      consistent_fresh (f := .nil) (k := .dir true true src) K hc trivial
    refine ⟨_, hg, Step58.keeps (k := j) ⟨fun x _ hx => by rw [hcell, if_neg hx], ⟨c, { c with kind := .dir true true src }, hc, by rw [hcell, if_pos rfl], rfl,
      .inl ⟨false, src, hk, rfl, rfl⟩⟩⟩ hcon, fun n => ?_⟩
    unfold NHeap.at
    rw [hcell, if_pos rfl, hc]

/-- reading an image without links -/
theorem parse_image58 {e : Env} {fuel : Nat} {content : Content} {h : NHeap} {j : Nat} {c : NCell} {nm : List Char} {p : Bool} {o s : Nat}
    {f : Forest} (hcon : content (Encodable.encode (Src58.image nm o s)) = readImage e fuel ⟨nm, o, s⟩) (hc : h.cell j = some c)
    (hk : c.kind = .image p (Encodable.encode (Src58.image nm o s))) (hr : readImage e fuel ⟨nm, o, s⟩ = .ok f)
    (hl : Spec.Forest.All NoLink f) (h1 : p = true → ImgAt h j f) (h2 : p = false → c.kids = []) :
    ∃ g, h.parse content j = (.ok (), g) ∧ Keeps58 e fuel h g ∧ TreeAt g j f := by
  cases p with
  | true =>
    refine ⟨h, ?_, .refl, (h1 rfl).1 hl⟩
    rw [parse_eq hc, hk]
    rfl
  | false =>
    have hrd : ReadsFrom c.kind (Encodable.encode (Src58.image nm o s)) := by rw [hk]; exact .image _
    have hco := hcon.trans hr
    obtain ⟨g, hg, T⟩ := parse_reads_tree hc hrd hco (h2 rfl) hl
    refine ⟨g, hg, ?_, T⟩
    have hgc : g.cell j = some { c with kind := .image true (Encodable.encode (Src58.image nm o s)), kids := childInsertAll c.kids (f.roots h.length) } := by
      have := congrArg Prod.snd hg
      rw [parse_eq hc, parsedKind_plan hrd hco] at this
      dsimp only at this
      rw [uols_linkFree f _ hl] at this
      dsimp only [NHeap.resolveUols] at this
      rw [← this, fresh_old (cell_lt hc) (cell_lt hc), if_pos rfl, hk]
      rfl
    have hg2 : g = (h.parse content j).2 := by rw [hg]
    have hknow : Consistent h → Consistent g := by
      intro K
      have := congrArg Prod.snd hg
      rw [parse_eq hc, parsedKind_plan hrd hco] at this
      dsimp only at this
      rw [uols_linkFree f _ hl] at this
      dsimp only [NHeap.resolveUols] at this
      rw [← this]
      exact consistent_fresh K hc hl
    refine Step58.keeps (k := j) ⟨fun x hx hne => by rw [hg2]; exact parse_frame hx hne, ⟨c, _, hc, hgc, rfl,
      .inr ⟨false, true, _, hk, rfl, fun h => (by cases h), fun _ n' o' s' f' he hr' => ?_⟩⟩⟩ hknow
    have := Encodable.encode_injective he
    cases this
    rw [hr] at hr'
    cases hr'
    exact ⟨fun _ => T, fun _ _ => treeAt_nodes T hl⟩

/-- forgetting an image -/
theorem unparse_image58 {e : Env} {fuel : Nat} {h : NHeap} {j : Nat} {c : NCell} {p : Bool} {src : Nat}
    (hc : h.cell j = some c) (hk : c.kind = .image p src) : Keeps58 e fuel h (h.unparse j) :=
  Step58.keeps (k := j) ⟨fun x _ hne => unparse_frame hne, ⟨c, _, hc, unparse_cell hc (k := .image false src) (by rw [hk]; rfl), rfl,
    .inr ⟨p, false, src, hk, rfl, fun _ => rfl, fun h => (by cases h)⟩⟩⟩ fun K => consistent_unparse K j

/-! ### paths -/

/-- inside an image nothing is read -/
theorem fold_values {content : Content} {held : Nat} {h : NHeap} (hh : ∃ c, h.cell held = some c ∧ ¬ InImage c.kind) :
    ∀ (ns : List (List Char)) (j : Nat) (c : NCell) (f : Forest), h.cell j = some c → InImage c.kind → TreeAt h j f →
    Spec.Forest.All InImage f →
    NHeap.foldParsed content held h j ns = (match foldPath h.at j ns with
      | some q => .ok q
      | none => .error (.lib "NodeNotFound"), h)
  | [], j, _, _, _, _, _, _ => rfl
  | n :: ns, j, c, f, hc, hI, T, A => by
    have hj : j ≠ held := by
      rintro rfl
      obtain ⟨c', h1, h2⟩ := hh
      rw [hc] at h1
      cases h1
      exact h2 hI
    rw [foldParsed_cons, if_neg hj, parse_eq hc, quiet_plan (quiet_inImage hI)]
    dsimp only [foldPath]
    have b := treeAt_step T n
    cases hsh : Spec.Forest.shows f n with
    | none =>
      rw [hsh] at b
      dsimp only at b
      rw [b]
    | some x =>
      obtain ⟨k, ks⟩ := x
      rw [hsh] at b
      obtain ⟨q, c', h1, h2, h3, h4, h5⟩ := b
      rw [h1]
      obtain ⟨a1, a2⟩ := all_shows58 A hsh
      exact fold_values hh ns q c' ks h2 (by rw [h4]; exact a1) h5 a2

/-- inside an image a path leads to what is shown -/
theorem leads_values {content : Content} {f : Forest} {ns : List (List Char)} {r : Except Err (List Char × NKind)}
    (L : LeadsTo content f ns r) : Spec.Forest.All InImage f → r = match Spec.Forest.showsAt f ns with
      | some x => .ok x
      | none => .error (.lib "NodeNotFound") := by
  induction L with
  | missing f n ns hs =>
    intro _
    cases ns <;> simp [Spec.Forest.showsAt, hs]
  | found f n k ks hs => intro _; simp [Spec.Forest.showsAt, hs]
  | broken f n m ns k ks e hs hb =>
    intro A
    obtain ⟨a1, _⟩ := all_shows58 A hs
    cases hb with
    | read _ _ _ hr => exact absurd hr (inImage_noReads a1)
  | down f f' n m ns k ks r hs hb _ ih =>
    intro A
    obtain ⟨a1, a2⟩ := all_shows58 A hs
    have hf : f' = ks := by
      cases hb with
      | quiet => rfl
      | spent => rfl
      | read _ _ _ hr => exact absurd hr (inImage_noReads a1)
    rw [ih (by rw [hf]; exact a2), hf]
    simp only [Spec.Forest.showsAt, hs]

/-- what is seen at the end of a path that starts at a tree -/
def valFrom : ATree → List (List Char) → Option AVal
  | .dir ks, ns => if ns = [] then some .dir else arcAt ks ns
  | t, ns => if ns = [] then some .image else belowImage t ns

/-- no links on that path -/
def freeFrom : ATree → List (List Char) → Prop
  | .dir ks, ns => NoUolOn ks ns
  | .image ps, ns => ns = [] ∨ NoUol ps
  | _, _ => True

theorem arcAt_from (kids : List (List Char × ATree)) (n : List Char) (ns : List (List Char)) :
    arcAt kids (n :: ns) = match lastNamed kids n with
      | none => none
      | some t => valFrom t ns := by
  simp only [arcAt]
  cases lastNamed kids n with
  | none => rfl
  | some t => cases t <;> rfl

theorem noUolOn_from (kids : List (List Char × ATree)) (n : List Char) (ns : List (List Char)) :
    NoUolOn kids (n :: ns) ↔ match lastNamed kids n with
      | none => True
      | some t => freeFrom t ns := by
  simp only [NoUolOn]
  cases lastNamed kids n with
  | none => rfl
  | some t => cases t <;> rfl

/-- the result of a look-up -/
def Found58 (e : Env) (g : NHeap) (ns : List (List Char)) (v : Option AVal) (r : Except Err Nat) : Prop :=
  match v with
  | some v => ∃ j c, r = .ok j ∧ g.cell j = some c ∧ ns.getLast? = some c.name ∧ KindShows e c.kind v
  | none => r = .error (.lib "NodeNotFound")

theorem Found58.cons {e : Env} {g : NHeap} {n m : List Char} {ns : List (List Char)} {v : Option AVal}
    {r : Except Err Nat} (h : Found58 e g (m :: ns) v r) : Found58 e g (n :: m :: ns) v r := by
  cases v with
  | none => exact h
  | some v =>
    obtain ⟨j, c, h1, h2, h3, h4⟩ := h
    exact ⟨j, c, h1, h2, by rw [List.getLast?_cons_cons]; exact h3, h4⟩

/-- a path into an image that has been read -/
theorem fold_image58 {e : Env} {content : Content} {held : Nat} {g : NHeap} {k : Nat} {t : ATree} {f : Forest} {nm n : List Char} {ns : List (List Char)}
    (hh : ∃ c, g.cell held = some c ∧ ¬ InImage c.kind) (T : TreeAt g k f) (hg : GoodImage e t f) (hu : NoUolIn t) :
    Found58 e g (nm :: n :: ns) (belowImage t (n :: ns)) (match g.at k n with
      | none => ((.error (.lib "NodeNotFound") : Except Err Nat), g)
      | some j => NHeap.foldParsed content held g j ns).1 ∧
    (match g.at k n with
      | none => ((.error (.lib "NodeNotFound") : Except Err Nat), g)
      | some j => NHeap.foldParsed content held g j ns).2 = g := by
  have key : (match g.at k n with
      | none => ((.error (.lib "NodeNotFound") : Except Err Nat), g)
      | some j => NHeap.foldParsed content held g j ns) = (match foldPath g.at k (n :: ns) with
      | some q => .ok q
      | none => .error (.lib "NodeNotFound"), g) := by
    have b := treeAt_step T n
    dsimp only [foldPath]
    cases hsh : Spec.Forest.shows f n with
    | none =>
      rw [hsh] at b
      dsimp only at b
      rw [b]
    | some x =>
      obtain ⟨kk, ks⟩ := x
      rw [hsh] at b
      obtain ⟨q, c', h1, h2, h3, h4, h5⟩ := b
      rw [h1]
      obtain ⟨a1, a2⟩ := all_shows58 hg.values hsh
      exact fold_values hh ns q c' ks h2 (by rw [h4]; exact a1) h5 a2
  rw [key]
  refine ⟨?_, rfl⟩
  obtain ⟨r, L, O⟩ := hg.leads content (n :: ns) (by simp) hu
  have hr := leads_values L hg.values
  have hT := T (n :: ns) (by simp)
  apply Found58.cons
  cases hs : Spec.Forest.showsAt f (n :: ns) with
  | none =>
    rw [hs] at hr hT
    dsimp only at hr
    subst hr
    cases hf : foldPath g.at k (n :: ns) with
    | some q => rw [hf] at hT; cases hT
    | none =>
      cases hv : belowImage t (n :: ns) with
      | none => rfl
      | some v => rw [hv] at O; obtain ⟨_, _, h1, _⟩ := O; cases h1
  | some x =>
    rw [hs] at hr hT
    dsimp only at hr
    subst hr
    cases hf : foldPath g.at k (n :: ns) with
    | none => rw [hf] at hT; cases hT
    | some q =>
      rw [hf] at hT
      simp only [Option.map_some, Option.some.injEq] at hT
      cases hv : belowImage t (n :: ns) with
      | none => rw [hv] at O; cases O
      | some v =>
        rw [hv] at O
        obtain ⟨nm', k', h1, h2, h3⟩ := O
        cases h1
        cases hc : g.cell q with
        | none => rw [hc] at hT; cases hT
        | some c =>
          rw [hc] at hT
          simp only [Option.map_some, Option.some.injEq, Prod.mk.injEq] at hT
          exact ⟨q, c, rfl, hc, by rw [h2, hT.1], by rw [hT.2]; exact h3⟩

theorem fold_stands {e : Env} {fuel : Nat} {content : Content} {held : Nat}
    (hcon : ∀ n o s, content (Encodable.encode (Src58.image n o s)) = readImage e fuel ⟨n, o, s⟩) :
    ∀ (ns : List (List Char)) (h : NHeap) (k : Nat) (nm : List Char) (t : ATree), (∃ c p s, h.cell held = some c ∧ c.kind = .file p s) →
    Stands58 e fuel h k nm t → freeFrom t ns →
    Keeps58 e fuel h (NHeap.foldParsed content held h k ns).2 ∧
      Found58 e (NHeap.foldParsed content held h k ns).2 (nm :: ns) (valFrom t ns) (NHeap.foldParsed content held h k ns).1
  | [], h, k, nm, t, _, H, _ => by
    refine ⟨.refl, ?_⟩
    cases H with
    | image _ c _ p o s _ f hc hn hk ht =>
      have : valFrom t [] = some .image := by
        cases t with
        | dir ks => exact nomatch ht.stored
        | _ => rfl
      rw [this]
      exact ⟨k, c, rfl, hc, by rw [hn]; rfl, by rw [hk]; exact .image _ _⟩
    | dir _ c _ p src kids ids hc hn hk => exact ⟨k, c, rfl, hc, by rw [hn]; rfl, by rw [hk]; exact .dir _ _ _⟩
  | n :: ns, h, k, nm, t, hh, H, hu => by
    obtain ⟨ch, ph, sh, hch, hkh⟩ := hh
    cases H with
    | image _ c _ p o s _ f hc hn hk ht hr hg hp1 hp2 =>
      have hne : k ≠ held := by
        rintro rfl
        rw [hc] at hch
        cases hch
        rw [hk] at hkh
        cases hkh
      have hu' : NoUolIn t := by
        cases t with
        | dir ks => exact nomatch ht.stored
        | image ps => exact hu.resolve_left (by simp)
        | _ => trivial
      obtain ⟨g, h1, h2, h3⟩ := parse_image58 (hcon nm o s) hc hk hr (hg.free hu') hp1 hp2
      have hstep : NHeap.foldParsed content held h k (n :: ns) = match g.at k n with
          | none => (.error (.lib "NodeNotFound"), g)
          | some q => NHeap.foldParsed content held g q ns := by
        rw [foldParsed_cons, if_neg hne, h1]
        dsimp only
        cases g.at k n <;> rfl
      have hv : valFrom t (n :: ns) = belowImage t (n :: ns) := by
        cases t with
        | dir ks => exact nomatch ht.stored
        | _ => rfl
      rw [hstep, hv]
      obtain ⟨a, b⟩ := fold_image58 (content := content) (nm := nm) (n := n) (ns := ns) ⟨ch, h2.2.1 held ch ph sh hch hkh, by
        rw [hkh]; rintro (⟨_, h⟩ | ⟨_, h⟩) <;> cases h⟩ h3 hg hu'
      rw [b]
      exact ⟨h2, a⟩
    | dir _ c _ p src kids ids hc hn hk h1 h2 h3 =>
      have hne : k ≠ held := by
        rintro rfl
        rw [hc] at hch
        cases hch
        rw [hk] at hkh
        cases hkh
      obtain ⟨g, g1, g2, g3⟩ := parse_dir58 (e := e) (fuel := fuel) (content := content) hc hk
      have hstep : NHeap.foldParsed content held h k (n :: ns) = match h.at k n with
          | none => (.error (.lib "NodeNotFound"), g)
          | some q => NHeap.foldParsed content held g q ns := by
        rw [foldParsed_cons, if_neg hne, g1]
        dsimp only
        rw [g3]
        cases h.at k n <;> rfl
      have hv : valFrom (.dir kids) (n :: ns) = arcAt kids (n :: ns) := rfl
      have hf : NoUolOn kids (n :: ns) := hu
      rw [noUolOn_from] at hf
      rw [hstep, hv, arcAt_from]
      cases hl : lastNamed kids n with
      | none =>
        rw [h1 n hl]
        exact ⟨g2, rfl⟩
      | some u =>
        rw [hl] at hf
        rw [h2 n u hl]
        obtain ⟨r1, r2⟩ := fold_stands hcon ns g (ids n) n u ⟨ch, ph, sh, g2.2.1 held ch ph sh hch hkh, hkh⟩ (g2.1 _ _ _ (h3 n u hl)) hf
        exact ⟨g2.trans r1, r2.cons⟩

/-- **a look-up in an open archive** -/
theorem find_stands {e : Env} {fuel : Nat} {content : Content} {h : NHeap} {i : Nat} {arch : List (List Char × ATree)}
    (hcon : ∀ n o s, content (Encodable.encode (Src58.image n o s)) = readImage e fuel ⟨n, o, s⟩) (F : FileStands e fuel h i arch)
    {path : List Char} {ns : List (List Char)} (hp : Pieces path ns) (hu : NoUolOn arch ns) :
    Keeps58 e fuel h (h.atPathParsed content i path).2 ∧
      Found58 e (h.atPathParsed content i path).2 ns (arcAt arch ns) (h.atPathParsed content i path).1 := by
  have hs := pieces_iff.1 hp
  unfold NHeap.atPathParsed
  rw [hs]
  cases ns with
  | nil => exact absurd rfl hp.some
  | cons n ns =>
    dsimp only
    have := F.2 n
    rw [noUolOn_from] at hu
    rw [arcAt_from]
    cases hl : lastNamed arch n with
    | none =>
      rw [hl] at this
      dsimp only at this
      rw [this]
      exact ⟨.refl, rfl⟩
    | some t =>
      rw [hl] at this hu
      obtain ⟨k, h1, h2⟩ := this
      rw [h1]
      exact fold_stands hcon ns h k n t F.1 h2 hu

/-- the same result: what is found stands for something, or is a value -/
theorem foldParsed_append {content : Content} {held : Nat} (x : List Char) : ∀ (ns : List (List Char)) (h : NHeap) (k : Nat),
    NHeap.foldParsed content held h k (ns ++ [x]) = match NHeap.foldParsed content held h k ns with
      | (.ok j, g) => NHeap.foldParsed content held g j [x]
      | (.error e, g) => (.error e, g)
  | [], _, _ => rfl
  | n :: ns, h, k => by
    rw [List.cons_append, foldParsed_cons, foldParsed_cons]
    by_cases e' : k = held
    · rw [if_pos e', if_pos e']
    · rw [if_neg e', if_neg e']
      cases h.parse content k with
      | mk r g =>
        cases r with
        | error e => rfl
        | ok u =>
          dsimp only
          cases g.at k n with
          | none => rfl
          | some q => exact foldParsed_append x ns g q

theorem keeps_load {e : Env} {fuel : Nat} {content : Content} {h g : NHeap} {i j : Nat} {arch : List (List Char × ATree)}
    (hcon : ∀ n o s, content (Encodable.encode (Src58.image n o s)) = readImage e fuel ⟨n, o, s⟩) (F : FileStands e fuel h i arch)
    {path : List Char} {ns : List (List Char)} (hp : Pieces path ns) (hu : NoUolOn arch (ns ++ [[]]))
    (hf : h.atPathParsed content i path = (.ok j, g)) (hj : j ≠ i) : Keeps58 e fuel h (g.parse content j).2 := by
  have hs := pieces_iff.1 hp
  unfold NHeap.atPathParsed at hf
  rw [hs] at hf
  cases ns with
  | nil => exact absurd rfl hp.some
  | cons n ns =>
    dsimp only at hf
    have := F.2 n
    rw [List.cons_append, noUolOn_from] at hu
    cases hl : lastNamed arch n with
    | none =>
      rw [hl] at this
      dsimp only at this
      rw [this] at hf
      cases hf
    | some t =>
      rw [hl] at this hu
      obtain ⟨k, h1, h2⟩ := this
      rw [h1] at hf
      dsimp only at hf
      have hk := (fold_stands hcon (ns ++ [[]]) h k n t F.1 h2 hu).1
      rw [foldParsed_append, hf] at hk
      dsimp only at hk
      rw [foldParsed_cons, if_neg hj] at hk
      cases hq : g.parse content j with
      | mk r g' =>
        rw [hq] at hk
        cases r with
        | error e => exact hk
        | ok u =>
          dsimp only at hk ⊢
          cases ha : g'.at j [] with
          | none => rw [ha] at hk; exact hk
          | some q => rw [ha] at hk; exact hk

theorem noUolOn_prefix (x : List Char) : ∀ (ns : List (List Char)) (arch : List (List Char × ATree)), NoUolOn arch (ns ++ [x]) → NoUolOn arch ns
  | [], _, _ => trivial
  | n :: ns, arch, h => by
    rw [List.cons_append, noUolOn_from] at h
    rw [noUolOn_from]
    cases hl : lastNamed arch n with
    | none => trivial
    | some t =>
      rw [hl] at h
      cases t with
      | dir ks => exact noUolOn_prefix x ns ks h
      | image ps => exact .inr (h.resolve_left (by simp))
      | text d => trivial
      | script d => trivial

/-- **any history** -/
theorem run_keeps {e : Env} {fuel : Nat} {content : Content} {i : Nat} {arch : List (List Char × ATree)}
    (hcon : ∀ n o s, content (Encodable.encode (Src58.image n o s)) = readImage e fuel ⟨n, o, s⟩) :
    ∀ (ops : List ArcOp) (h : NHeap), FileStands e fuel h i arch → (∀ op ∈ ops, AllowedArc arch op) →
    Keeps58 e fuel h (runArc content i h ops)
  | [], h, F, _ => .refl
  | .find p :: ops, h, F, ha => by
    obtain ⟨ns, h1, h2⟩ := ha _ (List.mem_cons_self ..)
    have K := (find_stands hcon F h1 h2).1
    exact K.trans (run_keeps hcon ops _ (K.file F) fun op ho => ha op (List.mem_cons_of_mem _ ho))
  | .load p :: ops, h, F, ha => by
    obtain ⟨ns, h1, h2⟩ := ha _ (List.mem_cons_self ..)
    have hr := find_stands hcon F h1 (noUolOn_prefix _ _ _ h2)
    simp only [runArc]
    cases hq : h.atPathParsed content i p with
    | mk r g =>
      rw [hq] at hr
      cases r with
      | error er => exact hr.1.trans (run_keeps hcon ops _ (hr.1.file F) fun op ho => ha op (List.mem_cons_of_mem _ ho))
      | ok j =>
        have hj : j ≠ i := by
          rintro rfl
          obtain ⟨c, p, s, hc, hk⟩ := (hr.1.file F).1
          have hf := hr.2
          cases hv : arcAt arch ns with
          | none => rw [hv] at hf; cases hf
          | some v =>
            rw [hv] at hf
            obtain ⟨j', c', e1, e2, _, e3⟩ := hf
            cases e1
            dsimp only at hc e2
            rw [hc] at e2
            cases e2
            rw [hk] at e3
            cases e3
        have K := keeps_load hcon F h1 h2 hq hj
        exact K.trans (run_keeps hcon ops _ (K.file F) fun op ho => ha op (List.mem_cons_of_mem _ ho))
  | .close p :: ops, h, F, ha => by
    obtain ⟨ns, h1, h2, h3⟩ := ha _ (List.mem_cons_self ..)
    have hr := find_stands hcon F h1 h2
    simp only [runArc]
    cases hq : h.atPathParsed content i p with
    | mk r g =>
      rw [hq] at hr
      have hF := hr.1.file F
      cases r with
      | error er => exact hr.1.trans (run_keeps hcon ops _ hF fun op ho => ha op (List.mem_cons_of_mem _ ho))
      | ok j =>
        suffices K : Keeps58 e fuel g (g.unparse j) from
          hr.1.trans (K.trans (run_keeps hcon ops _ (K.file hF) fun op ho => ha op (List.mem_cons_of_mem _ ho)))
        have hf := hr.2
        cases hv : arcAt arch ns with
        | none => rw [hv] at hf; cases hf
        | some v =>
          rw [hv] at hf h3
          obtain ⟨j', c', e1, e2, _, e3⟩ := hf
          cases e1
          dsimp only at e2 hF
          have hno : ∀ v, c'.kind = .other v → Keeps58 e fuel g (g.unparse j) := by
            intro v hk
            have : g.unparse j = g := by
              unfold NHeap.unparse
              rw [e2]
              dsimp only
              rw [hk]
              rfl
            rw [this]
            exact .refl
          generalize hk : c'.kind = kk at e3
          cases e3 with
          | dir => exact absurd rfl h3
          | image p src => exact unparse_image58 e2 hk
          | prop v => exact hno v hk
          | script v => exact hno v hk

theorem run_stands {e : Env} {fuel : Nat} {content : Content} {i : Nat} {arch : List (List Char × ATree)}
    (hcon : ∀ n o s, content (Encodable.encode (Src58.image n o s)) = readImage e fuel ⟨n, o, s⟩)
    (ops : List ArcOp) (h : NHeap) (F : FileStands e fuel h i arch) (ha : ∀ op ∈ ops, AllowedArc arch op) :
    FileStands e fuel (runArc content i h ops) i arch :=
  (run_keeps hcon ops h F ha).file F

end Wz
