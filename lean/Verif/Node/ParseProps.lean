import Verif.Node.ParseLemmas
import Verif.Directory.Lemmas

/-!
# C26: parse and unparse
-/

set_option autoImplicit false

namespace Wz.Props

open Wz Wz.Spec

/-! ## parsing again -/

/-- A parsed file, directory, archive or image: `parse` says "ok" and changes nothing. -/
theorem C26_parse_again {h : NHeap} {content : Content} {i : Nat} (hp : Parsed h i) :
    h.parse content i = (.ok (), h) := by
  obtain ⟨c, hc, hk⟩ := hp
  rw [parse_eq hc]
  rcases hk with ⟨sp, s, hk⟩ | ⟨s, hk⟩ | ⟨s, hk⟩ | ⟨s, hk⟩ <;> rw [hk] <;> rfl

/-- Values and links: nothing to parse. -/
theorem C26_parse_value {h : NHeap} {content : Content} {i : Nat} {c : NCell} (hc : h.cell i = some c)
    (hk : InImage c.kind) : h.parse content i = (.ok (), h) ∧ h.unparse i = h := by
  unfold NHeap.unparse
  rw [parse_eq hc, hc]
  dsimp only
  rcases hk with ⟨v, hk⟩ | ⟨v, hk⟩ <;> rw [hk] <;> exact ⟨rfl, rfl⟩

/-! ## a failed parse -/

/-- An error: nothing has changed, whatever the node is. -/
theorem C26_failed {h g : NHeap} {content : Content} {i : Nat} {e : Err} (hr : h.parse content i = (.error e, g))
    (he : e.isPanic = false) : g = h := by
  cases hc : h.cell i with
  | none => unfold NHeap.parse at hr; rw [hc] at hr; cases hr
  | some c =>
    rw [parse_eq hc] at hr
    split at hr
    · cases hr
    · cases hr; rfl
    · split at hr
      · rename_i e' he'
        have := resolveUols_error _ _ he'
        cases hr
        subst this
        cases he
      · cases hr

/-- The error is that of the reader, and every unparsed node reports it. -/
theorem C26_fails {h : NHeap} {content : Content} {i s : Nat} {c : NCell} {e : Err} (hc : h.cell i = some c)
    (hk : ReadsFrom c.kind s) (hs : content s = .error e) : h.parse content i = (.error e, h) := by
  rw [parse_eq hc]
  cases h' : c.kind <;> rw [h'] at hk <;> cases hk <;> simp [NKind.plan, hs, Except.map]

/-! ## a successful parse -/

/-- Without links: every path shows what the reader gave, the last of several nodes with one name. -/
theorem C26_parse_shows {h : NHeap} {content : Content} {i s : Nat} {c : NCell} {f : Forest}
    (hc : h.cell i = some c) (hk : ReadsFrom c.kind s) (hkids : c.kids = []) (hs : content s = .ok f)
    (hl : Spec.Forest.All NoLink f) :
    (h.parse content i).1 = .ok () ∧ Parsed (h.parse content i).2 i ∧
    (∀ path, valueAt (h.parse content i).2 i path = (Spec.Forest.showsAt f (splitSlash path)).map some) ∧
    ∀ x, x < h.length → x ≠ i → (h.parse content i).2.cell x = h.cell x := by
  obtain ⟨k', hp, hk'⟩ := plan_reads hk hs
  have hi := cell_lt hc
  have hframe : ∀ x, x < h.length → x ≠ i → (h.parse content i).2.cell x = h.cell x := fun x hx hxi => parse_frame hx hxi
  have htop : h.parse content i = (.ok (), fresh h i { c with kind := k', kids := childInsertAll [] (f.roots h.length) } f) := by
    rw [parse_eq hc, hp]
    dsimp only
    rw [uols_linkFree f _ hl, hkids]
    rfl
  rw [htop] at hframe ⊢
  have hcell : (fresh h i { c with kind := k', kids := childInsertAll [] (f.roots h.length) } f).cell i =
      some { c with kind := k', kids := childInsertAll [] (f.roots h.length) } := by
    rw [fresh_old hi hi, if_pos rfl]
  refine ⟨rfl, ⟨_, hcell, hk'⟩, ?_, hframe⟩
  intro path
  unfold valueAt
  rw [atPath_fold]
  exact placed_path (splitSlash path) i h.length f (by
    intro e
    exact splitSlash_ne path e) ⟨_, hcell, rfl⟩ (placed_fresh f)

/-- With links too: parsing two nodes of one name and kind that read the same gives the same result and, if it
is not a panic, the same tree. -/
theorem C26_parse_same {h1 h2 : NHeap} {content : Content} {i1 i2 s : Nat} {c1 c2 : NCell}
    (hc1 : h1.cell i1 = some c1) (hc2 : h2.cell i2 = some c2) (hn : c2.name = c1.name) (hk : c2.kind = c1.kind)
    (hk1 : c1.kids = []) (hk2 : c2.kids = []) (hr : ReadsFrom c1.kind s) :
    (h1.parse content i1).1 = (h2.parse content i2).1 ∧
    ((h1.parse content i1).1 = .ok () → Parsed (h1.parse content i1).2 i1 ∧ Parsed (h2.parse content i2).2 i2 ∧
      LooksLike (h1.parse content i1).2 i1 (h2.parse content i2).2 i2) := by
  cases hs : content s with
  | error e =>
    have hr2 : ReadsFrom c2.kind s := hk ▸ hr
    rw [C26_fails hc1 hr hs, C26_fails hc2 hr2 hs]
    exact ⟨rfl, fun h => by cases h⟩
  | ok f =>
    obtain ⟨k', hp, hk'⟩ := plan_reads hr hs
    obtain ⟨h3, h4⟩ := parse_iso hc1 hc2 hn hk hk1 hk2 hp
    refine ⟨h3, fun hok => ⟨?_, ?_, (h4 hok).1.looks⟩⟩
    · have := parse_top hc1 hp
      cases hcc : (h1.parse content i1).2.cell i1 with
      | none => rw [hcc] at this; cases this
      | some cc =>
        rw [hcc] at this
        have : cc.kind = k' := congrArg (fun t => t.2.1) (Option.some.inj this)
        exact ⟨cc, hcc, by rw [this]; exact hk'⟩
    · have := parse_top hc2 (by rw [hk]; exact hp)
      cases hcc : (h2.parse content i2).2.cell i2 with
      | none => rw [hcc] at this; cases this
      | some cc =>
        rw [hcc] at this
        have : cc.kind = k' := congrArg (fun t => t.2.1) (Option.some.inj this)
        exact ⟨cc, hcc, by rw [this]; exact hk'⟩

/-! ## forgetting -/

/-- `unparse` of a directory, a file or an image: unparsed, no children, nothing else changed. -/
theorem C26_unparse {h : NHeap} {i : Nat} {c : NCell} (hc : h.cell i = some c)
    (hk : (∃ p sp s, c.kind = .dir p sp s) ∨ (∃ p s, c.kind = .file p s) ∨ ∃ p s, c.kind = .image p s) :
    Unparsed (h.unparse i) i ∧ Childless (h.unparse i) i ∧
    (∃ c', (h.unparse i).cell i = some c' ∧ c'.name = c.name ∧ c'.parent = c.parent) ∧
    ∀ x, x ≠ i → (h.unparse i).cell x = h.cell x := by
  rcases hk with ⟨p, sp, s, hk⟩ | ⟨p, s, hk⟩ | ⟨p, s, hk⟩
  · have hu := unparse_cell hc (k := .dir false sp s) (by rw [hk]; rfl)
    exact ⟨⟨_, hu, .inl ⟨_, _, rfl⟩⟩, ⟨_, hu, rfl⟩, ⟨_, hu, rfl, rfl⟩, fun x hx => unparse_frame hx⟩
  · have hu := unparse_cell hc (k := .file false s) (by rw [hk]; rfl)
    exact ⟨⟨_, hu, .inr (.inl ⟨_, rfl⟩)⟩, ⟨_, hu, rfl⟩, ⟨_, hu, rfl, rfl⟩, fun x hx => unparse_frame hx⟩
  · have hu := unparse_cell hc (k := .image false s) (by rw [hk]; rfl)
    exact ⟨⟨_, hu, .inr (.inr (.inr (.inl ⟨_, rfl⟩)))⟩, ⟨_, hu, rfl⟩, ⟨_, hu, rfl, rfl⟩, fun x hx => unparse_frame hx⟩

/-- `unparse` of an archive or of one of its unparsed images does nothing: an archive keeps its children. -/
theorem C26_unparse_archive {h : NHeap} {i : Nat} {c : NCell} (hc : h.cell i = some c)
    (hk : (∃ p s, c.kind = .msFile p s) ∨ ∃ s, c.kind = .msImage s) : h.unparse i = h := by
  unfold NHeap.unparse
  rw [hc]
  dsimp only
  rcases hk with ⟨p, s, hk⟩ | ⟨s, hk⟩ <;> rw [hk] <;> rfl

/-- A file or an image, parsed, forgotten and parsed again: the same result and the same tree. -/
theorem C26_restores {h : NHeap} {content : Content} {i s : Nat} {c : NCell} (hc : h.cell i = some c)
    (hk : c.kind = .file false s ∨ c.kind = .image false s) (hkids : c.kids = [])
    (hok : (h.parse content i).1 = .ok ()) :
    (((h.parse content i).2.unparse i).parse content i).1 = .ok () ∧
    LooksLike (h.parse content i).2 i (((h.parse content i).2.unparse i).parse content i).2 i := by
  have hr : ReadsFrom c.kind s := by rcases hk with hk | hk <;> rw [hk] <;> constructor
  cases hs : content s with
  | error e => rw [C26_fails hc hr hs] at hok; cases hok
  | ok f =>
    have hp : ∃ k', c.kind.plan content = some (.ok (f, k')) ∧ k'.unparsed = some c.kind := by
      rcases hk with hk | hk
      · exact ⟨.file true s, by rw [hk]; simp [NKind.plan, hs, Except.map], by rw [hk]; rfl⟩
      · exact ⟨.image true s, by rw [hk]; simp [NKind.plan, hs, Except.map], by rw [hk]; rfl⟩
    obtain ⟨k', hp, hu⟩ := hp
    have ht := parse_top hc hp
    cases hcc : (h.parse content i).2.cell i with
    | none => rw [hcc] at ht; cases ht
    | some cc =>
      rw [hcc] at ht
      have ht := Option.some.inj ht
      have h1 : cc.name = c.name := congrArg (fun t => t.1) ht
      have h2 : cc.kind = k' := congrArg (fun t => t.2.1) ht
      have hun := unparse_cell hcc (k := c.kind) (by rw [h2, hu])
      have := C26_parse_same (content := content) hc hun h1 rfl hkids rfl hr
      exact ⟨by rw [← this.1, hok], (this.2 hok).2.2⟩

/-- A directory does not come back: forgotten and parsed again it has no children, whatever it held, and the
call still says "ok". -/
theorem C26_directory_counterexample {h : NHeap} {content : Content} {i s : Nat} {c : NCell} (hc : h.cell i = some c)
    (hk : c.kind = .dir false false s) (hok : (h.parse content i).1 = .ok ()) :
    (((h.parse content i).2.unparse i).parse content i).1 = .ok () ∧
    Parsed (((h.parse content i).2.unparse i).parse content i).2 i ∧
    Childless (((h.parse content i).2.unparse i).parse content i).2 i := by
  cases hs : content s with
  | error e =>
    rw [C26_fails hc (by rw [hk]; exact .dir s) hs] at hok
    cases hok
  | ok f =>
    have hp : c.kind.plan content = some (.ok (f, .dir true true s)) := by
      rw [hk]; simp [NKind.plan, hs, Except.map]
    have ht := parse_top hc hp
    cases hcc : (h.parse content i).2.cell i with
    | none => rw [hcc] at ht; cases ht
    | some cc =>
      rw [hcc] at ht
      have h2 : cc.kind = .dir true true s := congrArg (fun t => t.2.1) (Option.some.inj ht)
      have hun := unparse_cell hcc (k := .dir false true s) (by rw [h2]; rfl)
      have hl := cell_lt hun
      have hr : ((h.parse content i).2.unparse i).parse content i = (.ok (), fresh ((h.parse content i).2.unparse i) i
          { cc with kind := .dir true true s, kids := [] } .nil) := by
        rw [parse_eq hun]
        rfl
      rw [hr]
      have hcell : (fresh ((h.parse content i).2.unparse i) i { cc with kind := .dir true true s, kids := [] } .nil).cell i =
          some { cc with kind := .dir true true s, kids := [] } := by
        rw [fresh_old hl hl, if_pos rfl]
      exact ⟨rfl, ⟨_, hcell, .inl ⟨_, _, rfl⟩⟩, ⟨_, hcell, rfl⟩⟩

/-- The reason, in the reader of directories: after the first success it gives no children any more, whatever
was in the directory. -/
theorem C26_directory_spent {x : DirCtx} {loopFuel fuel loopFuel' fuel' : Nat} {d d' : Dir}
    {ns : List (List Char × DNode)} (hr : resolveDirSt x loopFuel fuel d = .ok (ns, d')) :
    resolveDir x loopFuel' (fuel' + 1) d' = .ok [] := by
  unfold resolveDirSt at hr
  split at hr
  · rename_i hb
    cases hr
    unfold resolveDir
    rw [if_pos hb]
  · rename_i hb
    split at hr
    · cases hr
    · cases hr
      unfold resolveDir
      rw [if_neg hb]
      rfl

/-! ## histories -/

/-- `i` is an image of this name and source -/
def Fresh26 (name : List Char) (src : Nat) (h : NHeap) (i : Nat) : Prop :=
  ∃ c, h.cell i = some c ∧ c.name = name ∧ c.kind = .image false src ∧ c.kids = []

theorem cells_all (P : NKind → Prop) : ∀ (f : Forest) (p b : Nat) (live : Bool), Spec.Forest.All P f →
    ∀ c, some c ∈ f.cells p b live → P c.kind
  | .nil, _, _, _, _, c, hc => by cases hc
  | .node n k ks rest, p, b, live, ⟨h1, h2, h3⟩, c, hc => by
    simp only [Forest.cells, List.mem_cons, List.mem_append] at hc
    rcases hc with hc | hc | hc
    · split at hc
      · cases hc; exact h1
      · cases hc
    · exact cells_all P ks _ _ _ h2 c hc
    · exact cells_all P rest _ _ _ h3 c hc

/-- `i` looks like the image alone and stays so -/
structure Loaded (g0 h : NHeap) (i : Nat) (σ : Nat → Nat) (D : Nat → Prop) : Prop where
  iso : Iso σ D 0 i g0 h
  bound : ∀ x, D x → σ x < h.length
  inner : ∀ x c, x ≠ 0 → g0.cell x = some c → InImage c.kind

theorem Loaded.frame {g0 h g : NHeap} {i : Nat} {σ : Nat → Nat} {D : Nat → Prop} (L : Loaded g0 h i σ D)
    (hl : h.length ≤ g.length) (hf : ∀ x, D x → g.cell (σ x) = h.cell (σ x)) : Loaded g0 g i σ D := by
  refine ⟨⟨L.iso.inj, L.iso.top, L.iso.topσ, ?_, ?_, L.iso.kids, L.iso.parents⟩, ?_, L.inner⟩
  · intro x hx hx1; rw [hf x hx]; exact L.iso.cells x hx hx1
  · obtain ⟨c1, c2, h1, h2, h3⟩ := L.iso.topcell
    have := hf 0 L.iso.top
    rw [L.iso.topσ] at this
    exact ⟨c1, c2, h1, by rw [this]; exact h2, h3⟩
  · intro x hx; have := L.bound x hx; omega

/-- a call for another node -/
theorem Loaded.other {g0 h : NHeap} {content : Content} {i j : Nat} {σ : Nat → Nat} {D : Nat → Prop}
    (L : Loaded g0 h i σ D) (hj : j ≠ i) :
    Loaded g0 (h.parse content j).2 i σ D ∧ Loaded g0 (h.unparse j) i σ D := by
  by_cases hx : ∃ x, D x ∧ σ x = j
  · obtain ⟨x, hx, hxj⟩ := hx
    have hx0 : x ≠ 0 := by
      intro e
      subst e
      rw [L.iso.topσ] at hxj
      exact hj hxj.symm
    have hc := L.iso.cells x hx hx0
    rw [hxj] at hc
    cases hg : g0.cell x with
    | none =>
      rw [hg] at hc
      have h1 : h.parse content j = (.ok (), h) := by unfold NHeap.parse; rw [hc]; rfl
      have h2 : h.unparse j = h := by unfold NHeap.unparse; rw [hc]; rfl
      rw [h1, h2]; exact ⟨L, L⟩
    | some c =>
      rw [hg] at hc
      have hk : InImage c.kind := L.inner x c hx0 hg
      obtain ⟨h1, h2⟩ := C26_parse_value (content := content) (h := h) (i := j) (c := c.ren σ) hc hk
      rw [h1, h2]; exact ⟨L, L⟩
  · have hne : ∀ x, D x → σ x ≠ j := fun x hxD e => hx ⟨x, hxD, e⟩
    exact ⟨L.frame parse_length (fun x hxD => parse_frame (L.bound x hxD) (hne x hxD)),
      L.frame (by rw [unparse_length]; exact Nat.le_refl _) (fun x hxD => unparse_frame (hne x hxD))⟩

theorem fresh26_other {name : List Char} {src : Nat} {h : NHeap} {content : Content} {i j : Nat}
    (F : Fresh26 name src h i) (hj : j ≠ i) :
    Fresh26 name src (h.parse content j).2 i ∧ Fresh26 name src (h.unparse j) i := by
  obtain ⟨c, hc, h1⟩ := F
  exact ⟨⟨c, by rw [parse_frame (cell_lt hc) (Ne.symm hj)]; exact hc, h1⟩,
    ⟨c, by rw [unparse_frame (Ne.symm hj)]; exact hc, h1⟩⟩

theorem fresh26_parse {name : List Char} {src : Nat} {h : NHeap} {content : Content} {i : Nat} {f : Forest}
    (F : Fresh26 name src h i) (hs : content src = .ok f) (hf : Spec.Forest.All InImage f)
    (hok : (h.parse content i).1 = .ok ()) :
    ∃ σ D, Loaded (alone content name src) (h.parse content i).2 i σ D := by
  obtain ⟨c, hc, hn, hk, hkids⟩ := F
  have hc0 : NHeap.cell [some (⟨name, .image false src, none, []⟩ : NCell)] 0 =
      some ⟨name, .image false src, none, []⟩ := rfl
  have hp : (NKind.image false src).plan content = some (.ok (f, .image true src)) := by
    simp [NKind.plan, hs, Except.map]
  obtain ⟨h1, h2⟩ := parse_iso (content := content) hc0 hc hn (by rw [hk]) rfl hkids hp
  have hok0 : (NHeap.parse [some (⟨name, .image false src, none, []⟩ : NCell)] content 0).1 = .ok () := by rw [h1, hok]
  obtain ⟨h3, h4, h5⟩ := h2 hok0
  refine ⟨_, _, h3, ?_, ?_⟩
  · intro x hx
    rw [h5]
    have hi := cell_lt hc
    unfold shift
    rcases hx with hx | hx
    · rw [if_pos hx]; omega
    · simp only [List.length_singleton] at hx ⊢
      rw [if_neg (by omega)]; omega
  · intro x cx hx hcx
    have hpar := parse_eq (content := content) hc0
    unfold alone at hcx
    rw [hpar, hp] at hcx
    dsimp only at hcx
    split at hcx
    · rename_i e he
      rw [hpar, hp] at hok0
      dsimp only at hok0
      rw [he] at hok0
      cases hok0
    · rename_i g hg
      have hh := resolveUols_heads _ _ _ hg x
      dsimp only at hcx
      rw [hcx] at hh
      cases hcf : (fresh [some (⟨name, .image false src, none, []⟩ : NCell)] 0
          ⟨name, .image true src, none, childInsertAll [] (f.roots 1)⟩ f).cell x with
      | none =>
        have hcf' := hcf
        simp only [List.length_singleton] at hh
        rw [hcf'] at hh; cases hh
      | some d =>
        simp only [List.length_singleton] at hh
        rw [hcf] at hh
        have hkd : cx.kind = d.kind := congrArg (fun t => t.2.1) (Option.some.inj hh)
        rw [hkd]
        obtain ⟨k, rfl⟩ : ∃ k, x = 1 + k := ⟨x - 1, by omega⟩
        exact cells_all InImage f _ _ _ hf d (fresh_mem (h := [some (⟨name, .image false src, none, []⟩ : NCell)]) hcf)

theorem loaded_parsed {name : List Char} {src : Nat} {h : NHeap} {content : Content} {i : Nat} {f : Forest}
    {σ : Nat → Nat} {D : Nat → Prop} (hs : content src = .ok f) (L : Loaded (alone content name src) h i σ D) :
    ∃ c, h.cell i = some c ∧ c.name = name ∧ c.kind = .image true src := by
  obtain ⟨c1, c2, h1, h2, h3, h4, _⟩ := L.iso.topcell
  have hc0 : NHeap.cell [some (⟨name, .image false src, none, []⟩ : NCell)] 0 =
      some ⟨name, .image false src, none, []⟩ := rfl
  have hp : (NKind.image false src).plan content = some (.ok (f, .image true src)) := by
    simp [NKind.plan, hs, Except.map]
  have ht := parse_top (content := content) hc0 hp
  unfold alone at h1
  rw [h1] at ht
  have ht := Option.some.inj ht
  exact ⟨c2, h2, by rw [h3]; exact congrArg (fun t => t.1) ht, by rw [h4]; exact congrArg (fun t => t.2.1) ht⟩

open Classical in
/-- where an image is after some calls -/
def State26 (content : Content) (name : List Char) (src : Nat) (h : NHeap) (i : Nat) (b : Bool) : Prop :=
  if b = true ∧ ∃ f, content src = .ok f then ∃ σ D, Loaded (alone content name src) h i σ D
  else Fresh26 name src h i

theorem state26_run {content : Content} {name : List Char} {src i : Nat}
    (hf : ∀ f, content src = .ok f → Spec.Forest.All InImage f) : ∀ (ops : List NodeOp) (h g : NHeap) (b : Bool),
    State26 content name src h i b → runOps content h ops = some g →
    State26 content name src g i (parsedLast i ops b)
  | [], h, g, b, S, hr => by cases hr; exact S
  | .unparse j :: ops, h, g, b, S, hr => by
    simp only [runOps, parsedLast] at hr ⊢
    refine state26_run hf ops (h.unparse j) g _ ?_ hr
    by_cases hj : j = i
    · subst hj
      rw [if_pos rfl]
      unfold State26
      rw [if_neg (by simp)]
      unfold State26 at S
      split at S
      · rename_i hb
        obtain ⟨f, hs⟩ := hb.2
        obtain ⟨σ, D, L⟩ := S
        obtain ⟨c, hc, hn, hk⟩ := loaded_parsed hs L
        exact ⟨_, unparse_cell hc (k := .image false src) (by rw [hk]; rfl), hn, rfl, rfl⟩
      · obtain ⟨c, hc, hn, hk, _⟩ := S
        exact ⟨_, unparse_cell hc (k := .image false src) (by rw [hk]; rfl), hn, rfl, rfl⟩
    · rw [if_neg hj]
      unfold State26 at S ⊢
      split at S
      · rename_i hb
        rw [if_pos hb]
        obtain ⟨σ, D, L⟩ := S
        exact ⟨σ, D, (L.other (content := content) hj).2⟩
      · rename_i hb
        rw [if_neg hb]
        exact (fresh26_other (content := content) S hj).2
  | .parse j :: ops, h, g, b, S, hr => by
    simp only [runOps, parsedLast] at hr ⊢
    have hnext : ∃ e, (h.parse content j).1 = e ∧ (∀ x, e = .error x → x.isPanic = false) ∧
        runOps content (h.parse content j).2 ops = some g := by
      cases hpar : h.parse content j with
      | mk r g' =>
        rw [hpar] at hr
        cases r with
        | error e =>
          dsimp only at hr
          split at hr
          · cases hr
          · rename_i he
            exact ⟨_, rfl, fun x hx => by cases hx; simpa using he, hr⟩
        | ok u => exact ⟨_, rfl, (fun x hx => by cases hx), hr⟩
    obtain ⟨e, he, hnp, hr⟩ := hnext
    refine state26_run hf ops (h.parse content j).2 g _ ?_ hr
    by_cases hj : j = i
    · subst hj
      rw [if_pos rfl]
      unfold State26 at S ⊢
      cases hs : content src with
      | error x =>
        rw [if_neg (by simp)]
        rw [if_neg (by rw [hs]; simp)] at S
        have S' := S
        obtain ⟨c, hc, hn, hk, hkids⟩ := S
        rw [C26_fails (content := content) hc (by rw [hk]; exact .image src) hs]
        exact S'
      | ok f =>
        rw [if_pos ⟨rfl, f, rfl⟩]
        split at S
        · obtain ⟨σ, D, L⟩ := S
          obtain ⟨c, hc, hn, hk⟩ := loaded_parsed hs L
          rw [C26_parse_again (content := content) ⟨c, hc, .inr (.inr (.inr ⟨src, hk⟩))⟩]
          exact ⟨σ, D, L⟩
        · have hok : (h.parse content j).1 = .ok () := by
            rw [he]
            cases e with
            | ok u => rfl
            | error x =>
              exfalso
              have hx := hnp x rfl
              obtain ⟨c, hc, hn, hk, hkids⟩ := S
              have hp : c.kind.plan content = some (.ok (f, .image true src)) := by
                rw [hk]; simp [NKind.plan, hs, Except.map]
              rw [parse_eq hc, hp] at he
              dsimp only at he
              split at he
              · rename_i y hy
                have hyp := resolveUols_error _ _ hy
                dsimp only at he
                have hyx : y = x := by injection he
                rw [← hyx, hyp] at hx
                cases hx
              · cases he
          exact fresh26_parse S hs (hf f hs) hok
    · rw [if_neg hj]
      unfold State26 at S ⊢
      split at S
      · rename_i hb
        rw [if_pos hb]
        obtain ⟨σ, D, L⟩ := S
        exact ⟨σ, D, (L.other (content := content) hj).1⟩
      · rename_i hb
        rw [if_neg hb]
        exact (fresh26_other (content := content) S hj).1

/-- Any list of `parse` and `unparse` calls, for any nodes of any heap, that does not panic.  An image that was
unparsed and without children at the start is, at the end: parsed, with exactly the tree a single `parse` of
it alone gives, if the last call for it was `parse` and it can be read; otherwise unparsed and without
children. -/
theorem C26_history {content : Content} {name : List Char} {src i : Nat} {h g : NHeap} {c : NCell}
    {ops : List NodeOp} (hc : h.cell i = some c) (hn : c.name = name) (hk : c.kind = .image false src)
    (hkids : c.kids = []) (hf : ∀ f, content src = .ok f → Spec.Forest.All InImage f)
    (hr : runOps content h ops = some g) :
    (parsedLast i ops false = true → (∃ f, content src = .ok f) →
      Parsed g i ∧ LooksLike (alone content name src) 0 g i) ∧
    (parsedLast i ops false = false ∨ (∃ e, content src = .error e) → Unparsed g i ∧ Childless g i) := by
  have S := state26_run (name := name) hf ops h g false (by
    unfold State26
    rw [if_neg (by simp)]
    exact ⟨c, hc, hn, hk, hkids⟩) hr
  unfold State26 at S
  constructor
  · intro hb hs
    rw [if_pos ⟨hb, hs⟩] at S
    obtain ⟨σ, D, L⟩ := S
    obtain ⟨f, hs⟩ := hs
    obtain ⟨c, hc, hn, hk⟩ := loaded_parsed hs L
    exact ⟨⟨c, hc, .inr (.inr (.inr ⟨src, hk⟩))⟩, L.iso.looks⟩
  · intro hb
    have hneg : ¬ (parsedLast i ops false = true ∧ ∃ f, content src = .ok f) := by
      rintro ⟨h1, f, h2⟩
      rcases hb with hb | ⟨e, hb⟩
      · rw [hb] at h1; cases h1
      · rw [hb] at h2; cases h2
    rw [if_neg hneg] at S
    obtain ⟨c, hc, _, hk, hkids⟩ := S
    exact ⟨⟨c, hc, .inr (.inr (.inr (.inl ⟨src, hk⟩)))⟩, ⟨c, hc, hkids⟩⟩

/-! ## the cases are met -/

/-- an image with a value, a folder and a link to the value -/
def forest26 : Forest :=
  .node ['a'] (.other 1) .nil (.node ['d'] (.other 2) (.node ['l'] (.uol (some ['.', '.', '/', 'a'])) .nil .nil) .nil)

def content26 : Content := fun s => if s = 7 then .ok forest26 else .error (.lib "x")

def heap26 : NHeap := [some ⟨['r'], .dir true true 1, none, [(['i'], 1), (['k'], 2)]⟩,
  some ⟨['i'], .image false 7, some 0, []⟩, some ⟨['k'], .image false 8, some 0, []⟩]

/-- `C26_parse_shows`: an image with a value and a folder -/
example : valueAt (heap26.parse (fun _ => .ok (.node ['a'] (.other 1) .nil (.node ['d'] (.other 2) (.node ['b'] (.other 3) .nil .nil) .nil))) 1).2 1 "d/b".toList =
    some (some (['b'], .other 3)) :=
  ((C26_parse_shows (h := heap26) (i := 1) (s := 7) (content := fun _ => .ok (.node ['a'] (.other 1) .nil (.node ['d'] (.other 2) (.node ['b'] (.other 3) .nil .nil) .nil)))
    (f := .node ['a'] (.other 1) .nil (.node ['d'] (.other 2) (.node ['b'] (.other 3) .nil .nil) .nil)) rfl (.image 7) rfl rfl
    ⟨(fun t e => by cases e), trivial, (fun t e => by cases e), ⟨(fun t e => by cases e), trivial, trivial⟩, trivial⟩).2.2.1 _).trans (by decide +kernel)

/-- parsed, forgotten, parsed: the link has been followed both times -/
example :
    (runOps content26 heap26 [.parse 1, .parse 2, .unparse 1, .unparse 2, .parse 1]).map
      (fun g => (valueAt g 1 ['d', '/', 'l'], g.length)) = some (some (some (['a'], .other 1)), 9) := by
  decide +kernel

example : parsedLast 1 [.parse 1, .parse 2, .unparse 1, .unparse 2, .parse 1] false = true := by decide

example : Spec.Forest.All InImage forest26 :=
  ⟨.inl ⟨1, rfl⟩, trivial, .inl ⟨2, rfl⟩, ⟨.inr ⟨_, rfl⟩, trivial, trivial⟩, trivial⟩

example : (heap26.parse content26 2).1 = .error (.lib "x") := by decide +kernel

end Wz.Props
