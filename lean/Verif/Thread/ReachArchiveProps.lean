import Verif.Thread.ReachArchiveSpec
import Verif.Thread.ReachProps
import Verif.Thread.JsonExamples
import Verif.Thread.ArchiveProps
import Verif.Whole.ArchiveExamples
import Verif.Whole.JsonProps
import Verif.Whole.DirectProps

/-!
# C84 for archives

`_partial`: for archives without links (`NoUolArchive`); with links, threads can block each other (`C76`).
-/

set_option autoImplicit false

namespace Wz

open Wz.Spec Wz.Props

/-- images are without children -/
def BareImages : Forest → Prop
  | .nil => True
  | .node _ k ks rest => (∀ p s, k = .image p s → p = false ∧ ks = .nil) ∧ BareImages ks ∧ BareImages rest

theorem bare_cells {d : NCell} {p0 : Bool} {s : Nat} (hk : d.kind = .image p0 s) : ∀ (f : Forest) (p b : Nat) (live : Bool), BareImages f →
    some d ∈ f.cells p b live → p0 = false ∧ d.kids = []
  | .nil, _, _, _, _, h => by simp [Forest.cells] at h
  | .node m q ks rest, p, b, live, ⟨B1, B2, B3⟩, h => by
    unfold Forest.cells at h
    dsimp only at h
    rcases List.mem_cons.1 h with h | h
    · split at h
      · cases h
        obtain ⟨h1, h2⟩ := B1 _ _ hk
        subst h2
        exact ⟨h1, rfl⟩
      · cases h
    · rcases List.mem_append.1 h with h | h
      · exact bare_cells hk ks _ _ _ B2 h
      · exact bare_cells hk rest _ _ _ B3 h

theorem dirForest_bare {e : Env} {fuel : Nat} {items : List (List Char × DNode)} {arch : List (List Char × ATree)}
    (h : ReadArchive e fuel items arch) : BareImages (dirForest items) := by
  induction h with
  | nil => rw [dirForest_nil]; trivial
  | image name o s t f rest rest' _ _ _ _ ih =>
    rw [dirForest_image]
    exact ⟨fun p s h => by cases h; exact ⟨rfl, rfl⟩, trivial, ih⟩
  | dir name o s ks rest ks' rest' _ _ ih1 ih2 =>
    rw [dirForest_dir]
    exact ⟨(fun p s h => by cases h), ih1, ih2⟩

theorem inImage_source {k : NKind} (h : InImage k) {s : Nat} : ¬ SourceOf k s := by
  rcases h with ⟨v, rfl⟩ | ⟨t, rfl⟩ <;> simp [SourceOf]

theorem all_has {p : NKind → Prop} {k : NKind} : ∀ f : Forest, Spec.Forest.All p f → Spec.Forest.Has k f → p k
  | .nil, _, h => h.elim
  | .node m q ks rest, ⟨h1, h2, h3⟩, h => by
    rcases h with rfl | h | h
    · exact h1
    · exact all_has ks h2 h
    · exact all_has rest h3 h

/-- a place in an archive -/
def PlaceIn (e : Env) (fuel : Nat) (s : Nat) : Prop :=
  (∃ o n, s = Encodable.encode (Src58.dir o n)) ∨ ∃ n o sz f, s = Encodable.encode (Src58.image n o sz) ∧ readImage e fuel ⟨n, o, sz⟩ = .ok f ∧
    Spec.Forest.All InImage f ∧ Spec.Forest.All NoLink f

theorem place_has {e : Env} {fuel : Nat} {items : List (List Char × DNode)} {arch : List (List Char × ATree)}
    (h : ReadArchive e fuel items arch) : NoUolArchive arch → ∀ k s, Spec.Forest.Has k (dirForest items) → SourceOf k s → PlaceIn e fuel s := by
  induction h with
  | nil => intro _ k s hk; rw [dirForest_nil] at hk; exact hk.elim
  | image name o s t f rest rest' _ hr hg _ ih =>
    intro N k s' hk hs
    have N' : NoUolIn t ∧ NoUolArchive rest' := by
      cases N with
      | dir _ ks => exact ⟨trivial, by assumption⟩
      | image => exact ⟨by assumption, by assumption⟩
      | text => exact ⟨trivial, by assumption⟩
      | script => exact ⟨trivial, by assumption⟩
    rw [dirForest_image] at hk
    rcases hk with rfl | hk | hk
    · refine .inr ⟨name, o, s, f, ?_, hr, hg.values, hg.free N'.1⟩
      simpa [SourceOf, eq_comm] using hs
    · exact hk.elim
    · exact ih N'.2 k s' hk hs
  | dir name o s ks rest ks' rest' _ _ ih1 ih2 =>
    intro N k s' hk hs
    cases N with
    | dir _ _ _ N1 N2 =>
    rw [dirForest_dir] at hk
    rcases hk with rfl | hk | hk
    · refine .inl ⟨o, s, ?_⟩
      simpa [SourceOf, eq_comm] using hs
    · exact ih1 N1 k s' hk hs
    · exact ih2 N2 k s' hk hs

theorem image_has {e : Env} {fuel : Nat} {items : List (List Char × DNode)} {arch : List (List Char × ATree)}
    (h : ReadArchive e fuel items arch) : ∀ p s, Spec.Forest.Has (.image p s) (dirForest items) →
      ∃ n o sz f, s = Encodable.encode (Src58.image n o sz) ∧ readImage e fuel ⟨n, o, sz⟩ = .ok f ∧ Spec.Forest.All InImage f := by
  induction h with
  | nil => intro p s hk; rw [dirForest_nil] at hk; exact hk.elim
  | image name o s t f rest rest' _ hr hg _ ih =>
    intro p s' hk
    rw [dirForest_image] at hk
    rcases hk with h | hk | hk
    · cases h
      exact ⟨name, o, s, f, rfl, hr, hg.values⟩
    · exact hk.elim
    · exact ih p s' hk
  | dir name o s ks rest ks' rest' _ _ ih1 ih2 =>
    intro p s' hk
    rw [dirForest_dir] at hk
    rcases hk with h | hk | hk
    · cases h
    · exact ih1 p s' hk
    · exact ih2 p s' hk

theorem archive_reachable {e : Env} {fuel : Nat} {items : List (List Char × DNode)} {arch : List (List Char × ATree)} {content : Content}
    (R : ReadArchive e fuel items arch) (N : NoUolArchive arch) (hf : content (Encodable.encode Src58.file) = .ok (dirForest items))
    (hi : ∀ n o s, content (Encodable.encode (Src58.image n o s)) = readImage e fuel ⟨n, o, s⟩)
    (hd : ∀ o s, content (Encodable.encode (Src58.dir o s)) = .ok .nil) {h : NHeap}
    (hh : ∀ i c s, h.cell i = some c → SourceOf c.kind s → s = Encodable.encode Src58.file) {s : Nat} (r : Reachable content h s) :
    (s = Encodable.encode Src58.file ∨ PlaceIn e fuel s) ∧ ∀ f, content s = .ok f → Spec.Forest.All NoLink f := by
  have key : ∀ s, s = Encodable.encode Src58.file ∨ PlaceIn e fuel s → (∀ f, content s = .ok f → Spec.Forest.All NoLink f ∧
      ∀ k s', Spec.Forest.Has k f → SourceOf k s' → PlaceIn e fuel s') := by
    rintro s (rfl | ⟨o, n, rfl⟩ | ⟨n, o, sz, f0, rfl, h1, h2, h3⟩) f hc
    · rw [hf] at hc
      cases hc
      exact ⟨dirForest_noLink R, fun k s' => place_has R N k s'⟩
    · rw [hd] at hc
      cases hc
      exact ⟨trivial, fun _ _ h => h.elim⟩
    · rw [hi, h1] at hc
      cases hc
      exact ⟨h3, fun k s' hk hs => absurd hs (inImage_source (all_has _ h2 hk))⟩
  have main : s = Encodable.encode Src58.file ∨ PlaceIn e fuel s := by
    induction r with
    | node i c s hc hs => exact .inl (hh i c s hc hs)
    | found s f k s' _ hc hk hs ih => exact .inr ((key s ih f hc).2 k s' hk hs)
  exact ⟨main, fun f hc => (key s main f hc).1⟩

theorem reachable_after {content : Content} {h g : NHeap} (H : Sourced (Reachable content h) g) {s : Nat} (r : Reachable content g s) :
    Reachable content h s := by
  induction r with
  | node i c s hc hs => exact H i c s hc hs
  | found s f k s' _ hc hk hs ih => exact .found s f k s' ih hc hk hs

theorem lastNamed_noUol {n : List Char} {t : ATree} {arch : List (List Char × ATree)} (N : NoUolArchive arch) : lastNamed arch n = some t →
    (∀ ks, t = .dir ks → NoUolArchive ks) ∧ ∀ ps, t = .image ps → NoUol ps := by
  induction N with
  | nil => intro h; cases h
  | dir m ks rest h1 _ _ ih =>
    intro h
    rw [lastNamed_cons] at h
    cases hl : lastNamed rest n with
    | some b => rw [hl] at h; cases h; exact ih hl
    | none =>
      rw [hl] at h
      dsimp only at h
      split at h
      · cases h; exact ⟨(fun _ h => by cases h; exact h1), (fun _ h => by cases h)⟩
      · cases h
  | image m ps rest h1 _ ih =>
    intro h
    rw [lastNamed_cons] at h
    cases hl : lastNamed rest n with
    | some b => rw [hl] at h; cases h; exact ih hl
    | none =>
      rw [hl] at h
      dsimp only at h
      split at h
      · cases h; exact ⟨(fun _ h => by cases h), (fun _ h => by cases h; exact h1)⟩
      · cases h
  | text m d rest _ ih =>
    intro h
    rw [lastNamed_cons] at h
    cases hl : lastNamed rest n with
    | some b => rw [hl] at h; cases h; exact ih hl
    | none =>
      rw [hl] at h
      dsimp only at h
      split at h
      · cases h; exact ⟨(fun _ h => by cases h), (fun _ h => by cases h)⟩
      · cases h
  | script m d rest _ ih =>
    intro h
    rw [lastNamed_cons] at h
    cases hl : lastNamed rest n with
    | some b => rw [hl] at h; cases h; exact ih hl
    | none =>
      rw [hl] at h
      dsimp only at h
      split at h
      · cases h; exact ⟨(fun _ h => by cases h), (fun _ h => by cases h)⟩
      · cases h

theorem imageAt_noUol {props : List (List Char × PTree)} : ∀ (ns : List (List Char)) (arch : List (List Char × ATree)), NoUolArchive arch →
    imageAt arch ns = some props → NoUol props
  | [], _, _, h => by cases h
  | n :: ns, arch, N, h => by
    unfold imageAt at h
    cases hl : lastNamed arch n with
    | none => rw [hl] at h; cases h
    | some t =>
      rw [hl] at h
      obtain ⟨h1, h2⟩ := lastNamed_noUol N hl
      cases t with
      | dir ks => exact imageAt_noUol ns ks (h1 ks rfl) h
      | image ps =>
        dsimp only at h
        split at h
        · cases h; exact h2 _ rfl
        · cases h
      | text d =>
        dsimp only at h
        split at h
        · cases h; exact .cons _ _ _ _ (by simp) .nil .nil
        · cases h
      | script d =>
        dsimp only at h
        split at h
        · cases h; exact .cons _ _ _ _ (by simp) .nil .nil
        · cases h

theorem image_follows {e : Env} {fuel : Nat} {g : NHeap} {props : List (List Char × PTree)} : ∀ (ns : List (List Char)) (i : Nat)
    (arch : List (List Char × ATree)), ListStands e fuel g i arch → imageAt arch ns = some props →
    ∃ j nm t, foldPath g.at i ns = some j ∧ Stands58 e fuel g j nm t ∧ propsOf t = some props
  | [], _, _, _, h => by cases h
  | n :: ns, i, arch, S, h => by
    unfold imageAt at h
    have Sn := S n
    cases hl : lastNamed arch n with
    | none => rw [hl] at h; cases h
    | some t =>
      rw [hl] at h Sn
      obtain ⟨k, hk, hs⟩ := Sn
      unfold foldPath
      rw [hk]
      dsimp only
      have last : ns = [] → propsOf t = some props → ∃ j nm t, foldPath g.at k ns = some j ∧ Stands58 e fuel g j nm t ∧ propsOf t = some props := by
        rintro rfl hp
        exact ⟨k, n, t, rfl, hs, hp⟩
      cases t with
      | dir ks => exact image_follows ns k ks (stands_list hs).1 h
      | image ps =>
        dsimp only at h
        split at h
        · exact last (by assumption) h
        · cases h
      | text d =>
        dsimp only at h
        split at h
        · exact last (by assumption) h
        · cases h
      | script d =>
        dsimp only at h
        split at h
        · exact last (by assumption) h
        · cases h

theorem stands_kind {e : Env} {fuel : Nat} {g : NHeap} {j : Nat} {nm : List Char} {t : ATree} (H : Stands58 e fuel g j nm t)
    {props : List (List Char × PTree)} (hp : propsOf t = some props) : ∃ c p s, g.cell j = some c ∧ c.kind = .image p s := by
  cases H with
  | image _ c _ p o s _ f h1 _ h3 => exact ⟨c, p, _, h1, h3⟩
  | dir => cases hp

theorem atPath_pieces {h : NHeap} {i : Nat} {path : List Char} {ns : List (List Char)} (hp : Pieces path ns) :
    h.atPath i path = foldPath h.at i ns := by
  have hs := pieces_iff.1 hp
  unfold NHeap.atPath
  rw [hs]
  cases ns with
  | nil => exact absurd rfl hp.some
  | cons x xs => rfl

theorem and_use {a b : Prop} (ha : a) (hb : a → b) : a ∧ b := ⟨ha, hb ha⟩

end Wz

namespace Wz.Props

open Wz Wz.Spec

theorem sharedExports_of {F : Fuel} {n fuel : Nat} {cache : List Cached} {f : WFile} {items : List (List Char × DNode)}
    {arch : List (List Char × ATree)} (hno : NoUolArchive arch) (ho : (f.parse F n cache).1 = .ok items)
    (R : ReadArchive (f.parse F n cache).2.env fuel items arch) : SharedExports (arcContent F n fuel cache f) (f.parse F n cache).2.env arch := by
  intro name
  have hf : arcContent F n fuel cache f (Encodable.encode Src58.file) = .ok (dirForest items) := by
    unfold arcContent
    rw [Encodable.encodek]
    dsimp only
    rw [ho]
    rfl
  have hd : ∀ o s, arcContent F n fuel cache f (Encodable.encode (Src58.dir o s)) = .ok .nil := by
    intro o s
    unfold arcContent
    rw [Encodable.encodek]
  obtain ⟨h, hh⟩ : ∃ h : NHeap, h = [some ⟨name, .file false (Encodable.encode Src58.file), none, []⟩] := ⟨_, rfl⟩
  rw [← hh]
  have hc : h.cell 0 = some ⟨name, .file false (Encodable.encode Src58.file), none, []⟩ := by rw [hh]; rfl
  have hone : ∀ i c, h.cell i = some c → c = ⟨name, .file false (Encodable.encode Src58.file), none, []⟩ := by
    intro i c h'
    have hi := cell_lt h'
    rw [hh] at hi
    have : i = 0 := by simpa using hi
    subst this
    rw [hc] at h'
    cases h'
    rfl
  have hL : NoLinksBelow (arcContent F n fuel cache f) h := fun s r => (archive_reachable R hno hf arcContent_image hd (h := h)
    (fun i c s h1 h2 => by rw [hone i c h1] at h2; simpa [SourceOf, eq_comm] using h2) r).2
  have hS := sourced_parse (fun s f hs hf => ⟨hL s hs f hf, fun k s' hk hs' => .found s f k s' hs hf hk hs'⟩)
    (sourced_self (arcContent F n fuel cache f) h) 0
  have hM : MadeBefore h := fun i c n k h1 h2 => by rw [hone i c h1] at h2; cases h2
  have hM' : MadeBefore (h.parse (arcContent F n fuel cache f) 0).2 := by
    rw [(within_parse hL h 0 (sourced_self _ h)).1]
    exact parse_madeBefore (within_noLink hL) hM 0
  have hg : h.parse (arcContent F n fuel cache f) 0 = (.ok (), fresh h 0 ⟨name, .file true (Encodable.encode Src58.file), none,
      childInsertAll [] ((dirForest items).roots h.length)⟩ (dirForest items)) := by
    rw [parse_eq hc]
    simp only [NKind.plan, hf]
    rw [if_neg (by decide)]
    dsimp only [Except.map]
    rw [uols_nil76 _ _ (dirForest_noLink R)]
    rfl
  have hL' : NoLinksBelow (arcContent F n fuel cache f) (h.parse (arcContent F n fuel cache f) 0).2 := fun s r => hL s (reachable_after hS r)
  rw [hg] at hL' hM'
  refine ⟨_, hg, fun ps hp queue sched P hr => ?_, ?_⟩
  · obtain ⟨h1, _, h2⟩ := C84_reached_no_deadlock_partial hL' hM' hp hr
    exact ⟨h1, h2⟩
  refine and_use ?_ fun hall path ns props hp hi hfin => ?_
  rotate_left
  · obtain ⟨g', hg', S⟩ := opens_stands (i := 0) ho R ⟨_, hc, rfl, rfl⟩
    rw [hg] at hg'
    cases hg'
    have F0 := S [] (by simp)
    have hmg : MapsOk (h.parse (arcContent F n fuel cache f) 0).2 := mapsOk_parse fun i c h1 => by rw [hone i c h1]; exact List.nodup_nil
    rw [hg] at hmg
    obtain ⟨j, nm, t, h1, h2, h3⟩ := image_follows ns 0 arch F0.2 hi
    obtain ⟨g2, h4, _, r, N, h5, h6⟩ := export_image arcContent_image hmg h2 h3 (imageAt_noUol ns arch hno hi) hfin
    obtain ⟨c', p', s', h7, h8⟩ := stands_kind h2 h3
    refine ⟨j, r, N + 1, ?_, h6, fun fu a hN ha => ?_⟩
    · rw [atPath_pieces hp]
      exact h1
    · obtain ⟨fu, rfl⟩ : ∃ x, fu = x + 1 := ⟨fu - 1, by omega⟩
      rcases hall j c' p' s' h7 h8 _ fu a ha with h | h
      · exact .inl h
      · refine .inr ?_
        rw [h, h4]
        exact h5 _ (by omega)
  rintro i c p s hi hk e fu a ⟨ps, queue, sched, P, t, before, th, hp, hb, ht, hr, hth, ha⟩
  have hbare : (p = false ∧ c.kids = []) ∧ Spec.Forest.Has c.kind (dirForest items) := by
    by_cases hx : i < h.length
    · rw [fresh_old (cell_lt hc) hx] at hi
      split at hi
      · cases hi; cases hk
      · rw [hone i c hi] at hk; cases hk
    · obtain ⟨y, rfl⟩ : ∃ y, i = h.length + y := ⟨i - h.length, by omega⟩
      exact ⟨bare_cells hk _ _ _ _ (dirForest_bare R) (fresh_mem hi), has_cells _ _ _ _ (fresh_mem hi)⟩
  obtain ⟨⟨rfl, hkids⟩, hhas⟩ := hbare
  have hI : ∀ f', arcContent F n fuel cache f s = .ok f' → Spec.Forest.All InImage f' := by
    obtain ⟨nm, o, sz, f0, rfl, h5, h6⟩ := image_has R _ s (by rw [← hk]; exact hhas)
    intro f' hf'
    rw [arcContent_image, h5] at hf'
    cases hf'
    exact h6
  rcases C84_reached_all_or_nothing_partial hL' hM' hi hk hkids hI hp hb ht hr hth ha with h3 | h3
  · refine .inl ?_
    rw [h3, exportJson_look, look_cell hi, hkids, hk]
    rfl
  · exact .inr h3

/-- C84 for any archive whose directory can be read. -/
theorem C84_archive_partial (F : Fuel) (n : Nat) (cache : List Cached) (f : WFile) (items : List (List Char × DNode))
    (arch : List (List Char × ATree)) (ho : (f.parse F n cache).1 = .ok items) (hb : (f.parse F n cache).2.env.buf.length < 2 ^ 63)
    (ha : HoldsArchive (f.parse F n cache).2.env items arch) (hno : NoUolArchive arch) :
    ∃ N, ∀ fuel, N ≤ fuel → SharedExports (arcContent F n fuel cache f) (f.parse F n cache).2.env arch := by
  obtain ⟨N, hN⟩ := holdsArchive_reads hb ha
  exact ⟨N, fun fuel hf => sharedExports_of hno ho (hN fuel hf)⟩

/-- C84 for PKG1. -/
theorem C84_pkg1_partial (f : WFile) (v : Nat) (items : List (List Char × DNode)) (arch : List (List Char × ATree)) (cache : List Cached)
    (hi : f.hdr.ident = .v1) (hf : f.hdr.fstart < 2 ^ 32) (hb : f.env.buf.length < 2 ^ 63) (hbuf : f.env.buf ≠ [])
    (he : ∀ ev, f.hdr.encVer = some ev → ev < 2 ^ 16) (hp : f.patch = -1) (hv : TriedVersion f.hdr.encVer v)
    (hd : HoldsDir (Block1 ⟨f.env, f.hdr, f.keys2⟩ (BitVec.ofNat 64 (verHash v))) f.hdr.dataStart items)
    (ha : HoldsArchive f.env items arch) (hno : NoUolArchive arch) :
    ∃ N, ∀ F : Fuel, N ≤ F.loop → N ≤ F.nest → ∀ n fuel, 2000 < n → N ≤ fuel →
      (∀ u, TriedVersion f.hdr.encVer u → u < v → Refused1 F f u) → SharedExports (arcContent F n fuel cache f) f.env arch := by
  obtain ⟨N, hN⟩ := C54_opens f v items hi hf hb hbuf he hp hv hd
  obtain ⟨M, hM⟩ := holdsArchive_reads hb ha
  refine ⟨N + M, fun F h1 h2 n fuel hn hfu hu => ?_⟩
  obtain ⟨p1, p2⟩ := hN F (by omega) (by omega) n hn hu
  have hpar : f.parse F n cache = f.parsePkg1 F n none := by unfold WFile.parse; rw [hi]
  have henv : (f.parse F n cache).2.env = f.env := by rw [hpar]; exact p2.2.2.2.1
  rw [← henv]
  exact sharedExports_of hno (by rw [hpar]; exact p1) (by rw [henv]; exact hM fuel (by omega))

theorem pkg2_exports84 {F : Fuel} {n fuel : Nat} {cache : List Cached} {f : WFile} {c : Cached} {items : List (List Char × DNode)}
    {arch : List (List Char × ATree)} (hno : NoUolArchive arch) (hn : F.nest ≠ 0) (hi : f.hdr.ident = .v2) (hbuf : f.env.buf ≠ [])
    (hg : ∀ c ∈ cache, c.profile.gen ≠ .unknown) (h : (f.parsePkg2 F cache).1 = .ok (c, items))
    (R : ReadArchive (reading f c).env fuel items arch) : SharedExports (arcContent F n fuel cache f) (reading f c).env arch := by
  have hx := (C44_file_after F f cache hn hbuf hg c items h).2.2.1
  have hpar : f.parse F n cache = (.ok items, (f.parsePkg2 F cache).2.1) := by
    unfold WFile.parse
    rw [hi]
    dsimp only
    generalize f.parsePkg2 F cache = z at h
    obtain ⟨r, f', l⟩ := z
    dsimp only at h
    subst h
    rfl
  have henv : (f.parse F n cache).2.env = (reading f c).env := by rw [hpar, ← hx]; rfl
  rw [← henv]
  exact sharedExports_of hno (by rw [hpar]) (by rw [henv]; exact R)

/-- C84 for the 32-bit PKG2 formats. -/
theorem C84_pkg2_partial (f : WFile) (c : Cached) (items : List (List Char × DNode)) (arch : List (List Char × ATree))
    (hi : f.hdr.ident = .v2) (h64 : f.hdr.isPkg2_64 = false) (hf : f.hdr.fstart < 2 ^ 32) (hb : f.env.buf.length < 2 ^ 63)
    (hbuf : f.env.buf ≠ []) (hc : c.hash ≠ 0)
    (hd : HoldsDir (Block2 (reading f c) c.profile.ver c.hash) f.hdr.dataStart items)
    (ha : HoldsArchive (reading f c).env items arch) (hno : NoUolArchive arch) :
    ∃ N, ∀ F : Fuel, N ≤ F.loop → N ≤ F.nest → ∀ n fuel, N ≤ fuel → ∀ cache : List Cached,
      (∀ c ∈ cache, c.profile ∈ rows true ∨ c.profile ∈ rows false) →
      ∃ cands, Candidates f.hdr cache cands ∧ ∀ before after, cands = before ++ c :: after → (∀ b ∈ before, Refused F f b) →
        SharedExports (arcContent F n fuel cache f) (reading f c).env arch := by
  obtain ⟨k, hk⟩ := reading_key f c
  obtain ⟨N, hN⟩ := C44_narrow_opens f c items hi h64 hf hb hbuf hc hd
  obtain ⟨M, hM⟩ := holdsArchive_reads (by rw [hk]; exact hb) ha
  refine ⟨N + M + 1, fun F h1 h2 n fuel hfu cache hg => ?_⟩
  obtain ⟨cands, hca, h⟩ := hN F (by omega) (by omega) cache hg
  exact ⟨cands, hca, fun before after hs hr => pkg2_exports84 hno (by omega) hi hbuf (fun c hc => (hg c hc).elim rows_gen rows_gen)
    (h before after hs hr) (hM fuel (by omega))⟩

/-- C84 for the 64-bit PKG2 format, as far as `C44_wide_opens` opens it. -/
theorem C84_pkg2_64_partial (f : WFile) (t : BitVec 64) (items : List (List Char × DNode)) (arch : List (List Char × ATree))
    (hi : f.hdr.ident = .v2) (h64 : f.hdr.isPkg2_64 = true) (hf : f.hdr.fstart < 2 ^ 32) (hb : f.env.buf.length < 2 ^ 63)
    (hbuf : f.env.buf ≠ []) (ht : Solves6 f.hdr.hash1 f.hdr.hash2 t) (h0 : t ≠ 0)
    (hd : HoldsDir (Block64 (reading f ⟨row1202, t⟩) t) f.hdr.dataStart items)
    (ha : HoldsArchive (reading f ⟨row1202, t⟩).env items arch) (hno : NoUolArchive arch) :
    ∃ N, ∀ F : Fuel, N ≤ F.loop → N ≤ F.nest → ∀ n fuel, N ≤ fuel → ∀ cache : List Cached,
      (∀ c ∈ cache, c.profile ∈ rows true ∨ c.profile ∈ rows false) →
      SharedExports (arcContent F n fuel cache f) (reading f ⟨row1202, t⟩).env arch := by
  obtain ⟨k, hk⟩ := reading_key f ⟨row1202, t⟩
  obtain ⟨N, hN⟩ := C44_wide_opens f t items hi h64 hf hb hbuf ht h0 hd
  obtain ⟨M, hM⟩ := holdsArchive_reads (by rw [hk]; exact hb) ha
  refine ⟨N + M + 1, fun F h1 h2 n fuel hfu cache hg => ?_⟩
  exact pkg2_exports84 hno (by omega) hi hbuf (fun c hc => (hg c hc).elim rows_gen rows_gen)
    (hN F (by omega) (by omega) cache hg) (hM fuel (by omega))


theorem noUol84 : NoUol [(['n'], .node (.int 5) [])] := .cons _ _ _ _ (by simp) .nil .nil

theorem noUol58 : NoUolArchive arch58 := .image _ _ _ noUol84 (.dir _ _ _ (.text _ _ _ .nil) .nil)

/-- all hypotheses of `C84_archive_partial` are met -/
example : ∃ (F : Fuel) (n fuel : Nat) (e : Env), SharedExports (arcContent F n fuel [] wfile58) e arch58 := by
  obtain ⟨F, n, h1, h2, h3⟩ := wfile58_opened
  obtain ⟨N, hN⟩ := C84_archive_partial F n [] wfile58 items58 arch58 h1 h2 h3 noUol58
  exact ⟨F, n, N, _, hN _ (Nat.le_refl _)⟩

/-- all hypotheses of `C84_pkg1_partial` are met -/
example : ∃ (F : Fuel) (n fuel : Nat), SharedExports (arcContent F n fuel [] wfile58) wfile58.env arch58 := by
  have h83 : verHash 83 = 1876 := by simp [verHash]
  obtain ⟨N, hN⟩ := C84_pkg1_partial wfile58 83 items58 arch58 [] rfl (by decide) (by decide +kernel) (by decide +kernel)
    (by intro ev h; cases h; decide) rfl ⟨by omega, by omega, .inr (by rw [h83]; decide)⟩ (by rw [h83]; exact file58_holds) arch58_stored noUol58
  exact ⟨⟨N, N⟩, 2001, N, hN ⟨N, N⟩ (Nat.le_refl _) (Nat.le_refl _) 2001 N (by omega) (Nat.le_refl _) fun u h hu => absurd hu (no_earlier u h)⟩

/-- all hypotheses of `C84_pkg2_partial` are met -/
example : ∃ (F : Fuel) (n fuel : Nat), SharedExports (arcContent F n fuel [⟨row1201, 77#64⟩] wfile58b) wfile58b.env arch58b :=
  take58b (C84_pkg2_partial wfile58b ⟨row1201, 77#64⟩ items58b arch58b rfl
    (by decide) (by decide) (by decide +kernel) (by decide +kernel) (by decide) file58b_holds arch58b_stored
    (.image _ _ _ noUol84 (.script _ _ _ .nil)))
/-- all hypotheses of `C84_pkg2_64_partial` are met -/
example : ∃ (F : Fuel) (n fuel : Nat), SharedExports (arcContent F n fuel [] wfile58w) wfile58w.env
    [(['a'], .image [(['n'], .node (.int 5) [])])] := by
  obtain ⟨N, hN⟩ := C84_pkg2_64_partial wfile58w 77#64 _ [(['a'], .image [(['n'], .node (.int 5) [])])] rfl (by decide) (by decide) (by decide +kernel) (by decide +kernel)
    (by unfold Solves6; decide +kernel) (by decide) wfile58w_holds
    (.image _ _ _ _ _ _ (by decide) (propImg_stored rfl (fun h => absurd (endsWith_iff.mpr h) (by decide)) (holds_slice 24 (by decide +kernel))) .nil)
    (.image _ _ _ noUol84 .nil)
  exact ⟨⟨N, N⟩, 0, N, hN ⟨N, N⟩ (Nat.le_refl _) (Nat.le_refl _) 0 N (Nat.le_refl _) [] (by simp)⟩

end Wz.Props
