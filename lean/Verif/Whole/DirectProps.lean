import Verif.Whole.DirectLemmas
import Verif.Whole.Examples

/-!
# C61: a property of an archive is found without reading its image
-/

set_option autoImplicit false

namespace Wz

open Spec

theorem imgLook_image {e : Env} {fuel : Nat} (nm : List Char) (o s : Nat) (path : List Char) :
    imgLook e fuel (Encodable.encode (Src58.image nm o s)) path = ((Rd.imgAtPath ⟨nm, o, s⟩ path fuel).run e { pos := 0, saved := 0 }).1 := by
  unfold imgLook
  rw [Encodable.encodek]

theorem atPath_propAt {ps : List (List Char × PTree)} {ns : List (List Char)} {t : PTree} (h : AtPath ps ns t) :
    NodupTree ps → ∀ w ks, t = .node w ks → propAt ps ns = some w := by
  induction h with
  | last kids name t hm =>
    intro hn w ks e
    subst e
    rw [propAt, lastNamed_nodup hn.here hm]
    rfl
  | step kids ks name next rest t hm _ ih =>
    intro hn w ks' e
    rw [propAt, lastNamed_nodup hn.here hm]
    dsimp only
    rw [if_neg (by simp)]
    exact ih (hn.down _ _ _ hm) w ks' e

theorem missing_propAt {ps : List (List Char × PTree)} {ns : List (List Char)} (h : MissingAt ps ns) : NodupTree ps → propAt ps ns = none := by
  induction h with
  | last kids name hm =>
    intro hn
    rw [propAt, lastNamed_missing hm]
  | step kids ks name next rest hm _ ih =>
    intro hn
    rw [propAt, lastNamed_nodup hn.here hm]
    dsimp only
    rw [if_neg (by simp)]
    exact ih (hn.down _ _ _ hm)

theorem stored_nodup {e : Env} {nm : List Char} {o s : Nat} {ps : List (List Char × PTree)} (hb : e.buf.length < 2 ^ 63)
    (h : StoredImage e nm o s (.image ps)) (hn : (names ps).Nodup) : NodupTree ps := by
  cases h with
  | props _ q _ hp =>
    obtain ⟨_, p, ⟨_, _, _, hs⟩, _⟩ := headRun hb hp
    exact .mk _ hn (Stored.nodup hs)

theorem missing_looks {e : Env} {nm : List Char} {o s fuel : Nat} {ps : List (List Char × PTree)} (hb : e.buf.length < 2 ^ 63) (ho : o < 2 ^ 32)
    (h : StoredImage e nm o s (.image ps)) (hn : (names ps).Nodup) {path : List Char} (hp : path ≠ []) (hm : MissingAt ps (splitSlash path)) (c : Cur) :
    ((Rd.imgAtPath ⟨nm, o, s⟩ path fuel).run e c).1 = .error (.lib "NodeNotFound") := by
  cases h with
  | props _ q _ hp' =>
    obtain ⟨h1, p, hs, h2, _⟩ := headRun hb hp'
    obtain ⟨c1, hc, hr⟩ := imgAtPath_run (img := ⟨nm, o, s⟩) (fuel := fuel) path h1 (h2 (.inl rfl)) c
    rw [hr]
    rcases hx : splitSlash path with _ | ⟨x, xs⟩
    · rw [hx] at hm; cases hm
    rw [hx] at hm
    unfold Rd.getNode
    rw [if_neg hp, hx]
    exact getNodeLoop_missing hb (show o < 2 ^ 63 by omega) _ hm p q x xs rfl hs hn c1 hc

theorem slashed_ne {ns : List (List Char)} (h : ns ≠ []) (h1 : ns ≠ [[]]) : slashed ns ≠ [] := by
  match ns, h, h1 with
  | [x], _, h1 => intro e; exact h1 (by simpa [slashed] using e)
  | x :: y :: l, _, _ => intro e; simp [slashed, List.intercalate, List.intersperse] at e

theorem intoImage_pieces {path img : List Char} {dirs ns : List (List Char)} (h : IntoImage path dirs img ns) : splitSlash (slashed ns) = ns := by
  cases h with
  | suffix a rest _ _ _ hn => exact pieces_iff.1 ⟨hn.some, hn.clean, rfl⟩
  | plain _ hp hne => exact pieces_iff.1 ⟨hne, fun n hn => hp.clean n (by simp [hn]), rfl⟩

theorem no_image_stands {e : Env} {fuel : Nat} {g : NHeap} : ∀ (ns : List (List Char)) (k : Nat) (kids : List (List Char × ATree)),
    ListStands e fuel g k kids → (∀ a, a <+: ns → arcAt kids a ≠ some .image) →
    ∀ a j, a <+: ns → a ≠ [] → foldPath g.at k a = some j → ¬ Image g j
  | [], k, kids, S, h, a, j, hp, hne, _ => absurd (List.prefix_nil.1 hp) hne
  | n :: ns, k, kids, S, h, [], j, hp, hne, _ => absurd rfl hne
  | n :: ns, k, kids, S, h, x :: a, j, hp, hne, hf => by
    obtain ⟨rfl, hp'⟩ := List.cons_prefix_cons.1 hp
    have hn := S x
    rw [foldPath] at hf
    cases hl : lastNamed kids x with
    | none => rw [hl] at hn; rw [hn] at hf; cases hf
    | some t =>
      rw [hl] at hn
      obtain ⟨j1, hj, hs⟩ := hn
      rw [hj] at hf
      have h0 := h [x] (List.cons_prefix_cons.2 ⟨rfl, List.nil_prefix⟩)
      rw [arcAt, hl] at h0
      cases t with
      | dir ks =>
        obtain ⟨L, hi⟩ := stands_list hs
        cases a with
        | nil => cases hf; exact hi
        | cons y a =>
          refine no_image_stands ns j1 ks L (fun b hb hx => ?_) (y :: a) j hp' (by simp) hf
          refine h (x :: b) (List.cons_prefix_cons.2 ⟨rfl, hb⟩) ?_
          rw [arcAt, hl]
          dsimp only
          split
          · rename_i hb0
            subst hb0
            cases hx
          · exact hx
      | image ps => exact absurd rfl h0
      | text d => exact absurd rfl h0
      | script d => exact absurd rfl h0

theorem closed_look {e : Env} {nm : List Char} {o s fuel : Nat} {b : Byte} {path : List Char} {c : Cur} (hb : e.buf.length < 2 ^ 63)
    (h1 : b ≠ 0x73#8) (h2 : Holds e.buf o [b]) :
    ((Rd.imgAtPath ⟨nm, o, s⟩ path fuel).run e c).1 = .error (.lib "UnknownImageHeader") := by
  unfold Rd.imgAtPath
  obtain ⟨c2, e2, r2⟩ := Props.runBind (f := fun b => if b ≠ 0x73 then Rd.fail (.lib "UnknownImageHeader") else Rd.imgCheck (.lib "ParseError") >>= fun _ => Rd.getNode path o fuel)
    (Rd.Reads.readU8 h2 hb) (show ({ c with pos := o } : Cur).pos = o from rfl)
  refine (congrArg Prod.fst r2).trans ?_
  rw [if_pos (show b.toNat ≠ 115 from fun h => h1 (BitVec.eq_of_toNat_eq h))]
  rfl

namespace Props

/-- **The property is found, read or not.**  In an archive that was opened, after any history of looking up, reading and
forgetting, a path to a property of an image gives that property.  Partial: links, text files and scripts are left out,
and the way inside the image goes through sub-properties only. -/
theorem C61_found_partial (F : Fuel) (n : Nat) (cache : List Cached) (f : WFile) (items : List (List Char × DNode))
    (arch : List (List Char × ATree)) (ho : (f.parse F n cache).1 = .ok items) (hb : (f.parse F n cache).2.env.buf.length < 2 ^ 63)
    (ha : HoldsArchive (f.parse F n cache).2.env items arch) :
    ∃ N, ∀ fuel, N ≤ fuel → ∀ h i, MapsOk h → NewFile h i → ∃ g, h.parse (arcContent F n fuel cache f) i = (.ok (), g) ∧
      ∀ ops, (∀ op ∈ ops, AllowedArc arch op) → ∀ path dirs img ns ps w ks, IntoImage path dirs img ns → ns ≠ [[]] →
        ImageIn arch dirs img (.image ps) → (names ps).Nodup → NoUol ps → AtPath ps ns (.node w ks) →
        ∃ r, (runArc (arcContent F n fuel cache f) i g ops).withoutParse (arcLook F n fuel cache f) i path = .ok (some r) ∧
          GivenShows (f.parse F n cache).2.env (runArc (arcContent F n fuel cache f) i g ops) (ns.getLast!) w ks r := by
  obtain ⟨N, hN⟩ := holdsArchive_reads hb ha
  refine ⟨N, fun fuel hf h i hm hnew => ?_⟩
  obtain ⟨g, hg, S⟩ := opens_stands ho (hN fuel hf) hnew
  refine ⟨g, hg, fun ops hops path dirs img ns ps w ks hp hne hi hn hu hat => ?_⟩
  have hmg : MapsOk g := by
    have := mapsOk_parse (content := arcContent F n fuel cache f) (i := i) hm
    rwa [hg] at this
  obtain ⟨j, h1, h2⟩ := into_image (mapsOk_run ops g hmg) (S ops hops).2 hp hi (fun ks => by simp)
  have hsp := intoImage_pieces hp
  have hns : ns ≠ [] := by rw [← hsp]; exact splitSlash_ne _
  generalize runArc (arcContent F n fuel cache f) i g ops = G at h1 h2 ⊢
  cases h2 with
  | image _ c _ p o s _ fo hc hcn hk L hr G' T K =>
    unfold NHeap.withoutParse
    rw [h1]
    dsimp only
    rw [hc]
    obtain ⟨cn, ck, cp, cks⟩ := c
    dsimp only at hcn hk
    subst hk
    cases p with
    | true =>
      dsimp only
      have hx := foldPath_image58 hns ((T rfl).1 (G'.free hu)) G' (show NoUolIn (.image ps) from hu)
      have hv : belowImage (.image ps) ns = some (.prop w) := by
        show (propAt ps ns).map AVal.prop = _
        rw [atPath_propAt hat (stored_nodup hb L.stored hn) w ks rfl]
        rfl
      rw [hv] at hx
      obtain ⟨q, c', h3, h4, h5, h6⟩ := hx
      rw [atPath_fold, hsp, h3]
      refine ⟨.held q, rfl, .held q c' h4 ?_ h6⟩
      rw [List.getLast!_eq_getLast?_getD, h5]
      rfl
    | false =>
      dsimp only
      obtain ⟨x, hx1, hx2⟩ := L.looks ps rfl hn (slashed ns) (.node w ks) (slashed_ne hns hne) (by rw [hsp]; exact hat)
      unfold arcLook
      rw [imgLook_image, hx2, hsp]
      exact ⟨_, rfl, .made x hx1⟩

/-- **What is not there is not found.** -/
theorem C61_missing_partial (F : Fuel) (n : Nat) (cache : List Cached) (f : WFile) (items : List (List Char × DNode))
    (arch : List (List Char × ATree)) (ho : (f.parse F n cache).1 = .ok items) (hb : (f.parse F n cache).2.env.buf.length < 2 ^ 63)
    (ha : HoldsArchive (f.parse F n cache).2.env items arch) :
    ∃ N, ∀ fuel, N ≤ fuel → ∀ h i, MapsOk h → NewFile h i → ∃ g, h.parse (arcContent F n fuel cache f) i = (.ok (), g) ∧
      ∀ ops, (∀ op ∈ ops, AllowedArc arch op) → ∀ path dirs img ns ps, IntoImage path dirs img ns → ns ≠ [[]] →
        ImageIn arch dirs img (.image ps) → (names ps).Nodup → NoUol ps → MissingAt ps ns →
        (runArc (arcContent F n fuel cache f) i g ops).withoutParse (arcLook F n fuel cache f) i path = .ok none := by
  obtain ⟨N, hN⟩ := holdsArchive_reads hb ha
  refine ⟨N, fun fuel hf h i hm hnew => ?_⟩
  obtain ⟨g, hg, S⟩ := opens_stands ho (hN fuel hf) hnew
  refine ⟨g, hg, fun ops hops path dirs img ns ps hp hne hi hn hu hat => ?_⟩
  have hmg : MapsOk g := by
    have := mapsOk_parse (content := arcContent F n fuel cache f) (i := i) hm
    rwa [hg] at this
  obtain ⟨j, h1, h2⟩ := into_image (mapsOk_run ops g hmg) (S ops hops).2 hp hi (fun ks => by simp)
  have hsp := intoImage_pieces hp
  have hns : ns ≠ [] := by rw [← hsp]; exact splitSlash_ne _
  generalize runArc (arcContent F n fuel cache f) i g ops = G at h1 h2 ⊢
  cases h2 with
  | image _ c _ p o s _ fo hc hcn hk L hr G' T K =>
    unfold NHeap.withoutParse
    rw [h1]
    dsimp only
    rw [hc]
    obtain ⟨cn, ck, cp, cks⟩ := c
    dsimp only at hcn hk
    subst hk
    cases p with
    | true =>
      dsimp only
      have hx := foldPath_image58 hns ((T rfl).1 (G'.free hu)) G' (show NoUolIn (.image ps) from hu)
      have hv : belowImage (.image ps) ns = none := by
        show (propAt ps ns).map AVal.prop = _
        rw [missing_propAt hat (stored_nodup hb L.stored hn)]
        rfl
      rw [hv] at hx
      dsimp only at hx
      rw [atPath_fold, hsp, hx]
      rfl
    | false =>
      dsimp only
      unfold arcLook
      rw [imgLook_image, missing_looks hb L.place L.stored hn (slashed_ne hns hne) (by rw [hsp]; exact hat)]
      rfl

/-- **No image on the way**: nothing is given. -/
theorem C61_no_image (F : Fuel) (n : Nat) (cache : List Cached) (f : WFile) (items : List (List Char × DNode))
    (arch : List (List Char × ATree)) (ho : (f.parse F n cache).1 = .ok items) (hb : (f.parse F n cache).2.env.buf.length < 2 ^ 63)
    (ha : HoldsArchive (f.parse F n cache).2.env items arch) :
    ∃ N, ∀ fuel, N ≤ fuel → ∀ h i, MapsOk h → NewFile h i → ∃ g, h.parse (arcContent F n fuel cache f) i = (.ok (), g) ∧
      ∀ ops, (∀ op ∈ ops, AllowedArc arch op) → ∀ path ns, ¬ HasImg path → Pieces path ns →
        (∀ a, a <+: ns → arcAt arch a ≠ some .image) →
        (runArc (arcContent F n fuel cache f) i g ops).withoutParse (arcLook F n fuel cache f) i path = .ok none := by
  obtain ⟨N, hN⟩ := holdsArchive_reads hb ha
  refine ⟨N, fun fuel hf h i hm hnew => ?_⟩
  obtain ⟨g, hg, S⟩ := opens_stands ho (hN fuel hf) hnew
  refine ⟨g, hg, fun ops hops path ns hno hp himg => ?_⟩
  have hmg : MapsOk g := by
    have := mapsOk_parse (content := arcContent F n fuel cache f) (i := i) hm
    rwa [hg] at this
  have hm2 := mapsOk_run (content := arcContent F n fuel cache f) (i := i) ops g hmg
  have hs := S ops hops
  generalize runArc (arcContent F n fuel cache f) i g ops = G at hm2 hs ⊢
  unfold NHeap.withoutParse
  rw [C30_no_image hm2 hno hp fun a j h1 h2 h3 => no_image_stands ns i arch hs.2 himg a j h1 h2 ((foldPath_at hm2 _ _ _).2 h3)]

/-- **The property does not hold for the image itself**: a path without ".img" that ends at an image panics, read or not. -/
theorem C61_image_counterexample (F : Fuel) (n : Nat) (cache : List Cached) (f : WFile) (items : List (List Char × DNode))
    (arch : List (List Char × ATree)) (ho : (f.parse F n cache).1 = .ok items) (hb : (f.parse F n cache).2.env.buf.length < 2 ^ 63)
    (ha : HoldsArchive (f.parse F n cache).2.env items arch) :
    ∃ N, ∀ fuel, N ≤ fuel → ∀ h i, MapsOk h → NewFile h i → ∃ g, h.parse (arcContent F n fuel cache f) i = (.ok (), g) ∧
      ∀ ops, (∀ op ∈ ops, AllowedArc arch op) → ∀ path dirs img t, ¬ HasImg path → path ≠ [] → Pieces path (dirs ++ [img]) →
        ImageIn arch dirs img t → (∀ ks, t ≠ .dir ks) →
        (runArc (arcContent F n fuel cache f) i g ops).withoutParse (arcLook F n fuel cache f) i path = .error .panicIndex := by
  obtain ⟨N, hN⟩ := holdsArchive_reads hb ha
  refine ⟨N, fun fuel hf h i hm hnew => ?_⟩
  obtain ⟨g, hg, S⟩ := opens_stands ho (hN fuel hf) hnew
  refine ⟨g, hg, fun ops hops path dirs img t hno hne hp ⟨kids, h1, h2⟩ ht => ?_⟩
  have hmg : MapsOk g := by
    have := mapsOk_parse (content := arcContent F n fuel cache f) (i := i) hm
    rwa [hg] at this
  have hm2 := mapsOk_run (content := arcContent F n fuel cache f) (i := i) ops g hmg
  have hs := S ops hops
  generalize runArc (arcContent F n fuel cache f) i g ops = G at hm2 hs ⊢
  obtain ⟨d, hd, L, hno'⟩ := dirs_stand dirs i arch kids hs.2 h1
  have := L img
  rw [h2] at this
  obtain ⟨j, hj, hst⟩ := this
  unfold NHeap.withoutParse
  rw [C30_last_panic hm2 hno hne hp ((foldPath_at hm2 _ _ _).1 hd)
    (fun a' j' h1 h2 h3 => hno' a' j' h1 h2 ((foldPath_at hm2 _ _ _).2 h3)) ((at_eq hm2).1 hj) (stands_image hst ht)]

/-- **Scripts and text files** have something below them only when they have been read.  As long as they have not,
nothing is given for any path (for a text: unless its first byte is 0x73, the letter `s`). -/
theorem C61_closed_counterexample (e : Env) (fuel : Nat) (g : NHeap) (i j : Nat) (path rest nm : List Char) (o s : Nat) (t : ATree) (c : NCell)
    (hj : g.imageFromPath i path = .ok (some (j, rest))) (hc : g.cell j = some c)
    (hk : c.kind = .image false (Encodable.encode (Src58.image nm o s)))
    (hs : StoredImage e nm o s t) (ht : (∃ d, t = .script d) ∨ ∃ b d, t = .text (b :: d) ∧ b ≠ 0x73#8) (hb : e.buf.length < 2 ^ 63) :
    g.withoutParse (imgLook e fuel) i path = .ok none := by
  have key : ∃ b : Byte, b ≠ 0x73#8 ∧ Holds e.buf o [b] := by
    rcases ht with ⟨d, rfl⟩ | ⟨b, d, rfl, hb'⟩
    · cases hs with
      | script nb _ _ _ h => exact ⟨1#8, by decide, h.left (a := [1#8])⟩
    · cases hs with
      | text _ _ _ _ h => exact ⟨b, hb', h.left (a := [b])⟩
  obtain ⟨b, hb1, hb2⟩ := key
  unfold NHeap.withoutParse
  rw [hj]
  dsimp only
  rw [hc]
  obtain ⟨cn, ck, cp, cks⟩ := c
  dsimp only at hk
  subst hk
  dsimp only
  rw [imgLook_image, closed_look hb hb1 hb2]
  rfl

/-! ### examples -/

theorem wfile58_opens : ∃ N, ∀ F : Fuel, N ≤ F.loop → N ≤ F.nest → ∀ n, 2000 < n →
    (wfile58.parse F n []).1 = .ok items58 ∧ (wfile58.parse F n []).2.env = wfile58.env := by
  have h83 : verHash 83 = 1876 := by simp [verHash]
  obtain ⟨N, hN⟩ := C54_opens wfile58 83 items58 rfl (by decide) (by decide +kernel) (by decide +kernel)
    (by intro ev h; cases h; decide) rfl ⟨by omega, by omega, .inr (by rw [h83]; decide)⟩ (by rw [h83]; exact file58_holds)
  refine ⟨N, fun F h1 h2 n h3 => ?_⟩
  obtain ⟨p1, p2⟩ := hN F h1 h2 n h3 fun u h hu => absurd hu (no_earlier u h)
  exact ⟨p1, p2.2.2.2.1⟩

theorem heap58_maps : MapsOk heap58 := mapsOk_all (by rw [heap58]; rfl)

theorem hasNot {path : List Char} (h : cutImg path = none) : ¬ HasImg path := by
  rw [hasImg_iff]
  rintro ⟨a, b, hf⟩
  rw [cutImg_iff.2 hf] at h
  cases h

/-- Before the image `a` is read, and after: `a/n` is the number 5 and there is no `a/m`. -/
example : ∃ (F : Fuel) (n fuel : Nat) (g : NHeap), heap58.parse (arcContent F n fuel [] wfile58) 0 = (.ok (), g) ∧
    ∀ ops ∈ [[], [ArcOp.load "a".toList]],
      (∃ r, (runArc (arcContent F n fuel [] wfile58) 0 g ops).withoutParse (arcLook F n fuel [] wfile58) 0 "a/n".toList = .ok (some r) ∧
        GivenShows wfile58.env (runArc (arcContent F n fuel [] wfile58) 0 g ops) ['n'] (.int 5) [] r) ∧
      (runArc (arcContent F n fuel [] wfile58) 0 g ops).withoutParse (arcLook F n fuel [] wfile58) 0 "a/m".toList = .ok none ∧
      (runArc (arcContent F n fuel [] wfile58) 0 g ops).withoutParse (arcLook F n fuel [] wfile58) 0 "b/x".toList = .ok none ∧
      (runArc (arcContent F n fuel [] wfile58) 0 g ops).withoutParse (arcLook F n fuel [] wfile58) 0 "b/c.txt".toList = .error .panicIndex := by
  obtain ⟨N, hN⟩ := wfile58_opens
  obtain ⟨h1, h2⟩ := hN ⟨N, N⟩ (Nat.le_refl _) (Nat.le_refl _) 2001 (by omega)
  have hb : (wfile58.parse ⟨N, N⟩ 2001 []).2.env.buf.length < 2 ^ 63 := by rw [h2]; decide +kernel
  have ha : HoldsArchive (wfile58.parse ⟨N, N⟩ 2001 []).2.env items58 arch58 := by rw [h2]; exact arch58_stored
  obtain ⟨N1, H1⟩ := C61_found_partial ⟨N, N⟩ 2001 [] wfile58 items58 arch58 h1 hb ha
  obtain ⟨N2, H2⟩ := C61_missing_partial ⟨N, N⟩ 2001 [] wfile58 items58 arch58 h1 hb ha
  obtain ⟨N3, H3⟩ := C61_no_image ⟨N, N⟩ 2001 [] wfile58 items58 arch58 h1 hb ha
  obtain ⟨N4, H4⟩ := C61_image_counterexample ⟨N, N⟩ 2001 [] wfile58 items58 arch58 h1 hb ha
  obtain ⟨g, hg, K1⟩ := H1 (N1 + N2 + N3 + N4) (by omega) heap58 0 heap58_maps ⟨_, rfl, rfl, rfl⟩
  obtain ⟨g2, hg2, K2⟩ := H2 (N1 + N2 + N3 + N4) (by omega) heap58 0 heap58_maps ⟨_, rfl, rfl, rfl⟩
  obtain ⟨g3, hg3, K3⟩ := H3 (N1 + N2 + N3 + N4) (by omega) heap58 0 heap58_maps ⟨_, rfl, rfl, rfl⟩
  obtain ⟨g4, hg4, K4⟩ := H4 (N1 + N2 + N3 + N4) (by omega) heap58 0 heap58_maps ⟨_, rfl, rfl, rfl⟩
  have e2 : g2 = g := congrArg Prod.snd (hg2.symm.trans hg)
  have e3 : g3 = g := congrArg Prod.snd (hg3.symm.trans hg)
  have e4 : g4 = g := congrArg Prod.snd (hg4.symm.trans hg)
  subst e2 e3 e4
  have hu : NoUol [(['n'], .node (.int 5) [])] := .cons _ _ _ _ (by simp) .nil .nil
  refine ⟨⟨N, N⟩, 2001, N1 + N2 + N3 + N4, _, hg, fun ops hops => ?_⟩
  have hal : ∀ op ∈ ops, AllowedArc arch58 op := by
    simp only [List.mem_cons, List.not_mem_nil, or_false] at hops
    rcases hops with rfl | rfl
    · simp
    · intro op ho
      rw [List.mem_singleton] at ho
      subst ho
      exact ⟨[['a']], pieces_iff.2 (by decide), .inr hu⟩
  refine ⟨?_, ?_, ?_, ?_⟩
  · have := K1 ops hal "a/n".toList [] ['a'] [['n']] _ (.int 5) [] (.plain (hasNot (by decide +kernel)) (pieces_iff.2 (by decide)) (by simp)) (by simp)
      ⟨_, rfl, rfl⟩ (by decide) hu (.last _ _ _ (by simp))
    rw [h2] at this
    exact this
  · exact K2 ops hal "a/m".toList [] ['a'] [['m']] _ (.plain (hasNot (by decide +kernel)) (pieces_iff.2 (by decide)) (by simp)) (by simp)
      ⟨_, rfl, rfl⟩ (by decide) hu (.last _ _ (by simp [names]))
  · refine K3 ops hal "b/x".toList [['b'], ['x']] (hasNot (by decide +kernel)) (pieces_iff.2 (by decide)) ?_
    intro a ha
    have : a = [] ∨ a = [['b']] ∨ a = [['b'], ['x']] := by
      have := (List.mem_inits _ _).2 ha
      simpa using this
    rcases this with rfl | rfl | rfl <;> exact fun h => by cases h
  · exact K4 ops hal "b/c.txt".toList [['b']] "c.txt".toList _ (hasNot (by decide +kernel)) (by simp) (pieces_iff.2 (by decide)) ⟨_, rfl, rfl⟩ (by simp)

/-- a path with ".img" -/
example : IntoImage "Map/m.img/info/x".toList ["Map".toList] "m.img".toList ["info".toList, "x".toList] :=
  .suffix "Map/m.img".toList "info/x".toList (cutImg_iff.1 (by decide +kernel)) (hasNot (by decide +kernel))
    (pieces_iff.2 (by decide +kernel)) (pieces_iff.2 (by decide +kernel))

/-- a script that has not been read -/
def heap61 : NHeap := [some ⟨['r'], .file true (Encodable.encode Src58.file), none, [("b.lua".toList, 1)]⟩,
  some ⟨"b.lua".toList, .image false (Encodable.encode (Src58.image "b.lua".toList 47 4)), some 0, []⟩]

/-- it has no `Script` as long as it has not been read, and it has one then -/
example : ∃ fuel, heap61.withoutParse (imgLook wfile58b.env fuel) 0 "b.lua/Script".toList = .ok none ∧
    ∃ g j g' c, heap61.parse (imgContent wfile58b.env fuel) 1 = (.ok (), g) ∧
      g.atPathParsed (imgContent wfile58b.env fuel) 1 "Script".toList = (.ok j, g') ∧ g'.cell j = some c ∧
      KindShows wfile58b.env c.kind (.script [0x41#8, 0x42#8]) := by
  have hs : StoredImage wfile58b.env "b.lua".toList 47 4 (.script [0x41#8, 0x42#8]) :=
    .script [2#8] _ ⟨['b'], rfl⟩ (.short (by decide) (by decide)) (holds_slice 47 (by decide +kernel))
  obtain ⟨N, hN⟩ := C58_image wfile58b.env "b.lua".toList 47 4 _ (by decide +kernel) (by decide) hs (by simp)
  obtain ⟨g, hg, H⟩ := hN N (Nat.le_refl _) heap61 1 _ rfl rfl rfl
  have hm : MapsOk heap61 := mapsOk_all (by rw [heap61]; rfl)
  refine ⟨N, ?_, ?_⟩
  · refine C61_closed_counterexample wfile58b.env N heap61 0 1 "b.lua/Script".toList "Script".toList "b.lua".toList 47 4 _ _ ?_ rfl rfl hs
      (.inl ⟨_, rfl⟩) (by decide +kernel)
    have hi : Image heap61 1 := ⟨_, _, _, rfl, rfl⟩
    have hx : heap61.at 0 "b.lua".toList = some 1 := rfl
    exact C30_no_suffix_partial (path := "b.lua/Script".toList) hm (a := []) (x := "b.lua".toList) (y := "Script".toList) (b := [])
      (hasNot (by decide +kernel)) (pieces_iff.2 (by decide)) (.here 0)
      (fun a' j' h1 h2 => absurd (List.prefix_nil.1 h1) h2) ((at_eq hm).1 hx) hi
  · obtain ⟨j, g', c, h1, h2, h3, h4⟩ := H "Script".toList ["Script".toList] (pieces_iff.2 (by decide))
    exact ⟨g, j, g', c, hg, h1, h2, h4⟩

end Props

end Wz
