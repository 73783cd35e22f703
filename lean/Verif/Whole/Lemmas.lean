import Verif.Whole.Spec
import Verif.Whole.LinkSpec
import Verif.Node.LinkLemmas
import Verif.Node.FindProps
import Verif.Image.Props

/-!
# Lemmas for C58
-/

set_option autoImplicit false

namespace Wz

open Spec

theorem lastNamed_cons {α : Type} (m : List Char) (a : α) (rest : List (List Char × α)) (n : List Char) :
    lastNamed ((m, a) :: rest) n = match lastNamed rest n with
      | some b => some b
      | none => if m = n then some a else none := rfl

theorem all_shows58 {P : NKind → Prop} : ∀ {f : Forest} {n : List Char} {k : NKind} {ks : Forest},
    Spec.Forest.All P f → Spec.Forest.shows f n = some (k, ks) → P k ∧ Spec.Forest.All P ks
  | .nil, _, _, _, _, h => by cases h
  | .node m k' ks' rest, n, k, ks, ha, h => by
    obtain ⟨a1, a2, a3⟩ := ha
    simp only [Spec.Forest.shows] at h
    cases hr : Spec.Forest.shows rest n with
    | some x =>
      rw [hr] at h
      cases h
      exact all_shows58 a3 hr
    | none =>
      rw [hr] at h
      dsimp only at h
      split at h
      · cases h; exact ⟨a1, a2⟩
      · cases h

/-! ### properties -/

theorem quiet_inImage {k : NKind} (h : InImage k) : Quiet k := by
  rcases h with ⟨v, rfl⟩ | ⟨t, rfl⟩
  · exact .other v
  · exact .uol t

theorem inImage_noReads {k : NKind} (h : InImage k) {s : Nat} : ¬ ReadsFrom k s := by
  rcases h with ⟨v, rfl⟩ | ⟨t, rfl⟩ <;> intro hr <;> cases hr

theorem readOnWay_image {content : Content} {f : Forest} {ns : List (List Char)} {s : Nat}
    (h : ReadOnWay content f ns s) : ¬ Spec.Forest.All InImage f := by
  induction h with
  | here f n m ns k ks s hs hr => exact fun ha => inImage_noReads (all_shows58 ha hs).1 hr
  | later f f' n m ns k ks s hs hb _ ih =>
    intro ha
    obtain ⟨h1, h2⟩ := all_shows58 ha hs
    cases hb with
    | quiet => exact ih h2
    | spent => rcases h1 with ⟨v, h⟩ | ⟨t, h⟩ <;> cases h
    | read _ _ _ hr => exact inImage_noReads h1 hr

theorem propKind_inImage (e : Env) (o : PObj) : InImage (propKind e o) := by
  cases o with
  | uol m => exact .inr ⟨_, rfl⟩
  | _ => exact .inl ⟨_, rfl⟩

theorem propForest_cons (e : Env) (n : List Char) (o : PObj) (ks rest : List (List Char × PNode)) :
    propForest e ((n, .node o ks) :: rest) = .node n (propKind e o) (propForest e ks) (propForest e rest) := by
  rw [propForest, propTree, propNode]

theorem propForest_nil (e : Env) : propForest e [] = .nil := by rw [propForest]

/-- properties of a forest of properties that shows a stored tree -/
theorem showsKids_forest {e : Env} {ks : List (List Char × PNode)} {kids : List (List Char × PTree)} (h : ShowsKids e ks kids) :
    Spec.Forest.All InImage (propForest e ks) ∧ (NoUol kids → Spec.Forest.All NoLink (propForest e ks)) := by
  induction h with
  | nil => rw [propForest_nil]; exact ⟨trivial, fun _ => trivial⟩
  | cons name o v ks rest ks' rest' hv _ _ ih1 ih2 =>
    rw [propForest_cons]
    refine ⟨⟨propKind_inImage e o, ih1.1, ih2.1⟩, fun hu => ?_⟩
    cases hu with
    | cons _ _ _ _ h1 h2 h3 =>
      refine ⟨?_, ih1.2 h2, ih2.2 h3⟩
      intro t
      cases hv with
      | uol m s => exact absurd rfl (h1 s)
      | _ => simp [propKind]

/-- one step down -/
theorem showsKids_last {e : Env} {ks : List (List Char × PNode)} {kids : List (List Char × PTree)} (h : ShowsKids e ks kids)
    (n : List Char) :
    match lastNamed kids n with
    | none => Spec.Forest.shows (propForest e ks) n = none
    | some (.node v kk') => ∃ o kk, Spec.Forest.shows (propForest e ks) n = some (propKind e o, propForest e kk) ∧ ShowsVal e o v ∧
        ShowsKids e kk kk' ∧ (NoUol kids → (∀ s, v ≠ .uol s) ∧ NoUol kk') := by
  induction h with
  | nil => rw [propForest_nil]; rfl
  | cons name o v ks rest ks' rest' hv hk _ _ ih =>
    rw [propForest_cons, lastNamed_cons]
    simp only [Spec.Forest.shows]
    cases hl : lastNamed rest' n with
    | some t =>
      rw [hl] at ih
      obtain ⟨w, kk'⟩ := t
      obtain ⟨o', kk, h1, h2, h3, h4⟩ := ih
      dsimp only
      rw [h1]
      refine ⟨o', kk, rfl, h2, h3, fun hu => ?_⟩
      cases hu with
      | cons _ _ _ _ _ _ hr => exact h4 hr
    | none =>
      rw [hl] at ih
      dsimp only at ih ⊢
      rw [ih]
      by_cases e' : name = n
      · rw [if_pos e']
        dsimp only
        rw [if_pos e']
        refine ⟨o, ks, rfl, hv, hk, fun hu => ?_⟩
        cases hu with
        | cons _ _ _ _ h1 h2 _ => exact ⟨h1, h2⟩
      · rw [if_neg e']
        dsimp only
        rw [if_neg e']

/-- what the result of a look-up is to be -/
def Outcome58 (e : Env) (ns : List (List Char)) (v : Option AVal) (r : Except Err (List Char × NKind)) : Prop :=
  match v with
  | some v => ∃ nm k, r = .ok (nm, k) ∧ ns.getLast? = some nm ∧ KindShows e k v
  | none => r = .error (.lib "NodeNotFound")

theorem Outcome58.cons {e : Env} {n m : List Char} {ns : List (List Char)} {v : Option AVal}
    {r : Except Err (List Char × NKind)} (h : Outcome58 e (m :: ns) v r) : Outcome58 e (n :: m :: ns) v r := by
  cases v with
  | none => exact h
  | some v =>
    obtain ⟨nm, k, h1, h2, h3⟩ := h
    exact ⟨nm, k, h1, by rw [List.getLast?_cons_cons]; exact h2, h3⟩

theorem propKind_shows {e : Env} {o : PObj} {v : PVal} (h : ShowsVal e o v) (hu : ∀ s, v ≠ .uol s) :
    KindShows e (propKind e o) (.prop v) := by
  cases h with
  | uol m s => exact absurd rfl (hu s)
  | null => exact .prop _ _ _ (Encodable.encodek _) .null
  | short v => exact .prop _ _ _ (Encodable.encodek _) (.short v)
  | int v => exact .prop _ _ _ (Encodable.encodek _) (.int v)
  | long v => exact .prop _ _ _ (Encodable.encodek _) (.long v)
  | float b => exact .prop _ _ _ (Encodable.encodek _) (.float b)
  | double b => exact .prop _ _ _ (Encodable.encodek _) (.double b)
  | str m s h => exact .prop _ _ _ (Encodable.encodek _) (.str m s h)
  | sub => exact .prop _ _ _ (Encodable.encodek _) .sub
  | canvas g p d h1 h2 h3 h4 => exact .prop _ _ _ (Encodable.encodek _) (.canvas g p d h1 h2 h3 h4)
  | convex => exact .prop _ _ _ (Encodable.encodek _) .convex
  | vector x y => exact .prop _ _ _ (Encodable.encodek _) (.vector x y)
  | sound s hd d h1 h2 h3 h4 h5 h6 => exact .prop _ _ _ (Encodable.encodek _) (.sound s hd d h1 h2 h3 h4 h5 h6)
  | raw o d h => exact .prop _ _ _ (Encodable.encodek _) (.raw o d h)
  | video o d h => exact .prop _ _ _ (Encodable.encodek _) (.video o d h)

theorem prop_leads {e : Env} (content : Content) : ∀ (ns : List (List Char)) (ks : List (List Char × PNode))
    (kids : List (List Char × PTree)), ns ≠ [] → ShowsKids e ks kids → NoUol kids →
    ∃ r, LeadsTo content (propForest e ks) ns r ∧ Outcome58 e ns ((propAt kids ns).map .prop) r
  | [], _, _, hne, _, _ => absurd rfl hne
  | n :: ns, ks, kids, _, h, hu => by
    have hl := showsKids_last h n
    simp only [propAt]
    cases hn : lastNamed kids n with
    | none =>
      rw [hn] at hl
      exact ⟨_, .missing _ n ns hl, rfl⟩
    | some t =>
      rw [hn] at hl
      obtain ⟨v, kk'⟩ := t
      obtain ⟨o, kk, h1, h2, h3, h4⟩ := hl
      obtain ⟨hv, hk⟩ := h4 hu
      dsimp only
      cases ns with
      | nil =>
        rw [if_pos rfl]
        exact ⟨_, .found _ n _ _ h1, n, _, rfl, rfl, propKind_shows h2 hv⟩
      | cons m ns =>
        rw [if_neg (by simp)]
        obtain ⟨r, hr, ho⟩ := prop_leads content (m :: ns) kk kk' (by simp) h3 hk
        exact ⟨r, .down _ _ n m ns _ _ r h1 (.quiet _ _ (quiet_inImage (propKind_inImage e o))) hr, ho.cons⟩

theorem propKind_links {e : Env} {o : PObj} {v : PVal} (h : ShowsVal e o v) : LinkShows e (propKind e o) (.prop v) := by
  by_cases hu : ∃ s, v = .uol s
  · obtain ⟨s, rfl⟩ := hu
    cases h with
    | uol m _ hm =>
      simp only [propKind, hm]
      exact .uol s
  · have hv : ∀ s, v ≠ .uol s := fun s h => hu ⟨s, h⟩
    exact .other _ _ (fun s h => by cases h; exact hv s rfl) (propKind_shows h hv)

theorem Spec.propAt_one {kids : List (List Char × PTree)} (n : List Char) (ns : List (List Char)) :
    propAt kids (n :: ns) = match lastNamed kids n with
      | none => none
      | some (.node v ks) => if ns = [] then some v else propAt ks ns := by
  simp only [propAt]
  cases lastNamed kids n with
  | none => rfl
  | some t => cases t; rfl

/-- the places of a list of properties -/
theorem prop_places {e : Env} : ∀ (ns : List (List Char)) (ks : List (List Char × PNode)) (kids : List (List Char × PTree)), ns ≠ [] →
    ShowsKids e ks kids → match (propAt kids ns : Option PVal) with
      | none => Spec.Forest.showsAt (propForest e ks) ns = none
      | some v => ∃ nm k, Spec.Forest.showsAt (propForest e ks) ns = some (nm, k) ∧ ns.getLast? = some nm ∧ LinkShows e k (.prop v)
  | [], _, _, hne, _ => absurd rfl hne
  | [n], ks, kids, _, h => by
    have hl := showsKids_last h n
    rw [Spec.propAt_one]
    simp only [Spec.Forest.showsAt]
    cases hn : lastNamed kids n with
    | none =>
      rw [hn] at hl
      dsimp only at hl ⊢
      rw [hl]
      rfl
    | some t =>
      rw [hn] at hl
      obtain ⟨v, kk'⟩ := t
      obtain ⟨o, kk, h1, h2, _, _⟩ := hl
      rw [h1]
      exact ⟨n, _, rfl, rfl, propKind_links h2⟩
  | n :: m :: ns, ks, kids, _, h => by
    have hl := showsKids_last h n
    rw [Spec.propAt_one]
    simp only [Spec.Forest.showsAt]
    cases hn : lastNamed kids n with
    | none =>
      rw [hn] at hl
      dsimp only at hl ⊢
      rw [hl]
    | some t =>
      rw [hn] at hl
      obtain ⟨v, kk'⟩ := t
      obtain ⟨o, kk, h1, h2, h3, _⟩ := hl
      rw [h1]
      dsimp only
      rw [if_neg (by simp), List.getLast?_cons_cons]
      exact prop_places (m :: ns) kk kk' (by simp) h3

theorem propForest_names70 {e : Env} {ks : List (List Char × PNode)} {kids : List (List Char × PTree)} (h : ShowsKids e ks kids)
    (n : List Char) : n ∈ (propForest e ks).names ↔ ∃ t, (n, t) ∈ kids := by
  induction h with
  | nil => rw [propForest_nil]; simp [Forest.names]
  | cons name o v ks rest ks' rest' _ _ _ _ ih =>
    rw [propForest_cons]
    simp only [Forest.names, List.mem_cons, ih, Prod.mk.injEq]
    constructor
    · rintro (rfl | ⟨t, ht⟩)
      · exact ⟨_, .inl ⟨rfl, rfl⟩⟩
      · exact ⟨t, .inr ht⟩
    · rintro ⟨t, ⟨rfl, _⟩ | ht⟩
      · exact .inl rfl
      · exact .inr ⟨t, ht⟩

theorem propForest_distinct {e : Env} {ks : List (List Char × PNode)} {kids : List (List Char × PTree)} (h : ShowsKids e ks kids) :
    DistinctProps kids → Spec.Forest.Distinct (propForest e ks) := by
  induction h with
  | nil => intro _; rw [propForest_nil]; trivial
  | cons name o v ks rest ks' rest' _ _ hr ih1 ih2 =>
    intro hd
    rw [propForest_cons]
    cases hd with
    | cons _ _ _ _ h1 h2 h3 =>
      refine ⟨?_, ih1 h2, ih2 h3⟩
      intro hm
      obtain ⟨t, ht⟩ := (propForest_names70 hr name).1 hm
      exact h1 t ht

/-! ### images -/

/-- what is below an image -/
def belowImage : ATree → List (List Char) → Option AVal
  | .image ps, ns => (propAt ps ns).map .prop
  | .text d, ns => if ns = ["text.txt".toList] then some (.prop (.raw d)) else none
  | .script d, ns => if ns = ["Script".toList] then some (.script d) else none
  | .dir _, _ => none

def NoUolIn : ATree → Prop
  | .image ps => NoUol ps
  | _ => True

/-- the links of an image -/
def treePlaces : ATree → Places
  | .image ps => linkPlaces ps
  | t => fun d => if d = [] then none else (belowImage t d).map fun _ => none

def DistinctIn : ATree → Prop
  | .image ps => DistinctProps ps
  | _ => True

/-- what a place shows -/
def Place70 (e : Env) (d : List (List Char)) (v : Option AVal) (x : Option (List Char × NKind)) : Prop :=
  match v with
  | none => x = none
  | some v => ∃ nm k, x = some (nm, k) ∧ d.getLast? = some nm ∧ LinkShows e k v

/-- what is read for an image is what was stored -/
structure GoodImage (e : Env) (t : ATree) (f : Forest) : Prop where
  values : Spec.Forest.All InImage f
  free : NoUolIn t → Spec.Forest.All NoLink f
  leads : ∀ content ns, ns ≠ [] → NoUolIn t → ∃ r, LeadsTo content f ns r ∧ Outcome58 e ns (belowImage t ns) r
  places : ∀ d, d ≠ [] → Place70 e d (belowImage t d) (Spec.Forest.showsAt f d)
  distinct : DistinctIn t → Spec.Forest.Distinct f

theorem imgForest_props (e : Env) : ∀ ks : List (List Char × PNode),
    imgForest e (ks.map fun x => (x.1, ImgNode.prop x.2)) = propForest e ks
  | [] => by rw [propForest_nil]; rfl
  | (n, .node o kk) :: ks => by
    rw [propForest_cons, List.map_cons, imgForest, imgForest_props e ks, propNode]

/-- an image with one value -/
theorem goodImage_one {e : Env} {t : ATree} {name : List Char} {v : Nat} {w : AVal} (hk : KindShows e (.other v) w)
    (hw : ∀ s, w ≠ .prop (.uol s)) (hb : ∀ ns, belowImage t ns = if ns = [name] then some w else none) :
    GoodImage e t (.node name (.other v) .nil .nil) := by
  refine ⟨⟨.inl ⟨v, rfl⟩, trivial, trivial⟩, fun _ => ⟨by intro t; simp, trivial, trivial⟩, fun content ns hne _ => ?_,
    fun d hd => ?_, fun _ => ⟨by simp [Forest.names], trivial, trivial⟩⟩
  case refine_2 =>
    have hs : ∀ n, Spec.Forest.shows (.node name (.other v) .nil .nil) n = if name = n then some (.other v, .nil) else none :=
      fun n => rfl
    rw [hb]
    match d, hd with
    | [n], _ =>
      simp only [Spec.Forest.showsAt, hs]
      by_cases e' : name = n
      · subst e'
        rw [if_pos rfl, if_pos rfl]
        exact ⟨name, _, rfl, rfl, .other _ _ hw hk⟩
      · rw [if_neg (by intro h; cases h; exact e' rfl), if_neg e']
        rfl
    | n :: m :: ns, _ =>
      rw [if_neg (by simp)]
      simp only [Spec.Forest.showsAt, hs]
      show _ = none
      by_cases e' : name = n
      · rw [if_pos e']
        cases ns <;> rfl
      · rw [if_neg e']
  rw [hb]
  have hs : ∀ n, Spec.Forest.shows (.node name (.other v) .nil .nil) n = if name = n then some (.other v, .nil) else none :=
    fun n => rfl
  match ns, hne with
  | [n], _ =>
    by_cases e' : name = n
    · subst e'
      rw [if_pos rfl]
      exact ⟨_, .found _ name (.other v) .nil (by rw [hs, if_pos rfl]), name, _, rfl, rfl, hk⟩
    · rw [if_neg (by intro h; cases h; exact e' rfl)]
      exact ⟨_, .missing _ n [] (by rw [hs, if_neg e']), rfl⟩
  | n :: m :: ns, _ =>
    rw [if_neg (by simp)]
    by_cases e' : name = n
    · exact ⟨_, .down _ .nil n m ns (.other v) .nil _ (by rw [hs, if_pos e']) (.quiet _ _ (.other v)) (.missing _ m ns rfl), rfl⟩
    · exact ⟨_, .missing _ n _ (by rw [hs, if_neg e']), rfl⟩

theorem storedImage_reads {e : Env} {name : List Char} {o s : Nat} {t : ATree} (hb : e.buf.length < 2 ^ 63) (ho : o < 2 ^ 32)
    (h : StoredImage e name o s t) :
    ∃ N, ∀ fuel, N ≤ fuel → ∃ f, readImage e fuel ⟨name, o, s⟩ = .ok f ∧ GoodImage e t f := by
  cases h with
  | props kids q ht hp =>
    obtain ⟨ks, hk, N, hN⟩ := Props.C51_property_image e ⟨name, o, s⟩ q kids hb (Nat.lt_trans ho (by decide)) hp ht
    refine ⟨N, fun fuel hf => ⟨propForest e ks, ?_, (showsKids_forest hk).1, (showsKids_forest hk).2, fun content ns hne hu => ?_, fun d hd => ?_, propForest_distinct hk⟩⟩
    · unfold readImage
      rw [hN fuel hf]
      exact congrArg Except.ok (imgForest_props e ks)
    · exact prop_leads content ns ks kids hne hk hu
    · have := prop_places d ks kids hd hk
      show Place70 e d ((propAt kids d).map AVal.prop) _
      cases hp : propAt kids d with
      | none => rw [hp] at this; exact this
      | some v => rw [hp] at this; exact this
  | text data ht hn hs hh =>
    refine ⟨0, fun fuel _ => ?_⟩
    obtain ⟨ob, h1, h2⟩ := Props.C51_text_image e ⟨name, o, s⟩ fuel data hb ht hh hs hn ⟨0, 0⟩
    refine ⟨.node "text.txt".toList (propKind e ob) .nil .nil, ?_, ?_⟩
    · unfold readImage
      rw [h1]
      simp only [Except.map, imgForest, propNode, propForest_nil]
    · cases h2 with
      | raw off _ hd => exact goodImage_one (.prop _ _ _ (Encodable.encodek _) (.raw off data hd)) (fun s h => nomatch h) (fun ns => rfl)
  | script nb data hl hn hh =>
    refine ⟨0, fun fuel _ => ?_⟩
    obtain ⟨off, h1, h2⟩ := Props.C51_lua_image e ⟨name, o, s⟩ fuel nb data hb hl hn hh ⟨0, 0⟩
    refine ⟨.node "Script".toList (.other (Encodable.encode (Leaf58.lua off data.length))) .nil .nil, ?_, ?_⟩
    · unfold readImage
      rw [h1]
      rfl
    · exact goodImage_one (.script _ off data (Encodable.encodek _) h2) (fun s h => nomatch h) (fun ns => rfl)

/-! ### one property without reading the image -/

mutual

/-- all paths into a list of properties, with what is there -/
def pathsOf : List (List Char × PTree) → List (List (List Char) × PTree)
  | [] => []
  | x :: xs => pathsOfOne x ++ pathsOf xs

/-- into one of them -/
def pathsOfOne : List Char × PTree → List (List (List Char) × PTree)
  | (n, t) => ([n], t) :: (pathsOfTree t).map fun y => (n :: y.1, y.2)

/-- below one of them -/
def pathsOfTree : PTree → List (List (List Char) × PTree)
  | .node _ ks => pathsOf ks

end

theorem pathsOf_mem {n : List Char} {t : PTree} {y : List (List Char) × PTree} : ∀ {kids : List (List Char × PTree)}, (n, t) ∈ kids →
    y ∈ pathsOfOne (n, t) → y ∈ pathsOf kids
  | x :: xs, h, hy => by
    rw [pathsOf, List.mem_append]
    rcases List.mem_cons.1 h with h | h
    · rw [← h]; exact .inl hy
    · exact .inr (pathsOf_mem h hy)

theorem atPath_mem {kids : List (List Char × PTree)} {ns : List (List Char)} {t : PTree} (h : AtPath kids ns t) : (ns, t) ∈ pathsOf kids := by
  induction h with
  | last kids name t hm => exact pathsOf_mem hm (by rw [pathsOfOne]; exact List.mem_cons_self)
  | step kids ks name next rest t hm _ ih =>
    refine pathsOf_mem hm ?_
    rw [pathsOfOne, pathsOfTree]
    exact List.mem_cons_of_mem _ (List.mem_map.2 ⟨_, ih, rfl⟩)

/-- an image is stored, and single properties are found in it with this bound -/
structure Looks58 (e : Env) (fuel : Nat) (name : List Char) (o s : Nat) (t : ATree) : Prop where
  place : o < 2 ^ 32
  stored : StoredImage e name o s t
  looks : ∀ ps, t = .image ps → (names ps).Nodup → ∀ path t', path ≠ [] → AtPath ps (splitSlash path) t' →
    ∃ n', Shows e n' t' ∧ ∀ c : Cur, ((Rd.imgAtPath ⟨name, o, s⟩ path fuel).run e c).1 = .ok ((splitSlash path).getLast!, n')

theorem storedImage_looks {e : Env} {name : List Char} {o s : Nat} {t : ATree} (hb : e.buf.length < 2 ^ 63) (ho : o < 2 ^ 32)
    (h : StoredImage e name o s t) : ∃ N, ∀ fuel, N ≤ fuel → Looks58 e fuel name o s t := by
  have h0 := h
  cases h with
  | text => exact ⟨0, fun _ _ => ⟨ho, h0, fun ps h => nomatch h⟩⟩
  | script => exact ⟨0, fun _ _ => ⟨ho, h0, fun ps h => nomatch h⟩⟩
  | props kids q ht hp =>
    have key : ∀ L : List (List (List Char) × PTree), ∃ N, ∀ fuel, N ≤ fuel → (names kids).Nodup → ∀ path t', path ≠ [] →
        (splitSlash path, t') ∈ L → AtPath kids (splitSlash path) t' → ∃ n', Shows e n' t' ∧ ∀ c : Cur,
          ((Rd.imgAtPath ⟨name, o, s⟩ path fuel).run e c).1 = .ok ((splitSlash path).getLast!, n') := by
      intro L
      induction L with
      | nil => exact ⟨0, fun _ _ _ _ _ _ h => nomatch h⟩
      | cons x L ih =>
        obtain ⟨N, hN⟩ := ih
        by_cases hx : (names kids).Nodup ∧ slashed x.1 ≠ [] ∧ splitSlash (slashed x.1) = x.1 ∧ AtPath kids x.1 x.2
        · obtain ⟨h1, h2, h3, h4⟩ := hx
          obtain ⟨_, _, n', _, s2, _, M, hM⟩ := Props.C24_image_same_partial e ⟨name, o, s⟩ q kids (slashed x.1) x.2 hb
            (show o < 2 ^ 63 by omega) hp ht h1 h2 (by rw [h3]; exact h4)
          refine ⟨N + M, fun fuel hf hn path t' hne hm ha => ?_⟩
          rcases List.mem_cons.1 hm with hm | hm
          · have e1 : splitSlash path = x.1 := congrArg Prod.fst hm
            have e2 : t' = x.2 := congrArg Prod.snd hm
            have e3 : path = slashed x.1 := by rw [← e1, splitSlash_text]
            rw [e2, e3]
            exact ⟨n', s2, fun c => (hM fuel (by omega) c).2⟩
          · exact hN fuel (by omega) hn path t' hne hm ha
        · refine ⟨N, fun fuel hf hn path t' hne hm ha => ?_⟩
          rcases List.mem_cons.1 hm with hm | hm
          · have e1 : splitSlash path = x.1 := congrArg Prod.fst hm
            have e2 : t' = x.2 := congrArg Prod.snd hm
            have e3 : path = slashed x.1 := by rw [← e1, splitSlash_text]
            exact absurd ⟨hn, by rw [← e3]; exact hne, by rw [← e3]; exact e1, by rw [← e1, ← e2]; exact ha⟩ hx
          · exact hN fuel hf hn path t' hne hm ha
    obtain ⟨N, hN⟩ := key (pathsOf kids)
    refine ⟨N, fun fuel hf => ⟨ho, h0, fun ps he hn path t' hne ha => ?_⟩⟩
    cases he
    exact hN fuel hf hn path t' hne (atPath_mem ha) ha

/-! ### the directory -/

/-- the entries of a directory with everything below them, and the images that are read for them -/
inductive ReadArchive (e : Env) (fuel : Nat) : List (List Char × DNode) → List (List Char × ATree) → Prop
  | nil : ReadArchive e fuel [] []
  | image (name : List Char) (o s : Nat) (t : ATree) (f : Forest) (rest : List (List Char × DNode))
      (rest' : List (List Char × ATree)) : Looks58 e fuel name o s t → readImage e fuel ⟨name, o, s⟩ = .ok f → GoodImage e t f →
      ReadArchive e fuel rest rest' → ReadArchive e fuel ((name, .image o s) :: rest) ((name, t) :: rest')
  | dir (name : List Char) (o s : Nat) (ks rest : List (List Char × DNode)) (ks' rest' : List (List Char × ATree)) :
      ReadArchive e fuel ks ks' → ReadArchive e fuel rest rest' →
      ReadArchive e fuel ((name, .dir o s ks) :: rest) ((name, .dir ks') :: rest')

theorem holdsArchive_reads {e : Env} {items : List (List Char × DNode)} {arch : List (List Char × ATree)}
    (hb : e.buf.length < 2 ^ 63) (h : HoldsArchive e items arch) :
    ∃ N, ∀ fuel, N ≤ fuel → ReadArchive e fuel items arch := by
  induction h with
  | nil => exact ⟨0, fun _ _ => .nil⟩
  | image name o s t rest rest' ho hs _ ih =>
    obtain ⟨N, hN⟩ := storedImage_reads hb ho hs
    obtain ⟨K, hK⟩ := storedImage_looks hb ho hs
    obtain ⟨M, hM⟩ := ih
    refine ⟨N + K + M, fun fuel hf => ?_⟩
    obtain ⟨f, h1, h2⟩ := hN fuel (by omega)
    exact .image name o s t f rest rest' (hK fuel (by omega)) h1 h2 (hM fuel (by omega))
  | dir name o s ks rest ks' rest' _ _ ih1 ih2 =>
    obtain ⟨N, hN⟩ := ih1
    obtain ⟨M, hM⟩ := ih2
    exact ⟨N + M, fun fuel hf => .dir name o s ks rest ks' rest' (hN fuel (by omega)) (hM fuel (by omega))⟩

theorem dirForest_nil : dirForest [] = .nil := by rw [dirForest]

theorem dirForest_image (n : List Char) (o s : Nat) (rest : List (List Char × DNode)) :
    dirForest ((n, .image o s) :: rest) =
      .node n (.image false (Encodable.encode (Src58.image n o s))) .nil (dirForest rest) := by
  rw [dirForest, dirTree, dirNode]

theorem dirForest_dir (n : List Char) (o s : Nat) (ks rest : List (List Char × DNode)) :
    dirForest ((n, .dir o s ks) :: rest) =
      .node n (.dir false true (Encodable.encode (Src58.dir o s))) (dirForest ks) (dirForest rest) := by
  rw [dirForest, dirTree, dirNode]

/-- one step down -/
theorem readArchive_last {e : Env} {fuel : Nat} {items : List (List Char × DNode)} {arch : List (List Char × ATree)}
    (h : ReadArchive e fuel items arch) (n : List Char) :
    match lastNamed arch n with
    | none => Spec.Forest.shows (dirForest items) n = none
    | some (.dir ks') => ∃ src ks, Spec.Forest.shows (dirForest items) n = some (.dir false true src, dirForest ks) ∧
        ReadArchive e fuel ks ks'
    | some t => ∃ o s f, Spec.Forest.shows (dirForest items) n =
        some (.image false (Encodable.encode (Src58.image n o s)), .nil) ∧ readImage e fuel ⟨n, o, s⟩ = .ok f ∧ GoodImage e t f := by
  induction h with
  | nil => rw [dirForest_nil]; rfl
  | image name o s t f rest rest' ht hr hg _ ih =>
    rw [dirForest_image, lastNamed_cons]
    simp only [Spec.Forest.shows]
    cases hl : lastNamed rest' n with
    | some u =>
      rw [hl] at ih
      cases u with
      | dir ks' =>
        obtain ⟨src, ks, h1, h2⟩ := ih
        exact ⟨src, ks, by rw [h1], h2⟩
      | image ps =>
        obtain ⟨o', s', f', h1, h2⟩ := ih
        exact ⟨o', s', f', by rw [h1], h2⟩
      | text d =>
        obtain ⟨o', s', f', h1, h2⟩ := ih
        exact ⟨o', s', f', by rw [h1], h2⟩
      | script d =>
        obtain ⟨o', s', f', h1, h2⟩ := ih
        exact ⟨o', s', f', by rw [h1], h2⟩
    | none =>
      rw [hl] at ih
      dsimp only at ih ⊢
      rw [ih]
      by_cases e' : name = n
      · subst e'
        rw [if_pos rfl]
        dsimp only
        rw [if_pos rfl]
        cases t with
        | dir ks' => nomatch ht.stored
        | image ps => exact ⟨o, s, f, rfl, hr, hg⟩
        | text d => exact ⟨o, s, f, rfl, hr, hg⟩
        | script d => exact ⟨o, s, f, rfl, hr, hg⟩
      · rw [if_neg e']
        dsimp only
        rw [if_neg e']
  | dir name o s ks rest ks' rest' hk _ _ ih =>
    rw [dirForest_dir, lastNamed_cons]
    simp only [Spec.Forest.shows]
    cases hl : lastNamed rest' n with
    | some u =>
      rw [hl] at ih
      cases u with
      | dir ks' =>
        obtain ⟨src, ks, h1, h2⟩ := ih
        exact ⟨src, ks, by rw [h1], h2⟩
      | image ps =>
        obtain ⟨o', s', f', h1, h2⟩ := ih
        exact ⟨o', s', f', by rw [h1], h2⟩
      | text d =>
        obtain ⟨o', s', f', h1, h2⟩ := ih
        exact ⟨o', s', f', by rw [h1], h2⟩
      | script d =>
        obtain ⟨o', s', f', h1, h2⟩ := ih
        exact ⟨o', s', f', by rw [h1], h2⟩
    | none =>
      rw [hl] at ih
      dsimp only at ih ⊢
      rw [ih]
      by_cases e' : name = n
      · subst e'
        rw [if_pos rfl]
        dsimp only
        rw [if_pos rfl]
        exact ⟨_, ks, rfl, hk⟩
      · rw [if_neg e']
        dsimp only
        rw [if_neg e']

theorem dirForest_noLink {e : Env} {fuel : Nat} {items : List (List Char × DNode)} {arch : List (List Char × ATree)}
    (h : ReadArchive e fuel items arch) : Spec.Forest.All NoLink (dirForest items) := by
  induction h with
  | nil => rw [dirForest_nil]; trivial
  | image name o s t f rest rest' _ _ _ _ ih => rw [dirForest_image]; exact ⟨by intro t; simp, trivial, ih⟩
  | dir name o s ks rest ks' rest' _ _ ih1 ih2 => rw [dirForest_dir]; exact ⟨by intro t; simp, ih1, ih2⟩

end Wz
