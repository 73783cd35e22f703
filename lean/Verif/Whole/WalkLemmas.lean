import Verif.Whole.WalkSpec
import Verif.Node.WalkOrderProps
import Verif.Whole.MsLemmas
import Verif.Node.WalkProps

/-!
# Lemmas for C68
-/

set_option autoImplicit false

namespace Wz

open Spec

/-- names and kinds show what is listed -/
inductive Listed (e : Env) : List (List Char × NKind) → List (List Char × AVal) → Prop
  | nil : Listed e [] []
  | cons (n : List Char) (k : NKind) (v : AVal) (os : List (List Char × NKind)) (ls : List (List Char × AVal)) :
      KindShows e k v → Listed e os ls → Listed e ((n, k) :: os) ((n, v) :: ls)

theorem Listed.append {e : Env} {a b : List (List Char × NKind)} {l m : List (List Char × AVal)} (h : Listed e a l)
    (h2 : Listed e b m) : Listed e (a ++ b) (l ++ m) := by
  induction h with
  | nil => exact h2
  | cons n k v os ls hk _ ih => exact .cons n k v _ _ hk ih

theorem Listed.visits {e : Env} {os : List (List Char × NKind)} {ls : List (List Char × AVal)} (h : Listed e os ls) :
    ∀ vs : List (Nat × Option NCell), vs.map (fun v => v.2.map fun c => (c.name, c.kind)) = os.map some → Visits e vs ls := by
  induction h with
  | nil => intro vs hv; cases vs with
    | nil => exact .nil
    | cons a b => cases hv
  | cons n k v os ls hk _ ih =>
    intro vs hv
    cases vs with
    | nil => cases hv
    | cons a b =>
      rw [List.map_cons, List.map_cons] at hv
      obtain ⟨h1, h2⟩ := List.cons.inj hv
      obtain ⟨j, o⟩ := a
      cases o with
      | none => cases h1
      | some c =>
        have h3 : (c.name, c.kind) = (n, k) := Option.some.inj h1
        have e1 : c.name = n := congrArg Prod.fst h3
        have e2 : c.kind = k := congrArg Prod.snd h3
        rw [← e1]
        exact .cons j c v b ls (by rw [e2]; exact hk) (ih b h2)

/-- walking this forest shows what is listed -/
structure Gives (e : Env) (content : Content) (f : Forest) (ls : List (List Char × AVal)) : Prop where
  free : Spec.Forest.All NoLink f
  distinct : Spec.Forest.Distinct f
  seen : ∃ obs, Seen content f obs ∧ Listed e obs ls

theorem propForest_names (e : Env) {ks : List (List Char × PNode)} {kids : List (List Char × PTree)} (h : ShowsKids e ks kids) :
    ∀ n, n ∈ (propForest e ks).names → ∃ t, (n, t) ∈ kids := by
  induction h with
  | nil => intro n hn; rw [propForest_nil] at hn; cases hn
  | cons name o v ks rest ks' rest' hv _ _ _ ih =>
    intro n hn
    rw [propForest_cons] at hn
    rcases List.mem_cons.1 hn with rfl | hn
    · exact ⟨_, List.mem_cons_self⟩
    · obtain ⟨t, ht⟩ := ih n hn
      exact ⟨t, List.mem_cons_of_mem _ ht⟩

theorem noUol_tidy {kids : List (List Char × PTree)} (h : TidyProps kids) : NoUol kids := by
  induction h with
  | nil => exact .nil
  | cons name v ks rest hv _ _ _ ih1 ih2 => exact .cons name v ks rest hv ih1 ih2

theorem propList_cons (n : List Char) (v : PVal) (ks rest : List (List Char × PTree)) :
    propList ((n, .node v ks) :: rest) = (n, .prop v) :: (propList ks ++ propList rest) := by
  rw [propList, propListOne, propListTree]; rfl

theorem gives_props {e : Env} (content : Content) {ks : List (List Char × PNode)} {kids : List (List Char × PTree)}
    (h : ShowsKids e ks kids) : TidyProps kids → Gives e content (propForest e ks) (propList kids) := by
  induction h with
  | nil => intro _; rw [propForest_nil, propList]; exact ⟨trivial, trivial, [], .nil, .nil⟩
  | cons name o v ks rest ks' rest' hv hk hr ih1 ih2 =>
    intro ht
    have hnl := (showsKids_forest (.cons name o v ks rest ks' rest' hv hk hr)).2 (noUol_tidy ht)
    cases ht with
    | cons _ _ _ _ h1 h2 h3 h4 =>
      obtain ⟨f1, d1, a, s1, l1⟩ := ih1 h3
      obtain ⟨f2, d2, b, s2, l2⟩ := ih2 h4
      rw [propForest_cons] at hnl ⊢
      rw [propList_cons]
      refine ⟨hnl, ⟨?_, d1, d2⟩, _, .quiet _ _ _ _ a b (quiet_inImage (propKind_inImage e o)) s1 s2, ?_⟩
      · intro hm
        obtain ⟨t, h⟩ := propForest_names e hr name hm
        exact h2 t h
      · exact .cons _ _ _ _ _ (propKind_shows hv h1) (l1.append l2)

/-- what is in an image -/
def inImage68 : ATree → List (List Char × AVal)
  | .dir _ => []
  | .image ps => propList ps
  | .text d => [("text.txt".toList, .prop (.raw d))]
  | .script d => [("Script".toList, .script d)]

theorem gives_one {e : Env} (content : Content) (name : List Char) (v : Nat) (w : AVal) (hk : KindShows e (.other v) w) :
    Gives e content (.node name (.other v) .nil .nil) [(name, w)] :=
  ⟨⟨fun _ => (by simp), trivial, trivial⟩, ⟨(by intro h; cases h), trivial, trivial⟩,
    [(name, .other v)], .quiet _ _ _ _ [] [] (.other v) .nil .nil, .cons _ _ _ _ _ hk .nil⟩

theorem storedImage_gives {e : Env} {name : List Char} {o s : Nat} {t : ATree} (hb : e.buf.length < 2 ^ 63) (ho : o < 2 ^ 32)
    (h : StoredImage e name o s t) (ht : ∀ ps, t = .image ps → TidyProps ps) :
    ∃ N, ∀ fuel, N ≤ fuel → ∃ f, readImage e fuel ⟨name, o, s⟩ = .ok f ∧ ∀ content, Gives e content f (inImage68 t) := by
  cases h with
  | props kids q hx hp =>
    obtain ⟨ks, hk, N, hN⟩ := Props.C51_property_image e ⟨name, o, s⟩ q kids hb (Nat.lt_trans ho (by decide)) hp hx
    refine ⟨N, fun fuel hf => ⟨propForest e ks, ?_, fun content => gives_props content hk (ht kids rfl)⟩⟩
    unfold readImage
    rw [hN fuel hf]
    exact congrArg Except.ok (imgForest_props e ks)
  | text data hx hn hs hh =>
    refine ⟨0, fun fuel _ => ?_⟩
    obtain ⟨ob, h1, h2⟩ := Props.C51_text_image e ⟨name, o, s⟩ fuel data hb hx hh hs hn ⟨0, 0⟩
    refine ⟨.node "text.txt".toList (propKind e ob) .nil .nil, ?_, fun content => ?_⟩
    · unfold readImage
      rw [h1]
      simp only [Except.map, imgForest, propNode, propForest_nil]
    · cases h2 with
      | raw off _ hd => exact gives_one content _ _ _ (.prop _ _ _ (Encodable.encodek _) (.raw off data hd))
  | script nb data hl hn hh =>
    refine ⟨0, fun fuel _ => ?_⟩
    obtain ⟨off, h1, h2⟩ := Props.C51_lua_image e ⟨name, o, s⟩ fuel nb data hb hl hn hh ⟨0, 0⟩
    refine ⟨.node "Script".toList (.other (Encodable.encode (Leaf58.lua off data.length))) .nil .nil, ?_, fun content => ?_⟩
    · unfold readImage
      rw [h1]
      rfl
    · exact gives_one content _ _ _ (.script _ off data (Encodable.encodek _) h2)

theorem dirForest_names {e : Env} {items : List (List Char × DNode)} {arch : List (List Char × ATree)}
    (h : HoldsArchive e items arch) : ∀ n, n ∈ (dirForest items).names → ∃ t, (n, t) ∈ arch := by
  induction h with
  | nil => intro n hn; rw [dirForest_nil] at hn; cases hn
  | image name o s t rest rest' _ _ _ ih =>
    intro n hn
    rw [dirForest_image] at hn
    rcases List.mem_cons.1 hn with rfl | hn
    · exact ⟨_, List.mem_cons_self⟩
    · obtain ⟨t, ht⟩ := ih n hn
      exact ⟨t, List.mem_cons_of_mem _ ht⟩
  | dir name o s ks rest ks' rest' _ _ _ ih =>
    intro n hn
    rw [dirForest_dir] at hn
    rcases List.mem_cons.1 hn with rfl | hn
    · exact ⟨_, List.mem_cons_self⟩
    · obtain ⟨t, ht⟩ := ih n hn
      exact ⟨t, List.mem_cons_of_mem _ ht⟩

theorem tidy_image {name : List Char} {t : ATree} {rest : List (List Char × ATree)} (h : Tidy ((name, t) :: rest)) :
    (∀ t', (name, t') ∉ rest) ∧ (∀ ps, t = .image ps → TidyProps ps) ∧ Tidy rest := by
  cases h with
  | dir _ _ _ h1 _ h3 => exact ⟨h1, (fun ps he => by cases he), h3⟩
  | image _ _ _ h1 h2 h3 => exact ⟨h1, (fun ps he => by cases he; exact h2), h3⟩
  | text _ _ _ h1 h3 => exact ⟨h1, (fun ps he => by cases he), h3⟩
  | script _ _ _ h1 h3 => exact ⟨h1, (fun ps he => by cases he), h3⟩

theorem arcList_image {e : Env} {name : List Char} {o s : Nat} {t : ATree} (h : StoredImage e name o s t)
    (rest : List (List Char × ATree)) :
    arcList ((name, t) :: rest) = (name, .image) :: (inImage68 t ++ arcList rest) := by
  cases h <;> simp only [arcList, arcListOne, arcListTree, inImage68, List.cons_append, List.nil_append]

theorem holdsArchive_gives {e : Env} {items : List (List Char × DNode)} {arch : List (List Char × ATree)}
    (hb : e.buf.length < 2 ^ 63) (h : HoldsArchive e items arch) : Tidy arch →
    ∃ N, ∀ fuel, N ≤ fuel → ∀ content : Content,
      (∀ n o s, content (Encodable.encode (Src58.image n o s)) = readImage e fuel ⟨n, o, s⟩) →
      Gives e content (dirForest items) (arcList arch) := by
  induction h with
  | nil =>
    intro _
    refine ⟨0, fun _ _ _ _ => ?_⟩
    rw [dirForest_nil, arcList]
    exact ⟨trivial, trivial, [], .nil, .nil⟩
  | image name o s t rest rest' ho hs hr ih =>
    intro ht
    obtain ⟨t1, t2, t3⟩ := tidy_image ht
    obtain ⟨N, hN⟩ := storedImage_gives hb ho hs t2
    obtain ⟨M, hM⟩ := ih t3
    refine ⟨N + M, fun fuel hf content hcon => ?_⟩
    obtain ⟨f, hf1, hf2⟩ := hN fuel (by omega)
    obtain ⟨g1, g2, a, g3, g4⟩ := hf2 content
    obtain ⟨k1, k2, b, k3, k4⟩ := hM fuel (by omega) content hcon
    rw [dirForest_image, arcList_image hs]
    refine ⟨⟨fun _ => (by simp), trivial, k1⟩, ⟨?_, trivial, k2⟩, _,
      .read _ _ _ f _ a b (.image _) ((hcon name o s).trans hf1) g1 g2 g3 k3, .cons _ _ _ _ _ (.image _ _) (g4.append k4)⟩
    intro hm
    obtain ⟨t', h⟩ := dirForest_names hr name hm
    exact t1 t' h
  | dir name o s ks rest ks' rest' _ hr ih1 ih2 =>
    intro ht
    cases ht with
    | dir _ _ _ h1 h2 h3 =>
      obtain ⟨N, hN⟩ := ih1 h2
      obtain ⟨M, hM⟩ := ih2 h3
      refine ⟨N + M, fun fuel hf content hcon => ?_⟩
      obtain ⟨g1, g2, a, g3, g4⟩ := hN fuel (by omega) content hcon
      obtain ⟨k1, k2, b, k3, k4⟩ := hM fuel (by omega) content hcon
      rw [dirForest_dir]
      have hl : arcList ((name, ATree.dir ks') :: rest') = (name, .dir) :: (arcList ks' ++ arcList rest') := by
        rw [arcList, arcListOne, arcListTree]; rfl
      rw [hl]
      refine ⟨⟨fun _ => (by simp), g1, k1⟩, ⟨?_, g2, k2⟩, _, .spent _ _ _ _ a b g3 k3,
        .cons _ _ _ _ _ (.dir _ _ _) (g4.append k4)⟩
      intro hm
      obtain ⟨t', h⟩ := dirForest_names hr name hm
      exact h1 t' h

theorem walkForce_first {content : Content} {h g : NHeap} {fuel i j : Nat} {oc : Option NCell} {vs : List (Nat × Option NCell)}
    (hw : h.walkForce content (fuel + 1) [] i = .ok ((j, oc) :: vs, g)) : j = i := by
  simp only [NHeap.walkForce] at hw
  rw [if_neg (by simp)] at hw
  split at hw
  · cases hw
  · split at hw
    · cases hw; rfl
    · split at hw
      · cases hw
      · cases hw; rfl

/-- what a walk gives starts with the first node -/
theorem walk_head {content : Content} {h g : NHeap} {N i : Nat} {vs : List (Nat × Option NCell)} {x : List Char × NKind}
    {obs : List (List Char × NKind)} (h1 : ∀ fuel, N ≤ fuel → h.walkForce content fuel [] i = .ok (vs, g))
    (h2 : vs.map (fun v => v.2.map fun c => (c.name, c.kind)) = (x :: obs).map some) :
    ∃ d us, vs = (i, some d) :: us ∧ d.name = x.1 ∧
      us.map (fun v => v.2.map fun c => (c.name, c.kind)) = obs.map some := by
  cases vs with
  | nil => cases h2
  | cons v vs =>
    rw [List.map_cons, List.map_cons] at h2
    obtain ⟨e1, e2⟩ := List.cons.inj h2
    obtain ⟨j, oc⟩ := v
    cases oc with
    | none => cases e1
    | some d =>
      have hj := walkForce_first (h1 (N + 1) (by omega))
      subst hj
      exact ⟨d, vs, rfl, congrArg Prod.fst (Option.some.inj e1), e2⟩

theorem walkedTimes_head {content : Content} {i n : Nat} {h g : NHeap} {x : List Char × NKind} {obs : List (List Char × NKind)}
    {Q : List (Nat × Option NCell) → Prop}
    (hq : ∀ vs : List (Nat × Option NCell), vs.map (fun v => v.2.map fun c => (c.name, c.kind)) = obs.map some → Q vs)
    (w : WalkedTimes content i (fun vs => vs.map (fun v => v.2.map fun c => (c.name, c.kind)) = (x :: obs).map some ∧
      (vs.map Prod.fst).Nodup) n h g) :
    WalkedTimes content i (fun ws => ∃ d us, ws = (i, some d) :: us ∧ d.name = x.1 ∧ Q us ∧
      (i :: us.map Prod.fst).Nodup) n h g := by
  induction w with
  | none h => exact .none h
  | next n N vs h h' g h1 h2 _ ih =>
    obtain ⟨d, us, rfl, e1, e2⟩ := walk_head h1 h2.1
    exact .next n N _ h h' g h1 ⟨d, us, rfl, e1, hq us e2, h2.2⟩ ih

theorem walkedIn_head {content : Content} {i : Nat} {h g : NHeap} {ords : List KidOrder} {x : List Char × NKind} {obs : List (List Char × NKind)}
    {Q : List (Nat × Option NCell) → Prop}
    (hq : ∀ vs : List (Nat × Option NCell), vs.map (fun v => v.2.map fun c => (c.name, c.kind)) = obs.map some → Q vs)
    (w : WalkedIn content i (AnyOrder i (x :: obs)) ords h g) :
    WalkedIn content i (fun ws => ∃ d vs us, ws = (i, some d) :: vs ∧ d.name = x.1 ∧ us.Perm vs ∧ Q us ∧ (i :: vs.map Prod.fst).Nodup ∧
      ParentsFirst ws) ords h g := by
  induction w with
  | none h => exact .none h
  | next ord ords N vs h h' g h1 h2 _ ih =>
    obtain ⟨d, v, u, rfl, p1, p2, p3, p4⟩ := h2
    obtain ⟨e1, e2⟩ := List.cons.inj p2
    exact .next ord ords N _ h h' g h1 ⟨d, v, u, rfl, congrArg Prod.fst (Option.some.inj e1), p1, hq u e2, p3, p4⟩ ih

/-- from what is read for the root to the walk -/
theorem seen_walk {content : Content} {top : NKind} {s : Nat} {f : Forest} {obs : List (List Char × NKind)}
    {Q : List (Nat × Option NCell) → Prop} (hsh : ReadsShut content) (hr : ReadsFrom top s) (hc : content s = .ok f)
    (g1 : Spec.Forest.All NoLink f) (g2 : Spec.Forest.Distinct f) (g3 : Seen content f obs)
    (hq : ∀ vs : List (Nat × Option NCell), vs.map (fun v => v.2.map fun c => (c.name, c.kind)) = obs.map some → Q vs) :
    WalksThrough content top Q := by
  intro h i c hci hk hks
  have hseen := Seen.read c.name top s f .nil obs [] hr hc g1 g2 g3 .nil
  have hop : Spec.Forest.All NotOpen (.node c.name top .nil .nil) := by
    refine ⟨fun s e => ?_, trivial, trivial⟩
    subst e
    cases hr
  have hst : Stands h (.node c.name top .nil .nil) [(c.name, i)] [i] :=
    ⟨i, [], c, [], [], rfl, rfl, hci, rfl, hk, ⟨hks, rfl⟩, ⟨rfl, rfl⟩⟩
  obtain ⟨N, vs, g, h1, h2, h3, h4, h5, h6⟩ := Props.C28_force_partial (h := h) (i := i) (L := [i]) hseen hst (by simp)
  rw [List.append_nil] at h2
  obtain ⟨c', vs, rfl, e1, e2⟩ := walk_head h1 h2
  refine ⟨N, vs, g, c', h1, e1, hq vs e2, h3, ?_, ?_, ?_, ?_, ?_⟩
  · intro x hx
    have hx' := (h4 x).1 (List.mem_cons_of_mem _ hx)
    rcases hx' with hx' | hx'
    · rw [List.mem_singleton] at hx'
      subst hx'
      exact absurd hx (List.nodup_cons.1 h3).1
    · exact hx'
  · intro x d s' hx hd
    refine h5 x ((h4 x).2 ?_) s' d hd
    rcases hx with rfl | hx
    · exact .inl (List.mem_singleton.2 rfl)
    · exact .inr ⟨hx, cell_lt hd⟩
  · intro x hx hne
    exact h6 x hx (by rw [List.mem_singleton]; exact hne)
  · intro times
    obtain ⟨g', w, _⟩ := Props.C28_again_partial hsh hseen hop hst (by simp) (times + 1)
    rw [List.append_nil] at w
    cases w with
    | next _ M ws _ h' _ k1 _ w =>
      have : g = h' := by
        have k := (h1 (N + M) (by omega)).symm.trans (k1 (N + M) (by omega))
        exact congrArg Prod.snd (Except.ok.inj k)
      subst this
      exact ⟨g', walkedTimes_head hq w⟩
  · intro ords hords
    obtain ⟨g', w, _⟩ := Props.C28_again_any_order_partial hsh hseen hop hst (by simp) ords hords
    rw [List.append_nil] at w
    exact ⟨g', walkedIn_head hq w⟩

/-! ### nothing that is read is parsed already -/

mutual

theorem propForest_shut (e : Env) : ∀ ks : List (List Char × PNode), Spec.Forest.All NotOpen (propForest e ks)
  | [] => trivial
  | x :: xs => by
    rw [propForest]
    exact propTree_shut e x _ (propForest_shut e xs)

theorem propTree_shut (e : Env) : ∀ (x : List Char × PNode) (rest : Forest), Spec.Forest.All NotOpen rest →
    Spec.Forest.All NotOpen (propTree e x rest)
  | (n, p), rest, h => by
    rw [propTree]
    exact propNode_shut e n p rest h

theorem propNode_shut (e : Env) (n : List Char) : ∀ (p : PNode) (rest : Forest), Spec.Forest.All NotOpen rest →
    Spec.Forest.All NotOpen (propNode e n p rest)
  | .node o ks, rest, h => by
    rw [propNode]
    refine ⟨fun s => ?_, propForest_shut e ks, h⟩
    cases o <;> exact fun he => by cases he

end

theorem imgForest_shut (e : Env) : ∀ ks : List (List Char × ImgNode), Spec.Forest.All NotOpen (imgForest e ks)
  | [] => trivial
  | (_, .lua _ _) :: xs => ⟨fun _ he => (by cases he), trivial, imgForest_shut e xs⟩
  | (n, .prop p) :: xs => propNode_shut e n p _ (imgForest_shut e xs)

mutual

theorem dirForest_shut : ∀ ks : List (List Char × DNode), Spec.Forest.All NotOpen (dirForest ks)
  | [] => trivial
  | x :: xs => by
    rw [dirForest]
    exact dirTree_shut x _ (dirForest_shut xs)

theorem dirTree_shut : ∀ (x : List Char × DNode) (rest : Forest), Spec.Forest.All NotOpen rest →
    Spec.Forest.All NotOpen (dirTree x rest)
  | (n, d), rest, h => by
    rw [dirTree]
    exact dirNode_shut n d rest h

theorem dirNode_shut (n : List Char) : ∀ (d : DNode) (rest : Forest), Spec.Forest.All NotOpen rest →
    Spec.Forest.All NotOpen (dirNode n d rest)
  | .image _ _, _, h => ⟨fun _ he => (by cases he), trivial, h⟩
  | .dir _ _ ks, _, h => ⟨fun _ he => (by cases he), dirForest_shut ks, h⟩
  | .none, _, h => ⟨fun _ he => (by cases he), trivial, h⟩

end

theorem msForest_shut : ∀ (k : Nat) (ims : List MsImage), Spec.Forest.All NotOpen (msForest k ims)
  | _, [] => trivial
  | k, _ :: ims => ⟨fun _ he => (by cases he), trivial, msForest_shut (k + 1) ims⟩

theorem map_ok_shut {α : Type} {r : Except Err α} {mk : α → Forest} {f : Forest} (h : r.map mk = .ok f)
    (hm : ∀ a, Spec.Forest.All NotOpen (mk a)) : Spec.Forest.All NotOpen f := by
  cases r with
  | error _ => cases h
  | ok a => cases h; exact hm a

theorem readImage_shut {e : Env} {fuel : Nat} {img : Img} {f : Forest} (h : readImage e fuel img = .ok f) :
    Spec.Forest.All NotOpen f :=
  map_ok_shut h (imgForest_shut e)

theorem arcContent_shut (F : Fuel) (n fuel : Nat) (cache : List Cached) (f : WFile) : ReadsShut (arcContent F n fuel cache f) := by
  intro s r hr
  unfold arcContent at hr
  split at hr
  · exact map_ok_shut hr dirForest_shut
  · exact readImage_shut hr
  · cases hr; trivial
  · cases hr

theorem imgContent_shut (e : Env) (fuel : Nat) : ReadsShut (imgContent e fuel) := by
  intro s r hr
  unfold imgContent at hr
  split at hr
  · exact readImage_shut hr
  · cases hr

theorem msContent_shut (m : Mode) (C : ChaCha) (ks2 : Nat → Byte) (fuel : Nat) (f : MsFile) :
    ReadsShut (msContent m C ks2 fuel f) := by
  intro s r hr
  cases s with
  | zero => exact map_ok_shut (show (f.parse m C).map (msForest 1) = .ok r from hr) (msForest_shut 1)
  | succ k =>
    unfold msContent at hr
    cases hp : f.parse m C with
    | error _ => rw [hp] at hr; cases hr
    | ok ims =>
      rw [hp] at hr
      simp only [bind, Except.bind] at hr
      split at hr
      · cases hr
      · rename_i im _
        unfold msImageForest at hr
        cases hw : f.toWzImage m C im with
        | error _ => rw [hw] at hr; cases hr
        | ok w => rw [hw] at hr; exact readImage_shut hr

theorem gives_walk {e : Env} {content : Content} {top : NKind} {s : Nat} {f : Forest} {ls : List (List Char × AVal)}
    (hsh : ReadsShut content) (hr : ReadsFrom top s) (hc : content s = .ok f) (hg : Gives e content f ls) :
    WalksThrough content top fun vs => Visits e vs ls := by
  obtain ⟨g1, g2, obs, g3, g4⟩ := hg
  exact seen_walk hsh hr hc g1 g2 g3 g4.visits

/-! ### MS archives -/

theorem map_some_split {vs : List (Nat × Option NCell)} {a b : List (List Char × NKind)}
    (h : vs.map (fun v => v.2.map fun c => (c.name, c.kind)) = (a ++ b).map some) :
    ∃ us ws, vs = us ++ ws ∧ us.map (fun v => v.2.map fun c => (c.name, c.kind)) = a.map some ∧
      ws.map (fun v => v.2.map fun c => (c.name, c.kind)) = b.map some := by
  rw [List.map_append] at h
  obtain ⟨us, ws, h1, h2, h3⟩ := List.map_eq_append_iff.1 h
  exact ⟨us, ws, h1, h2, h3⟩

theorem arcListTree_image {e : Env} {name : List Char} {o s : Nat} {t : ATree} (h : StoredImage e name o s t) :
    arcListTree name t = (name, .image) :: inImage68 t := by
  cases h <;> simp only [arcListTree, inImage68]

theorem msGives_all {m : Mode} {C : ChaCha} {ks2 : Nat → Byte} {f : MsFile} {all : List MsImage} (hp : f.parse m C = .ok all)
    {ims : List MsImage} {files : List (List Char × MsItem)}
    (hd : All2 (fun im (x : List Char × MsItem) => f.toWzImage m C im = .ok ⟨x.1, x.2.data, x.2.data.length⟩) ims files)
    (hs : ∀ x ∈ files, MsStored m ks2 x) (ht : Tidy (msTree files)) : ∃ N, ∀ fuel, N ≤ fuel → ∀ pre, all = pre ++ ims →
      ∃ obs, Spec.Forest.All NoLink (msForest (pre.length + 1) ims) ∧ Spec.Forest.Distinct (msForest (pre.length + 1) ims) ∧
        Seen (msContent m C ks2 fuel f) (msForest (pre.length + 1) ims) obs ∧
        (∀ vs : List (Nat × Option NCell), vs.map (fun v => v.2.map fun c => (c.name, c.kind)) = obs.map some →
          MsVisits m ks2 vs files) ∧
        ∀ n, n ∈ (msForest (pre.length + 1) ims).names → ∃ t, (n, t) ∈ msTree files := by
  induction hd with
  | nil =>
    refine ⟨0, fun _ _ _ _ => ⟨[], trivial, trivial, .nil, fun vs hv => ?_, fun n hn => by cases hn⟩⟩
    cases vs with
    | nil => exact .nil
    | cons a b => cases hv
  | @cons im x ims files h1 _ ih =>
    obtain ⟨nm, x⟩ := x
    obtain ⟨k1, k2⟩ := hs _ List.mem_cons_self
    dsimp only at h1 k1 k2
    obtain ⟨t1, t2, t3⟩ := tidy_image (show Tidy ((nm, x.tree) :: msTree files) from ht)
    obtain ⟨N, hN⟩ := ih (fun y hy => hs y (List.mem_cons_of_mem _ hy)) t3
    obtain ⟨M, hM⟩ := storedImage_gives (show (plainReader m ks2 x.data).buf.length < 2 ^ 63 from k1) (by decide) k2 t2
    have hname : im.entry.name = nm := (congrArg MsOpened.name (msOpened_ok h1)).symm
    refine ⟨N + M, fun fuel hf pre hpre => ?_⟩
    obtain ⟨fr, r1, r2⟩ := hM fuel (by omega)
    obtain ⟨g1, g2, a, g3, g4⟩ := r2 (msContent m C ks2 fuel f)
    have hrest := hN fuel (by omega) (pre ++ [im]) (by rw [hpre]; simp)
    rw [show (pre ++ [im]).length + 1 = pre.length + 1 + 1 by simp] at hrest
    obtain ⟨b, q1, q2, q3, q4, q5⟩ := hrest
    subst hname
    have hcon : msContent m C ks2 fuel f (pre.length + 1) = .ok fr := by
      show (f.parse m C >>= _) = _
      rw [hp]
      show (match all[pre.length]? with
        | none => Except.error (Err.lib "not a source")
        | some im => msImageForest m C ks2 fuel f im) = _
      rw [hpre, List.getElem?_append_right (Nat.le_refl _), Nat.sub_self]
      show msImageForest m C ks2 fuel f im = _
      unfold msImageForest
      rw [h1]
      show readImage (msEnv m ks2 x.data) fuel _ = _
      rw [msEnv_plain (show x.data ≠ [] from storedImage_some k2)]
      exact r1
    refine ⟨(im.entry.name, .image true (pre.length + 1)) :: (a ++ b), ⟨fun _ => (by simp), trivial, q1⟩, ⟨?_, trivial, q2⟩,
      .read _ _ _ fr _ a b (.msImage _) hcon g1 g2 g3 q3, ?_, ?_⟩
    · intro hm
      obtain ⟨t, h⟩ := q5 _ hm
      exact t1 t h
    · intro vs hv
      obtain ⟨us, ws, rfl, u1, u2⟩ := map_some_split (a := (im.entry.name, NKind.image true (pre.length + 1)) :: a) hv
      refine .cons _ x us ws files ?_ (q4 ws u2)
      rw [arcListTree_image k2]
      exact (Listed.cons _ _ _ _ _ (.image _ _) g4).visits us u1
    · intro n hn
      rcases List.mem_cons.1 hn with rfl | hn
      · exact ⟨_, List.mem_cons_self⟩
      · obtain ⟨t, h⟩ := q5 n hn
        exact ⟨t, List.mem_cons_of_mem _ h⟩

end Wz
