import Verif.Whole.MediaLinkSpec
import Verif.Whole.MediaLemmas
import Verif.Whole.LinkLemmas

/-!
# Payloads behind links: lemmas
-/

set_option autoImplicit false

namespace Wz

open Wz.Spec

/-- the child `x` of node `j` is what is seen there -/
def KidShows (e : Env) (g : NHeap) (j : Nat) (x : List Char) (r : Option (List Char × AVal)) : Prop :=
  match r with
  | some (nm, v) => ∃ y c, g.at j x = some y ∧ g.cell y = some c ∧ c.name = nm ∧ LinkShows e c.kind v
  | none => g.at j x = none

theorem nodes_kid {e : Env} {h : NHeap} {i src : Nat} {t : ATree} {f : Forest} {node : List (List Char) → Nat} {ci : NCell}
    (hci : h.cell i = some ci) (hki : ci.kind = .image true src) (G : GoodImage e t f) (L : LinkNodes h i f node)
    {ns d : List (List Char)} {x : List Char} {w : Option (List (List Char))} {r : Option (List Char × AVal)}
    (V : SeenAt f.places [] ns (some d)) (V' : SeenAt f.places [] (ns ++ [x]) w) (S : SeesIn t ci.name w r) :
    KidShows e h (node d) x r := by
  have h1 := (nodes_fold L V (.inl rfl)).1
  have h2 := (nodes_fold L V' (.inl rfl)).1
  rw [foldPath_append53, h1] at h2
  have hat : h.at (node d) x = w.map node := by
    rw [← h2]
    simp only [Option.map_some, Option.bind_some, foldPath]
    cases h.at (node d) x <;> rfl
  have hf := nodes_found hci hki G L S
  unfold KidShows
  rw [hat]
  unfold Found70 at hf
  cases r with
  | none =>
    cases w with
    | none => rfl
    | some t => cases hf
  | some y =>
    obtain ⟨nm, v⟩ := y
    obtain ⟨j, c, e1, e2, e3, e4⟩ := hf
    cases w with
    | none => cases e1
    | some t =>
      cases e1
      exact ⟨_, c, rfl, e2, e3, e4⟩

/-- a property or a script -/
def Inner : AVal → Prop
  | .dir => False
  | .image => False
  | _ => True

theorem fold_kids70 {e : Env} {fuel : Nat} {content : Content} {held : Nat}
    (hcon : ∀ n o s, content (Encodable.encode (Src58.image n o s)) = readImage e fuel ⟨n, o, s⟩) :
    ∀ (ns : List (List Char)) (h : NHeap) (k : Nat) (nm : List Char) (t : ATree) (m : List Char) (v : AVal), Inner v →
    (∃ c p s, h.cell held = some c ∧ c.kind = .file p s) → Stands58 e fuel h k nm t → LinksFrom t ns → SeesFrom t nm ns (some (m, v)) →
    ∀ j, (NHeap.foldParsed content held h k ns).1 = .ok j → ∀ x r, SeesFrom t nm (ns ++ [x]) r →
      KidShows e (NHeap.foldParsed content held h k ns).2 j x r
  | [], h, k, nm, t, m, v, hv, _, H, _, V => by
    exfalso
    cases t with
    | dir ks =>
      rcases V with ⟨_, h⟩ | ⟨h, _⟩
      · cases h; exact hv
      · exact h rfl
    | _ =>
      obtain ⟨w, hw, hs⟩ := V
      cases hw
      rcases hs with ⟨h, _⟩ | ⟨_, h⟩ | ⟨d, m, v, h, _⟩
      · cases h
      · cases h; exact hv
      · simp at h
  | n :: ns, h, k, nm, t, m, v, hv, hh, H, hu, V => by
    obtain ⟨ch, ph, sh, hch, hkh⟩ := hh
    cases H with
    | image _ c _ p o s _ f hc hn hk ht hr hg hp1 hp2 =>
      have hne : k ≠ held := by
        rintro rfl
        rw [hc] at hch
        cases hch
        rw [hk] at hkh
        cases hkh
      have hnd : ∀ ks, t ≠ .dir ks := by
        rintro ks rfl
        exact nomatch ht.stored
      have hu' : LinksIn t := by
        cases t with
        | dir ks => exact nomatch ht.stored
        | image ps => exact hu.resolve_left (by simp)
        | _ => trivial
      have hV : ∀ ns r, SeesFrom t nm ns r → ∃ w, SeenAt (treePlaces t) [] ns w ∧ SeesIn t nm w r := by
        intro ns r V
        cases t with
        | dir ks => exact nomatch ht.stored
        | _ => exact V
      obtain ⟨w, V1, V2⟩ := hV _ _ V
      have hfol := goodImage_follow hg hnd hu'
      obtain ⟨g, c', src, h1, h2, h3, h4, h5, h6⟩ := parse_image70 (hcon nm o s) hc hk hr hfol hp1 hp2
      obtain ⟨node, L⟩ := h3.nodes hfol
      have hheld := h2.2 held ch ph sh hch hkh
      have hsame : NHeap.foldParsed content held h k (n :: ns) = NHeap.foldParsed content held g k (n :: ns) := by
        rw [foldParsed_cons, foldParsed_cons, if_neg hne, if_neg hne, h1]
        have : g.parse content k = (.ok (), g) := by
          rw [parse_eq h4, h6]
          rfl
        rw [this]
      rw [← goodImage_treePlaces hg hnd] at V1
      have hfold := fold_nodes (content := content) ⟨ch, hheld, by
        rw [hkh]; rintro (⟨_, h⟩ | ⟨_, h⟩) <;> cases h⟩ (fun e => hne e.symm) h4 h6 hg.values L V1 (.inl rfl)
      rw [L.top] at hfold
      rw [hsame, hfold]
      have hnm : c'.name = nm := h5.trans hn
      intro j hj x r W
      obtain ⟨w', W1, W2⟩ := hV _ _ W
      rw [← goodImage_treePlaces hg hnd] at W1
      cases w with
      | none => cases hj
      | some d =>
        cases hj
        exact nodes_kid h4 h6 hg L V1 W1 (by rw [hnm]; exact W2)
    | dir _ c _ p src kids ids hc hn hk h1 h2 h3 =>
      have hne : k ≠ held := by
        rintro rfl
        rw [hc] at hch
        cases hch
        rw [hk] at hkh
        cases hkh
      obtain ⟨g, g1, g2, g3⟩ := parse_dir58 (e := e) (fuel := fuel) (content := content) hc hk
      have hstep : NHeap.foldParsed content held h k (n :: ns) = match h.at k n with
          | none => (.error (.lib "NodeNotFound"), g)
          | some q => NHeap.foldParsed content held g q ns := by
        rw [foldParsed_cons, if_neg hne, g1]
        dsimp only
        rw [g3]
        cases h.at k n <;> rfl
      have hf : LinksOn kids (n :: ns) := hu
      have hV : ∀ ms r, SeesFrom (.dir kids) nm (n :: ms) r → ArcSees kids (n :: ms) r := by
        rintro ms r (⟨h, _⟩ | ⟨_, h⟩)
        · cases h
        · exact h
      replace V := hV _ _ V
      rw [linksOn_from] at hf
      rw [arcSees_from] at V
      rw [hstep]
      cases hl : lastNamed kids n with
      | none =>
        rw [hl] at V
        cases V
      | some u =>
        rw [hl] at hf V
        rw [h2 n u hl]
        intro j hj x r W
        replace W := hV _ _ W
        rw [arcSees_from, hl] at W
        exact fold_kids70 hcon ns g (ids n) n u m v hv ⟨ch, ph, sh, g2.2.1 held ch ph sh hch hkh, hkh⟩ (g2.1 _ _ _ (h3 n u hl)) hf V j hj x r W

/-- **below what a look-up found** -/
theorem find_kids70 {e : Env} {fuel : Nat} {content : Content} {h g : NHeap} {i j : Nat} {arch : List (List Char × ATree)}
    (hcon : ∀ n o s, content (Encodable.encode (Src58.image n o s)) = readImage e fuel ⟨n, o, s⟩) (F : FileStands e fuel h i arch)
    {path : List Char} {ns : List (List Char)} {m : List Char} {v : AVal} (hv : Inner v) (hp : Pieces path ns) (hu : LinksOn arch ns)
    (V : ArcSees arch ns (some (m, v))) (hf : h.atPathParsed content i path = (.ok j, g)) {x : List Char} {r : Option (List Char × AVal)}
    (W : ArcSees arch (ns ++ [x]) r) : KidShows e g j x r := by
  have hs := pieces_iff.1 hp
  unfold NHeap.atPathParsed at hf
  rw [hs] at hf
  cases ns with
  | nil => exact absurd rfl hp.some
  | cons n ns =>
    dsimp only at hf
    have := F.2 n
    rw [linksOn_from] at hu
    rw [arcSees_from] at V
    rw [List.cons_append, arcSees_from] at W
    cases hl : lastNamed arch n with
    | none =>
      rw [hl] at V
      cases V
    | some t =>
      rw [hl] at this hu V W
      obtain ⟨k, h1, h2⟩ := this
      rw [h1] at hf
      dsimp only at hf
      have := fold_kids70 hcon ns h k n t m v hv F.1 h2 hu V j (by rw [hf]) x r W
      rw [hf] at this
      exact this

theorem linksOn_more {m : List Char} {v : AVal} (hv : Inner v) (x : List Char) : ∀ (ns : List (List Char)) (arch : List (List Char × ATree)),
    LinksOn arch ns → ArcSees arch ns (some (m, v)) → LinksOn arch (ns ++ [x])
  | [], _, _, h => h.elim
  | n :: ns, arch, h, V => by
    rw [List.cons_append, linksOn_from]
    rw [linksOn_from] at h
    rw [arcSees_from] at V
    cases hl : lastNamed arch n with
    | none => trivial
    | some t =>
      rw [hl] at h V
      cases t with
      | dir ks =>
        rcases V with ⟨_, e⟩ | ⟨_, V⟩
        · cases e; exact hv.elim
        · exact linksOn_more hv x ns ks h V
      | image ps =>
        rcases h with rfl | h
        · exfalso
          obtain ⟨w, hw, hs⟩ := V
          cases hw
          rcases hs with ⟨h, _⟩ | ⟨_, h⟩ | ⟨d, m, v, h, _⟩
          · cases h
          · cases h; exact hv
          · simp at h
        · exact .inr h
      | text d => trivial
      | script d => trivial

theorem kid_noText {e : Env} {g : NHeap} {j : Nat} {x : List Char} {r : Option (List Char × AVal)} (K : KidShows e g j x r)
    (h1 : ∀ m s, r ≠ some (m, .prop (.str s))) (h2 : ∀ m s, r ≠ some (m, .prop (.uol s))) : g.linkText (leafText e) j x = none := by
  unfold NHeap.linkText
  unfold KidShows at K
  cases r with
  | none => rw [K]
  | some y =>
    obtain ⟨nm, v⟩ := y
    obtain ⟨y, c, e1, e2, _, e4⟩ := K
    rw [e1]
    dsimp only
    rw [e2]
    dsimp only
    generalize c.kind = kd at e4
    cases e4 with
    | uol s => exact absurd rfl (h2 nm s)
    | other _ _ _ hk =>
      cases kd with
      | other n =>
        dsimp only
        cases ht : leafText e n with
        | none => rfl
        | some s => rw [(shows_str hk s).1 ht] at h1; exact absurd rfl (h1 nm s)
      | uol t => cases hk
      | _ => rfl

/-- what a node gives out that shows what is seen -/
theorem givesSeen_of {e : Env} {content : Content} {g : NHeap} {j : Nat} {c : NCell} {arch : List (List Char × ATree)} {ns : List (List Char)} {v : AVal}
    {inflate : Inflate} {bc7 : Bc7} {aes : Aes} (hb : e.buf.length < 2 ^ 63) (h2 : g.cell j = some c) (h4 : LinkShows e c.kind v)
    (hno : Inner v → ∀ x, NoTextSeen arch ns x → g.linkText (leafText e) j x = none) : GivesSeen content inflate bc7 aes e g j arch ns v := by
  refine ⟨fun hno => ?_, ?_, ?_, ?_⟩
  · generalize hk : c.kind = kd at h4
    cases h4 with
    | uol s => exact absurd rfl (hno s)
    | other _ _ _ h5 => exact givesPayload_of hb h2 (by rw [hk]; exact h5)
  · rintro s rfl
    unfold NHeap.nodeText
    rw [h2]
    dsimp only
    generalize c.kind = kd at h4
    cases h4 with
    | uol => rfl
    | other _ _ h5 => exact absurd rfl (h5 s)
  · rintro w hh f s pages data px iv key ops rfl hin hout ha hiv hks S
    have none := hno trivial
    generalize hk : c.kind = kd at h4
    cases h4 with
    | other _ _ _ h5 =>
      cases h5 with
      | prop n o _ hd hs =>
        cases hs with
        | canvas p _ _ p1 p2 p3 p4 =>
          obtain ⟨img, keys, e1, e2⟩ := extract_stored (bc7 := bc7) (ops := ops) hb p2 p3 p4 ha hiv hks S
          refine ⟨img, keys, e2, fun fuel => ?_⟩
          have hleaf : g.leaf j = some (.prop (.canvas p)) := by
            unfold NHeap.leaf
            rw [h2]
            dsimp only
            rw [hk]
            exact hd
          have hpic : g.isPicture leafPng j = true := by
            unfold NHeap.isPicture
            rw [h2]
            dsimp only
            rw [hk]
            dsimp only
            unfold leafPng
            rw [hd]
          have hget : NHeap.getImage content leafPng (leafText e) (fuel + 1) g [] j = (.ok j, g) := by
            rw [NHeap.getImage, if_pos hpic]
            unfold NHeap.inTarget NHeap.outTarget
            rw [show ['_', 'i', 'n', 'l', 'i', 'n', 'k'] = "_inlink".toList from rfl,
              show ['_', 'o', 'u', 't', 'l', 'i', 'n', 'k'] = "_outlink".toList from rfl, none _ hin, none _ hout]
          unfold NHeap.picture
          rw [hget]
          dsimp only
          rw [hleaf]
          dsimp only
          rw [e1]
  · intro hno keys fuel
    have hpic : g.isPicture leafPng j = false := by
      unfold NHeap.isPicture
      rw [h2]
      dsimp only
      generalize c.kind = kd at h4
      cases h4 with
      | uol => rfl
      | other _ _ _ h5 =>
        cases kd with
        | other n =>
          dsimp only
          rw [Bool.eq_false_iff]
          intro hp
          obtain ⟨w, h, f, s, pages, data, rfl⟩ := (shows_canvas h5).1 hp
          exact hno _ _ _ _ _ _ rfl
        | _ => rfl
    unfold NHeap.picture
    rw [NHeap.getImage, hpic]
    rfl

/-- nothing is seen that would be a text, so none is found -/
theorem kids_noText {e : Env} {g : NHeap} {j : Nat} {arch : List (List Char × ATree)} {ns : List (List Char)} {m : List Char} {v : AVal}
    (hv : Inner v) (hu : LinksOn arch ns) (V : ArcSees arch ns (some (m, v)))
    (K : ∀ x r, ArcSees arch (ns ++ [x]) r → KidShows e g j x r) (x : List Char) (hx : NoTextSeen arch ns x) :
    g.linkText (leafText e) j x = none := by
  obtain ⟨r, W⟩ := arcSees_total (ns ++ [x]) arch (by simp) (linksOn_more hv x ns arch hu V)
  refine kid_noText (K x r W) ?_ ?_
  · rintro m s rfl; exact (hx m s).1 W
  · rintro m s rfl; exact (hx m s).2 W

/-- **payloads and pictures behind links** -/
theorem fileStands_seen {e : Env} {fuel : Nat} {content : Content} {h : NHeap} {i : Nat} {arch : List (List Char × ATree)}
    {inflate : Inflate} {bc7 : Bc7} {aes : Aes}
    (hcon : ∀ n o s, content (Encodable.encode (Src58.image n o s)) = readImage e fuel ⟨n, o, s⟩) (hb : e.buf.length < 2 ^ 63)
    (F : FileStands e fuel h i arch) : FindsSeen content inflate bc7 aes e h i arch := by
  intro path ns name v hp hu V
  obtain ⟨_, j, c, h1, h2, _, h4⟩ := find_stands70 hcon F hp hu V
  generalize hq : h.atPathParsed content i path = r at h1 h2
  obtain ⟨r, g⟩ := r
  cases h1
  dsimp only at h2
  exact ⟨j, g, rfl, givesSeen_of hb h2 h4 fun hi => kids_noText hi hu V fun x r W => find_kids70 hcon F hi hp hu V hq W⟩

end Wz
