import Verif.Thread.OpLemmas
import Verif.Thread.MsSpec
import Verif.Whole.LinkMsProps

/-!
# Lemmas: threads in an open MS archive
-/

set_option autoImplicit false

namespace Wz

open Spec Wz.Props

/-- the kinds an image of an MS archive can have -/
def MsImgKind (k : NKind) : Prop := (∃ s, k = .msImage s) ∨ ∃ p s, k = .image p s

/-- what a node can become -/
def SameMs (c c' : NCell) : Prop := c'.name = c.name ∧ ((MsImgKind c.kind ∧ ∃ p s, c'.kind = .image p s) ∨ c' = c)

/-- what threads may do to an open MS archive -/
def Keeps77 (content : Content) (h g : NHeap) : Prop :=
  KeepsMs70 content h g ∧ ∀ x c, h.cell x = some c → ∃ c', g.cell x = some c' ∧ SameMs c c'

theorem SameMs.trans {a b c : NCell} (h1 : SameMs a b) (h2 : SameMs b c) : SameMs a c := by
  obtain ⟨n1, k1⟩ := h1
  obtain ⟨n2, k2⟩ := h2
  refine ⟨n2.trans n1, ?_⟩
  rcases k1 with ⟨a1, p, s, a2⟩ | rfl
  · rcases k2 with ⟨_, b2⟩ | rfl
    · exact .inl ⟨a1, b2⟩
    · exact .inl ⟨a1, p, s, a2⟩
  · exact k2

theorem keeps77_rely (content : Content) : Rely (Keeps77 content) where
  refl h := ⟨.refl, fun x c hc => ⟨c, hc, rfl, .inr rfl⟩⟩
  trans h g k a b := ⟨⟨fun e j nm t H => b.1.1 _ _ _ _ (a.1.1 _ _ _ _ H), fun i c p s hc hk => b.1.2 i c p s (a.1.2 i c p s hc hk) hk⟩, fun x c hc => by
    obtain ⟨c1, h1, h2⟩ := a.2 x c hc
    obtain ⟨c2, h3, h4⟩ := b.2 x c1 h1
    exact ⟨c2, h3, h2.trans h4⟩⟩

theorem inImage_noMs {k : NKind} (h : InImage k) : ¬ MsImgKind k := by
  rcases h with ⟨v, h⟩ | ⟨v, h⟩ <;> subst h <;> rintro (⟨s, h⟩ | ⟨p, s, h⟩) <;> cases h

theorem Keeps77.value {content : Content} {h g : NHeap} (K : Keeps77 content h g) {x : Nat} {c : NCell} (hc : h.cell x = some c)
    (hI : InImage c.kind) : g.cell x = some c := by
  obtain ⟨c', h1, _, h2⟩ := K.2 x c hc
  rcases h2 with ⟨a, _⟩ | rfl
  · exact absurd a (inImage_noMs hI)
  · exact h1

theorem keeps77_step {content : Content} {h g : NHeap} {k : Nat} {c c' : NCell} (K : KeepsMs70 content h g)
    (hf : ∀ x, x < h.length → x ≠ k → g.cell x = h.cell x) (hc : h.cell k = some c) (hc' : g.cell k = some c') (hn : c'.name = c.name)
    (hk : MsImgKind c.kind) (hk' : ∃ p s, c'.kind = .image p s) : Keeps77 content h g := by
  refine ⟨K, fun x cx hx => ?_⟩
  by_cases e : x = k
  · subst e
    rw [hc] at hx
    cases hx
    exact ⟨c', hc', hn, .inl ⟨hk, hk'⟩⟩
  · exact ⟨cx, by rw [hf x (cell_lt hx) e, hx], rfl, .inr rfl⟩

theorem msNode_kind {content : Content} {e : Env} {h : NHeap} {k : Nat} {nm : List Char} {t : ATree} (H : MsNode content e h k nm t) :
    ∃ c, h.cell k = some c ∧ c.name = nm ∧ MsImgKind c.kind := by
  obtain ⟨c, src, f, hc, hn, hs, hg, hk⟩ := H
  refine ⟨c, hc, hn, ?_⟩
  rcases hk with ⟨hk, _⟩ | ⟨hk, _⟩ | ⟨hk, _⟩
  · exact .inl ⟨_, hk⟩
  · exact .inr ⟨_, _, hk⟩
  · exact .inr ⟨_, _, hk⟩

theorem msImg_shows {e : Env} {k : NKind} (h : MsImgKind k) : MsLinkShows e k .image := by
  rcases h with ⟨s, rfl⟩ | ⟨p, s, rfl⟩
  · exact .unread _
  · exact .kind _ _ (.other _ _ (fun s h => by cases h) (.image _ _))

theorem Keeps77.shows {content : Content} {e : Env} {h g : NHeap} (K : Keeps77 content h g) {x : Nat} {c : NCell} {v : AVal}
    (hc : h.cell x = some c) (hv : MsLinkShows e c.kind v) : ∃ c', g.cell x = some c' ∧ c'.name = c.name ∧ MsLinkShows e c'.kind v := by
  obtain ⟨c', h1, hn, h2⟩ := K.2 x c hc
  refine ⟨c', h1, hn, ?_⟩
  rcases h2 with ⟨a, p, s, b⟩ | rfl
  · have hi : v = .image := by
      rcases a with ⟨s', a⟩ | ⟨p', s', a⟩ <;> rw [a] at hv
      · cases hv with
        | unread => rfl
        | kind _ _ hv => cases hv with
          | other _ _ _ hv => cases hv
      · cases hv with
        | kind _ _ hv => cases hv with
          | other _ _ _ hv => cases hv; rfl
    rw [b, hi]
    exact msImg_shows (.inr ⟨p, s, rfl⟩)
  · exact hv

/-- reading an image -/
theorem parse_ms77 {content : Content} {e : Env} {h : NHeap} {k : Nat} {nm : List Char} {t : ATree} (H : MsNode content e h k nm t)
    (hnd : ∀ ks, t ≠ .dir ks) (hl : LinksIn t) :
    ∃ g f, h.parse content k = (.ok (), g) ∧ Keeps77 content h g ∧ ImgAt g k f ∧ GoodImage e t f ∧ Followable f := by
  obtain ⟨g, f, c', src, g1, g2, g3, g4, g5, g6, g7, g8⟩ := parse_ms70 H hnd hl
  obtain ⟨c, hc, hn, hk⟩ := msNode_kind H
  refine ⟨g, f, g1, ?_, g3, g4, g5⟩
  have hg : g = (h.parse content k).2 := by rw [g1]
  exact keeps77_step g2 (fun x hx hne => by rw [hg]; exact parse_frame hx hne) hc g6 (by rw [g7, hn]) hk ⟨_, _, g8⟩

theorem unparse_ms77 {content : Content} {h : NHeap} {j : Nat} {c : NCell} (hc : h.cell j = some c) (hk : MsImgKind c.kind) :
    Keeps77 content h (h.unparse j) := by
  rcases hk with ⟨s, hk⟩ | ⟨p, s, hk⟩
  · have : h.unparse j = h := by
      unfold NHeap.unparse
      rw [hc]
      dsimp only
      rw [hk]
      rfl
    rw [this]
    exact (keeps77_rely content).refl h
  · exact keeps77_step (unparse_ms hc hk).keeps70 (fun x _ hne => unparse_frame hne) hc
      (unparse_cell hc (k := .image false s) (by rw [hk]; rfl)) rfl (.inr ⟨p, s, hk⟩) ⟨_, _, rfl⟩

/-! ### ranks -/

/-- the root first, then the images, then what is in them; `h0` is the archive when it was opened -/
def rank77 (h0 : NHeap) (i : Nat) : Nat → Nat := fun x => if x = i then 0 else match h0.cell x with
  | some c => match c.kind with
    | .msImage _ | .image _ _ => 1
    | _ => 2
  | none => 2

/-- the archive came from the one that was opened -/
def Root77 (content : Content) (h0 h : NHeap) (i : Nat) : Prop :=
  Keeps77 content h0 h ∧ ∃ c p s, h0.cell i = some c ∧ c.kind = .msFile p s

/-- `k` was an image when the archive was opened -/
def Img77 (h0 : NHeap) (k : Nat) : Prop := ∃ c, h0.cell k = some c ∧ MsImgKind c.kind

theorem Root77.stable {content : Content} {h0 h g : NHeap} {i : Nat} (K : Keeps77 content h g) (H : Root77 content h0 h i) :
    Root77 content h0 g i := ⟨(keeps77_rely content).trans _ _ _ H.1 K, H.2⟩

theorem rank77_root (h0 : NHeap) (i : Nat) : rank77 h0 i i = 0 := by
  unfold rank77
  rw [if_pos rfl]

theorem rank77_image {content : Content} {h0 h : NHeap} {i k : Nat} (R : Root77 content h0 h i) (H : Img77 h0 k) : rank77 h0 i k = 1 := by
  obtain ⟨_, c, p, s, h1, h2⟩ := R
  obtain ⟨c', h3, h4⟩ := H
  have hne : k ≠ i := by
    rintro rfl
    rw [h1] at h3
    cases h3
    rw [h2] at h4
    rcases h4 with ⟨_, h⟩ | ⟨_, _, h⟩ <;> cases h
  unfold rank77
  rw [if_neg hne, h3]
  rcases h4 with ⟨_, h⟩ | ⟨_, _, h⟩ <;> simp only [h]

theorem rank77_value {content : Content} {h0 h : NHeap} {i x : Nat} {c : NCell} (R : Root77 content h0 h i) (hc : h.cell x = some c)
    (hI : InImage c.kind) : rank77 h0 i x = 2 := by
  obtain ⟨K, c0, p, s, h1, h2⟩ := R
  have hne : x ≠ i := by
    rintro rfl
    have := K.1.2 _ c0 p s h1 h2
    rw [hc] at this
    cases this
    rw [h2] at hI
    rcases hI with ⟨_, h⟩ | ⟨_, h⟩ <;> cases h
  unfold rank77
  rw [if_neg hne]
  cases hx : h0.cell x with
  | none => rfl
  | some cx =>
    have hn : ¬ MsImgKind cx.kind := by
      intro hm
      obtain ⟨c', a, _, b⟩ := K.2 x cx hx
      rw [hc] at a
      cases a
      rcases b with ⟨_, p, s, b⟩ | rfl
      · exact inImage_noMs hI (.inr ⟨p, s, b⟩)
      · exact inImage_noMs hI hm
    dsimp only
    split
    · rename_i a; exact absurd (.inl ⟨_, a⟩) hn
    · rename_i a; exact absurd (.inr ⟨_, _, a⟩) hn
    · rfl

theorem above_one {rank : Nat → Nat} {m : LMode} {x y : Nat} (h : rank x < rank y) : ∀ z : LMode × Nat, z ∈ [(m, x)] → rank z.2 < rank y := by
  intro z hz
  rw [List.mem_singleton] at hz
  subst hz
  exact h

/-! ### what a thread knows -/

theorem Gen76.stable77 {content : Content} {h g : NHeap} {i : Nat} {f : Forest} {node : List (List Char) → Nat}
    (G : Gen76 h i f node) (K : Keeps77 content h g) : Gen76 g i f node := by
  obtain ⟨h0, L, H⟩ := G
  exact ⟨h0, L, fun x c hx hI => K.value (H x c hx hI) hI⟩

/-- no link leads back to the image itself -/
def NoBack (f : Forest) : Prop := ∀ d n s us, f.places (d ++ [n]) = some (some s) → Pieces s us → ¬ LinkWay f.places d us (some [])

theorem linkNodes_next77 {h : NHeap} {i : Nat} {f : Forest} {node : List (List Char) → Nat} (L : LinkNodes h i f node)
    {d ns : List (List Char)} {n : List Char} {w : Option (List (List Char))} (hd : d = [] ∨ ∃ v, f.places d = some v)
    (V : SeenAt f.places d (n :: ns) w) : (h.at (node d) n = none ∧ w = none) ∨
      ∃ d', h.at (node d) n = some (node d') ∧ (d' = [] ∨ ∃ v, f.places d' = some v) ∧ (NoBack f → d' ≠ []) ∧ SeenAt f.places d' ns w := by
  cases V with
  | missing _ _ _ hl => exact .inl ⟨L.nothing d n hd hl, rfl⟩
  | plain _ _ _ _ hl h1 => exact .inr ⟨_, L.value d n hd hl, .inr ⟨_, hl⟩, fun _ => by simp, h1⟩
  | link _ _ _ s us t _ hl hs W h1 =>
    refine .inr ⟨t, L.link d n s us t hd hl hs W, way_there W places_prefix t rfl hd, fun B => ?_, h1⟩
    rintro rfl
    exact B d n s us hl hs W
  | dead _ _ _ s us _ hl hs W h1 => exact .inr ⟨_, L.dead d n s us hd hl hs W, .inr ⟨_, hl⟩, fun _ => by simp, h1⟩

theorem Gen76.next77 {h : NHeap} {i : Nat} {f : Forest} {node : List (List Char) → Nat} (A : Spec.Forest.All InImage f)
    (G : Gen76 h i f node) {d ns : List (List Char)} {n : List Char} {w : Option (List (List Char))} (hd : ∃ v, f.places d = some v)
    (V : SeenAt f.places d (n :: ns) w) : (h.at (node d) n = none ∧ w = none) ∨
      ∃ d', h.at (node d) n = some (node d') ∧ (d' = [] ∨ ∃ v, f.places d' = some v) ∧ (NoBack f → d' ≠ []) ∧ SeenAt f.places d' ns w := by
  obtain ⟨h0, L, H⟩ := G
  have hc : h.cell (node d) = h0.cell (node d) := by
    obtain ⟨v, hv⟩ := hd
    obtain ⟨x, hx⟩ := places_some hv
    have hne : d ≠ [] := by
      rintro rfl
      cases hx
    obtain ⟨c, h1, h2, h3⟩ := L.cells d x hne hx
    rw [h1]
    exact H _ c h1 (by rw [h3]; exact all_showsAt70 d f x A hx)
  rw [at_cell hc]
  exact linkNodes_next77 L (.inr hd) V

/-- A node that was found: it shows what is seen there, and it is a value, or it stands for an image.  `more`: the node may be read. -/
def Known77 (content : Content) (e : Env) (more : Prop) (h : NHeap) (j : Nat) (nm : List Char) (v : AVal) : Prop :=
  ∃ c, h.cell j = some c ∧ c.name = nm ∧ MsLinkShows e c.kind v ∧
    (InImage c.kind ∨ ∃ t, MsNode content e h j nm t ∧ (∀ ks, t ≠ .dir ks) ∧ (more → LinksIn t))

theorem Known77.stable {content : Content} {e : Env} {more : Prop} {h g : NHeap} {j : Nat} {nm : List Char} {v : AVal}
    (K : Keeps77 content h g) (H : Known77 content e more h j nm v) : Known77 content e more g j nm v := by
  obtain ⟨c, h1, h2, h3, h4⟩ := H
  obtain ⟨c', k1, k2, k3⟩ := K.shows h1 h3
  refine ⟨c', k1, k2.trans h2, k3, ?_⟩
  rcases h4 with h4 | ⟨t, h5, h6⟩
  · have := K.value h1 h4
    rw [k1] at this
    cases this
    exact .inl h4
  · exact .inr ⟨t, K.1.1 _ _ _ _ h5, h6⟩

/-- what is known of the answer -/
def Answer77 (content : Content) (e : Env) (more : Prop) (r : Option (List Char × AVal)) (h : NHeap) (x : Except Err Nat) : Prop :=
  match r with
  | some (nm, v) => ∃ j, x = .ok j ∧ Known77 content e more h j nm v
  | none => x = .error (.lib "NodeNotFound")

theorem Answer77.stable {content : Content} {e : Env} {more : Prop} {r : Option (List Char × AVal)} {h g : NHeap} {x : Except Err Nat}
    (K : Keeps77 content h g) (H : Answer77 content e more r h x) : Answer77 content e more r g x := by
  cases r with
  | none => exact H
  | some v =>
    obtain ⟨j, h1, h2⟩ := H
    exact ⟨j, h1, h2.stable K⟩

theorem Answer77.shows {content : Content} {e : Env} {more : Prop} {r : Option (List Char × AVal)} {h : NHeap} {x : Except Err Nat}
    (H : Answer77 content e more r h x) : ShowsMs e h x r := by
  cases r with
  | none => exact H
  | some v =>
    obtain ⟨j, h1, c, h2, h3, h4, _⟩ := H
    exact ⟨j, c, h1, h2, h3, h4⟩

theorem showsMs_stable {content : Content} {e : Env} {r : Option (List Char × AVal)} {h g : NHeap} {x : Except Err Nat}
    (K : Keeps77 content h g) (H : ShowsMs e h x r) : ShowsMs e g x r := by
  cases r with
  | none => exact H
  | some v =>
    obtain ⟨j, c, h1, h2, h3, h4⟩ := H
    obtain ⟨c', k1, k2, k3⟩ := K.shows h2 h4
    exact ⟨j, c', h1, k1, k2.trans h3, k3⟩

/-- a place in an image is seen as what it shows -/
theorem known_place77 {content : Content} {e : Env} {more : Prop} {h : NHeap} {k : Nat} {nm : List Char} {t : ATree} {f : Forest}
    {node : List (List Char) → Nat} {d : List (List Char)} {r : Option (List Char × AVal)} (hg : GoodImage e t f)
    (G : Gen76 h k f node) (hd : ∃ v, f.places d = some v) (S : SeesIn t nm (some d) r) :
    Answer77 content e more r h (.ok (node d)) := by
  obtain ⟨c, x, hx, h1, h2, h3, h4⟩ := G.cell hg.values hd
  rcases S with ⟨h, _⟩ | ⟨h, _⟩ | ⟨d', m, v, h, hv, rfl⟩
  · cases h
  · cases h
    cases hx
  · cases h
    have hp := hg.places (d' ++ [m]) (by simp)
    rw [hv] at hp
    obtain ⟨nm', k', p1, p2, p3⟩ := hp
    rw [hx] at p1
    cases p1
    refine ⟨_, rfl, c, h1, ?_, .kind _ _ (by rw [h3]; exact p3), .inl h4⟩
    rw [h2]
    simpa using p2.symm

/-- an image is seen as that -/
theorem known_image77 {content : Content} {e : Env} {more : Prop} {h : NHeap} {k : Nat} {nm : List Char} {t : ATree}
    {r : Option (List Char × AVal)} (H : MsNode content e h k nm t) (hnd : ∀ ks, t ≠ .dir ks) (hm : more → LinksIn t)
    (V : SeesFrom t nm [] r) : Answer77 content e more r h (.ok k) := by
  obtain ⟨c, hc, hn, hk⟩ := msNode_kind H
  have hr : r = some (nm, .image) := by
    obtain ⟨w, hw, hs⟩ := (seesFrom_image hnd).1 V
    cases hw
    rcases hs with ⟨h, _⟩ | ⟨_, h⟩ | ⟨d, m, v, h, _⟩
    · cases h
    · exact h
    · simp at h
  subst hr
  exact ⟨k, rfl, c, hc, hn, msImg_shows hk, .inr ⟨t, H, hnd, hm⟩⟩

/-! ### look-ups -/

/-- **a look-up among other threads**, from the root or below an image to which no link leads back; `x` is the node that is locked meanwhile -/
theorem safe_fold77 {content : Content} {e : Env} {h0 : NHeap} {i x : Nat} (m : LMode) (more : Prop) :
    ∀ ns : List (List Char),
    (x = i → ∀ (h : NHeap) (k : Nat) (nm : List Char) (t : ATree) (r : Option (List Char × AVal)), Root77 content h0 h i → Img77 h0 k →
      MsNode content e h k nm t → (∀ ks, t ≠ .dir ks) → LinksFrom t ns → (more → LinksIn t) → SeesFrom t nm ns r →
      Safe (Keeps77 content) (rank77 h0 i) (Answer77 content e more r) [(m, x)] h [(m, x)] (foldProg content k ns)) ∧
    (∀ (h : NHeap) (k : Nat) (nm : List Char) (t : ATree) (f : Forest) (node : List (List Char) → Nat) (d : List (List Char))
      (w : Option (List (List Char))) (r : Option (List Char × AVal)), Root77 content h0 h i → Img77 h0 k →
      (x = i ∨ (Img77 h0 x ∧ NoBack f)) → MsNode content e h k nm t → (∀ ks, t ≠ .dir ks) →
      LinksIn t → GoodImage e t f → Gen76 h k f node → (∃ v, f.places d = some v) → SeenAt f.places d ns w → SeesIn t nm w r →
      Safe (Keeps77 content) (rank77 h0 i) (Answer77 content e more r) [(m, x)] h [(m, x)] (foldProg content (node d) ns))
  | [] => by
    refine ⟨fun _ h k nm t r _ _ H hnd _ hm V => ?_, fun h k nm t f node d w r _ _ _ H ht hl hg G hd V S => ?_⟩
    · exact .done h _ fun g K => (known_image77 H hnd hm V).stable K
    · cases V
      exact .done h _ fun g K => (known_place77 hg G hd S).stable K
  | n :: ns => by
    obtain ⟨ihA, ihB⟩ := safe_fold77 (content := content) (e := e) (h0 := h0) (i := i) (x := x) m more ns
    have go : ∀ (g : NHeap) (k : Nat) (nm : List Char) (t : ATree) (f : Forest) (node : List (List Char) → Nat)
        (d' : List (List Char)) (w : Option (List (List Char))) (r : Option (List Char × AVal)), Root77 content h0 g i → Img77 h0 k →
        (x = i ∨ (Img77 h0 x ∧ NoBack f)) →
        MsNode content e g k nm t → (∀ ks, t ≠ .dir ks) → LinksIn t → GoodImage e t f → Gen76 g k f node → node [] = k →
        (d' = [] ∨ ∃ v, f.places d' = some v) → (NoBack f → d' ≠ []) → SeenAt f.places d' ns w → SeesIn t nm w r →
        Safe (Keeps77 content) (rank77 h0 i) (Answer77 content e more r) [(m, x)] g [(m, x)] (foldProg content (node d') ns) := by
      intro g k nm t f node d' w r hR hI hx H ht hl hg G h1 hd hb V S
      rcases hd with rfl | hd
      · rw [h1]
        rw [goodImage_treePlaces hg ht] at V
        rcases hx with hx | ⟨_, hx⟩
        · exact ihA hx g k nm t r hR hI H ht (linksIn_from ht hl _) (fun _ => hl) ((seesFrom_image ht).2 ⟨w, V, S⟩)
        · exact absurd rfl (hb hx)
      · exact ihB g k nm t f node d' w r hR hI hx H ht hl hg G hd V S
    refine ⟨fun hx h k nm t r hR hI H ht hu hm V => ?_, fun h k nm t f node d w r hR hI hx H ht hl hg G hd V S => ?_⟩
    · have key : ∀ g, Keeps77 content h g → ∃ g1, g.parse content k = (.ok (), g1) ∧ Keeps77 content g g1 ∧
          ((g1.at k n = none ∧ r = none) ∨ ∃ q, g1.at k n = some q ∧
            Safe (Keeps77 content) (rank77 h0 i) (Answer77 content e more r) [(m, x)] g1 [(m, x)] (foldProg content q ns)) := by
        intro g K
        have H' := K.1.1 _ _ _ _ H
        have hu' := linksFrom_in ht hu
        obtain ⟨w, V1, V2⟩ := (seesFrom_image ht).1 V
        obtain ⟨g1, f, h1, h2, h3, hg, hfol⟩ := parse_ms77 H' ht hu'
        obtain ⟨node, L⟩ := h3.nodes hfol
        rw [← goodImage_treePlaces hg ht] at V1
        have hs := linkNodes_next77 L (.inl rfl) V1
        rw [L.top] at hs
        refine ⟨g1, h1, h2, ?_⟩
        rcases hs with ⟨a, rfl⟩ | ⟨d', a, b, bb, cc⟩
        · exact .inl ⟨a, seesIn_none V2⟩
        · exact .inr ⟨_, a, go g1 k nm t f node d' w r ((hR.stable K).stable h2) hI (.inl hx) (h2.1.1 _ _ _ _ H') ht hu' hg
            ⟨g1, L, fun _ _ hx _ => hx⟩ L.top b bb cc V2⟩
      unfold foldProg
      refine .acquire h _ _ k _ (above_one (by rw [hx, rank77_root, rank77_image hR hI]; exact Nat.one_pos)) (.act h _ _ _ (fun g K => ?_) fun g K => ?_)
      · obtain ⟨g1, h1, h2, _⟩ := key g K
        rw [h1]
        exact h2
      · obtain ⟨g1, h1, h2, h3⟩ := key g K
        rw [h1]
        dsimp only
        refine .release g1 _ _ k _ (List.mem_cons_self ..) ?_
        rw [List.erase_cons_head]
        rcases h3 with ⟨a, rfl⟩ | ⟨q, a, b⟩
        · rw [a]
          exact .done g1 _ fun _ _ => rfl
        · rw [a]
          exact b
    · obtain ⟨c, y, hy, hc, _, _, hII⟩ := G.cell hg.values hd
      have h1 : node [] = k := by
        obtain ⟨_, L, _⟩ := G
        exact L.top
      have hlt : rank77 h0 i x < rank77 h0 i (node d) := by
        rw [rank77_value hR hc hII]
        rcases hx with hx | ⟨hx, _⟩
        · rw [hx, rank77_root]; decide
        · rw [rank77_image hR hx]; decide
      unfold foldProg
      refine .acquire h _ _ (node d) _ (above_one hlt) (.act h _ _ _ (fun g K => ?_) fun g K => ?_)
      · rw [parse_value76 (K.value hc hII) hII]
        exact (keeps77_rely content).refl g
      · rw [parse_value76 (K.value hc hII) hII]
        dsimp only
        refine .release g _ _ (node d) _ (List.mem_cons_self ..) ?_
        rw [List.erase_cons_head]
        have G' := G.stable77 K
        rcases G'.next77 hg.values hd V with ⟨a, rfl⟩ | ⟨d', a, b, bb, cc⟩
        · rw [a]
          exact .done g _ fun _ _ => by rw [seesIn_none S]; rfl
        · rw [a]
          exact go g k nm t f node d' w r (hR.stable K) hI hx (K.1.1 _ _ _ _ H) ht hl hg G' h1 b bb cc S

/-- the answer of a look-up that may find nothing -/
def Peek77 (content : Content) (e : Env) (r : Option (List Char × AVal)) (h : NHeap) (x : Option Nat) : Prop :=
  x = none ∨ Answer77 content e False r h (ofOption x)

theorem Peek77.stable {content : Content} {e : Env} {r : Option (List Char × AVal)} {h g : NHeap} {x : Option Nat}
    (K : Keeps77 content h g) (H : Peek77 content e r h x) : Peek77 content e r g x := by
  rcases H with H | H
  · exact .inl H
  · exact .inr (H.stable K)

/-- what is below an image at the moment -/
theorem msNode_below {content : Content} {e : Env} {g : NHeap} {k : Nat} {nm : List Char} {t : ATree} (H : MsNode content e g k nm t)
    (ht : ∀ ks, t ≠ .dir ks) (hl : LinksIn t) {n : List Char} {ns : List (List Char)} {w : Option (List (List Char))}
    (V : SeenAt (treePlaces t) [] (n :: ns) w) : g.at k n = none ∨ ∃ f node d', GoodImage e t f ∧ Gen76 g k f node ∧ node [] = k ∧
      g.at k n = some (node d') ∧ (d' = [] ∨ ∃ v, f.places d' = some v) ∧ (NoBack f → d' ≠ []) ∧ SeenAt f.places d' ns w := by
  obtain ⟨c, src, f, hc, hn, hs, hg, hk⟩ := H
  have hno : c.kids = [] → g.at k n = none := by
    intro hks
    unfold NHeap.at
    rw [hc]
    simp [hks, kidAt]
  rcases hk with ⟨_, hk⟩ | ⟨_, hk⟩ | ⟨hk, T⟩
  · exact .inl (hno hk)
  · exact .inl (hno hk)
  · obtain ⟨node, L⟩ := T.nodes (goodImage_follow hg ht hl)
    rw [← goodImage_treePlaces hg ht] at V
    have hs := linkNodes_next77 L (.inl rfl) V
    rw [L.top] at hs
    rcases hs with ⟨a, rfl⟩ | ⟨d', a, b, bb, cc⟩
    · exact .inl a
    · exact .inr ⟨f, node, d', hg, ⟨g, L, fun _ _ hx _ => hx⟩, L.top, a, b, bb, cc⟩

theorem safe_peek77 {content : Content} {e : Env} {h0 : NHeap} {i : Nat} (m : LMode) :
    ∀ ns : List (List Char),
    (∀ (h : NHeap) (k : Nat) (nm : List Char) (t : ATree) (r : Option (List Char × AVal)), Root77 content h0 h i → Img77 h0 k →
      MsNode content e h k nm t → (∀ ks, t ≠ .dir ks) → LinksFrom t ns → SeesFrom t nm ns r →
      Safe (Keeps77 content) (rank77 h0 i) (Peek77 content e r) [(m, i)] h [(m, i)] (foldPeek k ns)) ∧
    (∀ (h : NHeap) (k : Nat) (nm : List Char) (t : ATree) (f : Forest) (node : List (List Char) → Nat) (d : List (List Char))
      (w : Option (List (List Char))) (r : Option (List Char × AVal)), Root77 content h0 h i → Img77 h0 k →
      MsNode content e h k nm t → (∀ ks, t ≠ .dir ks) →
      LinksIn t → GoodImage e t f → Gen76 h k f node → (∃ v, f.places d = some v) → SeenAt f.places d ns w → SeesIn t nm w r →
      Safe (Keeps77 content) (rank77 h0 i) (Peek77 content e r) [(m, i)] h [(m, i)] (foldPeek (node d) ns))
  | [] => by
    refine ⟨fun h k nm t r _ _ H hnd _ V => ?_, fun h k nm t f node d w r _ _ H ht hl hg G hd V S => ?_⟩
    · exact .done h _ fun g K => .inr ((known_image77 H hnd (fun h => h.elim) V).stable K)
    · cases V
      exact .done h _ fun g K => .inr ((known_place77 hg G hd S).stable K)
  | n :: ns => by
    obtain ⟨ihA, ihB⟩ := safe_peek77 (content := content) (e := e) (h0 := h0) (i := i) m ns
    have go : ∀ (g : NHeap) (k : Nat) (nm : List Char) (t : ATree) (f : Forest) (node : List (List Char) → Nat)
        (d' : List (List Char)) (w : Option (List (List Char))) (r : Option (List Char × AVal)), Root77 content h0 g i → Img77 h0 k →
        MsNode content e g k nm t → (∀ ks, t ≠ .dir ks) → LinksIn t → GoodImage e t f → Gen76 g k f node → node [] = k →
        (d' = [] ∨ ∃ v, f.places d' = some v) → SeenAt f.places d' ns w → SeesIn t nm w r →
        Safe (Keeps77 content) (rank77 h0 i) (Peek77 content e r) [(m, i)] g [(m, i)] (foldPeek (node d') ns) := by
      intro g k nm t f node d' w r hR hI H ht hl hg G h1 hd V S
      rcases hd with rfl | hd
      · rw [h1]
        rw [goodImage_treePlaces hg ht] at V
        exact ihA g k nm t r hR hI H ht (linksIn_from ht hl _) ((seesFrom_image ht).2 ⟨w, V, S⟩)
      · exact ihB g k nm t f node d' w r hR hI H ht hl hg G hd V S
    refine ⟨fun h k nm t r hR hI H ht hu V => ?_, fun h k nm t f node d w r hR hI H ht hl hg G hd V S => ?_⟩
    · have hu' := linksFrom_in ht hu
      obtain ⟨w, V1, V2⟩ := (seesFrom_image ht).1 V
      unfold foldPeek
      refine .acquire h _ _ k _ (above_one (by rw [rank77_root, rank77_image hR hI]; exact Nat.one_pos)) (.look (keeps77_rely content) fun g K => ?_)
      refine .release g _ _ k _ (List.mem_cons_self ..) ?_
      rw [List.erase_cons_head]
      have H' := K.1.1 _ _ _ _ H
      rcases msNode_below H' ht hu' V1 with a | ⟨f, node, d', hg, G, h1, a, b, _, cc⟩
      · rw [a]
        exact .done g _ fun _ _ => .inl rfl
      · rw [a]
        exact go g k nm t f node d' w r (hR.stable K) hI H' ht hu' hg G h1 b cc V2
    · obtain ⟨c, y, hy, hc, _, _, hII⟩ := G.cell hg.values hd
      have h1 : node [] = k := by
        obtain ⟨_, L, _⟩ := G
        exact L.top
      unfold foldPeek
      refine .acquire h _ _ (node d) _ (above_one (by rw [rank77_value hR hc hII, rank77_root]; decide)) (.look (keeps77_rely content) fun g K => ?_)
      refine .release g _ _ (node d) _ (List.mem_cons_self ..) ?_
      rw [List.erase_cons_head]
      have G' := G.stable77 K
      rcases G'.next77 hg.values hd V with ⟨a, rfl⟩ | ⟨d', a, b, _, cc⟩
      · rw [a]
        exact .done g _ fun _ _ => .inl rfl
      · rw [a]
        exact go g k nm t f node d' w r (hR.stable K) hI (K.1.1 _ _ _ _ H) ht hl hg G' h1 b cc S

end Wz
