import Verif.Thread.Logic
import Verif.Whole.LinkProps

/-!
# Lemmas: threads in an open archive
-/

set_option autoImplicit false

namespace Wz

open Spec Wz.Props

/-- what a node can become: directories and images can be read or forgotten, everything else stays as it is -/
def SameNode (c c' : NCell) : Prop :=
  c'.name = c.name ∧ ((∃ p sp s p' sp' s', c.kind = .dir p sp s ∧ c'.kind = .dir p' sp' s') ∨
    (∃ p s p' s', c.kind = .image p s ∧ c'.kind = .image p' s') ∨ c' = c)

/-- what threads may do to an open archive -/
def Keeps76 (e : Env) (fuel : Nat) (h g : NHeap) : Prop :=
  Keeps70 e fuel h g ∧ ∀ x c, h.cell x = some c → ∃ c', g.cell x = some c' ∧ SameNode c c'

theorem SameNode.trans {a b c : NCell} (h1 : SameNode a b) (h2 : SameNode b c) : SameNode a c := by
  obtain ⟨n1, k1⟩ := h1
  obtain ⟨n2, k2⟩ := h2
  refine ⟨n2.trans n1, ?_⟩
  rcases k1 with ⟨p, sp, s, p', sp', s', a1, a2⟩ | ⟨p, s, p', s', a1, a2⟩ | rfl
  · rcases k2 with ⟨q, sq, t, q', sq', t', b1, b2⟩ | ⟨q, t, q', t', b1, b2⟩ | rfl
    · exact .inl ⟨_, _, _, _, _, _, a1, b2⟩
    · rw [a2] at b1; cases b1
    · exact .inl ⟨_, _, _, _, _, _, a1, a2⟩
  · rcases k2 with ⟨q, sq, t, q', sq', t', b1, b2⟩ | ⟨q, t, q', t', b1, b2⟩ | rfl
    · rw [a2] at b1; cases b1
    · exact .inr (.inl ⟨_, _, _, _, a1, b2⟩)
    · exact .inr (.inl ⟨_, _, _, _, a1, a2⟩)
  · exact k2

theorem keeps76_rely (e : Env) (fuel : Nat) : Rely (Keeps76 e fuel) where
  refl h := ⟨.refl, fun x c hc => ⟨c, hc, rfl, .inr (.inr rfl)⟩⟩
  trans h g k a b := ⟨a.1.trans b.1, fun x c hc => by
    obtain ⟨c1, h1, h2⟩ := a.2 x c hc
    obtain ⟨c2, h3, h4⟩ := b.2 x c1 h1
    exact ⟨c2, h3, h2.trans h4⟩⟩

theorem Keeps76.value {e : Env} {fuel : Nat} {h g : NHeap} (K : Keeps76 e fuel h g) {x : Nat} {c : NCell} (hc : h.cell x = some c)
    (hI : InImage c.kind) : g.cell x = some c := by
  obtain ⟨c', h1, _, h2⟩ := K.2 x c hc
  rcases h2 with ⟨p, sp, s, p', sp', s', a1, _⟩ | ⟨p, s, p', s', a1, _⟩ | rfl
  · rw [a1] at hI; rcases hI with ⟨_, h⟩ | ⟨_, h⟩ <;> cases h
  · rw [a1] at hI; rcases hI with ⟨_, h⟩ | ⟨_, h⟩ <;> cases h
  · exact h1

theorem Step58.keeps76 {e : Env} {fuel : Nat} {h g : NHeap} {k : Nat} (S : Step58 e fuel h g k) : Keeps76 e fuel h g := by
  refine ⟨S.keeps70, fun x c hc => ?_⟩
  obtain ⟨so, c0, c1, s1, s2, s3, s4⟩ := S
  by_cases hx : x = k
  · subst hx
    rw [hc] at s1
    cases s1
    refine ⟨c1, s2, s3, ?_⟩
    rcases s4 with ⟨p, src, a, b, _⟩ | ⟨p, p', src, a, b, _⟩
    · exact .inl ⟨_, _, _, _, _, _, a, b⟩
    · exact .inr (.inl ⟨_, _, _, _, a, b⟩)
  · exact ⟨c, by rw [so x (cell_lt hc) hx, hc], rfl, .inr (.inr rfl)⟩

theorem Keeps76.shows {e : Env} {fuel : Nat} {h g : NHeap} (K : Keeps76 e fuel h g) {x : Nat} {c : NCell} {v : AVal}
    (hc : h.cell x = some c) (hv : LinkShows e c.kind v) : ∃ c', g.cell x = some c' ∧ c'.name = c.name ∧ LinkShows e c'.kind v := by
  obtain ⟨c', h1, hn, h2⟩ := K.2 x c hc
  refine ⟨c', h1, hn, ?_⟩
  rcases h2 with ⟨p, sp, s, p', sp', s', a1, a2⟩ | ⟨p, s, p', s', a1, a2⟩ | rfl
  · rw [a1] at hv
    rw [a2]
    cases hv with
    | other _ _ hu hk => cases hk; exact .other _ _ hu (.dir _ _ _)
  · rw [a1] at hv
    rw [a2]
    cases hv with
    | other _ _ hu hk => cases hk; exact .other _ _ hu (.image _ _)
  · exact hv

/-! ### the calls -/

theorem parse_dir76 {e : Env} {fuel : Nat} {content : Content} {h : NHeap} {j : Nat} {c : NCell} {p : Bool} {src : Nat}
    (hc : h.cell j = some c) (hk : c.kind = .dir p true src) :
    ∃ g, h.parse content j = (.ok (), g) ∧ Keeps76 e fuel h g ∧ ∀ n, g.at j n = h.at j n := by
  cases p with
  | true =>
    refine ⟨h, ?_, (keeps76_rely e fuel).refl h, fun n => rfl⟩
    rw [parse_eq hc, hk]
    rfl
  | false =>
    have hg : h.parse content j = (.ok (), fresh h j { c with kind := .dir true true src } .nil) := by
      rw [parse_eq hc, hk]
      rfl
    have hcell : ∀ y, (fresh h j { c with kind := .dir true true src } .nil).cell y =
        if y = j then some { c with kind := .dir true true src } else h.cell y := by
      intro y
      have : fresh h j { c with kind := .dir true true src } .nil = h.set j (some { c with kind := .dir true true src }) := by
        unfold fresh; simp [Forest.cells]
      rw [this, cell_set (cell_lt hc)]
    refine ⟨_, hg, Step58.keeps76 (k := j) ⟨fun x _ hx => by rw [hcell, if_neg hx], ⟨c, { c with kind := .dir true true src }, hc, by rw [hcell, if_pos rfl], rfl,
      .inl ⟨false, src, hk, rfl, rfl⟩⟩⟩, fun n => ?_⟩
    unfold NHeap.at
    rw [hcell, if_pos rfl, hc]

theorem parse_image76 {e : Env} {fuel : Nat} {content : Content} {h : NHeap} {j : Nat} {c : NCell} {nm : List Char} {p : Bool} {o s : Nat}
    {f : Forest} (hcon : content (Encodable.encode (Src58.image nm o s)) = readImage e fuel ⟨nm, o, s⟩) (hc : h.cell j = some c)
    (hk : c.kind = .image p (Encodable.encode (Src58.image nm o s))) (hr : readImage e fuel ⟨nm, o, s⟩ = .ok f)
    (hl : Followable f) (h1 : p = true → ImgAt h j f) (h2 : p = false → c.kids = []) :
    ∃ g, h.parse content j = (.ok (), g) ∧ Keeps76 e fuel h g ∧ ImgAt g j f := by
  obtain ⟨g, c', src, g1, g2, g3, g4, g5, g6⟩ := parse_image70 hcon hc hk hr hl h1 h2
  refine ⟨g, g1, ⟨g2, fun x cx hx => ?_⟩, g3⟩
  by_cases hxj : x = j
  · subst hxj
    rw [hc] at hx
    cases hx
    exact ⟨c', g4, g5, .inr (.inl ⟨_, _, _, _, hk, g6⟩)⟩
  · have : g = (h.parse content j).2 := by rw [g1]
    exact ⟨cx, by rw [this, parse_frame (cell_lt hx) hxj, hx], rfl, .inr (.inr rfl)⟩

theorem parse_value76 {content : Content} {h : NHeap} {j : Nat} {c : NCell} (hc : h.cell j = some c) (hI : InImage c.kind) :
    h.parse content j = (.ok (), h) := by
  rw [parse_eq hc, quiet_plan (quiet_inImage hI)]

theorem unparse_image76 {e : Env} {fuel : Nat} {h : NHeap} {j : Nat} {c : NCell} {p : Bool} {src : Nat}
    (hc : h.cell j = some c) (hk : c.kind = .image p src) : Keeps76 e fuel h (h.unparse j) :=
  Step58.keeps76 (k := j) ⟨fun x _ hne => unparse_frame hne, ⟨c, _, hc, unparse_cell hc (k := .image false src) (by rw [hk]; rfl), rfl,
    .inr ⟨p, false, src, hk, rfl, fun _ => rfl, fun h => (by cases h)⟩⟩⟩

theorem unparse_value76 {h : NHeap} {j : Nat} {c : NCell} (hc : h.cell j = some c) (hI : InImage c.kind) : h.unparse j = h := by
  unfold NHeap.unparse
  rw [hc]
  dsimp only
  rcases hI with ⟨v, hk⟩ | ⟨v, hk⟩ <;> rw [hk] <;> rfl

/-! ### what a thread knows -/

/-- the nodes of an image as they were once read: values never change -/
def Gen76 (h : NHeap) (i : Nat) (f : Forest) (node : List (List Char) → Nat) : Prop :=
  ∃ h0, LinkNodes h0 i f node ∧ ∀ x c, h0.cell x = some c → InImage c.kind → h.cell x = some c

theorem Gen76.stable {e : Env} {fuel : Nat} {h g : NHeap} {i : Nat} {f : Forest} {node : List (List Char) → Nat}
    (G : Gen76 h i f node) (K : Keeps76 e fuel h g) : Gen76 g i f node := by
  obtain ⟨h0, L, H⟩ := G
  exact ⟨h0, L, fun x c hx hI => K.value (H x c hx hI) hI⟩

theorem Gen76.cell {h : NHeap} {i : Nat} {f : Forest} {node : List (List Char) → Nat} (A : Spec.Forest.All InImage f)
    (G : Gen76 h i f node) {d : List (List Char)} (hd : ∃ v, f.places d = some v) :
    ∃ c x, Spec.Forest.showsAt f d = some x ∧ h.cell (node d) = some c ∧ c.name = x.1 ∧ c.kind = x.2 ∧ InImage c.kind := by
  obtain ⟨h0, L, H⟩ := G
  obtain ⟨v, hv⟩ := hd
  obtain ⟨x, hx⟩ := places_some hv
  have hne : d ≠ [] := by
    rintro rfl
    cases hx
  obtain ⟨c, h1, h2, h3⟩ := L.cells d x hne hx
  have hI : InImage c.kind := by rw [h3]; exact all_showsAt70 d f x A hx
  exact ⟨c, x, hx, H _ c h1 hI, h2, h3, hI⟩

/-- one name further -/
theorem linkNodes_next {h : NHeap} {i : Nat} {f : Forest} {node : List (List Char) → Nat} (L : LinkNodes h i f node)
    {d ns : List (List Char)} {n : List Char} {w : Option (List (List Char))} (hd : d = [] ∨ ∃ v, f.places d = some v)
    (V : SeenAt f.places d (n :: ns) w) : (h.at (node d) n = none ∧ w = none) ∨
      ∃ d', h.at (node d) n = some (node d') ∧ (d' = [] ∨ ∃ v, f.places d' = some v) ∧ SeenAt f.places d' ns w := by
  cases V with
  | missing _ _ _ hl => exact .inl ⟨L.nothing d n hd hl, rfl⟩
  | plain _ _ _ _ hl h1 => exact .inr ⟨_, L.value d n hd hl, .inr ⟨_, hl⟩, h1⟩
  | link _ _ _ s us t _ hl hs W h1 => exact .inr ⟨t, L.link d n s us t hd hl hs W, way_there W places_prefix t rfl hd, h1⟩
  | dead _ _ _ s us _ hl hs W h1 => exact .inr ⟨_, L.dead d n s us hd hl hs W, .inr ⟨_, hl⟩, h1⟩

theorem Gen76.next {h : NHeap} {i : Nat} {f : Forest} {node : List (List Char) → Nat} (A : Spec.Forest.All InImage f)
    (G : Gen76 h i f node) {d ns : List (List Char)} {n : List Char} {w : Option (List (List Char))} (hd : ∃ v, f.places d = some v)
    (V : SeenAt f.places d (n :: ns) w) : (h.at (node d) n = none ∧ w = none) ∨
      ∃ d', h.at (node d) n = some (node d') ∧ (d' = [] ∨ ∃ v, f.places d' = some v) ∧ SeenAt f.places d' ns w := by
  obtain ⟨h0, L, H⟩ := G
  have hc : h.cell (node d) = h0.cell (node d) := by
    obtain ⟨v, hv⟩ := hd
    obtain ⟨x, hx⟩ := places_some hv
    have hne : d ≠ [] := by
      rintro rfl
      cases hx
    obtain ⟨c, h1, h2, h3⟩ := L.cells d x hne hx
    rw [h1]
    exact H _ c h1 (by rw [h3]; exact all_showsAt70 d f x A hx)
  rw [at_cell hc]
  exact linkNodes_next L (.inr hd) V

/-- A node that was found: it shows what is seen there, and it is a value, or it stands for a directory or an image.
`more`: the node may be read. -/
def Known76 (e : Env) (fuel : Nat) (more : Prop) (h : NHeap) (j : Nat) (nm : List Char) (v : AVal) : Prop :=
  ∃ c, h.cell j = some c ∧ c.name = nm ∧ LinkShows e c.kind v ∧
    (InImage c.kind ∨ ∃ t, Stands58 e fuel h j nm t ∧ (more → LinksFrom t [[]]))

theorem Known76.stable {e : Env} {fuel : Nat} {more : Prop} {h g : NHeap} {j : Nat} {nm : List Char} {v : AVal}
    (K : Keeps76 e fuel h g) (H : Known76 e fuel more h j nm v) : Known76 e fuel more g j nm v := by
  obtain ⟨c, h1, h2, h3, h4⟩ := H
  obtain ⟨c', k1, k2, k3⟩ := K.shows h1 h3
  refine ⟨c', k1, k2.trans h2, k3, ?_⟩
  rcases h4 with h4 | ⟨t, h5, h6⟩
  · have := K.value h1 h4
    rw [k1] at this
    cases this
    exact .inl h4
  · exact .inr ⟨t, K.1.1 _ _ _ h5, h6⟩

/-- what is known of the answer -/
def Answer76 (e : Env) (fuel : Nat) (more : Prop) (r : Option (List Char × AVal)) (h : NHeap) (x : Except Err Nat) : Prop :=
  match r with
  | some (nm, v) => ∃ j, x = .ok j ∧ Known76 e fuel more h j nm v
  | none => x = .error (.lib "NodeNotFound")

theorem Answer76.stable {e : Env} {fuel : Nat} {more : Prop} {r : Option (List Char × AVal)} {h g : NHeap} {x : Except Err Nat}
    (K : Keeps76 e fuel h g) (H : Answer76 e fuel more r h x) : Answer76 e fuel more r g x := by
  cases r with
  | none => exact H
  | some v =>
    obtain ⟨j, h1, h2⟩ := H
    exact ⟨j, h1, h2.stable K⟩

/-- the root is locked first -/
def rank76 (i : Nat) : Nat → Nat := fun x => if x = i then 0 else 1

theorem rank76_lt {i j : Nat} (m : LMode) (h : j ≠ i) : ∀ x : LMode × Nat, x ∈ [(m, i)] → rank76 i x.2 < rank76 i j := by
  intro x hx
  rw [List.mem_singleton] at hx
  subst hx
  unfold rank76
  rw [if_pos rfl, if_neg h]
  exact Nat.one_pos

/-- the root is a file -/
def Root76 (h : NHeap) (i : Nat) : Prop := ∃ c p s, h.cell i = some c ∧ c.kind = .file p s

theorem Root76.stable {e : Env} {fuel : Nat} {h g : NHeap} {i : Nat} (K : Keeps76 e fuel h g) (H : Root76 h i) : Root76 g i := by
  obtain ⟨c, p, s, h1, h2⟩ := H
  exact ⟨c, p, s, K.1.2 i c p s h1 h2, h2⟩

theorem Root76.ne {h : NHeap} {i j : Nat} {c : NCell} (H : Root76 h i) (hc : h.cell j = some c) (hk : ∀ p s, c.kind ≠ .file p s) : j ≠ i := by
  rintro rfl
  obtain ⟨c', p, s, h1, h2⟩ := H
  rw [hc] at h1
  cases h1
  exact hk p s h2

theorem inImage_noFile {k : NKind} (h : InImage k) (p : Bool) (s : Nat) : k ≠ .file p s := by
  rintro rfl
  rcases h with ⟨_, h⟩ | ⟨_, h⟩ <;> cases h

theorem Stands58.noFile {e : Env} {fuel : Nat} {h : NHeap} {j : Nat} {nm : List Char} {t : ATree} (S : Stands58 e fuel h j nm t) :
    ∃ c, h.cell j = some c ∧ ∀ p s, c.kind ≠ .file p s := by
  cases S with
  | image _ c _ p o s _ f hc hn hk => exact ⟨c, hc, fun p s => by rw [hk]; intro h; cases h⟩
  | dir _ c _ p src kids ids hc hn hk => exact ⟨c, hc, fun p s => by rw [hk]; intro h; cases h⟩

/-- a place in an image is seen as what it shows -/
theorem known_place {e : Env} {fuel : Nat} {more : Prop} {h : NHeap} {k : Nat} {nm : List Char} {t : ATree} {f : Forest}
    {node : List (List Char) → Nat} {d : List (List Char)} {r : Option (List Char × AVal)} (hg : GoodImage e t f)
    (G : Gen76 h k f node) (hd : ∃ v, f.places d = some v) (S : SeesIn t nm (some d) r) :
    Answer76 e fuel more r h (.ok (node d)) := by
  obtain ⟨c, x, hx, h1, h2, h3, h4⟩ := G.cell hg.values hd
  rcases S with ⟨h, _⟩ | ⟨h, _⟩ | ⟨d', m, v, h, hv, rfl⟩
  · cases h
  · cases h
    cases hx
  · cases h
    have hp := hg.places (d' ++ [m]) (by simp)
    rw [hv] at hp
    obtain ⟨nm', k', p1, p2, p3⟩ := hp
    rw [hx] at p1
    cases p1
    refine ⟨_, rfl, c, h1, ?_, by rw [h3]; exact p3, .inl h4⟩
    rw [h2]
    simpa using p2.symm

/-- a node that stands for something is seen as that -/
theorem known_stands {e : Env} {fuel : Nat} {more : Prop} {h : NHeap} {k : Nat} {nm : List Char} {t : ATree}
    {r : Option (List Char × AVal)} (H : Stands58 e fuel h k nm t) (hm : more → LinksFrom t [[]]) (V : SeesFrom t nm [] r) :
    Answer76 e fuel more r h (.ok k) := by
  have H' := H
  cases H with
  | image _ c _ p o s _ f hc hn hk ht =>
    have hr : r = some (nm, .image) := by
      have : ∃ w, SeenAt (treePlaces t) [] [] w ∧ SeesIn t nm w r := by
        cases t with
        | dir ks => exact nomatch ht.stored
        | _ => exact V
      obtain ⟨w, hw, hs⟩ := this
      cases hw
      rcases hs with ⟨h, _⟩ | ⟨_, h⟩ | ⟨d, m, v, h, _⟩
      · cases h
      · exact h
      · simp at h
    subst hr
    exact ⟨k, rfl, c, hc, hn, .other _ _ (fun s h => by cases h) (by rw [hk]; exact .image _ _), .inr ⟨t, H', hm⟩⟩
  | dir _ c _ p src kids ids hc hn hk =>
    rcases V with ⟨_, rfl⟩ | ⟨h, _⟩
    · exact ⟨k, rfl, c, hc, hn, .other _ _ (fun s h => by cases h) (by rw [hk]; exact .dir _ _ _), .inr ⟨_, H', hm⟩⟩
    · exact absurd rfl h

theorem linksIn_from {t : ATree} (ht : ∀ ks, t ≠ .dir ks) (h : LinksIn t) (ns : List (List Char)) : LinksFrom t ns := by
  cases t with
  | dir ks => exact absurd rfl (ht ks)
  | image ps => exact .inr h
  | _ => trivial

theorem linksFrom_in {t : ATree} (ht : ∀ ks, t ≠ .dir ks) {n : List Char} {ns : List (List Char)} (h : LinksFrom t (n :: ns)) : LinksIn t := by
  cases t with
  | dir ks => exact absurd rfl (ht ks)
  | image ps => exact h.resolve_left (by simp)
  | _ => trivial

theorem seesFrom_image {t : ATree} (ht : ∀ ks, t ≠ .dir ks) {nm : List Char} {ns : List (List Char)} {r : Option (List Char × AVal)} :
    SeesFrom t nm ns r ↔ ∃ w, SeenAt (treePlaces t) [] ns w ∧ SeesIn t nm w r := by
  cases t with
  | dir ks => exact absurd rfl (ht ks)
  | _ => exact Iff.rfl

theorem seesIn_none {t : ATree} {nm : List Char} {r : Option (List Char × AVal)} (S : SeesIn t nm none r) : r = none := by
  rcases S with ⟨_, h⟩ | ⟨h, _⟩ | ⟨_, _, _, h, _⟩
  · exact h
  · cases h
  · cases h

/-! ### look-ups that read -/

/-- **a look-up among other threads** -/
theorem safe_fold {e : Env} {fuel : Nat} {content : Content} {i : Nat} (m : LMode)
    (hcon : ∀ n o s, content (Encodable.encode (Src58.image n o s)) = readImage e fuel ⟨n, o, s⟩) (more : Prop) :
    ∀ ns : List (List Char),
    (∀ (h : NHeap) (k : Nat) (nm : List Char) (t : ATree) (r : Option (List Char × AVal)), Root76 h i → Stands58 e fuel h k nm t →
      LinksFrom t ns → (more → LinksFrom t (ns ++ [[]])) → SeesFrom t nm ns r →
      Safe (Keeps76 e fuel) (rank76 i) (Answer76 e fuel more r) [(m, i)] h [(m, i)] (foldProg content k ns)) ∧
    (∀ (h : NHeap) (k : Nat) (nm : List Char) (t : ATree) (f : Forest) (node : List (List Char) → Nat) (d : List (List Char))
      (w : Option (List (List Char))) (r : Option (List Char × AVal)), Root76 h i → Stands58 e fuel h k nm t → (∀ ks, t ≠ .dir ks) →
      LinksIn t → GoodImage e t f → Gen76 h k f node → (∃ v, f.places d = some v) → SeenAt f.places d ns w → SeesIn t nm w r →
      Safe (Keeps76 e fuel) (rank76 i) (Answer76 e fuel more r) [(m, i)] h [(m, i)] (foldProg content (node d) ns))
  | [] => by
    refine ⟨fun h k nm t r _ H _ hm V => ?_, fun h k nm t f node d w r _ H ht hl hg G hd V S => ?_⟩
    · exact .done h _ fun g K => (known_stands H hm V).stable K
    · cases V
      exact .done h _ fun g K => (known_place hg G hd S).stable K
  | n :: ns => by
    obtain ⟨ihA, ihB⟩ := safe_fold (i := i) m hcon more ns
    -- the next node, once it is known
    have go : ∀ (g : NHeap) (k : Nat) (nm : List Char) (t : ATree) (f : Forest) (node : List (List Char) → Nat)
        (d' : List (List Char)) (w : Option (List (List Char))) (r : Option (List Char × AVal)), Root76 g i →
        Stands58 e fuel g k nm t → (∀ ks, t ≠ .dir ks) → LinksIn t → GoodImage e t f → Gen76 g k f node → node [] = k →
        (d' = [] ∨ ∃ v, f.places d' = some v) → SeenAt f.places d' ns w → SeesIn t nm w r →
        Safe (Keeps76 e fuel) (rank76 i) (Answer76 e fuel more r) [(m, i)] g [(m, i)] (foldProg content (node d') ns) := by
      intro g k nm t f node d' w r hR H ht hl hg G h0 hd V S
      rcases hd with rfl | hd
      · rw [h0]
        rw [goodImage_treePlaces hg ht] at V
        exact ihA g k nm t r hR H (linksIn_from ht hl _) (fun _ => linksIn_from ht hl _) ((seesFrom_image ht).2 ⟨w, V, S⟩)
      · exact ihB g k nm t f node d' w r hR H ht hl hg G hd V S
    refine ⟨fun h k nm t r hR H hu hm V => ?_, fun h k nm t f node d w r hR H ht hl hg G hd V S => ?_⟩
    · -- a directory or an image
      obtain ⟨ck, hck, hnf⟩ := H.noFile
      have hne := hR.ne hck hnf
      have key : ∀ g, Keeps76 e fuel h g → ∃ g1, g.parse content k = (.ok (), g1) ∧ Keeps76 e fuel g g1 ∧
          ((g1.at k n = none ∧ r = none) ∨ ∃ q, g1.at k n = some q ∧
            Safe (Keeps76 e fuel) (rank76 i) (Answer76 e fuel more r) [(m, i)] g1 [(m, i)] (foldProg content q ns)) := by
        intro g K
        have H' := K.1.1 _ _ _ H
        have H'' := H'
        cases H' with
        | image _ c _ p o s _ f hc hn hk ht hr hg hp1 hp2 =>
          have hnd : ∀ ks, t ≠ .dir ks := by
            rintro ks rfl
            exact nomatch ht.stored
          have hu' := linksFrom_in hnd hu
          obtain ⟨w, V1, V2⟩ := (seesFrom_image hnd).1 V
          have hfol := goodImage_follow hg hnd hu'
          obtain ⟨g1, h1, h2, h3⟩ := parse_image76 (hcon nm o s) hc hk hr hfol hp1 hp2
          obtain ⟨node, L⟩ := h3.nodes hfol
          rw [← goodImage_treePlaces hg hnd] at V1
          have hs := linkNodes_next L (.inl rfl) V1
          rw [L.top] at hs
          refine ⟨g1, h1, h2, ?_⟩
          rcases hs with ⟨a, rfl⟩ | ⟨d', a, b, cc⟩
          · exact .inl ⟨a, seesIn_none V2⟩
          · exact .inr ⟨_, a, go g1 k nm t f node d' w r ((hR.stable K).stable h2) (h2.1.1 _ _ _ H'') hnd hu' hg
              ⟨g1, L, fun _ _ hx _ => hx⟩ L.top b cc V2⟩
        | dir _ c _ p src kids ids hc hn hk h1 h2 h3 =>
          obtain ⟨g1, g2, g3, g4⟩ := parse_dir76 (e := e) (fuel := fuel) (content := content) hc hk
          have hV : ArcSees kids (n :: ns) r := by
            rcases V with ⟨h, _⟩ | ⟨_, h⟩
            · cases h
            · exact h
          have hf : LinksOn kids (n :: ns) := hu
          have hf2 : more → LinksOn kids (n :: (ns ++ [[]])) := hm
          rw [linksOn_from] at hf
          rw [arcSees_from] at hV
          refine ⟨g1, g2, g3, ?_⟩
          rw [g4]
          cases hl : lastNamed kids n with
          | none =>
            rw [hl] at hV
            exact .inl ⟨h1 n hl, hV⟩
          | some u =>
            rw [hl] at hf hV
            refine .inr ⟨_, h2 n u hl, ihA g1 (ids n) n u r ((hR.stable K).stable g3) (g3.1.1 _ _ _ (h3 n u hl)) hf (fun hmo => ?_) hV⟩
            have := hf2 hmo
            rw [linksOn_from, hl] at this
            exact this
      unfold foldProg
      refine .acquire h _ _ k _ (rank76_lt m hne) (.act h _ _ _ (fun g K => ?_) fun g K => ?_)
      · obtain ⟨g1, h1, h2, _⟩ := key g K
        rw [h1]
        exact h2
      · obtain ⟨g1, h1, h2, h3⟩ := key g K
        rw [h1]
        dsimp only
        refine .release g1 _ _ k _ (List.mem_cons_self ..) ?_
        rw [List.erase_cons_head]
        rcases h3 with ⟨a, rfl⟩ | ⟨q, a, b⟩
        · rw [a]
          exact .done g1 _ fun _ _ => rfl
        · rw [a]
          exact b
    · -- a value
      obtain ⟨c, x, hx, hc, _, _, hI⟩ := G.cell hg.values hd
      have hne := hR.ne hc (fun p s => inImage_noFile hI p s)
      have h0 : node [] = k := by
        obtain ⟨_, L, _⟩ := G
        exact L.top
      unfold foldProg
      refine .acquire h _ _ (node d) _ (rank76_lt m hne) (.act h _ _ _ (fun g K => ?_) fun g K => ?_)
      · rw [parse_value76 (K.value hc hI) hI]
        exact (keeps76_rely e fuel).refl g
      · rw [parse_value76 (K.value hc hI) hI]
        dsimp only
        refine .release g _ _ (node d) _ (List.mem_cons_self ..) ?_
        rw [List.erase_cons_head]
        have G' := G.stable K
        rcases G'.next hg.values hd V with ⟨a, rfl⟩ | ⟨d', a, b, cc⟩
        · rw [a]
          exact .done g _ fun _ _ => by rw [seesIn_none S]; rfl
        · rw [a]
          exact go g k nm t f node d' w r (hR.stable K) (K.1.1 _ _ _ H) ht hl hg G' h0 b cc S

end Wz
