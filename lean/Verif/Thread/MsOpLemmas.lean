import Verif.Thread.MsLemmas

/-!
# Lemmas: the operations of a thread on an MS archive
-/

set_option autoImplicit false

namespace Wz

open Spec Wz.Props

variable {A : Prop}

theorem Keeps77.stands {content : Content} {reader : List Char → Env} {h g : NHeap} {i : Nat} {arch : List (List Char × ATree)}
    (K : Keeps77 content h g) (F : MsStands False A content reader h i arch) : MsStands False A content reader g i arch := K.1.stands F

/-- an archive on the way: it came from `h0`, and the images in it were images then -/
structure Open77 (A : Prop) (content : Content) (reader : List Char → Env) (arch : List (List Char × ATree)) (h0 : NHeap) (i : Nat) (h : NHeap) :
    Prop where
  root : Root77 content h0 h i
  stands : MsStands False A content reader h i arch
  first : MsStands False A content reader h0 i arch

theorem Open77.stable {content : Content} {reader : List Char → Env} {arch : List (List Char × ATree)} {h0 h g : NHeap} {i : Nat}
    (K : Keeps77 content h g) (O : Open77 A content reader arch h0 i h) : Open77 A content reader arch h0 i g :=
  ⟨O.root.stable K, K.stands O.stands, O.first⟩

theorem Open77.start {content : Content} {reader : List Char → Env} {arch : List (List Char × ATree)} {h0 : NHeap} {i : Nat}
    (F : MsStands False A content reader h0 i arch) : Open77 A content reader arch h0 i h0 :=
  ⟨⟨(keeps77_rely content).refl h0, F.root⟩, F, F⟩

theorem Open77.child {content : Content} {reader : List Char → Env} {arch : List (List Char × ATree)} {h0 h : NHeap} {i : Nat}
    (O : Open77 A content reader arch h0 i h) {n : List Char} {t : ATree} (hl : lastNamed arch n = some t) :
    ∃ k, h.at i n = some k ∧ MsNode content (reader n) h k n t ∧ Img77 h0 k := by
  obtain ⟨k, h1, h2⟩ := O.first.there n t hl
  obtain ⟨k', h3, h4⟩ := O.stands.there n t hl
  obtain ⟨c, p, s, hc, hk⟩ := O.first.root
  have hg := O.root.1.1.2 i c p s hc hk
  have : h.at i n = h0.at i n := by
    unfold NHeap.at
    rw [hg, hc]
  rw [this, h1] at h3
  cases h3
  obtain ⟨c, hc, _, hk⟩ := msNode_kind h2
  exact ⟨k, by rw [this, h1], h4, c, hc, hk⟩

theorem release_root77 {content : Content} {h0 : NHeap} {i j : Nat} {m : LMode} {α : Type} {Q : NHeap → α → Prop} {g : NHeap} {a : α}
    (hq : ∀ k, Keeps77 content g k → Q k a) :
    Safe (Keeps77 content) (rank77 h0 i) Q [] g [(m, j)] (.release m j (.done a)) := by
  refine .release g _ _ j _ (List.mem_singleton.2 rfl) ?_
  rw [List.erase_cons_head]
  exact .done g a hq

/-- **`at_path_parsed` on the root** -/
theorem safe_find77 {content : Content} {reader : List Char → Env} {arch : List (List Char × ATree)} {h0 h : NHeap} {i : Nat} (m : LMode)
    (hd : FlatMs arch) (O : Open77 A content reader arch h0 i h)
    (more : Prop) {path : List Char} {n : List Char} {ns : List (List Char)} {r : Option (List Char × AVal)} (hp : Pieces path (n :: ns))
    (hu : LinksOn arch (n :: ns)) (hm : more → LinksOn arch (n :: ns ++ [[]])) (V : ArcSees arch (n :: ns) r) :
    Safe (Keeps77 content) (rank77 h0 i) (Answer77 content (reader n) more r) [] h [] (findProg content m i path) := by
  unfold findProg
  refine .acquire h _ _ i _ (fun x hx => by cases hx) (.look (keeps77_rely content) fun g K => ?_)
  have O' := O.stable K
  have main : Safe (Keeps77 content) (rank77 h0 i) (Answer77 content (reader n) more r) [(m, i)] g [(m, i)] (findFrom content g i path) := by
    have hs := pieces_iff.1 hp
    unfold findFrom
    rw [hs]
    dsimp only
    have hm2 : more → LinksOn arch (n :: (ns ++ [[]])) := hm
    rw [linksOn_from] at hu
    rw [arcSees_from] at V
    cases hl : lastNamed arch n with
    | none =>
      rw [hl] at V
      rw [O'.stands.missing n hl]
      subst V
      exact .done g _ fun _ _ => rfl
    | some t =>
      rw [hl] at hu V
      obtain ⟨k, h1, h2, h3⟩ := O'.child hl
      have ht : ∀ ks, t ≠ .dir ks := fun ks e => hd n ks (by rw [hl, e])
      rw [h1]
      refine (safe_fold77 m more ns).1 rfl g k n t r O'.root h3 h2 ht hu (fun hmo => ?_) V
      have := hm2 hmo
      rw [linksOn_from, hl] at this
      cases ns with
      | nil => exact linksFrom_in ht this
      | cons _ _ => exact linksFrom_in ht this
  exact main.bind (keeps77_rely content) fun k a _ hq => release_root77 fun k' K' => hq.stable K'

/-- **`at_path` on the root** -/
theorem safe_peekProg77 {content : Content} {reader : List Char → Env} {arch : List (List Char × ATree)} {h0 h : NHeap} {i : Nat}
    (hd : FlatMs arch) (O : Open77 A content reader arch h0 i h) {path : List Char} {n : List Char} {ns : List (List Char)}
    {r : Option (List Char × AVal)} (hp : Pieces path (n :: ns)) (hu : LinksOn arch (n :: ns)) (V : ArcSees arch (n :: ns) r) :
    Safe (Keeps77 content) (rank77 h0 i) (Peek77 content (reader n) r) [] h [] (peekProg i path) := by
  unfold peekProg
  refine .acquire h _ _ i _ (fun x hx => by cases hx) (.look (keeps77_rely content) fun g K => ?_)
  have O' := O.stable K
  have main : Safe (Keeps77 content) (rank77 h0 i) (Peek77 content (reader n) r) [(.read, i)] g [(.read, i)] (peekFrom g i path) := by
    have hs := pieces_iff.1 hp
    unfold peekFrom
    rw [hs]
    dsimp only
    rw [linksOn_from] at hu
    rw [arcSees_from] at V
    cases hl : lastNamed arch n with
    | none =>
      rw [O'.stands.missing n hl]
      exact .done g _ fun _ _ => .inl rfl
    | some t =>
      rw [hl] at hu V
      obtain ⟨k, h1, h2, h3⟩ := O'.child hl
      have ht : ∀ ks, t ≠ .dir ks := fun ks e => hd n ks (by rw [hl, e])
      rw [h1]
      exact (safe_peek77 .read ns).1 g k n t r O'.root h3 h2 ht hu V
  exact main.bind (keeps77_rely content) fun k a _ hq => release_root77 fun k' K' => hq.stable K'

/-- **`at_path_parsed` on an image** to which no link leads back: it finds what is seen there, or nothing -/
theorem safe_below77 {content : Content} {e : Env} {h0 h : NHeap} {i k : Nat} {nm : List Char} {t : ATree} (m : LMode)
    (R : Root77 content h0 h i) (I : Img77 h0 k) (H : MsNode content e h k nm t) (ht : ∀ ks, t ≠ .dir ks) (hl : LinksIn t)
    (hw : ∀ f, GoodImage e t f → NoBack f) {path : List Char} {ns : List (List Char)} {w : Option (List (List Char))}
    {r : Option (List Char × AVal)} (hp : Pieces path ns) (V : SeenAt (treePlaces t) [] ns w) (S : SeesIn t nm w r) :
    Safe (Keeps77 content) (rank77 h0 i) (fun g x => Answer77 content e False r g x ∨ x = .error (.lib "NodeNotFound")) [] h []
      (findProg content m k path) := by
  unfold findProg
  refine .acquire h _ _ k _ (fun x hx => by cases hx) (.look (keeps77_rely content) fun g K => ?_)
  have main : Safe (Keeps77 content) (rank77 h0 i) (fun g x => Answer77 content e False r g x ∨ x = .error (.lib "NodeNotFound")) [(m, k)] g [(m, k)]
      (findFrom content g k path) := by
    unfold findFrom
    rw [pieces_iff.1 hp]
    cases ns with
    | nil => exact absurd rfl hp.some
    | cons n ns =>
      dsimp only
      have H' := K.1.1 _ _ _ _ H
      rcases msNode_below H' ht hl V with a | ⟨f, node, d', hg, G, h1, a, b, bb, cc⟩
      · rw [a]
        exact .done g _ fun _ _ => .inr rfl
      · rw [a]
        have hb := hw f hg
        refine ((safe_fold77 m False ns).2 g k nm t f node d' w r (R.stable K) I (.inr ⟨I, hb⟩) H' ht hl hg G (b.resolve_left (bb hb)) cc S).weaken
          fun _ _ hq => .inl hq
  exact main.bind (keeps77_rely content) fun k' a _ hq => release_root77 fun k' K' => hq.elim (fun hq => .inl (hq.stable K')) .inr

/-! ### reading and forgetting what was found -/

theorem known_parse77 {content : Content} {e : Env} {h : NHeap} {j : Nat} {nm : List Char} {v : AVal}
    (H : Known77 content e True h j nm v) : Keeps77 content h (h.parse content j).2 := by
  obtain ⟨c, hc, hn, hv, hI | ⟨t, S, ht, hl⟩⟩ := H
  · rw [parse_value76 hc hI]
    exact (keeps77_rely content).refl h
  · obtain ⟨g, f, h1, h2, _⟩ := parse_ms77 S ht (hl trivial)
    rw [h1]
    exact h2

theorem known_unparse77 {content : Content} {e : Env} {more : Prop} {h : NHeap} {j : Nat} {nm : List Char} {v : AVal}
    (H : Known77 content e more h j nm v) : Keeps77 content h (h.unparse j) := by
  obtain ⟨c, hc, hn, hs, hI | ⟨t, S, _⟩⟩ := H
  · rw [unparse_value76 hc hI]
    exact (keeps77_rely content).refl h
  · obtain ⟨c', hc', _, hk⟩ := msNode_kind S
    exact unparse_ms77 hc' hk

/-- an operation under the lock of one node -/
theorem safe_under77 {content : Content} {h0 : NHeap} {i j : Nat} {α : Type} {Q : NHeap → α → Prop} {h : NHeap} {upd : NHeap → NHeap}
    {ans : NHeap → α} (hu : ∀ g, Keeps77 content h g → Keeps77 content g (upd g))
    (hq : ∀ g, Keeps77 content h g → ∀ k, Keeps77 content (upd g) k → Q k (ans g)) :
    Safe (Keeps77 content) (rank77 h0 i) Q [] h [] (.acquire .write j (.act upd fun h => .release .write j (.done (ans h)))) := by
  refine .acquire h _ _ j _ (fun x hx => by cases hx) (.act h _ _ _ hu fun g K => .release (upd g) _ _ j _ (List.mem_singleton.2 rfl) ?_)
  rw [List.erase_cons_head]
  exact .done _ _ (hq g K)

/-! ### right answers -/

theorem rightPath_stable {content : Content} {reader : List Char → Env} {arch : List (List Char × ATree)} {h g : NHeap}
    (K : Keeps77 content h g) {path : List Char} {x : Except Err Nat} (H : RightMsPath reader arch h path x) :
    RightMsPath reader arch g path x := fun n ns r hp V => showsMs_stable K (H n ns r hp V)

theorem rightChild_stable {content : Content} {reader : List Char → Env} {arch : List (List Char × ATree)} {h g : NHeap}
    (K : Keeps77 content h g) {name : List Char} {x : Except Err Nat} (H : RightMsChild reader arch h name x) :
    RightMsChild reader arch g name x := by
  unfold RightMsChild at H ⊢
  cases hl : lastNamed arch name with
  | none => rw [hl] at H; exact H
  | some t => rw [hl] at H; exact showsMs_stable K H

theorem rightBelow_stable {content : Content} {reader : List Char → Env} {arch : List (List Char × ATree)} {h g : NHeap}
    (K : Keeps77 content h g) {name path : List Char} {x : Except Err Nat} (H : RightMsBelow reader arch h name path x) :
    RightMsBelow reader arch g name path x := by
  unfold RightMsBelow at H ⊢
  cases hl : lastNamed arch name with
  | none => rw [hl] at H; exact H
  | some t => rw [hl] at H; exact fun ns r hp V => showsMs_stable K (H ns r hp V)

theorem rightMsFor_stable {content : Content} {reader : List Char → Env} {arch : List (List Char × ATree)} {h g : NHeap}
    (K : Keeps77 content h g) {op : MsThreadOp} {x : Except Err Nat} (H : RightMsFor reader arch h op x) : RightMsFor reader arch g op x := by
  cases op with
  | path op =>
    cases op with
    | peek p =>
      rcases H with H | H
      · exact .inl (rightPath_stable K H)
      · exact .inr H
    | find p => exact rightPath_stable K H
    | load p => exact rightPath_stable K H
    | close p => exact rightPath_stable K H
  | «open» n => exact rightChild_stable K H
  | below n p =>
    rcases H with H | H
    · exact .inl (rightBelow_stable K H)
    · exact .inr H
  | shut n => exact rightChild_stable K H

theorem rightMsAnswers_stable {content : Content} {reader : List Char → Env} {arch : List (List Char × ATree)} {h g : NHeap}
    (K : Keeps77 content h g) {ops : List MsThreadOp} {xs : List (Except Err Nat)} (H : RightMsAnswers reader arch h ops xs) :
    RightMsAnswers reader arch g ops xs := by
  induction H with
  | nil => exact .nil
  | cons op ops x xs h1 _ ih => exact .cons op ops x xs (rightMsFor_stable K h1) ih

theorem answer_right77 {content : Content} {reader : List Char → Env} {more : Prop} {arch : List (List Char × ATree)} {h : NHeap}
    {path : List Char} {n : List Char} {ns : List (List Char)} {r : Option (List Char × AVal)} {x : Except Err Nat} (hp : Pieces path (n :: ns))
    (V : ArcSees arch (n :: ns) r) (H : Answer77 content (reader n) more r h x) : RightMsPath reader arch h path x := by
  intro n' ns' r' hp' V'
  have he : n' :: ns' = n :: ns := by rw [← pieces_iff.1 hp, ← pieces_iff.1 hp']
  cases he
  have := arcSees_unique _ arch r' r V' V
  subst this
  exact H.shows

/-- an operation by path -/
theorem safe_path77 {content : Content} {reader : List Char → Env} {arch : List (List Char × ATree)} {h0 h : NHeap} {i : Nat}
    (hd : FlatMs arch) (O : Open77 A content reader arch h0 i h) (op : ThreadOp) (ha : AllowedThread arch op) :
    Safe (Keeps77 content) (rank77 h0 i) (fun g x => RightMsFor reader arch g (.path op) x) [] h [] (opProg content i op) := by
  have hR := keeps77_rely content
  have split : ∀ {p : List Char} {ns : List (List Char)}, Pieces p ns → ∃ n ns', ns = n :: ns' := by
    intro p ns hp
    cases ns with
    | nil => exact absurd rfl hp.some
    | cons n ns => exact ⟨n, ns, rfl⟩
  cases op with
  | peek p =>
    obtain ⟨ns, h1, h2⟩ := ha
    obtain ⟨r, V⟩ := arcSees_total ns arch h1.some h2
    obtain ⟨n, ns, rfl⟩ := split h1
    refine (safe_peekProg77 hd O h1 h2 V).bind hR fun g a _ hq => .done g _ fun k K => ?_
    rcases hq.stable K with hq | hq
    · subst hq
      exact .inr rfl
    · exact .inl (answer_right77 h1 V hq)
  | find p =>
    obtain ⟨ns, h1, h2⟩ := ha
    obtain ⟨r, V⟩ := arcSees_total ns arch h1.some h2
    obtain ⟨n, ns, rfl⟩ := split h1
    exact (safe_find77 .read hd O False h1 h2 (fun h => h.elim) V).weaken fun g a hq => answer_right77 h1 V hq
  | load p =>
    obtain ⟨ns, h1, h2⟩ := ha
    have h2' := linksOn_prefix _ _ _ h2
    obtain ⟨r, V⟩ := arcSees_total ns arch h1.some h2'
    obtain ⟨n, ns, rfl⟩ := split h1
    refine (safe_find77 .read hd O True h1 h2' (fun _ => h2) V).bind hR fun g a _ hq => ?_
    cases a with
    | error er => exact .done g _ fun k K => answer_right77 h1 V (hq.stable K)
    | ok j =>
      have hk : ∀ k, Keeps77 content g k → Keeps77 content k (k.parse content j).2 := by
        intro k K
        have hq' := hq.stable K
        cases r with
        | none => cases hq'
        | some v =>
          obtain ⟨j', e1, hkn⟩ := hq'
          cases e1
          exact known_parse77 hkn
      refine (safe_under77 (Q := fun k _ => Answer77 content (reader n) True r k (.ok j)) hk fun k K k' K' =>
        hq.stable (hR.trans _ _ _ (hR.trans _ _ _ K (hk k K)) K')).bind hR fun k a _ hq' => ?_
      exact .done k _ fun k' K' => answer_right77 h1 V (hq'.stable K')
  | close p =>
    obtain ⟨ns, h1, h2, h3⟩ := ha
    obtain ⟨r, V⟩ := arcSees_total ns arch h1.some h2
    obtain ⟨n, ns, rfl⟩ := split h1
    refine (safe_find77 .read hd O False h1 h2 (fun h => h.elim) V).bind hR fun g a _ hq => ?_
    cases a with
    | error er => exact .done g _ fun k K => answer_right77 h1 V (hq.stable K)
    | ok j =>
      have hk : ∀ k, Keeps77 content g k → Keeps77 content k (k.unparse j) := by
        intro k K
        have hq' := hq.stable K
        cases r with
        | none => cases hq'
        | some v =>
          obtain ⟨j', e1, hkn⟩ := hq'
          cases e1
          exact known_unparse77 hkn
      refine (safe_under77 (Q := fun k _ => Answer77 content (reader n) False r k (.ok j)) hk fun k K k' K' =>
        hq.stable (hR.trans _ _ _ (hR.trans _ _ _ K (hk k K)) K')).bind hR fun k a _ hq' => ?_
      exact .done k _ fun k' K' => answer_right77 h1 V (hq'.stable K')

/-- what is done with a child of the root -/
theorem safe_child77 {content : Content} {reader : List Char → Env} {arch : List (List Char × ATree)} {h0 h : NHeap} {i : Nat}
    (O : Open77 A content reader arch h0 i h) {name : List Char} {Q : NHeap → Except Err Nat → Prop} {k : Nat → Prog (Except Err Nat)}
    (hn : lastNamed arch name = none → ∀ g, Q g (.error (.lib "NodeNotFound")))
    (hk : ∀ t g j, lastNamed arch name = some t → Keeps77 content h g → MsNode content (reader name) g j name t → Img77 h0 j →
      Safe (Keeps77 content) (rank77 h0 i) Q [] g [] (k j)) :
    Safe (Keeps77 content) (rank77 h0 i) Q [] h [] (withChild i name k) := by
  have hR := keeps77_rely content
  unfold withChild
  have S : Safe (Keeps77 content) (rank77 h0 i) (fun g (r : Option Nat) => match lastNamed arch name with
      | none => r = none
      | some t => ∃ j, r = some j ∧ MsNode content (reader name) g j name t ∧ Img77 h0 j) [] h [] (childProg i name) := by
    refine .acquire h _ _ i _ (fun x hx => by cases hx) (.look hR fun g K => release_root77 fun k K' => ?_)
    have O' := O.stable K
    cases hl : lastNamed arch name with
    | none => exact O'.stands.missing name hl
    | some t =>
      obtain ⟨j, h1, h2, h3⟩ := O'.child hl
      exact ⟨j, h1, K'.1.1 _ _ _ _ h2, h3⟩
  refine S.bind hR fun g a K hq => ?_
  cases hl : lastNamed arch name with
  | none =>
    rw [hl] at hq
    dsimp only at hq
    subst hq
    exact .done g _ fun _ _ => hn hl _
  | some t =>
    rw [hl] at hq
    obtain ⟨j, rfl, h2, h3⟩ := hq
    exact hk t g j hl K h2 h3

theorem child_right {content : Content} {reader : List Char → Env} {arch : List (List Char × ATree)} {g : NHeap} {name : List Char} {j : Nat}
    {t : ATree} (hl : lastNamed arch name = some t) (H : MsNode content (reader name) g j name t) : RightMsChild reader arch g name (.ok j) := by
  unfold RightMsChild
  rw [hl]
  obtain ⟨c, hc, hn, hk⟩ := msNode_kind H
  exact ⟨j, c, rfl, hc, hn, msImg_shows hk⟩

theorem noBack_of {e : Env} {t : ATree} (ht : ∀ ks, t ≠ .dir ks) (hw : ∀ ps, t = .image ps → NoWayBack ps) {f : Forest} (hg : GoodImage e t f) :
    NoBack f := by
  unfold NoBack
  rw [goodImage_treePlaces hg ht]
  cases t with
  | dir ks => exact absurd rfl (ht ks)
  | image ps => exact hw ps rfl
  | text data => exact fun d n s us h => absurd h (text_places _ (.inl ⟨data, rfl⟩) d n s)
  | script data => exact fun d n s us h => absurd h (text_places _ (.inr ⟨data, rfl⟩) d n s)

/-- **one operation** -/
theorem safe_op77 {content : Content} {reader : List Char → Env} {arch : List (List Char × ATree)} {h0 h : NHeap} {i : Nat}
    (hd : FlatMs arch) (O : Open77 A content reader arch h0 i h) (op : MsThreadOp) (ha : AllowedMsThread arch op) :
    Safe (Keeps77 content) (rank77 h0 i) (fun g x => RightMsFor reader arch g op x) [] h [] (msOpProg content i op) := by
  have hR := keeps77_rely content
  have none_right : ∀ {name : List Char} {g : NHeap}, lastNamed arch name = none → RightMsChild reader arch g name (.error (.lib "NodeNotFound")) := by
    intro name g hl
    unfold RightMsChild
    rw [hl]
  have parse_child : ∀ (name : List Char) (t : ATree) (g : NHeap) (j : Nat), lastNamed arch name = some t →
      MsNode content (reader name) g j name t → LinksWork t →
      Safe (Keeps77 content) (rank77 h0 i) (fun k (r : Except Err Unit) => r = .ok () ∧ MsNode content (reader name) k j name t) [] g [] (parseProg content j) := by
    intro name t g j hl H hw
    have ht : ∀ ks, t ≠ .dir ks := fun ks e => hd name ks (by rw [hl, e])
    have hk : ∀ k, Keeps77 content g k → ∃ k', k.parse content j = (.ok (), k') ∧ Keeps77 content k k' := by
      intro k K
      obtain ⟨k', f, h1, h2, _⟩ := parse_ms77 (K.1.1 _ _ _ _ H) ht (linksWork_in hw)
      exact ⟨k', h1, h2⟩
    refine safe_under77 (upd := fun h => (h.parse content j).2) (ans := fun h => (h.parse content j).1) (fun k K => ?_) fun k K k2 K2 => ?_
    · obtain ⟨k', h1, h2⟩ := hk k K
      rw [h1]
      exact h2
    · obtain ⟨k', h1, h2⟩ := hk k K
      rw [h1] at K2 ⊢
      exact ⟨rfl, (hR.trans _ _ _ (hR.trans _ _ _ K h2) K2).1.1 _ _ _ _ H⟩
  cases op with
  | path op => exact safe_path77 hd O op ha
  | «open» name =>
    refine safe_child77 O (fun hl g => none_right hl) fun t g j hl K H I => ?_
    refine (parse_child name t g j hl H (ha t hl)).bind hR fun k a _ hq => ?_
    obtain ⟨rfl, H'⟩ := hq
    exact .done k _ fun k' K' => child_right hl (K'.1.1 _ _ _ _ H')
  | below name p =>
    refine safe_child77 O (fun hl g => .inr rfl) fun t g j hl K H I => ?_
    obtain ⟨hw, hb⟩ := ha t hl
    refine (parse_child name t g j hl H hw).bind hR fun k a K2 hq => ?_
    obtain ⟨rfl, H'⟩ := hq
    have ht : ∀ ks, t ≠ .dir ks := fun ks e => hd name ks (by rw [hl, e])
    obtain ⟨ns, hp⟩ := pieces_exist p
    have hlk : LinksOn [(name, t)] (name :: ns) := by
      rw [linksOn_from]
      simp only [lastNamed, if_pos]
      exact linksIn_from ht (linksWork_in hw) ns
    obtain ⟨r, V⟩ := arcSees_total (name :: ns) [(name, t)] (by simp) hlk
    obtain ⟨w, V1, V2⟩ := alone_sees ht V
    refine (safe_below77 .read ((O.root.stable K).stable K2) I H' ht (linksWork_in hw) (fun f hg => noBack_of ht hb hg) hp V1 V2).weaken fun g' x hq => ?_
    rcases hq with hq | hq
    · refine .inl ?_
      unfold RightMsBelow
      rw [hl]
      intro ns' r' hp' V'
      have he : ns' = ns := by rw [← pieces_iff.1 hp, ← pieces_iff.1 hp']
      subst he
      have := arcSees_unique _ _ r' r V' V
      subst this
      exact hq.shows
    · exact .inr hq
  | shut name =>
    refine safe_child77 O (fun hl g => none_right hl) fun t g j hl K H I => ?_
    have hk : ∀ k, Keeps77 content g k → Keeps77 content k (k.unparse j) := by
      intro k K
      obtain ⟨c, hc, _, hkk⟩ := msNode_kind (K.1.1 _ _ _ _ H)
      exact unparse_ms77 hc hkk
    refine (safe_under77 (Q := fun k (_ : Unit) => MsNode content (reader name) k j name t) hk fun k K k' K' =>
      (hR.trans _ _ _ (hR.trans _ _ _ K (hk k K)) K').1.1 _ _ _ _ H).bind hR fun k a _ hq => ?_
    exact .done k _ fun k' K' => child_right hl (K'.1.1 _ _ _ _ hq)

/-- **all operations of a thread** -/
theorem safe_ops77 {content : Content} {reader : List Char → Env} {arch : List (List Char × ATree)} {h0 : NHeap} {i : Nat}
    (hd : FlatMs arch) :
    ∀ (ops : List MsThreadOp) (h : NHeap), Open77 A content reader arch h0 i h → (∀ op ∈ ops, AllowedMsThread arch op) →
    Safe (Keeps77 content) (rank77 h0 i) (fun g xs => RightMsAnswers reader arch g ops xs) [] h [] (msOpsProg content i ops)
  | [], h, _, _ => .done h _ fun _ _ => .nil
  | op :: ops, h, O, ha => by
    have hR := keeps77_rely content
    refine (safe_op77 hd O op (ha op (List.mem_cons_self ..))).bind hR fun g a K hq => ?_
    refine (safe_ops77 hd ops g (O.stable K) fun o ho => ha o (List.mem_cons_of_mem _ ho)).bind hR fun g' as K' hqs => ?_
    exact .done g' _ fun k K2 => .cons op ops a as (rightMsFor_stable (hR.trans _ _ _ K' K2) hq) (rightMsAnswers_stable K2 hqs)

end Wz
