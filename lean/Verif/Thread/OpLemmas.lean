import Verif.Thread.ArchiveLemmas

/-!
# Lemmas: the operations of a thread
-/

set_option autoImplicit false

namespace Wz

open Spec Wz.Props

/-! ### look-ups that only look -/

/-- the answer of a look-up that reads nothing: it may find nothing -/
def Peek76 (e : Env) (fuel : Nat) (r : Option (List Char × AVal)) (h : NHeap) (x : Option Nat) : Prop :=
  x = none ∨ Answer76 e fuel False r h (ofOption x)

theorem Peek76.stable {e : Env} {fuel : Nat} {r : Option (List Char × AVal)} {h g : NHeap} {x : Option Nat}
    (K : Keeps76 e fuel h g) (H : Peek76 e fuel r h x) : Peek76 e fuel r g x := by
  rcases H with H | H
  · exact .inl H
  · exact .inr (H.stable K)

theorem safe_peek {e : Env} {fuel : Nat} {i : Nat} (m : LMode) :
    ∀ ns : List (List Char),
    (∀ (h : NHeap) (k : Nat) (nm : List Char) (t : ATree) (r : Option (List Char × AVal)), Root76 h i → Stands58 e fuel h k nm t →
      LinksFrom t ns → SeesFrom t nm ns r →
      Safe (Keeps76 e fuel) (rank76 i) (Peek76 e fuel r) [(m, i)] h [(m, i)] (foldPeek k ns)) ∧
    (∀ (h : NHeap) (k : Nat) (nm : List Char) (t : ATree) (f : Forest) (node : List (List Char) → Nat) (d : List (List Char))
      (w : Option (List (List Char))) (r : Option (List Char × AVal)), Root76 h i → Stands58 e fuel h k nm t → (∀ ks, t ≠ .dir ks) →
      LinksIn t → GoodImage e t f → Gen76 h k f node → (∃ v, f.places d = some v) → SeenAt f.places d ns w → SeesIn t nm w r →
      Safe (Keeps76 e fuel) (rank76 i) (Peek76 e fuel r) [(m, i)] h [(m, i)] (foldPeek (node d) ns))
  | [] => by
    refine ⟨fun h k nm t r _ H _ V => ?_, fun h k nm t f node d w r _ H ht hl hg G hd V S => ?_⟩
    · exact .done h _ fun g K => .inr ((known_stands H (fun h => h.elim) V).stable K)
    · cases V
      exact .done h _ fun g K => .inr ((known_place hg G hd S).stable K)
  | n :: ns => by
    obtain ⟨ihA, ihB⟩ := safe_peek (e := e) (fuel := fuel) (i := i) m ns
    have go : ∀ (g : NHeap) (k : Nat) (nm : List Char) (t : ATree) (f : Forest) (node : List (List Char) → Nat)
        (d' : List (List Char)) (w : Option (List (List Char))) (r : Option (List Char × AVal)), Root76 g i →
        Stands58 e fuel g k nm t → (∀ ks, t ≠ .dir ks) → LinksIn t → GoodImage e t f → Gen76 g k f node → node [] = k →
        (d' = [] ∨ ∃ v, f.places d' = some v) → SeenAt f.places d' ns w → SeesIn t nm w r →
        Safe (Keeps76 e fuel) (rank76 i) (Peek76 e fuel r) [(m, i)] g [(m, i)] (foldPeek (node d') ns) := by
      intro g k nm t f node d' w r hR H ht hl hg G h0 hd V S
      rcases hd with rfl | hd
      · rw [h0]
        rw [goodImage_treePlaces hg ht] at V
        exact ihA g k nm t r hR H (linksIn_from ht hl _) ((seesFrom_image ht).2 ⟨w, V, S⟩)
      · exact ihB g k nm t f node d' w r hR H ht hl hg G hd V S
    refine ⟨fun h k nm t r hR H hu V => ?_, fun h k nm t f node d w r hR H ht hl hg G hd V S => ?_⟩
    · obtain ⟨ck, hck, hnf⟩ := H.noFile
      have hne := hR.ne hck hnf
      unfold foldPeek
      refine .acquire h _ _ k _ (rank76_lt m hne) (.look (keeps76_rely e fuel) fun g K => ?_)
      refine .release g _ _ k _ (List.mem_cons_self ..) ?_
      rw [List.erase_cons_head]
      have H' := K.1.1 _ _ _ H
      have H'' := H'
      cases H' with
      | image _ c _ p o s _ f hc hn hk ht hr hg hp1 hp2 =>
        have hnd : ∀ ks, t ≠ .dir ks := by
          rintro ks rfl
          exact nomatch ht.stored
        have hu' := linksFrom_in hnd hu
        obtain ⟨w, V1, V2⟩ := (seesFrom_image hnd).1 V
        have hfol := goodImage_follow hg hnd hu'
        cases p with
        | false =>
          have : g.at k n = none := by
            unfold NHeap.at
            rw [hc]
            dsimp only
            rw [hp2 rfl]
            rfl
          rw [this]
          exact .done g _ fun _ _ => .inl rfl
        | true =>
          obtain ⟨node, L⟩ := (hp1 rfl).nodes hfol
          rw [← goodImage_treePlaces hg hnd] at V1
          have hs := linkNodes_next L (.inl rfl) V1
          rw [L.top] at hs
          rcases hs with ⟨a, rfl⟩ | ⟨d', a, b, cc⟩
          · rw [a]
            exact .done g _ fun _ _ => .inl rfl
          · rw [a]
            exact go g k nm t f node d' w r (hR.stable K) H'' hnd hu' hg ⟨g, L, fun _ _ hx _ => hx⟩ L.top b cc V2
      | dir _ c _ p src kids ids hc hn hk h1 h2 h3 =>
        have hV : ArcSees kids (n :: ns) r := by
          rcases V with ⟨h, _⟩ | ⟨_, h⟩
          · cases h
          · exact h
        have hf : LinksOn kids (n :: ns) := hu
        rw [linksOn_from] at hf
        rw [arcSees_from] at hV
        cases hl : lastNamed kids n with
        | none =>
          rw [h1 n hl]
          exact .done g _ fun _ _ => .inl rfl
        | some u =>
          rw [hl] at hf hV
          rw [h2 n u hl]
          exact ihA g (ids n) n u r (hR.stable K) (h3 n u hl) hf hV
    · obtain ⟨c, x, hx, hc, _, _, hI⟩ := G.cell hg.values hd
      have hne := hR.ne hc (fun p s => inImage_noFile hI p s)
      have h0 : node [] = k := by
        obtain ⟨_, L, _⟩ := G
        exact L.top
      unfold foldPeek
      refine .acquire h _ _ (node d) _ (rank76_lt m hne) (.look (keeps76_rely e fuel) fun g K => ?_)
      refine .release g _ _ (node d) _ (List.mem_cons_self ..) ?_
      rw [List.erase_cons_head]
      have G' := G.stable K
      rcases G'.next hg.values hd V with ⟨a, rfl⟩ | ⟨d', a, b, cc⟩
      · rw [a]
        exact .done g _ fun _ _ => .inl rfl
      · rw [a]
        exact go g k nm t f node d' w r (hR.stable K) (K.1.1 _ _ _ H) ht hl hg G' h0 b cc S

/-! ### from the root -/

theorem Keeps76.file {e : Env} {fuel : Nat} {h g : NHeap} {i : Nat} {arch : List (List Char × ATree)} (K : Keeps76 e fuel h g)
    (F : FileStands e fuel h i arch) : FileStands e fuel g i arch := K.1.file F

theorem release_root {e : Env} {fuel : Nat} {i : Nat} {m : LMode} {α : Type} {Q : NHeap → α → Prop} {g : NHeap} {a : α}
    (hq : ∀ k, Keeps76 e fuel g k → Q k a) :
    Safe (Keeps76 e fuel) (rank76 i) Q [] g [(m, i)] (.release m i (.done a)) := by
  refine .release g _ _ i _ (List.mem_singleton.2 rfl) ?_
  rw [List.erase_cons_head]
  exact .done g a hq

/-- **`at_path_parsed` on the root** -/
theorem safe_find {e : Env} {fuel : Nat} {content : Content} {h : NHeap} {i : Nat} {arch : List (List Char × ATree)} (m : LMode)
    (hcon : ∀ n o s, content (Encodable.encode (Src58.image n o s)) = readImage e fuel ⟨n, o, s⟩) (F : FileStands e fuel h i arch)
    (more : Prop) {path : List Char} {ns : List (List Char)} {r : Option (List Char × AVal)} (hp : Pieces path ns)
    (hu : LinksOn arch ns) (hm : more → LinksOn arch (ns ++ [[]])) (V : ArcSees arch ns r) :
    Safe (Keeps76 e fuel) (rank76 i) (Answer76 e fuel more r) [] h [] (findProg content m i path) := by
  unfold findProg
  refine .acquire h _ _ i _ (fun x hx => by cases hx) (.look (keeps76_rely e fuel) fun g K => ?_)
  have F' := K.file F
  have main : Safe (Keeps76 e fuel) (rank76 i) (Answer76 e fuel more r) [(m, i)] g [(m, i)] (findFrom content g i path) := by
    have hs := pieces_iff.1 hp
    unfold findFrom
    rw [hs]
    cases ns with
    | nil => exact absurd rfl hp.some
    | cons n ns =>
      dsimp only
      have := F'.2 n
      have hm2 : more → LinksOn arch (n :: (ns ++ [[]])) := hm
      rw [linksOn_from] at hu
      rw [arcSees_from] at V
      cases hl : lastNamed arch n with
      | none =>
        rw [hl] at this V
        dsimp only at this
        rw [this]
        subst V
        exact .done g _ fun _ _ => rfl
      | some t =>
        rw [hl] at this hu V
        obtain ⟨k, h1, h2⟩ := this
        rw [h1]
        refine (safe_fold m hcon more ns).1 g k n t r F'.1 h2 hu (fun hmo => ?_) V
        have := hm2 hmo
        rw [linksOn_from, hl] at this
        exact this
  exact main.bind (keeps76_rely e fuel) fun k a _ hq => release_root fun k' K' => hq.stable K'

/-- **`at_path` on the root** -/
theorem safe_peekProg {e : Env} {fuel : Nat} {h : NHeap} {i : Nat} {arch : List (List Char × ATree)}
    (F : FileStands e fuel h i arch) {path : List Char} {ns : List (List Char)} {r : Option (List Char × AVal)} (hp : Pieces path ns)
    (hu : LinksOn arch ns) (V : ArcSees arch ns r) :
    Safe (Keeps76 e fuel) (rank76 i) (Peek76 e fuel r) [] h [] (peekProg i path) := by
  unfold peekProg
  refine .acquire h _ _ i _ (fun x hx => by cases hx) (.look (keeps76_rely e fuel) fun g K => ?_)
  have F' := K.file F
  have main : Safe (Keeps76 e fuel) (rank76 i) (Peek76 e fuel r) [(.read, i)] g [(.read, i)] (peekFrom g i path) := by
    have hs := pieces_iff.1 hp
    unfold peekFrom
    rw [hs]
    cases ns with
    | nil => exact absurd rfl hp.some
    | cons n ns =>
      dsimp only
      have := F'.2 n
      rw [linksOn_from] at hu
      rw [arcSees_from] at V
      cases hl : lastNamed arch n with
      | none =>
        rw [hl] at this
        dsimp only at this
        rw [this]
        exact .done g _ fun _ _ => .inl rfl
      | some t =>
        rw [hl] at this hu V
        obtain ⟨k, h1, h2⟩ := this
        rw [h1]
        exact (safe_peek .read ns).1 g k n t r F'.1 h2 hu V
  exact main.bind (keeps76_rely e fuel) fun k a _ hq => release_root fun k' K' => hq.stable K'

/-! ### reading and forgetting what was found -/

theorem known_parse {e : Env} {fuel : Nat} {content : Content}
    (hcon : ∀ n o s, content (Encodable.encode (Src58.image n o s)) = readImage e fuel ⟨n, o, s⟩) {h : NHeap} {j : Nat} {nm : List Char}
    {v : AVal} (H : Known76 e fuel True h j nm v) : Keeps76 e fuel h (h.parse content j).2 := by
  obtain ⟨c, hc, hn, hv, hI | ⟨t, S, hl⟩⟩ := H
  · rw [parse_value76 hc hI]
    exact (keeps76_rely e fuel).refl h
  · cases S with
    | image _ c' _ p o s _ f hc' hn' hk ht hr hg hp1 hp2 =>
      have hnd : ∀ ks, t ≠ .dir ks := by
        rintro ks rfl
        exact nomatch ht.stored
      obtain ⟨g, h1, h2, _⟩ := parse_image76 (hcon nm o s) hc' hk hr (goodImage_follow hg hnd (linksFrom_in hnd (hl trivial))) hp1 hp2
      rw [h1]
      exact h2
    | dir _ c' _ p src kids ids hc' hn' hk =>
      obtain ⟨g, h1, h2, _⟩ := parse_dir76 (e := e) (fuel := fuel) (content := content) hc' hk
      rw [h1]
      exact h2

theorem known_unparse {e : Env} {fuel : Nat} {more : Prop} {h : NHeap} {j : Nat} {nm : List Char}
    {v : AVal} (H : Known76 e fuel more h j nm v) (hv : v ≠ .dir) : Keeps76 e fuel h (h.unparse j) := by
  obtain ⟨c, hc, hn, hs, _⟩ := H
  generalize hk : c.kind = kk at hs
  have hno : InImage c.kind → Keeps76 e fuel h (h.unparse j) := fun hI => by
    rw [unparse_value76 hc hI]
    exact (keeps76_rely e fuel).refl h
  cases hs with
  | uol s => exact hno (.inr ⟨_, hk⟩)
  | other _ _ _ hs =>
    cases hs with
    | dir => exact absurd rfl hv
    | image p src => exact unparse_image76 hc hk
    | prop v => exact hno (.inl ⟨v, hk⟩)
    | script v => exact hno (.inl ⟨v, hk⟩)

/-- an operation under the lock of one node -/
theorem safe_under {e : Env} {fuel : Nat} {i j : Nat} {α : Type} {Q : NHeap → α → Prop} {h : NHeap} {upd : NHeap → NHeap}
    {ans : NHeap → α} (hu : ∀ g, Keeps76 e fuel h g → Keeps76 e fuel g (upd g))
    (hq : ∀ g, Keeps76 e fuel h g → ∀ k, Keeps76 e fuel (upd g) k → Q k (ans g)) :
    Safe (Keeps76 e fuel) (rank76 i) Q [] h [] (.acquire .write j (.act upd fun h => .release .write j (.done (ans h)))) := by
  refine .acquire h _ _ j _ (fun x hx => by cases hx) (.act h _ _ _ hu fun g K => .release (upd g) _ _ j _ (List.mem_singleton.2 rfl) ?_)
  rw [List.erase_cons_head]
  exact .done _ _ (hq g K)

/-! ### right answers -/

theorem right_stable {e : Env} {fuel : Nat} {arch : List (List Char × ATree)} {h g : NHeap} (K : Keeps76 e fuel h g) {path : List Char}
    {x : Except Err Nat} (H : RightAnswer e arch h path x) : RightAnswer e arch g path x := by
  intro ns r hp V
  have := H ns r hp V
  cases r with
  | none => exact this
  | some v =>
    obtain ⟨j, c, h1, h2, h3, h4⟩ := this
    obtain ⟨c', k1, k2, k3⟩ := K.shows h2 h4
    exact ⟨j, c', h1, k1, k2.trans h3, k3⟩

theorem rightFor_stable {e : Env} {fuel : Nat} {arch : List (List Char × ATree)} {h g : NHeap} (K : Keeps76 e fuel h g) {op : ThreadOp}
    {x : Except Err Nat} (H : RightFor e arch h op x) : RightFor e arch g op x := by
  cases op with
  | peek p =>
    rcases H with H | H
    · exact .inl (right_stable K H)
    · exact .inr H
  | find p => exact right_stable K H
  | load p => exact right_stable K H
  | close p => exact right_stable K H

theorem rightAnswers_stable {e : Env} {fuel : Nat} {arch : List (List Char × ATree)} {h g : NHeap} (K : Keeps76 e fuel h g)
    {ops : List ThreadOp} {xs : List (Except Err Nat)} (H : RightAnswers e arch h ops xs) : RightAnswers e arch g ops xs := by
  induction H with
  | nil => exact .nil
  | cons op ops x xs h1 _ ih => exact .cons op ops x xs (rightFor_stable K h1) ih

theorem answer_right {e : Env} {fuel : Nat} {more : Prop} {arch : List (List Char × ATree)} {h : NHeap} {path : List Char}
    {ns : List (List Char)} {r : Option (List Char × AVal)} {x : Except Err Nat} (hp : Pieces path ns) (V : ArcSees arch ns r)
    (H : Answer76 e fuel more r h x) : RightAnswer e arch h path x := by
  intro ns' r' hp' V'
  have : ns' = ns := by rw [← pieces_iff.1 hp, ← pieces_iff.1 hp']
  subst this
  have := arcSees_unique ns' arch r' r V' V
  subst this
  cases r' with
  | none => exact H
  | some v =>
    obtain ⟨j, h1, c, h2, h3, h4, _⟩ := H
    exact ⟨j, c, h1, h2, h3, h4⟩

/-- **one operation** -/
theorem safe_op {e : Env} {fuel : Nat} {content : Content} {h : NHeap} {i : Nat} {arch : List (List Char × ATree)}
    (hcon : ∀ n o s, content (Encodable.encode (Src58.image n o s)) = readImage e fuel ⟨n, o, s⟩) (F : FileStands e fuel h i arch)
    (op : ThreadOp) (ha : AllowedThread arch op) :
    Safe (Keeps76 e fuel) (rank76 i) (fun g x => RightFor e arch g op x) [] h [] (opProg content i op) := by
  have hR := keeps76_rely e fuel
  cases op with
  | peek p =>
    obtain ⟨ns, h1, h2⟩ := ha
    obtain ⟨r, V⟩ := arcSees_total ns arch h1.some h2
    refine (safe_peekProg F h1 h2 V).bind hR fun g a _ hq => .done g _ fun k K => ?_
    rcases hq.stable K with hq | hq
    · subst hq
      exact .inr rfl
    · exact .inl (answer_right h1 V hq)
  | find p =>
    obtain ⟨ns, h1, h2⟩ := ha
    obtain ⟨r, V⟩ := arcSees_total ns arch h1.some h2
    exact (safe_find .read hcon F False h1 h2 (fun h => h.elim) V).weaken fun g a hq => answer_right h1 V hq
  | load p =>
    obtain ⟨ns, h1, h2⟩ := ha
    have h2' := linksOn_prefix _ _ _ h2
    obtain ⟨r, V⟩ := arcSees_total ns arch h1.some h2'
    refine (safe_find .read hcon F True h1 h2' (fun _ => h2) V).bind hR fun g a _ hq => ?_
    cases a with
    | error er => exact .done g _ fun k K => answer_right h1 V (hq.stable K)
    | ok j =>
      have hk : ∀ k, Keeps76 e fuel g k → Keeps76 e fuel k (k.parse content j).2 := by
        intro k K
        have hq' := hq.stable K
        cases r with
        | none => cases hq'
        | some v =>
          obtain ⟨j', e1, hkn⟩ := hq'
          cases e1
          exact known_parse hcon hkn
      refine (safe_under (Q := fun k _ => Answer76 e fuel True r k (.ok j)) hk fun k K k' K' => hq.stable (hR.trans _ _ _ (hR.trans _ _ _ K (hk k K)) K')).bind hR fun k a _ hq' => ?_
      exact .done k _ fun k' K' => answer_right h1 V (hq'.stable K')
  | close p =>
    obtain ⟨ns, h1, h2, h3⟩ := ha
    obtain ⟨r, V⟩ := arcSees_total ns arch h1.some h2
    refine (safe_find .read hcon F False h1 h2 (fun h => h.elim) V).bind hR fun g a _ hq => ?_
    cases a with
    | error er => exact .done g _ fun k K => answer_right h1 V (hq.stable K)
    | ok j =>
      have hk : ∀ k, Keeps76 e fuel g k → Keeps76 e fuel k (k.unparse j) := by
        intro k K
        have hq' := hq.stable K
        cases r with
        | none => cases hq'
        | some v =>
          obtain ⟨nm, v⟩ := v
          obtain ⟨j', e1, hkn⟩ := hq'
          cases e1
          refine known_unparse hkn ?_
          rintro rfl
          exact h3 nm V
      refine (safe_under (Q := fun k _ => Answer76 e fuel False r k (.ok j)) hk fun k K k' K' => hq.stable (hR.trans _ _ _ (hR.trans _ _ _ K (hk k K)) K')).bind hR fun k a _ hq' => ?_
      exact .done k _ fun k' K' => answer_right h1 V (hq'.stable K')

/-- **all operations of a thread** -/
theorem safe_ops {e : Env} {fuel : Nat} {content : Content} {i : Nat} {arch : List (List Char × ATree)}
    (hcon : ∀ n o s, content (Encodable.encode (Src58.image n o s)) = readImage e fuel ⟨n, o, s⟩) :
    ∀ (ops : List ThreadOp) (h : NHeap), FileStands e fuel h i arch → (∀ op ∈ ops, AllowedThread arch op) →
    Safe (Keeps76 e fuel) (rank76 i) (fun g xs => RightAnswers e arch g ops xs) [] h [] (opsProg content i ops)
  | [], h, _, _ => .done h _ fun _ _ => .nil
  | op :: ops, h, F, ha => by
    have hR := keeps76_rely e fuel
    refine (safe_op hcon F op (ha op (List.mem_cons_self ..))).bind hR fun g a K hq => ?_
    refine (safe_ops hcon ops g (K.file F) fun o ho => ha o (List.mem_cons_of_mem _ ho)).stable hR g (hR.refl g) |>.bind hR fun g' as K' hqs => ?_
    exact .done g' _ fun k K2 => .cons op ops a as (rightFor_stable (hR.trans _ _ _ K' K2) hq) (rightAnswers_stable K2 hqs)

end Wz
