import Verif.Node.FindLemmas
import Verif.Node.ParseProps

/-!
# C53: looking up a path and reading what is on the way
-/

set_option autoImplicit false

namespace Wz.Props

open Wz Wz.Spec

/-- **What is found stays found.**  Whatever is in memory, links and circles too: after `at_path_parsed` has found
a node, `at_path` finds the same node, and a second `at_path_parsed` finds it too and changes nothing. -/
theorem C53_found_again {content : Content} {h g : NHeap} {i j : Nat} {path : List Char}
    (hf : h.atPathParsed content i path = (.ok j, g)) :
    g.atPath i path = some j ∧ g.atPathParsed content i path = (.ok j, g) := by
  unfold NHeap.atPathParsed NHeap.atPath at *
  cases hp : splitSlash path with
  | nil => rw [hp] at hf; cases hf
  | cons x xs =>
    rw [hp] at hf
    dsimp only at hf ⊢
    cases ha : h.at i x with
    | none => rw [ha] at hf; cases hf
    | some k =>
      rw [ha] at hf
      dsimp only at hf
      have hi : i < h.length := by
        cases hc : h.cell i with
        | none => unfold NHeap.at at ha; rw [hc] at ha; cases ha
        | some c => exact cell_lt hc
      have hg : g.cell i = h.cell i := by
        have := (foldParsed_frame (content := content) (held := i) xs h k).2.2 hi
        rw [hf] at this
        exact this
      rw [at_cell hg, ha]
      exact foldParsed_ok xs h k j g hf

/-- **Nothing else changes.**  Only nodes on the way are changed, none of them had been parsed, the node the
call is made on is not changed, and no node goes away. -/
theorem C53_only_on_the_way {content : Content} {h : NHeap} {i x : Nat} {path : List Char} (hx : x < h.length)
    (hne : (h.atPathParsed content i path).2.cell x ≠ h.cell x) :
    x ≠ i ∧ Unparsed h x ∧
    ∃ ns n rest, Pieces path (ns ++ n :: rest) ∧ ns ≠ [] ∧ follow (h.atPathParsed content i path).2 i ns = some x := by
  have hnq : ∀ c, h.cell x = some c → c.kind.plan content ≠ none → Unparsed h x := by
    intro c hc hp
    refine ⟨c, hc, ?_⟩
    cases hk : c.kind with
    | dir p sp s => cases p <;> rw [hk] at hp <;> simp [NKind.plan] at hp ⊢
    | file p s => cases p <;> rw [hk] at hp <;> simp [NKind.plan] at hp ⊢
    | msFile p s => cases p <;> rw [hk] at hp <;> simp [NKind.plan] at hp ⊢
    | image p s => cases p <;> rw [hk] at hp <;> simp [NKind.plan] at hp ⊢
    | msImage s => simp
    | uol t => rw [hk] at hp; simp [NKind.plan] at hp
    | other v => rw [hk] at hp; simp [NKind.plan] at hp
  unfold NHeap.atPathParsed at hne ⊢
  cases hp : splitSlash path with
  | nil => rw [hp] at hne; exact absurd rfl hne
  | cons m ms =>
    rw [hp] at hne
    dsimp only at hne ⊢
    cases ha : h.at i m with
    | none => rw [ha] at hne; exact absurd rfl hne
    | some k =>
      rw [ha] at hne
      dsimp only at hne ⊢
      have hi : i < h.length := by
        cases hc : h.cell i with
        | none => unfold NHeap.at at ha; rw [hc] at ha; cases ha
        | some c => exact cell_lt hc
      have hfr := foldParsed_frame (content := content) (held := i) ms h k
      have hxi : x ≠ i := by
        intro e
        rw [e] at hne
        exact hne (hfr.2.2 hi)
      refine ⟨hxi, ?_, ?_⟩
      · cases hc : h.cell x with
        | none =>
          exfalso
          have hdead : ∀ (ns : List (List Char)) (h' : NHeap) (k' : Nat), x < h'.length → h'.cell x = none →
              (NHeap.foldParsed content i h' k' ns).2.cell x = none := by
            intro ns
            induction ns with
            | nil => intro h' k' _ hd; exact hd
            | cons n ns ih =>
              intro h' k' hl hd
              rw [foldParsed_cons]
              by_cases he : k' = i
              · rw [if_pos he]; exact hd
              · rw [if_neg he]
                have h1 : (h'.parse content k').2.cell x = none := by
                  by_cases e : x = k'
                  · subst e; rw [parse_dead hd]; exact hd
                  · rw [parse_frame hl e]; exact hd
                have h2 := parse_length (h := h') (content := content) (i := k')
                cases hq : h'.parse content k' with
                | mk r g' =>
                  rw [hq] at h1 h2
                  cases r with
                  | error e => exact h1
                  | ok u =>
                    dsimp only at h1 h2 ⊢
                    cases g'.at k' n with
                    | none => exact h1
                    | some j' => exact ih g' j' (by omega) h1
          exact hne (by rw [hdead ms h k hx hc, hc])
        | some c =>
          refine hnq c hc ?_
          intro hpl
          exact hne (hfr.2.1 x ⟨c, hc, hpl⟩)
      · obtain ⟨ns, n, rest, e1, e2⟩ := foldParsed_changes ms h k x hx hne
        refine ⟨m :: ns, n, rest, pieces_iff.2 (by rw [hp, e1]; rfl), by simp, ?_⟩
        simp only [follow]
        rw [at_cell (hfr.2.2 hi), ha]
        dsimp only
        rw [follow_eq]
        exact e2

theorem leads_fold {content : Content}
    {f : Forest} {ns : List (List Char)} {r : Except Err (List Char × NKind)} (L : LeadsTo content f ns r) :
    (∀ s f', ReadOnWay content f ns s → content s = .ok f' → Spec.Forest.All NoLink f') →
    ∀ (h : NHeap) (held i : Nat) (n : List Char) (ms : List (List Char)), ns = n :: ms → TreeAt h i f →
      (∀ j, h.at i n = some j → Away h held j) → held < h.length →
      match r with
      | .ok v => ∃ k j g c, h.at i n = some k ∧ NHeap.foldParsed content held h k ms = (.ok j, g) ∧
          g.cell j = some c ∧ (c.name, c.kind) = v
      | .error e => (h.at i n = none ∧ e = .lib "NodeNotFound") ∨
          ∃ k, h.at i n = some k ∧ (NHeap.foldParsed content held h k ms).1 = .error e := by
  induction L with
  | missing f n ns hs =>
    intro hcon h held i n' ms e T _ _
    cases e
    have := treeAt_step T n
    rw [hs] at this
    exact .inl ⟨this, rfl⟩
  | found f n k ks hs =>
    intro hcon h held i n' ms e T _ _
    cases e
    have := treeAt_step T n
    rw [hs] at this
    obtain ⟨j, c, ha, hc, hn, hk, _⟩ := this
    exact ⟨j, j, h, c, ha, rfl, hc, by rw [hn, hk]⟩
  | broken f n m ns k ks e hs hb =>
    intro hcon h held i n' ms e' T A _
    cases e'
    have := treeAt_step T n
    rw [hs] at this
    obtain ⟨j, c, ha, hc, hn, hk, _⟩ := this
    refine .inr ⟨j, ha, ?_⟩
    have hj : j ≠ held := fun e => A j ha [] (by simp [foldPath, e])
    rw [foldParsed_cons, if_neg hj]
    cases hb with
    | read k s r hr hcs =>
      rw [parse_eq hc, hk, error_plan hr hcs]
  | down f f' n m ns k ks r hs hb hl ih =>
    intro hcon h held i n' ms e' T A hh
    cases e'
    have := treeAt_step T n
    rw [hs] at this
    obtain ⟨j, c, ha, hc, hn, hk, Tj⟩ := this
    have Aj := A j ha
    have hj : j ≠ held := fun e => Aj [] (by simp [foldPath, e])
    have key : ∃ g, h.parse content j = (.ok (), g) ∧ TreeAt g j f' ∧ Away g held j := by
      cases hb with
      | quiet k ks hq =>
        refine ⟨h, ?_, Tj, Aj⟩
        rw [parse_eq hc, hk, quiet_plan hq]
      | spent s ks =>
        have hg : h.parse content j = (.ok (), fresh h j { c with kind := .dir true true s } .nil) := by
          rw [parse_eq hc, hk]
          rfl
        have hcell : ∀ y, (fresh h j { c with kind := .dir true true s } .nil).cell y =
            if y = j then some { c with kind := .dir true true s } else h.cell y := by
          intro y
          have : fresh h j { c with kind := .dir true true s } .nil = h.set j (some { c with kind := .dir true true s }) := by
            unfold fresh; simp [Forest.cells]
          rw [this, cell_set (cell_lt hc)]
        have hat : ∀ y n, (fresh h j { c with kind := .dir true true s } .nil).at y n = h.at y n := by
          intro y n
          unfold NHeap.at
          rw [hcell]
          by_cases e : y = j
          · subst e; rw [if_pos rfl, hc]
          · rw [if_neg e]
        exact ⟨_, hg, treeAt_same Tj (fun y hy => by rw [hcell, if_neg hy]) (hat j), away_congr Aj hat⟩
      | read k s r hr hcs =>
        subst hk
        exact parse_reads hc hr hcs (treeAt_childless Tj hc) (hcon _ _ (.here f n m ns _ _ s hs hr) hcs) hh hj
    obtain ⟨g, hg, Tg, Ag⟩ := key
    have hlen : held < g.length := by
      have := parse_length (h := h) (content := content) (i := j)
      rw [hg] at this
      exact Nat.lt_of_lt_of_le hh this
    have R := ih (fun s f2 hw => hcon s f2 (.later f f' n m ns k ks s hs hb hw)) g held j m ns rfl Tg (fun q hq => away_step Ag hq) hlen
    have hstep : NHeap.foldParsed content held h j (m :: ns) = match g.at j m with
        | none => (.error (.lib "NodeNotFound"), g)
        | some q => NHeap.foldParsed content held g q ns := by
      rw [foldParsed_cons, if_neg hj, hg]
      dsimp only
      cases g.at j m <;> rfl
    cases r with
    | ok v =>
      obtain ⟨q, z, g', c', h1, h2, h3, h4⟩ := R
      refine ⟨j, z, g', c', ha, ?_, h3, h4⟩
      rw [hstep, h1]
      exact h2
    | error e =>
      refine .inr ⟨j, ha, ?_⟩
      rw [hstep]
      rcases R with ⟨h1, rfl⟩ | ⟨q, h1, h2⟩
      · rw [h1]
      · rw [h1]; exact h2

/-- **What is found.**  The sources that are read on the way hold no links and the nodes below `i` form a tree: the call finds the node the
path leads to when every node on the way is read, with its name and value; where the path leads nowhere it
says that there is no such node; and where a node on the way cannot be read it gives that node's error. -/
theorem C53_leads {content : Content} {h : NHeap} {i : Nat} {f : Forest} {path : List Char} {ns : List (List Char)}
    {r : Except Err (List Char × NKind)} (hcon : ∀ s f', ReadOnWay content f ns s → content s = .ok f' → Spec.Forest.All NoLink f')
    (hi : i < h.length) (T : HasTrees h i f) (hp : Pieces path ns) (L : LeadsTo content f ns r) :
    match r with
    | .ok v => ∃ j g c, h.atPathParsed content i path = (.ok j, g) ∧ g.cell j = some c ∧ (c.name, c.kind) = v
    | .error e => (h.atPathParsed content i path).1 = .error e := by
  rw [treeAt_iff] at T
  have hs := pieces_iff.1 hp
  cases ns with
  | nil => exact absurd rfl hp.some
  | cons n ms =>
    have R := leads_fold L hcon h i i n ms rfl T (by
      intro j ha ms' hf
      exact treeAt_acyclic T (ns := n :: ms') (by simp) (by simp only [foldPath, ha]; exact hf)) hi
    unfold NHeap.atPathParsed
    rw [hs]
    dsimp only
    cases r with
    | ok v =>
      obtain ⟨k, j, g, c, h1, h2, h3, h4⟩ := R
      refine ⟨j, g, c, ?_, h3, h4⟩
      rw [h1]
      exact h2
    | error e =>
      rcases R with ⟨h1, rfl⟩ | ⟨k, h1, h2⟩
      · rw [h1]
      · rw [h1]; exact h2

theorem quiet_or_reads (k : NKind) : Quiet k ∨ (∃ s, k = .dir false true s) ∨ ∃ s, ReadsFrom k s := by
  cases k with
  | dir p sp s =>
    cases p with
    | true => exact .inl (.dir sp s)
    | false =>
      cases sp with
      | true => exact .inr (.inl ⟨s, rfl⟩)
      | false => exact .inr (.inr ⟨s, .dir s⟩)
  | file p s => cases p with
    | true => exact .inl (.file s)
    | false => exact .inr (.inr ⟨s, .file s⟩)
  | msFile p s => cases p with
    | true => exact .inl (.msFile s)
    | false => exact .inr (.inr ⟨s, .msFile s⟩)
  | image p s => cases p with
    | true => exact .inl (.image s)
    | false => exact .inr (.inr ⟨s, .image s⟩)
  | msImage s => exact .inr (.inr ⟨s, .msImage s⟩)
  | uol t => exact .inl (.uol t)
  | other v => exact .inl (.other v)

theorem bare_shows : ∀ (f : Forest) (n : List Char) (k : NKind) (ks : Forest), Bare f →
    Spec.Forest.shows f n = some (k, ks) → ((∃ s, ReadsFrom k s) → ks = .nil) ∧ Bare ks
  | .nil, _, _, _, _, h => by cases h
  | .node m k' ks' rest, n, k, ks, hb, h => by
    simp only [Spec.Forest.shows] at h
    obtain ⟨b1, b2, b3⟩ := hb
    cases hr : Spec.Forest.shows rest n with
    | some x =>
      rw [hr] at h
      cases h
      exact bare_shows rest n k ks b3 hr
    | none =>
      rw [hr] at h
      dsimp only at h
      split at h
      · cases h; exact ⟨b1, b2⟩
      · cases h

/-- **The result is fixed.**  In a tree whose unread nodes have no children yet, every path leads to exactly one
result: so `C53_leads` says what the call gives for every path. -/
theorem C53_decided {content : Content} (hcon : ∀ s f, content s = .ok f → Bare f) :
    ∀ (ns : List (List Char)) (f : Forest), ns ≠ [] → Bare f → ∃ r, LeadsTo content f ns r ∧
      ∀ r', LeadsTo content f ns r' → r' = r
  | [], _, hne, _ => absurd rfl hne
  | n :: ns, f, _, hb => by
    cases hs : Spec.Forest.shows f n with
    | none =>
      refine ⟨_, .missing f n ns hs, ?_⟩
      intro r' L
      cases L with
      | missing => rfl
      | found _ _ k ks h => rw [hs] at h; cases h
      | broken _ _ m ns k ks e h => rw [hs] at h; cases h
      | down _ f' _ m ns k ks r h => rw [hs] at h; cases h
    | some x =>
      obtain ⟨k, ks⟩ := x
      obtain ⟨hr, hbk⟩ := bare_shows f n k ks hb hs
      cases ns with
      | nil =>
        refine ⟨_, .found f n k ks hs, ?_⟩
        intro r' L
        cases L with
        | missing _ _ _ h => rw [hs] at h; cases h
        | found _ _ k' ks' h => rw [hs] at h; cases h; rfl
      | cons m ms =>
        have hbelow : ∃ b, Below53 content k ks b ∧ (∀ b', Below53 content k ks b' → b' = b) ∧
            ∀ f', b = .ok f' → Bare f' := by
          rcases quiet_or_reads k with hq | ⟨s, rfl⟩ | ⟨s, hrd⟩
          · refine ⟨.ok ks, .quiet k ks hq, ?_, fun f' e => by cases e; exact hbk⟩
            intro b' hb'
            cases hb' with
            | quiet => rfl
            | spent => rfl
            | read k s r h1 => cases h1 <;> cases hq
          · refine ⟨.ok ks, .spent s ks, ?_, fun f' e => by cases e; exact hbk⟩
            intro b' hb'
            cases hb' with
            | quiet => rfl
            | spent => rfl
            | read k s r h1 => cases h1
          · have := hr ⟨s, hrd⟩
            subst this
            refine ⟨content s, .read k s _ hrd rfl, ?_, fun f' e => hcon s f' e⟩
            intro b' hb'
            cases hb' with
            | quiet _ _ h1 => cases hrd <;> cases h1
            | spent => cases hrd
            | read k s' r h1 h2 =>
              rw [← h2]
              cases hrd <;> cases h1 <;> rfl
        obtain ⟨b, hb1, hb2, hb3⟩ := hbelow
        cases b with
        | error e =>
          refine ⟨_, .broken f n m ms k ks e hs hb1, ?_⟩
          intro r' L
          cases L with
          | missing _ _ _ h => rw [hs] at h; cases h
          | broken _ _ _ _ k' ks' e' h h2 =>
            rw [hs] at h; cases h
            cases hb2 _ h2; rfl
          | down _ f' _ _ _ k' ks' r h h2 =>
            rw [hs] at h; cases h
            cases hb2 _ h2
        | ok f1 =>
          obtain ⟨r, hr1, hr2⟩ := C53_decided hcon (m :: ms) f1 (by simp) (hb3 f1 rfl)
          refine ⟨r, .down f f1 n m ms k ks r hs hb1 hr1, ?_⟩
          intro r' L
          cases L with
          | missing _ _ _ h => rw [hs] at h; cases h
          | broken _ _ _ _ k' ks' e' h h2 =>
            rw [hs] at h; cases h
            cases hb2 _ h2
          | down _ f' _ _ _ k' ks' r'' h h2 h3 =>
            rw [hs] at h; cases h
            cases hb2 _ h2
            exact hr2 _ h3

/-- **Links.**  An image with a link to the folder the call is made on, already parsed: the call on a path through
that link waits for a lock its own caller holds. -/
theorem C53_deadlock_counterexample :
    ((NHeap.atPathParsed [some ⟨['r'], .other 0, none, [(['i'], 1)]⟩, some ⟨['i'], .image true 7, some 0, [(['l'], 0)]⟩,
      some ⟨['l'], .uol (some ['.', '.']), some 1, []⟩] (fun _ => .ok .nil) 0 "i/l/i".toList).1 =
        .error (.lib "deadlock")) := by
  decide +kernel

/-! ### the cases are met -/

/-- a folder with an archive whose image holds a folder with a value; a second image cannot be read -/
def content53 : Content := fun s =>
  if s = 1 then .ok (.node ['a'] (.image false 2) .nil (.node ['b'] (.image false 3) .nil .nil))
  else if s = 2 then .ok (.node ['x'] (.other 5) (.node ['y'] (.other 6) .nil .nil) .nil)
  else .error (.lib "x")

def heap53 : NHeap := [some ⟨['r'], .other 0, none, [(['f'], 1)]⟩, some ⟨['f'], .file false 1, some 0, []⟩]

def trees53 : Forest := .node ['f'] (.file false 1) .nil .nil

example : HasTrees heap53 0 trees53 := by
  intro ns hne
  have h1 : ∀ ms, follow heap53 1 ms = if ms = [] then some 1 else none := by
    intro ms
    cases ms with
    | nil => rfl
    | cons m ms => simp [follow, NHeap.at, NHeap.cell, heap53, kidAt]
  match ns, hne with
  | [n], _ =>
    by_cases e : n = ['f']
    · subst e; decide
    · have e' : ¬ ['f'] = n := fun h => e h.symm
      simp [follow, NHeap.at, NHeap.cell, heap53, kidAt, Spec.Forest.showsAt, Spec.Forest.shows, trees53, e']
  | n :: m :: ms, _ =>
    by_cases e : n = ['f']
    · subst e
      have : NHeap.at heap53 0 ['f'] = some 1 := by decide
      simp [follow, this, NHeap.cell, NHeap.at, heap53, kidAt, Spec.Forest.showsAt, Spec.Forest.shows, trees53]
      cases ms <;> rfl
    · have e' : ¬ ['f'] = n := fun h => e h.symm
      simp [follow, NHeap.at, NHeap.cell, heap53, kidAt, Spec.Forest.showsAt, Spec.Forest.shows, trees53, e']

example : ∀ s f, content53 s = .ok f → Spec.Forest.All NoLink f ∧ Bare f := by
  intro s f h
  unfold content53 at h
  split at h
  · cases h
    refine ⟨⟨by intro t; simp, trivial, by intro t; simp, trivial, trivial⟩, fun _ => rfl, trivial, fun _ => rfl, trivial, trivial⟩
  · split at h
    · cases h
      refine ⟨⟨by intro t; simp, ⟨by intro t; simp, trivial, trivial⟩, trivial⟩, ?_, ⟨fun _ => rfl, trivial, trivial⟩, trivial⟩
      rintro ⟨s, h⟩; cases h
    · cases h

example : Bare trees53 := ⟨fun _ => rfl, trivial, trivial⟩

example : LeadsTo content53 trees53 [['f'], ['a'], ['x'], ['y']] (.ok (['y'], .other 6)) :=
  .down _ _ _ _ _ _ _ _ rfl (.read _ 1 _ (.file 1) rfl)
    (.down _ _ _ _ _ _ _ _ rfl (.read _ 2 _ (.image 2) rfl)
      (.down _ _ _ _ _ _ _ _ rfl (.quiet _ _ (.other 5)) (.found _ _ _ .nil rfl)))

example : LeadsTo content53 trees53 [['f'], ['b'], ['x']] (.error (.lib "x")) :=
  .down _ _ _ _ _ _ _ _ rfl (.read _ 1 _ (.file 1) rfl)
    (.broken _ _ _ _ _ _ _ rfl (.read _ 3 _ (.image 3) rfl))

example : (heap53.atPathParsed content53 0 "f/a/x/y".toList).1 = .ok 5 ∧
    (heap53.atPathParsed content53 0 "f/a".toList).1 = .ok 2 ∧
    (heap53.atPathParsed content53 0 "f/b/x".toList).1 = .error (.lib "x") ∧
    (heap53.atPathParsed content53 0 "f/c".toList).1 = .error (.lib "NodeNotFound") ∧
    (heap53.atPathParsed content53 0 "f/a/x/y".toList).2.cell 1 ≠ heap53.cell 1 := by decide +kernel

end Wz.Props
