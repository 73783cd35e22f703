import Verif.Node.LinkLemmas

/-!
# C70: links lead where they say, once an image is read
-/

set_option autoImplicit false

namespace Wz.Props

open Wz Wz.Spec

/-- Whatever is read into a node, an image or anything else: if no name is there twice and no link leads over or to another link,
then reading succeeds and afterwards every path leads to the node of the place it is seen at. -/
theorem C70_parse {content : Content} {h : NHeap} {i s : Nat} {c : NCell} {f : Forest} (hc : h.cell i = some c)
    (hk : ReadsFrom c.kind s) (hs : content s = .ok f) (hkids : c.kids = []) (hd : Spec.Forest.Distinct f)
    (hl : DirectLinks f.places) : ∃ g, h.parse content i = (.ok (), g) ∧ LinkedAt g i f := by
  obtain ⟨g, node, hg, L, _⟩ := parse_reads_links hc hk hs hkids hd hl
  refine ⟨g, hg, node, L.top, fun t ht x => L.cells t x ht, fun path ns r hp V => ?_⟩
  obtain ⟨h1, h2⟩ := nodes_fold L V (.inl rfl)
  rw [L.top] at h1
  refine ⟨?_, fun t ht => (h2 t ht).imp id fun ⟨v, hv⟩ => places_some hv⟩
  rw [atPath_eq70 hp]
  exact h1

/-- Every path is seen at one place, or nowhere. -/
theorem C70_one_place {look : Places} (hl : DirectLinks look) (ns : List (List Char)) : ∃ r, SeenAt look [] ns r ∧
    ∀ r', SeenAt look [] ns r' → r' = r := by
  obtain ⟨r, V⟩ := seen_total hl ns []
  exact ⟨r, V, fun r' V' => seen_unique V' V⟩

/-! ### the hypotheses are met -/

/-- the links in a list of nodes -/
def forestLinks : Forest → List (List (List Char) × List Char)
  | .nil => []
  | .node n k ks rest => (match k with
      | .uol (some s) => [([n], s)]
      | _ => []) ++ ((forestLinks ks).map fun x => (n :: x.1, x.2)) ++ forestLinks rest

theorem shows_links {n : List Char} {k : NKind} {ks : Forest} : ∀ {f : Forest}, Spec.Forest.shows f n = some (k, ks) →
    (∀ s, k = .uol (some s) → ([n], s) ∈ forestLinks f) ∧ ∀ x ∈ forestLinks ks, (n :: x.1, x.2) ∈ forestLinks f
  | .nil, h => by cases h
  | .node m k' ks' rest, h => by
    rw [Spec.Forest.shows] at h
    cases hr : Spec.Forest.shows rest n with
    | some x =>
      rw [hr] at h
      cases h
      obtain ⟨h1, h2⟩ := shows_links hr
      exact ⟨fun s hs => List.mem_append_right _ (h1 s hs), fun x hx => List.mem_append_right _ (h2 x hx)⟩
    | none =>
      rw [hr] at h
      dsimp only at h
      split at h
      · rename_i e
        subst e
        cases h
        refine ⟨fun s hs => List.mem_append_left _ (List.mem_append_left _ ?_), fun x hx => List.mem_append_left _ (List.mem_append_right _ ?_)⟩
        · subst hs; exact List.mem_cons_self ..
        · exact List.mem_map.2 ⟨x, hx, rfl⟩
      · cases h

theorem places_links : ∀ (d : List (List Char)) (f : Forest) (s : List Char), f.places d = some (some s) → (d, s) ∈ forestLinks f
  | [], f, s, h => by cases h
  | [n], f, s, h => by
    unfold Forest.places at h
    rw [Spec.Forest.showsAt] at h
    cases hs : Spec.Forest.shows f n with
    | none => rw [hs] at h; cases h
    | some x =>
      obtain ⟨k, ks⟩ := x
      rw [hs] at h
      simp only [Option.map_some, Option.some.injEq] at h
      split at h
      · rename_i t
        exact (shows_links hs).1 s (by simpa using h)
      · cases h
  | n :: m :: ns, f, s, h => by
    unfold Forest.places at h
    rw [Spec.Forest.showsAt] at h
    cases hs : Spec.Forest.shows f n with
    | none => rw [hs] at h; cases h
    | some x =>
      obtain ⟨k, ks⟩ := x
      rw [hs] at h
      exact (shows_links hs).2 (m :: ns, s) (places_links (m :: ns) ks s h)

/-- the number `n` and a link to it, a folder `d` with a link back to the top and one that leads nowhere -/
def forest70 : Forest :=
  .node ['n'] (.other 5) .nil (.node ['l'] (.uol (some ['n'])) .nil (.node ['d'] (.other 0) (.node ['u'] (.uol (some ['.', '.'])) .nil
    (.node ['x'] (.uol (some ['y'])) .nil .nil)) .nil))

theorem forest70_direct : DirectLinks forest70.places := by
  intro d n s us hl hp
  have hm := places_links _ _ _ hl
  simp only [forestLinks, forest70, List.map_nil, List.nil_append, List.append_nil, List.map_cons, List.cons_append, List.mem_cons,
    List.not_mem_nil, or_false, Prod.mk.injEq] at hm
  have hus := pieces_iff.1 hp
  rcases hm with ⟨h1, rfl⟩ | ⟨h1, rfl⟩ | ⟨h1, rfl⟩
  · obtain ⟨rfl, h2⟩ := List.append_inj' (s₂ := []) h1 rfl
    have : us = [['n']] := by rw [← hus]; decide
    subst this
    exact ⟨_, .down [] _ _ _ (fun _ => rfl) (by decide) (.done _)⟩
  · obtain ⟨rfl, h2⟩ := List.append_inj' (s₂ := [['d']]) h1 rfl
    have : us = [['.', '.']] := by rw [← hus]; decide
    subst this
    exact ⟨_, .up [] _ _ _ (.done _)⟩
  · obtain ⟨rfl, h2⟩ := List.append_inj' (s₂ := [['d']]) h1 rfl
    have : us = [['y']] := by rw [← hus]; decide
    subst this
    exact ⟨_, .missing [['d']] _ _ (by decide) (by decide)⟩

/-- `d/u/l` is the number; `d/x` is the link itself -/
example : ∃ g, NHeap.parse [some ⟨"m.img".toList, .image false 7, none, []⟩] (fun _ => .ok forest70) 0 = (.ok (), g) ∧
    (∃ j c, g.atPath 0 "d/u/l".toList = some j ∧ g.cell j = some c ∧ c.name = ['n'] ∧ c.kind = .other 5) ∧
    (∃ j c, g.atPath 0 "d/x".toList = some j ∧ g.cell j = some c ∧ c.kind = .uol (some ['y'])) ∧ g.atPath 0 "l/n".toList = none := by
  obtain ⟨g, hg, node, h1, h2, h3⟩ := C70_parse (content := fun _ => .ok forest70) (h := [some ⟨"m.img".toList, .image false 7, none, []⟩])
    (i := 0) (f := forest70) rfl (.image 7) rfl rfl (by simp [forest70, Spec.Forest.Distinct, Forest.names]) forest70_direct
  refine ⟨g, hg, ?_, ?_, ?_⟩
  · have := (h3 "d/u/l".toList [['d'], ['u'], ['l']] (some [['n']]) (pieces_iff.2 (by decide))
      (.plain [] _ _ _ (by decide) (.link [['d']] ['u'] [['l']] ['.', '.'] [['.', '.']] [] _ (by decide) (pieces_iff.2 (by decide)) (.up [] _ _ _ (.done _))
        (.link [] ['l'] [] ['n'] [['n']] [['n']] _ (by decide) (pieces_iff.2 (by decide)) (.down [] _ _ _ (fun _ => rfl) (by decide) (.done _)) (.here _))))).1
    obtain ⟨c, h4, h5, h6⟩ := h2 [['n']] (by simp) (['n'], .other 5) (by decide)
    exact ⟨_, c, this, h4, h5, h6⟩
  · have := (h3 "d/x".toList [['d'], ['x']] (some [['d'], ['x']]) (pieces_iff.2 (by decide))
      (.plain [] _ _ _ (by decide) (.dead [['d']] ['x'] _ ['y'] [['y']] _ (by decide) (pieces_iff.2 (by decide))
        (.missing [['d']] _ _ (by decide) (by decide)) (.here _)))).1
    obtain ⟨c, h4, h5, h6⟩ := h2 [['d'], ['x']] (by simp) (['x'], .uol (some ['y'])) (by decide)
    exact ⟨_, c, this, h4, h6⟩
  · exact (h3 "l/n".toList [['l'], ['n']] none (pieces_iff.2 (by decide)) (.link [] ['l'] [['n']] ['n'] [['n']] [['n']] _ (by decide)
      (pieces_iff.2 (by decide)) (.down [] _ _ _ (fun _ => rfl) (by decide) (.done _)) (.missing _ _ _ (by decide)))).1

end Wz.Props
