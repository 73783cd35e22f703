import Verif.Whole.MsSpec
import Verif.Node.WalkOrderSpec

/-!
# Everything in an archive, listed
-/

set_option autoImplicit false

namespace Wz.Spec

open Wz

mutual

/-- everything in a list of properties: each property, then what is below it, then the next one -/
def propList : List (List Char × PTree) → List (List Char × AVal)
  | [] => []
  | x :: xs => propListOne x ++ propList xs

/-- one property and what is below it -/
def propListOne : List Char × PTree → List (List Char × AVal)
  | (n, t) => propListTree n t

/-- under this name -/
def propListTree (n : List Char) : PTree → List (List Char × AVal)
  | .node v ks => (n, .prop v) :: propList ks

end

mutual

/-- everything in an archive: each thing, then what is in it, then the next one -/
def arcList : List (List Char × ATree) → List (List Char × AVal)
  | [] => []
  | x :: xs => arcListOne x ++ arcList xs

/-- one thing and what is in it -/
def arcListOne : List Char × ATree → List (List Char × AVal)
  | (n, t) => arcListTree n t

/-- under this name -/
def arcListTree (n : List Char) : ATree → List (List Char × AVal)
  | .dir ks => (n, .dir) :: arcList ks
  | .image ps => (n, .image) :: propList ps
  | .text d => [(n, .image), ("text.txt".toList, .prop (.raw d))]
  | .script d => [(n, .image), ("Script".toList, .script d)]

end

/-- no links, and no name twice in one place -/
inductive TidyProps : List (List Char × PTree) → Prop
  | nil : TidyProps []
  | cons (name : List Char) (v : PVal) (ks rest : List (List Char × PTree)) : (∀ s, v ≠ .uol s) →
      (∀ t, (name, t) ∉ rest) → TidyProps ks → TidyProps rest → TidyProps ((name, .node v ks) :: rest)

/-- an archive without links and without a name twice in one place -/
inductive Tidy : List (List Char × ATree) → Prop
  | nil : Tidy []
  | dir (name : List Char) (ks rest : List (List Char × ATree)) : (∀ t, (name, t) ∉ rest) → Tidy ks → Tidy rest →
      Tidy ((name, .dir ks) :: rest)
  | image (name : List Char) (ps : List (List Char × PTree)) (rest : List (List Char × ATree)) : (∀ t, (name, t) ∉ rest) →
      TidyProps ps → Tidy rest → Tidy ((name, .image ps) :: rest)
  | text (name : List Char) (d : Bytes) (rest : List (List Char × ATree)) : (∀ t, (name, t) ∉ rest) → Tidy rest →
      Tidy ((name, .text d) :: rest)
  | script (name : List Char) (d : Bytes) (rest : List (List Char × ATree)) : (∀ t, (name, t) ∉ rest) → Tidy rest →
      Tidy ((name, .script d) :: rest)

/-- The callback was given these nodes, in the state they were in at that moment: they have the names and show the
values of a list. -/
inductive Visits (e : Env) : List (Nat × Option NCell) → List (List Char × AVal) → Prop
  | nil : Visits e [] []
  | cons (j : Nat) (c : NCell) (v : AVal) (vs : List (Nat × Option NCell)) (ls : List (List Char × AVal)) :
      KindShows e c.kind v → Visits e vs ls → Visits e ((j, some c) :: vs) ((c.name, v) :: ls)

/-- The callback was given, one after the other, the images of an MS archive and what is in them; each image has its own
reader. -/
inductive MsVisits (m : Mode) (ks2 : Nat → Byte) : List (Nat × Option NCell) → List (List Char × MsItem) → Prop
  | nil : MsVisits m ks2 [] []
  | cons (name : List Char) (x : MsItem) (vs ws : List (Nat × Option NCell)) (files : List (List Char × MsItem)) :
      Visits (plainReader m ks2 x.data) vs (arcListTree name x.tree) → MsVisits m ks2 ws files →
      MsVisits m ks2 (vs ++ ws) ((name, x) :: files)

/-- A walk with parsing, from a node of the kind `top` that has not been read, ends.  It gives this node to the callback
and then the nodes `seen` speaks of, every node once.  These nodes are new.  At the end no image is parsed, and no node
that was there before has changed but the first.  Any number of further walks give the first node and such nodes again.
This is for children in the order of the file.  In other orders, the order may change with every walk and every node, the callback gets the same
nodes (`us` has them in the order `seen` speaks of), every node once and before its children. -/
def WalksThrough (content : Content) (top : NKind) (seen : List (Nat × Option NCell) → Prop) : Prop :=
  ∀ (h : NHeap) (i : Nat) (c : NCell), h.cell i = some c → c.kind = top → c.kids = [] →
    ∃ N vs g c', (∀ fuel, N ≤ fuel → h.walkForce content fuel [] i = .ok ((i, some c') :: vs, g)) ∧
      c'.name = c.name ∧ seen vs ∧ (i :: vs.map Prod.fst).Nodup ∧
      (∀ x ∈ vs.map Prod.fst, h.length ≤ x ∧ x < g.length) ∧
      (∀ x d s, x = i ∨ h.length ≤ x → g.cell x = some d → d.kind ≠ .image true s) ∧
      (∀ x, x < h.length → x ≠ i → g.cell x = h.cell x) ∧
      (∀ times, ∃ g', WalkedTimes content i (fun ws => ∃ d us, ws = (i, some d) :: us ∧ d.name = c.name ∧ seen us ∧
        (i :: us.map Prod.fst).Nodup) times g g') ∧
      ∀ ords : List KidOrder, (∀ o ∈ ords, ListsKids o) → ∃ g', WalkedIn content i (fun ws => ∃ d vs us, ws = (i, some d) :: vs ∧ d.name = c.name ∧
        us.Perm vs ∧ seen us ∧ (i :: vs.map Prod.fst).Nodup ∧ ParentsFirst ws) ords h g'

end Wz.Spec
