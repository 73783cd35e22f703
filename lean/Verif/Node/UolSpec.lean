import Verif.Node.Spec

/-!
# Links and image paths, stated on their own
-/

set_option autoImplicit false

namespace Wz.Spec

open Wz

/-- From a place, given by the names from the top down, along the pieces of a link: a name goes down, ".."
goes up.  There is no rule for ".." at the top. -/
inductive Goes : List (List Char) → List (List Char) → List (List Char) → Prop
  | done (loc : List (List Char)) : Goes loc [] loc
  | name (loc : List (List Char)) (n : List Char) (us r : List (List Char)) :
    n ≠ "..".toList → Goes (loc ++ [n]) us r → Goes loc (n :: us) r
  | up (loc : List (List Char)) (x : List Char) (us r : List (List Char)) :
    Goes loc us r → Goes (loc ++ [x]) ("..".toList :: us) r

/-- From node to node along the pieces of a link while the node `lock` cannot be left upwards: at that node
".." is looked up like any other name. -/
inductive LockedSteps (h : NHeap) (lock : Option Nat) : Nat → List (List Char) → Nat → Prop
  | here (i : Nat) : LockedSteps h lock i [] i
  | down (i j k : Nat) (n : List Char) (ns : List (List Char)) :
    n ≠ "..".toList ∨ lock = some i → ChildOf h i n j → LockedSteps h lock j ns k →
    LockedSteps h lock i (n :: ns) k
  | up (i p k : Nat) (ns : List (List Char)) :
    lock ≠ some i → ParentOf h i p → LockedSteps h lock p ns k → LockedSteps h lock i ("..".toList :: ns) k

/-- a node that holds the link text -/
def LinkTo (h : NHeap) (u : Nat) (name text : List Char) : Prop :=
  ∃ c, h.cell u = some c ∧ c.name = name ∧ c.kind = NKind.uol (some text)

/-- `g` is `h` except that in node `p` the child called `n` is now `t` -/
structure Redirected (h g : NHeap) (p : Nat) (n : List Char) (t : Nat) : Prop where
  others : ∀ j, j ≠ p → g.cell j = h.cell j
  same : ∀ c, h.cell p = some c → ∃ d, g.cell p = some d ∧ d.name = c.name ∧ d.kind = c.kind ∧ d.parent = c.parent ∧
    d.kids.map Prod.fst = c.kids.map Prod.fst
  target : ChildOf g p n t
  rest : ∀ m k, m ≠ n → (ChildOf g p m k ↔ ChildOf h p m k)

/-- children know who holds them -/
def LinksOk (h : NHeap) : Prop := ∀ p n j, ChildOf h p n j → ParentOf h j p

/-- ends with ".img" -/
def EndsImg (s : List Char) : Prop := ∃ t, s = t ++ ".img".toList

/-- contains ".img" -/
def HasImg (s : List Char) : Prop := ∃ a b, s = a ++ ".img".toList ++ b

/-- `a` is the shortest beginning of the text that ends with ".img", `b` is the rest -/
structure FirstImg (s a b : List Char) : Prop where
  text : s = a ++ b
  ends : EndsImg a
  first : ∀ a' x, a = a' ++ x → x ≠ [] → ¬ EndsImg a'

end Wz.Spec
