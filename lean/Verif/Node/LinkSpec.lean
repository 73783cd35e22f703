import Verif.Node.WalkSpec
import Verif.Node.UolSpec

/-!
# Where the links of an image lead
-/

set_option autoImplicit false

namespace Wz.Spec

open Wz

/-- What is at each place of an image: nothing, a value (`some none`), or a link with its text.  A place is given by the
names that lead to it, the image itself is the empty list. -/
abbrev Places := List (List Char) → Option (Option (List Char))

/-- The way of a link from the place that holds it: a name goes down, ".." goes up, in the image itself ".." is a name like
any other.  The way goes over values.  It ends at a place, or nowhere (`none`) if there is nothing of the next name.  There
is no rule for ways over or to another link. -/
inductive LinkWay (look : Places) : List (List Char) → List (List Char) → Option (List (List Char)) → Prop
  | done (d : List (List Char)) : LinkWay look d [] (some d)
  | up (d : List (List Char)) (x : List Char) (us : List (List Char)) (r : Option (List (List Char))) :
      LinkWay look d us r → LinkWay look (d ++ [x]) ("..".toList :: us) r
  | down (d : List (List Char)) (n : List Char) (us : List (List Char)) (r : Option (List (List Char))) :
      (n = "..".toList → d = []) → look (d ++ [n]) = some none → LinkWay look (d ++ [n]) us r → LinkWay look d (n :: us) r
  | missing (d : List (List Char)) (n : List Char) (us : List (List Char)) :
      (n = "..".toList → d = []) → look (d ++ [n]) = none → LinkWay look d (n :: us) none

/-- no link leads over or to another link -/
def DirectLinks (look : Places) : Prop :=
  ∀ d n s us, look (d ++ [n]) = some (some s) → Pieces s us → ∃ r, LinkWay look d us r

/-- Where the names `ns` lead from the place `d` if links are taken for what they lead to: a place, or nowhere.  A link that
leads nowhere stays what it is. -/
inductive SeenAt (look : Places) : List (List Char) → List (List Char) → Option (List (List Char)) → Prop
  | here (d : List (List Char)) : SeenAt look d [] (some d)
  | missing (d : List (List Char)) (n : List Char) (ns : List (List Char)) : look (d ++ [n]) = none →
      SeenAt look d (n :: ns) none
  | plain (d : List (List Char)) (n : List Char) (ns : List (List Char)) (r : Option (List (List Char))) :
      look (d ++ [n]) = some none → SeenAt look (d ++ [n]) ns r → SeenAt look d (n :: ns) r
  | link (d : List (List Char)) (n : List Char) (ns : List (List Char)) (s : List Char) (us t : List (List Char))
      (r : Option (List (List Char))) : look (d ++ [n]) = some (some s) → Pieces s us → LinkWay look d us (some t) →
      SeenAt look t ns r → SeenAt look d (n :: ns) r
  | dead (d : List (List Char)) (n : List Char) (ns : List (List Char)) (s : List Char) (us : List (List Char))
      (r : Option (List (List Char))) : look (d ++ [n]) = some (some s) → Pieces s us → LinkWay look d us none →
      SeenAt look (d ++ [n]) ns r → SeenAt look d (n :: ns) r

/-- the places of a list of parsed nodes; a link whose text could not be read counts as a value -/
def _root_.Wz.Forest.places (f : Forest) : Places := fun d => (Forest.showsAt f d).map fun x => match x.2 with
  | .uol t => t
  | _ => none

/-- Below node `i` there is one node for each place of the forest, and paths lead to the nodes of the places they are seen
at. -/
def LinkedAt (h : NHeap) (i : Nat) (f : Forest) : Prop :=
  ∃ node : List (List Char) → Nat, node [] = i ∧ (∀ t, t ≠ [] → ∀ x, Forest.showsAt f t = some x →
      ∃ c, h.cell (node t) = some c ∧ c.name = x.1 ∧ c.kind = x.2) ∧
    ∀ path ns r, Pieces path ns → SeenAt f.places [] ns r → h.atPath i path = r.map node ∧
      ∀ t, r = some t → t = [] ∨ ∃ x, Forest.showsAt f t = some x

end Wz.Spec
