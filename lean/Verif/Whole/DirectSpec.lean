import Verif.Whole.DirectModel
import Verif.Whole.Spec
import Verif.Node.UolSpec

/-!
# What is asked for when a property is looked up without reading the image
-/

set_option autoImplicit false

namespace Wz.Spec

open Wz

/-- A path that names directories, an image and something in the image.  Either ".img" occurs in it exactly where the name
of the image ends, or nowhere. -/
inductive IntoImage (path : List Char) (dirs : List (List Char)) (img : List Char) (ns : List (List Char)) : Prop
  | suffix (a rest : List Char) : FirstImg path a ('/' :: rest) → ¬ HasImg ('/' :: rest) → Pieces a (dirs ++ [img]) → Pieces rest ns →
      IntoImage path dirs img ns
  | plain : ¬ HasImg path → Pieces path (dirs ++ img :: ns) → ns ≠ [] → IntoImage path dirs img ns

/-- what is in the directory at the end of a path -/
def dirIn : List (List Char × ATree) → List (List Char) → Option (List (List Char × ATree))
  | kids, [] => some kids
  | kids, n :: ns => match lastNamed kids n with
    | some (.dir ks) => dirIn ks ns
    | _ => none

/-- the image `img` in the directory at `dirs` is this -/
def ImageIn (arch : List (List Char × ATree)) (dirs : List (List Char)) (img : List Char) (t : ATree) : Prop :=
  ∃ kids, dirIn arch dirs = some kids ∧ lastNamed kids img = some t

/-- what is given has this name and shows this property: a node of the tree its value, a new node everything below it too -/
inductive GivenShows (e : Env) (g : NHeap) (name : List Char) (w : PVal) (ks : List (List Char × PTree)) : Given → Prop
  | held (j : Nat) (c : NCell) : g.cell j = some c → c.name = name → KindShows e c.kind (.prop w) → GivenShows e g name w ks (.held j)
  | made (n : PNode) : Shows e n (.node w ks) → GivenShows e g name w ks (.made name n)

end Wz.Spec
