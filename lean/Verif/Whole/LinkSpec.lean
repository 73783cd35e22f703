import Verif.Whole.Spec
import Verif.Node.LinkSpec

/-!
# Links inside the images of an archive
-/

set_option autoImplicit false

namespace Wz.Spec

open Wz

/-- the links among the properties of an image -/
def linkPlaces (ps : List (List Char × PTree)) : Places := fun d => (propAt ps d).map fun v => match v with
  | .uol s => some s
  | _ => none

/-- siblings have different names -/
inductive DistinctProps : List (List Char × PTree) → Prop
  | nil : DistinctProps []
  | cons (name : List Char) (v : PVal) (ks rest : List (List Char × PTree)) : (∀ t, (name, t) ∉ rest) → DistinctProps ks →
      DistinctProps rest → DistinctProps ((name, .node v ks) :: rest)

/-- the kind of a node shows what is in the archive; a link that leads nowhere shows its text -/
inductive LinkShows (e : Env) : NKind → AVal → Prop
  | uol (s : List Char) : LinkShows e (.uol (some s)) (.prop (.uol s))
  | other (k : NKind) (v : AVal) : (∀ s, v ≠ .prop (.uol s)) → KindShows e k v → LinkShows e k v

/-- What a user sees at the end of a path: the name and the value of the place where it leads, links taken for what they
lead to. -/
def ArcSees : List (List Char × ATree) → List (List Char) → Option (List Char × AVal) → Prop
  | _, [], _ => False
  | kids, n :: ns, r => match lastNamed kids n with
    | none => r = none
    | some (.dir ks) => (ns = [] ∧ r = some (n, .dir)) ∨ (ns ≠ [] ∧ ArcSees ks ns r)
    | some (.image ps) =>
      (SeenAt (linkPlaces ps) [] ns none ∧ r = none) ∨
      (SeenAt (linkPlaces ps) [] ns (some []) ∧ r = some (n, .image)) ∨
      ∃ d m v, SeenAt (linkPlaces ps) [] ns (some (d ++ [m])) ∧ propAt ps (d ++ [m]) = some v ∧ r = some (m, .prop v)
    | some (.text d) => r = if ns = [] then some (n, .image) else if ns = ["text.txt".toList] then
        some ("text.txt".toList, .prop (.raw d)) else none
    | some (.script d) => r = if ns = [] then some (n, .image) else if ns = ["Script".toList] then
        some ("Script".toList, .script d) else none

/-- what is asked of the image the path goes through, if it goes through one: there are no links in it, or no name twice in
one place and no link that leads over or to another link -/
def LinksOn : List (List Char × ATree) → List (List Char) → Prop
  | _, [] => True
  | kids, n :: ns => match lastNamed kids n with
    | some (.dir ks) => LinksOn ks ns
    | some (.image ps) => ns = [] ∨ NoUol ps ∨ (DistinctProps ps ∧ DirectLinks (linkPlaces ps))
    | _ => True

/-- no link leads back to the image itself -/
def NoWayBack (ps : List (List Char × PTree)) : Prop :=
  ∀ d n s us, linkPlaces ps (d ++ [n]) = some (some s) → Pieces s us → ¬ LinkWay (linkPlaces ps) d us (some [])

/-- `at_path` on node `i` leads to what is seen, and changes nothing -/
def AtShows (e : Env) (g : NHeap) (i : Nat) (path : List Char) : Option (List Char × AVal) → Prop
  | some (name, v) => ∃ j c, g.atPath i path = some j ∧ g.cell j = some c ∧ c.name = name ∧ LinkShows e c.kind v
  | none => g.atPath i path = none

/-- the same for `at_path_parsed` -/
def AtParsedShows (content : Content) (e : Env) (g : NHeap) (i : Nat) (path : List Char) : Option (List Char × AVal) → Prop
  | some (name, v) => ∃ j c, g.atPathParsed content i path = (.ok j, g) ∧ g.cell j = some c ∧ c.name = name ∧ LinkShows e c.kind v
  | none => g.atPathParsed content i path = (.error (.lib "NodeNotFound"), g)

/-- `at_path_parsed` below node `i` finds under every path what is seen there -/
def FindsThroughLinks (content : Content) (e : Env) (g : NHeap) (i : Nat) (arch : List (List Char × ATree)) : Prop :=
  ∀ path ns r, Pieces path ns → LinksOn arch ns → ArcSees arch ns r →
    match r with
    | some (name, v) => ∃ j g' c, g.atPathParsed content i path = (.ok j, g') ∧ g'.cell j = some c ∧ c.name = name ∧
        LinkShows e c.kind v
    | none => (g.atPathParsed content i path).1 = .error (.lib "NodeNotFound")

/-- what may have been done with the archive before -/
def AllowedLinks (arch : List (List Char × ATree)) : ArcOp → Prop
  | .find p => ∃ ns, Pieces p ns ∧ LinksOn arch ns
  | .load p => ∃ ns, Pieces p ns ∧ LinksOn arch (ns ++ [[]])
  | .close p => ∃ ns, Pieces p ns ∧ LinksOn arch ns ∧ ∀ n, ¬ ArcSees arch ns (some (n, .dir))

end Wz.Spec
