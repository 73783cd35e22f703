import Verif.Whole.MsSpec
import Verif.Whole.LinkSpec

/-!
# Links inside the images of an MS archive
-/

set_option autoImplicit false

namespace Wz.Spec

open Wz

/-- the kind of a node shows what is seen; an image has not been read, or has -/
inductive MsLinkShows (e : Env) : NKind → AVal → Prop
  | unread (src : Nat) : MsLinkShows e (.msImage src) .image
  | kind (k : NKind) (v : AVal) : LinkShows e k v → MsLinkShows e k v

/-- `at_path_parsed` on the root finds in every path what is seen there; the reader of a value is that of its image -/
def FindsMsLinks (content : Content) (reader : List Char → Env) (g : NHeap) (i : Nat) (arch : List (List Char × ATree)) : Prop :=
  ∀ path n ns r, Pieces path (n :: ns) → LinksOn arch (n :: ns) → ArcSees arch (n :: ns) r →
    match r with
    | some (name, v) => ∃ j g' c, g.atPathParsed content i path = (.ok j, g') ∧ g'.cell j = some c ∧ c.name = name ∧
        MsLinkShows (reader n) c.kind v
    | none => (g.atPathParsed content i path).1 = .error (.lib "NodeNotFound")

/-- there are no links in the image, or no name twice in one place and no link that leads over or to another link -/
def LinksWork (t : ATree) : Prop := ∀ ps, t = .image ps → NoUol ps ∨ (DistinctProps ps ∧ DirectLinks (linkPlaces ps))

/-- Every image is the child of the root with its name, whatever characters the name has; it can be parsed, and then every path below it shows
what is seen there, by `at_path`, and by `at_path_parsed` if no link leads back to the image. -/
def ChildrenMsLinks (content : Content) (reader : List Char → Env) (g : NHeap) (i : Nat) (arch : List (List Char × ATree)) : Prop :=
  ∀ name, match lastNamed arch name with
    | none => g.at i name = none
    | some t => ∃ k, g.at i name = some k ∧ (LinksWork t → ∃ g', g.parse content k = (.ok (), g') ∧
        ∀ path ns r, Pieces path ns → ArcSees [(name, t)] (name :: ns) r →
          AtShows (reader name) g' k path r ∧
          ((∀ ps, t = .image ps → NoWayBack ps) → AtParsedShows content (reader name) g' k path r))

/-- what may have been done with the archive before -/
def AllowedMsLinks (arch : List (List Char × ATree)) : MsOp → Prop
  | .path op => AllowedLinks arch op
  | .open name => ∀ t, lastNamed arch name = some t → LinksWork t
  | .below name _ => ∀ t, lastNamed arch name = some t → LinksWork t
  | .shut _ => True

end Wz.Spec
