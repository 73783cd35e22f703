import Verif.Whole.Spec
import Verif.Node.PlaceSpec
import Verif.Image.TakenSpec
import Verif.Ms.FileModel
import Verif.Mode.Spec
import Verif.Whole.Model

/-!
# Specification: what stands at a place of an archive
-/

set_option autoImplicit false

namespace Wz.Spec

open Wz

/-- the entry with this name: the last one, where not any will do -/
def EntryNamed {ν : Type} (items : List (List Char × ν)) (n : List Char) (v : ν) (any : Prop) : Prop :=
  ∃ before after, items = before ++ (n, v) :: after ∧ (any ∨ ∀ it ∈ after, it.1 ≠ n)

/-- a directory has this entry at this place, in it or in its subdirectories -/
inductive DirHas : List (List Char × DNode) → List (List Char) → DNode → Prop
  | here (items : List (List Char × DNode)) (n : List Char) (d : DNode) : EntryNamed items n d False → DirHas items [n] d
  | deeper (items ks : List (List Char × DNode)) (n : List Char) (o s : Nat) (ns : List (List Char)) (d : DNode) :
      EntryNamed items n (.dir o s ks) False → DirHas ks ns d → DirHas items (n :: ns) d

/-- the value is a link -/
def IsLink (v : PObj) : Prop := ∃ m, v = .uol m

/-- a list of properties has this value at this place, in it or below; links count even if another entry with their name
or with the name of something above them follows -/
inductive PropHas : List (List Char × PNode) → List (List Char) → PObj → Prop
  | here (kids ks : List (List Char × PNode)) (n : List Char) (v : PObj) : EntryNamed kids n (.node v ks) (IsLink v) →
      PropHas kids [n] v
  | deeper (kids ks : List (List Char × PNode)) (n : List Char) (w v : PObj) (ms : List (List Char)) :
      EntryNamed kids n (.node w ks) (IsLink v) → PropHas ks ms v → PropHas kids (n :: ms) v

/-- the same for what an image is taken for -/
inductive ImageHas : List (List Char × ImgNode) → List (List Char) → PObj → Prop
  | here (kids : List (List Char × ImgNode)) (ks : List (List Char × PNode)) (n : List Char) (v : PObj) :
      EntryNamed kids n (.prop (.node v ks)) (IsLink v) → ImageHas kids [n] v
  | deeper (kids : List (List Char × ImgNode)) (ks : List (List Char × PNode)) (n : List Char) (w v : PObj) (ms : List (List Char)) :
      EntryNamed kids n (.prop (.node w ks)) (IsLink v) → PropHas ks ms v → ImageHas kids (n :: ms) v

/-- a node inside an image, `ms` are the names on the way, shows what the image is taken for -/
inductive InsideImage (e : Env) (img : Img) : List (List Char) → NKind → Prop
  | script (kids : List (List Char × ImgNode)) (m : List Char) (off len v : Nat) : TakenImage e img kids →
      EntryNamed kids m (.lua off len) False → Encodable.decode (α := Leaf58) v = some (.lua off len) → InsideImage e img [m] (.other v)
  | value (kids : List (List Char × ImgNode)) (ms : List (List Char)) (o : PObj) (v : Nat) : TakenImage e img kids →
      ImageHas kids ms o → ¬ IsLink o → Encodable.decode (α := Leaf58) v = some (.prop o) → InsideImage e img ms (.other v)
  | link (kids : List (List Char × ImgNode)) (ms : List (List Char)) (m : StrMeta) (t : Option (List Char)) : TakenImage e img kids →
      ImageHas kids ms (.uol m) → (∀ s, t = some s ↔ ShowsVal e (.uol m) (.uol s)) → InsideImage e img ms (.uol t)

/-- a node at this place shows what the directory and the images say -/
inductive StandsAt (e : Env) (items : List (List Char × DNode)) : List (List Char) → NKind → Prop
  | dir (ns : List (List Char)) (o s src : Nat) (ks : List (List Char × DNode)) (a b : Bool) : DirHas items ns (.dir o s ks) →
      Encodable.decode (α := Src58) src = some (.dir o s) → StandsAt e items ns (.dir a b src)
  | empty (ns : List (List Char)) (v : Nat) : DirHas items ns .none → Encodable.decode (α := Leaf58) v = some .empty →
      StandsAt e items ns (.other v)
  | image (ns : List (List Char)) (name : List Char) (o s src : Nat) (a : Bool) : DirHas items ns (.image o s) →
      ns.getLast? = some name → Encodable.decode (α := Src58) src = some (.image name o s) → StandsAt e items ns (.image a src)
  | inside (ns ms : List (List Char)) (name : List Char) (o s : Nat) (k : NKind) : DirHas items ns (.image o s) →
      ns.getLast? = some name → InsideImage e ⟨name, o, s⟩ ms k → StandsAt e items (ns ++ ms) k

/-- a node at this place of an MS archive shows what the list of its images and the images say; `data`: the bytes of an
image and the name and size it is read with -/
inductive MsStandsAt (e : Bytes → Env) (data : MsImage → MsOpened → Prop) (ims : List MsImage) : List (List Char) → NKind → Prop
  | image (n : List Char) (im : MsImage) (i : Nat) (k : NKind) : ims[i]? = some im →
      EntryNamed (ims.map fun im => (im.entry.name, im)) n im False → Became (.msImage (i + 1)) k → MsStandsAt e data ims [n] k
  | inside (n : List Char) (im : MsImage) (w : MsOpened) (ms : List (List Char)) (k : NKind) :
      EntryNamed (ims.map fun im => (im.entry.name, im)) n im False → data im w →
      InsideImage (e w.data) ⟨w.name, 0, w.blockSize⟩ ms k → MsStandsAt e data ims (n :: ms) k

/-- Every node below node 0 shows what `S` says of its place.  What is listed under a name has that place, or a link with
a text has; nothing else can be reached by a path; and the full path of a node is its place after the name of node 0. -/
structure EveryNodeStands (name : List Char) (S : List (List Char) → NKind → Prop) (g : NHeap) : Prop where
  shows : ∀ j ns c, PlacedAt g 0 j ns → ns ≠ [] → g.cell j = some c → S ns c.kind
  listed : ∀ i ns n j c, PlacedAt g 0 i ns → ChildOf g i n j → g.cell j = some c →
    (∃ ms, PlacedAt g 0 j ms) ∧ (PlacedAt g 0 j (ns ++ [n]) ∨ ∃ t, S (ns ++ [n]) (.uol (some t)))
  reached : ∀ path j c, g.atPath 0 path = some j → g.cell j = some c → ∃ ms, PlacedAt g 0 j ms
  fullPath : ∀ j ns fuel, PlacedAt g 0 j ns → ns.length ≤ fuel → g.fullPath fuel j = some (slashed (name :: ns))

/-- the file can be opened, and its images read, without overflows -/
def NoOverflows (F : Fuel) (n fuel : Nat) (cache : List Cached) (f : WFile) : Prop :=
  ((fileIn .checked f).parse F n cache).1 ≠ .error .panicOverflow ∧
  ∀ items ns name o s, ((fileIn .checked f).parse F n cache).1 = .ok items → DirHas items ns (.image o s) → ns.getLast? = some name →
    readImage ((fileIn .checked f).parse F n cache).2.env fuel ⟨name, o, s⟩ ≠ .error .panicOverflow

end Wz.Spec
