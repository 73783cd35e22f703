import Verif.Whole.Model

/-!
# A property of an archive without reading its image
-/

set_option autoImplicit false

namespace Wz

/-- what `get_node_without_parse` gives: a node of the tree, or a new node that is not part of it -/
inductive Given where
  | held (j : Nat)
  | made (name : List Char) (n : PNode)

/-- `.ok()` of a result: errors become nothing, panics stay panics (node_util.rs 155) -/
def okOrNone (r : Except Err (List Char × PNode)) : Except Err (Option Given) :=
  match r with
  | .ok (n, x) => .ok (some (.made n x))
  | .error x => if x.isPanic ∨ x = .fuel then .error x else .ok none

/-- `get_node_without_parse` (node_util.rs 147-158).  `look` is `WzImage::at_path` of the image with a source.  The tree is
only read. -/
def NHeap.withoutParse (h : NHeap) (look : Nat → List Char → Except Err (List Char × PNode)) (i : Nat) (path : List Char) :
    Except Err (Option Given) :=
  match h.imageFromPath i path with
  | .error x => .error x
  | .ok none => .ok none
  | .ok (some (j, rest)) =>
    match h.cell j with
    | some ⟨_, .image true _, _, _⟩ => .ok ((h.atPath j rest).map .held)
    | some ⟨_, .image false src, _, _⟩ => okOrNone (look src rest)
    | _ => .ok none

/-- `WzImage::at_path` (wz_image.rs 121-143) of an image with a source, with the keys of `e` -/
def imgLook (e : Env) (fuel : Nat) (s : Nat) (path : List Char) : Except Err (List Char × PNode) :=
  match Encodable.decode (α := Src58) s with
  | some (.image name o size) => ((Rd.imgAtPath ⟨name, o, size⟩ path fuel).run e { pos := 0, saved := 0 }).1
  | _ => .error (.lib "not a source")

/-- the same with the keys the file has once it is open -/
def arcLook (F : Fuel) (n fuel : Nat) (cache : List Cached) (f : WFile) (s : Nat) (path : List Char) : Except Err (List Char × PNode) :=
  imgLook (f.parse F n cache).2.env fuel s path

end Wz
