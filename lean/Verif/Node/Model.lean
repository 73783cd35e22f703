import Verif.Directory.Model
import Verif.Property.Model

/-!
# Nodes and the links between them

A node of the library is a shared, mutable object: its parent holds it in a map of children, it holds a weak
link to its parent.  The model is a heap: a node is a number, the heap says what is in the node, and every
operation that changes nodes gives the new heap.

Simplifications that hold for the whole file:
* one thread; the only lock that matters is the write lock a node holds on itself while it is being parsed;
* a node stays alive as long as the model does not say that it is dropped.  The model says so for nodes that
  are overwritten while a parse inserts its children, the one place where the code can meet a dead parent;
* the map of children is a list without repeated names.  Its order is the arbitrary order of a hash map.
-/

set_option autoImplicit false

namespace Wz

/-- `WzObjectType` (object.rs 25-39) as far as nodes look at it.  `src` names the content the
parser reads for the node.  `spent` says that a directory has given away its entries: `verify_status` is
`Verified` (directory.rs 146-147). -/
inductive NKind where
  | dir (parsed spent : Bool) (src : Nat)
  | file (parsed : Bool) (src : Nat)
  | msFile (parsed : Bool) (src : Nat)
  | image (parsed : Bool) (src : Nat)
  | msImage (src : Nat)
  /-- the text of the link; `none` when it cannot be read -/
  | uol (text : Option (List Char))
  | other (v : Nat)
  deriving DecidableEq, Repr

/-- `WzNode` (node.rs 36-44) -/
structure NCell where
  name : List Char
  kind : NKind
  parent : Option Nat
  kids : List (List Char × Nat)
  deriving DecidableEq, Repr

/-- all nodes; a dropped node is `none` -/
abbrev NHeap := List (Option NCell)

/-- the node behind a pointer, if it is alive -/
def NHeap.cell (h : NHeap) (i : Nat) : Option NCell := (h[i]?).join

/-- `parent.upgrade()` -/
def NHeap.up (h : NHeap) (i : Nat) : Option Nat :=
  match h.cell i with
  | none => none
  | some c => match c.parent with
    | none => none
    | some p => match h.cell p with
      | none => none
      | some _ => some p

/-- the name of a node -/
def NHeap.nameOf (h : NHeap) (i : Nat) : List Char :=
  match h.cell i with
  | none => []
  | some c => c.name

/-- `try_as_image().is_some()` (node_cast.rs) -/
def NHeap.isImage (h : NHeap) (i : Nat) : Bool :=
  match h.cell i with
  | some ⟨_, .image _ _, _, _⟩ => true
  | _ => false

/-! ## Paths -/

/-- loop of `get_full_path` (node.rs 274-278).  Fuel: the loop runs once for each ancestor. -/
def NHeap.fullLoop (h : NHeap) : Nat → Option Nat → List Char → Option (List Char)
  | _, none, path => some path
  | 0, some _, _ => none
  | fuel + 1, some p, path => h.fullLoop fuel (h.up p) (h.nameOf p ++ '/' :: path)

/-- `WzNode::get_full_path` (node.rs 271-280); `none` when the loop does not end within the fuel -/
def NHeap.fullPath (h : NHeap) (fuel : Nat) (i : Nat) : Option (List Char) :=
  h.fullLoop fuel (h.up i) (h.nameOf i)

/-- loop of `get_path_from_root` (node.rs 305-311) -/
def NHeap.rootLoop (h : NHeap) : Nat → Option Nat → List Char → Option (List Char)
  | _, none, path => some path
  | 0, some _, _ => none
  | fuel + 1, some p, path =>
    match h.up p with
    | some q => h.rootLoop fuel (some q) (h.nameOf p ++ '/' :: path)
    | none => h.rootLoop fuel none path

/-- `WzNode::get_path_from_root` (node.rs 296-313) -/
def NHeap.rootPath (h : NHeap) (fuel : Nat) (i : Nat) : Option (List Char) :=
  match h.up i with
  | none => some []
  | some p => h.rootLoop fuel (some p) (h.nameOf i)

/-- loop of `get_path_from_image` (node.rs 338-352) -/
def NHeap.imageLoop (h : NHeap) : Nat → Option Nat → List Char → Option (List Char)
  | _, none, _ => some []
  | 0, some _, _ => none
  | fuel + 1, some p, path =>
    if h.isImage p then some path
    else match h.up p with
      | none => some []
      | some q => h.imageLoop fuel (some q) (h.nameOf p ++ '/' :: path)

/-- `WzNode::get_path_from_image` (node.rs 329-355) -/
def NHeap.imagePath (h : NHeap) (fuel : Nat) (i : Nat) : Option (List Char) :=
  match h.up i with
  | none => some []
  | some p => h.imageLoop fuel (some p) (h.nameOf i)

/-- `children.get(name)` -/
def kidAt (ks : List (List Char × Nat)) (name : List Char) : Option Nat :=
  (ks.find? fun x => x.1 == name).map Prod.snd

/-- `WzNode::at` (node.rs 376-378) -/
def NHeap.at (h : NHeap) (i : Nat) (name : List Char) : Option Nat :=
  match h.cell i with
  | none => none
  | some c => kidAt c.kids name

/-- `WzNode::at_relative` (node.rs 400-406) -/
def NHeap.atRel (h : NHeap) (i : Nat) (name : List Char) : Option Nat :=
  if name = ['.', '.'] then h.up i else h.at i name

/-- `try_fold` over the pieces of a path -/
def foldPath (step : Nat → List Char → Option Nat) : Nat → List (List Char) → Option Nat
  | i, [] => some i
  | i, x :: xs => match step i x with
    | none => none
    | some j => foldPath step j xs

/-- `WzNode::at_path` (node.rs 424-432).  `split` never gives an empty list. -/
def NHeap.atPath (h : NHeap) (i : Nat) (path : List Char) : Option Nat :=
  match splitSlash path with
  | [] => none
  | x :: xs => match h.at i x with
    | none => none
    | some j => foldPath h.at j xs

/-- `WzNode::at_path_relative` (node.rs 465-473) -/
def NHeap.atPathRel (h : NHeap) (i : Nat) (path : List Char) : Option Nat :=
  match splitSlash path with
  | [] => none
  | x :: xs => match h.atRel i x with
    | none => none
    | some j => foldPath h.atRel j xs

/-- `WzNode::filter_parent` (node.rs 492-509); the outer `none` is a loop that does not end within the fuel -/
def NHeap.filterLoop (h : NHeap) (cb : NCell → Bool) : Nat → Option Nat → Option (Option Nat)
  | _, none => some none
  | 0, some _ => none
  | fuel + 1, some p =>
    match h.cell p with
    | none => some none
    | some c => if cb c then some (some p) else h.filterLoop cb fuel (h.up p)

/-- `WzNode::filter_parent` (node.rs 492-509) -/
def NHeap.filterParent (h : NHeap) (cb : NCell → Bool) (fuel : Nat) (i : Nat) : Option (Option Nat) :=
  h.filterLoop cb fuel (h.up i)

/-- the test of `get_parent_wz_image` (node.rs 512-514) -/
def NCell.isImage (c : NCell) : Bool := match c.kind with
  | .image _ _ => true
  | _ => false

/-- the test of `get_base_wz_file` (node.rs 517-521) -/
def NCell.isBase (c : NCell) : Bool := match c.kind with
  | .file _ _ => c.name == ['B', 'a', 's', 'e']
  | _ => false

/-- `resolve_inlink` (node_util.rs 12-16) -/
def NHeap.inlink (h : NHeap) (fuel : Nat) (i : Nat) (path : List Char) : Option (Option Nat) :=
  match h.filterParent NCell.isImage fuel i with
  | none => none
  | some none => some none
  | some (some p) => some (h.atPath p path)

/-- `resolve_outlink` (node_util.rs 20-28) with `force_parse = false` -/
def NHeap.outlink (h : NHeap) (fuel : Nat) (i : Nat) (path : List Char) : Option (Option Nat) :=
  match h.filterParent NCell.isBase fuel i with
  | none => none
  | some none => some none
  | some (some p) => some (h.atPath p path)

/-! ## UOL -/

/-- the loop of `get_resolved_uol_path` (node_util.rs 45-51).  The list of pieces is a stack: last piece
first. -/
def uolLoop : List (List Char) → List (List Char) → List (List Char)
  | st, [] => st
  | st, p :: ps =>
    if p = ['.', '.'] ∧ st ≠ [] then uolLoop st.tail ps else uolLoop (p :: st) ps

/-- `join("/")` -/
def joinPieces : List (List Char) → List Char
  | [] => []
  | [x] => x
  | x :: y :: r => x ++ '/' :: joinPieces (y :: r)

/-- `get_resolved_uol_path` (node_util.rs 41-53) -/
def resolvedUolPath (path uol : List Char) : List Char :=
  joinPieces (uolLoop (splitSlash path).reverse.tail (splitSlash uol)).reverse

/-- one step on the way to the target of a link (node_util.rs 77-85): the image being parsed cannot be read,
its children are looked up directly, `".."` too -/
def NHeap.uolStep (h : NHeap) (locked : Option Nat) (i : Nat) (name : List Char) : Option Nat :=
  if some i = locked then h.at i name else h.atRel i name

/-- the target of a link (node_util.rs 66-89); the way starts at the parent of the link -/
def NHeap.uolTarget (h : NHeap) (locked : Option Nat) (i : Nat) (text : List Char) : Option Nat :=
  match h.atRel i ['.', '.'] with
  | none => none
  | some first => foldPath (h.uolStep locked) first (splitSlash text)

/-- `children.get_mut(name)` and `mem::replace` (node_util.rs 95-97 and 99-101) -/
def NHeap.replaceKid (h : NHeap) (p : Nat) (name : List Char) (t : Nat) : NHeap :=
  match h.cell p with
  | none => h
  | some c =>
    if c.kids.any (fun x => x.1 == name) then
      h.set p (some { c with kids := childInsert c.kids name t })
    else h

/-- `resolve_uol` (node_util.rs 57-106).  `unwrap` of the parent comes first.  Both branches of 94-102
replace the entry in the parent: the parent is locked only if it is the image being parsed. -/
def NHeap.resolveUol (h : NHeap) (locked : Option Nat) (i : Nat) : Except Err NHeap :=
  match h.up i with
  | none => .error .panicUnwrap
  | some p =>
    match h.cell i with
    | some ⟨name, .uol (some text), _, _⟩ =>
      match h.uolTarget locked i text with
      | none => .ok h
      | some t => .ok (h.replaceKid p name t)
    | _ => .ok h

/-! ## Image in a path -/

/-- does the text start with this? -/
def startsWith : List Char → List Char → Option (List Char)
  | s, [] => some s
  | [], _ :: _ => none
  | c :: s, x :: pre => if c = x then startsWith s pre else none

/-- The first piece of `split_inclusive(".img")` and what follows it; `none` if the pattern does not occur -/
def cutImg : List Char → Option (List Char × List Char)
  | [] => none
  | c :: s =>
    match startsWith (c :: s) ['.', 'i', 'm', 'g'] with
    | some rest => some (['.', 'i', 'm', 'g'], rest)
    | none => match cutImg s with
      | none => none
      | some (a, b) => some (c :: a, b)

/-- the piece of `split_inclusive(".img")` that starts a text: `split_inclusive` gives no empty last piece -/
def nextImgPiece (s : List Char) : Option (List Char) :=
  if s = [] then none
  else match cutImg s with
    | some (a, _) => some a
    | none => some s

/-- the bytes of a text: `str::len` counts them, `split_at` counts by them -/
def charBytes (c : Char) : Nat := c.utf8Size

/-- `str::len` -/
def strBytes : List Char → Nat
  | [] => 0
  | c :: s => charBytes c + strBytes s

/-- `path.split_at(n).1`; `none` is the panic: `n` is not on a character border or behind the end -/
def splitAt1 : List Char → Nat → Option (List Char)
  | s, 0 => some s
  | [], _ + 1 => none
  | c :: s, n + 1 => if charBytes c ≤ n + 1 then splitAt1 s (n + 1 - charBytes c) else none

/-- loop of `get_image_node_from_path` (node_util.rs 127-142) -/
def NHeap.imgLoop (h : NHeap) (path : List Char) : Nat → Nat → List (List Char) →
    Except Err (Option (Nat × List Char))
  | _, _, [] => .ok none
  | i, at_, x :: xs =>
    match h.at i x with
    | none => .ok none
    | some j =>
      if h.isImage j then
        match splitAt1 path (at_ + strBytes x + 1) with
        | none => .error .panicIndex
        | some rest => .ok (some (j, rest))
      else h.imgLoop path j (at_ + strBytes x + 1) xs

/-- `get_image_node_from_path` (node_util.rs 109-143) -/
def NHeap.imageFromPath (h : NHeap) (i : Nat) (path : List Char) : Except Err (Option (Nat × List Char)) :=
  if path = [] then .ok none
  else match cutImg path with
    | some (imgPath, more) =>
      match nextImgPiece more with
      | none => .ok none
      | some piece =>
        match startsWith piece ['/'] with
        | none => .ok none
        | some rest =>
          match h.atPath i imgPath with
          | none => .ok none
          | some j => .ok (some (j, rest))
    | none => h.imgLoop path i 0 (splitSlash path)

/-! ## Parsing and forgetting -/

/-- What a parser gives for a node: children in order, each with its children.  First child and next
sibling. -/
inductive Forest where
  | nil
  | node (name : List Char) (kind : NKind) (kids rest : Forest)
  deriving DecidableEq, Repr

/-- names of the trees of a forest -/
def Forest.names : Forest → List (List Char)
  | .nil => []
  | .node n _ _ rest => n :: rest.names

/-- is the node a link? -/
def NKind.isUol : NKind → Bool
  | .uol _ => true
  | _ => false

/-- number of nodes -/
def Forest.size : Forest → Nat
  | .nil => 0
  | .node _ _ ks rest => 1 + ks.size + rest.size

/-- the pointers of the trees of a forest whose first node gets the number `i`: nodes are numbered before
their children, children before the next sibling -/
def Forest.roots : Forest → Nat → List (List Char × Nat)
  | .nil, _ => []
  | .node n _ ks rest, i => (n, i) :: rest.roots (i + 1 + ks.size)

/-- The nodes a parser makes (parse_property.rs 143-345, directory.rs 128-149, file.rs, ms_file.rs): new nodes
with a link to their parent.  A node with the same name as a later sibling is overwritten in the map of
children and dropped with everything below it, except the links (UOL), which the list of links holds.
`parent` is the number of the parent, `i` the number of the first node. -/
def Forest.cells : Forest → (parent i : Nat) → (live : Bool) → NHeap
  | .nil, _, _, _ => []
  | .node n k ks rest, p, i, live =>
    let live' := live && !(rest.names.any (· == n))
    (if live' || k.isUol then
        some ⟨n, k, some p, childInsertAll [] (ks.roots (i + 1))⟩
      else none)
      :: (ks.cells i (i + 1) live' ++ rest.cells p (i + 1 + ks.size) live)

/-- the links of a forest, in the order of the parser -/
def Forest.uols : Forest → Nat → List Nat
  | .nil, _ => []
  | .node _ k ks rest, i =>
    (if k.isUol then [i] else []) ++ ks.uols (i + 1) ++ rest.uols (i + 1 + ks.size)

/-- resolution of all links, in order (node.rs 224-226) -/
def NHeap.resolveUols (locked : Option Nat) : NHeap → List Nat → Except Err NHeap
  | h, [] => .ok h
  | h, u :: us => match h.resolveUol locked u with
    | .error e => .error e
    | .ok h' => NHeap.resolveUols locked h' us

/-- what is read for each source: the children, or the error or panic of the parser -/
abbrev Content := Nat → Except Err Forest

/-- What `parse` finds out about the kind of a node (node.rs 175-216): `none` if there is nothing to do,
otherwise what the parser gives and the kind of the node after it.  A directory that has given away its
entries gives nothing (directory.rs 113-150: `prepare_entries` returns at once, `entries` is empty). -/
def NKind.plan (content : Content) : NKind → Option (Except Err (Forest × NKind))
  | .dir parsed spent src =>
    if parsed then none
    else if spent then some (.ok (.nil, .dir true true src))
    else some ((content src).map fun f => (f, .dir true true src))
  | .file parsed src =>
    if parsed then none else some ((content src).map fun f => (f, .file true src))
  | .msFile parsed src =>
    if parsed then none else some ((content src).map fun f => (f, .msFile true src))
  | .image parsed src =>
    if parsed then none else some ((content src).map fun f => (f, .image true src))
  | .msImage src => some ((content src).map fun f => (f, .image true src))
  | .uol _ => none
  | .other _ => none

/-- `WzNode::parse` (node.rs 174-229) with the node itself as `parent`.  The result and the heap after the
call. -/
def NHeap.parse (h : NHeap) (content : Content) (i : Nat) : Except Err Unit × NHeap :=
  match h.cell i with
  | none => (.ok (), h)
  | some c =>
    match c.kind.plan content with
    | none => (.ok (), h)
    | some (.error e) => (.error e, h)
    | some (.ok (f, k)) =>
      let c' := { c with kind := k, kids := childInsertAll c.kids (f.roots h.length) }
      let h' := h.set i (some c') ++ f.cells i h.length true
      match NHeap.resolveUols (some i) h' (f.uols h.length) with
      | .error e => (.error e, h')
      | .ok h'' => (.ok (), h'')

/-- the kind of a node after `unparse` (node.rs 233-244); `none` if `unparse` leaves the node alone -/
def NKind.unparsed : NKind → Option NKind
  | .dir _ spent src => some (.dir false spent src)
  | .file _ src => some (.file false src)
  | .image _ src => some (.image false src)
  | _ => none

/-- `WzNode::unparse` (node.rs 233-248) -/
def NHeap.unparse (h : NHeap) (i : Nat) : NHeap :=
  match h.cell i with
  | none => h
  | some c =>
    match c.kind.unparsed with
    | none => h
    | some k => h.set i (some { c with kind := k, kids := [] })

/-- `WzNode::at_path_parsed` after the first piece (node.rs 439-443).  `held` is the node the call was made on:
the caller reads it, so its write lock (440) cannot be had and the call hangs. -/
def NHeap.foldParsed (content : Content) (held : Nat) : NHeap → Nat → List (List Char) → Except Err Nat × NHeap
  | h, i, [] => (.ok i, h)
  | h, i, x :: xs =>
    if i = held then (.error (.lib "deadlock"), h)
    else match h.parse content i with
      | (.error e, h') => (.error e, h')
      | (.ok _, h') => match h'.at i x with
        | none => (.error (.lib "NodeNotFound"), h')
        | some j => NHeap.foldParsed content held h' j xs

/-- `WzNode::at_path_parsed` (node.rs 434-447) -/
def NHeap.atPathParsed (h : NHeap) (content : Content) (i : Nat) (path : List Char) :
    Except Err Nat × NHeap :=
  match splitSlash path with
  | [] => (.error .panicUnwrap, h)
  | x :: xs => match h.at i x with
    | none => (.error (.lib "NodeNotFound"), h)
    | some j => NHeap.foldParsed content i h j xs

/-! ## Merging -/

/-- `WzNode::add` (node.rs 252-256) -/
def NHeap.add (h : NHeap) (i j : Nat) : NHeap :=
  match h.cell i with
  | none => h
  | some c => h.set i (some { c with kids := childInsert c.kids (h.nameOf j) j })

/-- new parent link -/
def NHeap.setParent (h : NHeap) (i p : Nat) : NHeap :=
  match h.cell i with
  | none => h
  | some c => h.set i (some { c with parent := some p })

/-- new map of children -/
def NHeap.setKids (h : NHeap) (i : Nat) (ks : List (List Char × Nat)) : NHeap :=
  match h.cell i with
  | none => h
  | some c => h.set i (some { c with kids := ks })

/-- loop of `transfer_childs` (node.rs 531-538); `rec` is the recursive call -/
def NHeap.transferLoop (rec : NHeap → Nat → Nat → Option NHeap) (dst : Nat) :
    NHeap → List (List Char × Nat) → Option NHeap
  | h, [] => some h
  | h, (name, child) :: ks =>
    match h.at dst name with
    | some old => match rec h child old with
      | none => none
      | some h' => NHeap.transferLoop rec dst h' ks
    | none =>
      let h1 := h.setParent child dst
      match h1.cell dst with
      | none => none
      | some d => NHeap.transferLoop rec dst (h1.setKids dst (childInsert d.kids name child)) ks

/-- `WzNode::transfer_childs` (node.rs 524-539): `src` gives its children to `dst`.  Fuel: the depth of the
recursion.  `none`: the recursion is deeper than the fuel. -/
def NHeap.transfer : Nat → NHeap → Nat → Nat → Option NHeap
  | 0, _, _, _ => none
  | fuel + 1, h, src, dst =>
    match h.cell src with
    | none => some h
    | some c => NHeap.transferLoop (NHeap.transfer fuel) dst (h.setKids src []) c.kids

/-- loop of `resolve_childs_parent` (node_util.rs 34-37) -/
def NHeap.fixLoop (rec : NHeap → Nat → Option NHeap) (i : Nat) :
    NHeap → List (List Char × Nat) → Option NHeap
  | h, [] => some h
  | h, (_, child) :: ks =>
    match rec (h.setParent child i) child with
    | none => none
    | some h' => NHeap.fixLoop rec i h' ks

/-- `resolve_childs_parent` (node_util.rs 32-38) -/
def NHeap.fixParents : Nat → NHeap → Nat → Option NHeap
  | 0, _, _ => none
  | fuel + 1, h, i =>
    match h.cell i with
    | none => some h
    | some c => NHeap.fixLoop (NHeap.fixParents fuel) i h c.kids

/-! ## Walking -/

/-- loop of `walk_node` (walk.rs 14-16) -/
def NHeap.walkLoop (rec : Nat → Option (List Nat)) : List (List Char × Nat) → Option (List Nat)
  | [] => some []
  | (_, j) :: ks =>
    match rec j with
    | none => none
    | some a => match NHeap.walkLoop rec ks with
      | none => none
      | some b => some (a ++ b)

/-- `walk_node` (walk.rs 6-23) with `force_parse = false`: the nodes given to the callback, in order.  The
callback does not change nodes.  `none`: deeper than the fuel. -/
def NHeap.walk (h : NHeap) : Nat → Nat → Option (List Nat)
  | 0, _ => none
  | fuel + 1, i =>
    match h.cell i with
    | none => some [i]
    | some c => match NHeap.walkLoop (NHeap.walk h fuel) c.kids with
      | none => none
      | some vs => some (i :: vs)

/-- loop of `walk_node` (walk.rs 14-16) with `force_parse` -/
def NHeap.forceLoop (rec : NHeap → Nat → Except Err (List (Nat × Option NCell) × NHeap)) :
    NHeap → List (List Char × Nat) → Except Err (List (Nat × Option NCell) × NHeap)
  | h, [] => .ok ([], h)
  | h, (_, j) :: ks =>
    match rec h j with
    | .error e => .error e
    | .ok (a, h') => match NHeap.forceLoop rec h' ks with
      | .error e => .error e
      | .ok (b, h'') => .ok (a ++ b, h'')

/-- what is left of the result of `parse` once its errors are ignored (walk.rs 8-9): only a panic goes on -/
def panicOf : Except Err Unit → Option Err
  | .ok _ => none
  | .error e => if e.isPanic then some e else none

/-- `walk_node` (walk.rs 6-23) with `force_parse = true`: the nodes given to the callback, each with its state
at that moment.  Errors of `parse` are ignored, panics are not.  `held` are the nodes above, whose children are
being read: their write lock cannot be had again, the call hangs.  Children are taken in the order of the list;
the code takes them in the order of its hash map. -/
def NHeap.walkForce (content : Content) :
    Nat → NHeap → List Nat → Nat → Except Err (List (Nat × Option NCell) × NHeap)
  | 0, _, _, _ => .error .fuel
  | fuel + 1, h, held, i =>
    if i ∈ held then .error (.lib "deadlock")
    else
      match panicOf (h.parse content i).1 with
      | some e => .error e
      | none =>
        match (h.parse content i).2.cell i with
        | none => .ok ([(i, none)], (h.parse content i).2)
        | some c =>
          match NHeap.forceLoop (fun g j => NHeap.walkForce content fuel g (i :: held) j)
              (h.parse content i).2 c.kids with
          | .error e => .error e
          | .ok (vs, h') => .ok ((i, some c) :: vs, if h'.isImage i then h'.unparse i else h')

end Wz
