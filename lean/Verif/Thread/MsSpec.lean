import Verif.Thread.Spec
import Verif.Whole.LinkMsSpec

/-!
# What threads that share an MS archive may rely on
-/

set_option autoImplicit false

namespace Wz.Spec

open Wz

/-- what a thread does with an open MS archive: what can be done by path, and with one of the images as a child of the root, whatever its
name: open it, open it and look something up below it, forget what was read -/
inductive MsThreadOp
  | path (op : ThreadOp)
  | open (name : List Char)
  | below (name path : List Char)
  | shut (name : List Char)

/-- `root.read().unwrap().at(name)` -/
def childProg (i : Nat) (name : List Char) : Prog (Option Nat) :=
  .acquire .read i (.look fun h => .release .read i (.done (h.at i name)))

/-- what is done with the child -/
def withChild (i : Nat) (name : List Char) (k : Nat → Prog (Except Err Nat)) : Prog (Except Err Nat) :=
  (childProg i name).bind fun r => match r with
    | none => .done (.error (.lib "NodeNotFound"))
    | some j => k j

/-- the calls of one operation, and the answer: the node that is looked up, or the child -/
def msOpProg (content : Content) (i : Nat) : MsThreadOp → Prog (Except Err Nat)
  | .path op => opProg content i op
  | .open name => withChild i name fun j => (parseProg content j).bind fun r => match r with
    | .ok _ => .done (.ok j)
    | .error x => .done (.error x)
  | .below name p => withChild i name fun j => (parseProg content j).bind fun r => match r with
    | .ok _ => findProg content .read j p
    | .error x => .done (.error x)
  | .shut name => withChild i name fun j => (unparseProg j).bind fun _ => .done (.ok j)

/-- the operations of one thread, one after the other, and their answers -/
def msOpsProg (content : Content) (i : Nat) : List MsThreadOp → Prog (List (Except Err Nat))
  | [] => .done []
  | op :: ops => (msOpProg content i op).bind fun a => (msOpsProg content i ops).bind fun as => .done (a :: as)

/-- What a thread may do: with paths what `C77` allows, and only images are read whose links can be followed.  Below an image only if no link
leads back to it. -/
def AllowedMsThread (arch : List (List Char × ATree)) : MsThreadOp → Prop
  | .path op => AllowedThread arch op
  | .open name => ∀ t, lastNamed arch name = some t → LinksWork t
  | .below name _ => ∀ t, lastNamed arch name = some t → LinksWork t ∧ ∀ ps, t = .image ps → NoWayBack ps
  | .shut _ => True

/-- the answer is the node that shows what is seen, or none -/
def ShowsMs (e : Env) (g : NHeap) (x : Except Err Nat) : Option (List Char × AVal) → Prop
  | some (name, v) => ∃ j c, x = .ok j ∧ g.cell j = some c ∧ c.name = name ∧ MsLinkShows e c.kind v
  | none => x = .error (.lib "NodeNotFound")

/-- The answer to a question for `path` from the root is what is seen there; the reader of a value is that of its image. -/
def RightMsPath (reader : List Char → Env) (arch : List (List Char × ATree)) (g : NHeap) (path : List Char) (x : Except Err Nat) : Prop :=
  ∀ n ns r, Pieces path (n :: ns) → ArcSees arch (n :: ns) r → ShowsMs (reader n) g x r

/-- The answer to a question for a child is the image with that name, or none if there is no such image. -/
def RightMsChild (reader : List Char → Env) (arch : List (List Char × ATree)) (g : NHeap) (name : List Char) (x : Except Err Nat) : Prop :=
  match lastNamed arch name with
  | none => x = .error (.lib "NodeNotFound")
  | some _ => ShowsMs (reader name) g x (some (name, .image))

/-- the answer to a question for `path` from the image `name` is what is seen there -/
def RightMsBelow (reader : List Char → Env) (arch : List (List Char × ATree)) (g : NHeap) (name path : List Char) (x : Except Err Nat) : Prop :=
  match lastNamed arch name with
  | none => x = .error (.lib "NodeNotFound")
  | some t => ∀ ns r, Pieces path ns → ArcSees [(name, t)] (name :: ns) r → ShowsMs (reader name) g x r

/-- The right answer for each operation.  `at_path` does not read: it may find nothing where something is.  Another thread may forget an image
right after it was opened: then nothing is found below it. -/
def RightMsFor (reader : List Char → Env) (arch : List (List Char × ATree)) (g : NHeap) : MsThreadOp → Except Err Nat → Prop
  | .path (.peek p), x => RightMsPath reader arch g p x ∨ x = .error (.lib "NodeNotFound")
  | .path (.find p), x => RightMsPath reader arch g p x
  | .path (.load p), x => RightMsPath reader arch g p x
  | .path (.close p), x => RightMsPath reader arch g p x
  | .open name, x => RightMsChild reader arch g name x
  | .below name p, x => RightMsBelow reader arch g name p x ∨ x = .error (.lib "NodeNotFound")
  | .shut name, x => RightMsChild reader arch g name x

/-- one answer for each operation, all right -/
inductive RightMsAnswers (reader : List Char → Env) (arch : List (List Char × ATree)) (g : NHeap) : List MsThreadOp → List (Except Err Nat) → Prop
  | nil : RightMsAnswers reader arch g [] []
  | cons (op : MsThreadOp) (ops : List MsThreadOp) (x : Except Err Nat) (xs : List (Except Err Nat)) :
      RightMsFor reader arch g op x → RightMsAnswers reader arch g ops xs → RightMsAnswers reader arch g (op :: ops) (x :: xs)

end Wz.Spec
