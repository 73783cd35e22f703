import Verif.Whole.MediaSpec
import Verif.Whole.LinkSpec

/-!
# Payloads behind links
-/

set_option autoImplicit false

namespace Wz.Spec

open Wz

/-- below the end of the path no text is seen under this name; a link that leads nowhere is a text -/
def NoTextSeen (arch : List (List Char × ATree)) (ns : List (List Char)) (x : List Char) : Prop :=
  ∀ m s, ¬ ArcSees arch (ns ++ [x]) (some (m, .prop (.str s))) ∧ ¬ ArcSees arch (ns ++ [x]) (some (m, .prop (.uol s)))

/-- What is given out for the node `j` at the end of the path `ns`, where `v` is seen: the payload of `v`; the text of a link that
leads nowhere; the pixels of a picture that has neither `_inlink` nor `_outlink`, and no picture for anything else.  The tree stays as
it is. -/
structure GivesSeen (content : Content) (inflate : Inflate) (bc7 : Bc7) (aes : Aes) (e : Env) (g : NHeap) (j : Nat)
    (arch : List (List Char × ATree)) (ns : List (List Char)) (v : AVal) : Prop where
  payload : (∀ s, v ≠ .prop (.uol s)) → GivesPayload aes e g j v
  dead : ∀ s, v = .prop (.uol s) → g.nodeText e j = .ok s
  picture : ∀ w h f s pages data px iv key (ops : List Props.KeyOp), v = .prop (.canvas w h f s pages data) →
    NoTextSeen arch ns "_inlink".toList → NoTextSeen arch ns "_outlink".toList →
    aes.Sized → iv.length = 4 → e.ks = keyByte aes key iv → StoredPicture inflate e.ks w h (f + s) data px →
    ∃ img keys, Props.Decoded (f + s) px w h img ∧ ∀ fuel,
      g.picture content inflate bc7 aes e (ops.foldl (Props.KeyOp.after aes) (Ecb.new iv key)) (fuel + 1) j = (.ok (img, keys), g)
  other : (∀ w h f s pages data, v ≠ .prop (.canvas w h f s pages data)) → ∀ keys fuel,
    g.picture content inflate bc7 aes e keys (fuel + 1) j = (.error (.lib "NotPngProperty"), g)

/-- Every path leads to the payload of what is seen there, links taken for what they lead to. -/
def FindsSeen (content : Content) (inflate : Inflate) (bc7 : Bc7) (aes : Aes) (e : Env) (g : NHeap) (i : Nat)
    (arch : List (List Char × ATree)) : Prop :=
  ∀ path ns name v, Pieces path ns → LinksOn arch ns → ArcSees arch ns (some (name, v)) →
    ∃ j g', g.atPathParsed content i path = (.ok j, g') ∧ GivesSeen content inflate bc7 aes e g' j arch ns v

end Wz.Spec
