import Verif.Whole.MediaSpec
import Verif.Whole.MsSpec

/-!
# Payloads of MS archives
-/

set_option autoImplicit false

namespace Wz.Spec

open Wz

/-- Every path finds the payload of what is in the archive and in images the pictures; so does every path below an image that is taken as a child
of the root and parsed, whatever characters its name has.  Each image has its own reader. -/
structure FindsPayloadsMs (content : Content) (inflate : Inflate) (bc7 : Bc7) (aes : Aes) (reader : List Char → Env) (alone : Prop) (g : NHeap)
    (i : Nat) (arch : List (List Char × ATree)) : Prop where
  path : ∀ path n ns v, Pieces path (n :: ns) → NoUolOn arch (n :: ns) → arcAt arch (n :: ns) = some v →
    ∃ j g', g.atPathParsed content i path = (.ok j, g') ∧ GivesPayload aes (reader n) g' j v ∧
      (ns ≠ [] → GivesPicture content inflate bc7 aes (reader n) alone g' j (fun ks => arcAt arch (n :: ks)) ns)
  child : ∀ name t, lastNamed arch name = some t → (∀ ps, t = .image ps → NoUol ps) → ∃ k g', g.at i name = some k ∧
    g.parse content k = (.ok (), g') ∧ ∀ path ns v, Pieces path ns → arcAt arch (name :: ns) = some v →
      ∃ j, g'.atPathParsed content k path = (.ok j, g') ∧ GivesPayload aes (reader name) g' j v ∧
        GivesPicture content inflate bc7 aes (reader name) alone g' j (fun ks => arcAt arch (name :: ks)) ns

end Wz.Spec
