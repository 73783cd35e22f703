import Verif.Image.Model
import Verif.Image.Spec
import Verif.Property.TakenSpec
/-!
# What an image may be taken for
-/

set_option autoImplicit false

namespace Wz.Spec

/-- what the bytes of an image, of which name, place and size are given by the directory, may be taken for -/
inductive TakenImage (e : Env) (img : Img) : List (List Char × ImgNode) → Prop
  /-- a text by its name -/
  | text (b : Byte) : NameEnds img.name ".txt".toList → Holds e.buf img.offset [b] →
      TakenImage e img [("text.txt".toList, .prop (.node (.raw img.offset img.blockSize) []))]
  /-- a script by its name and its first byte; a length in the file is a signed number -/
  | script (n : Int) (nb : Bytes) : NameEnds img.name ".lua".toList → IsWzInt 4 n nb → Holds e.buf img.offset (1#8 :: nb) →
      TakenImage e img [("Script".toList, .lua (img.offset + 1 + nb.length) (unsign 64 n))]
  /-- a text by its first bytes `#Property` -/
  | packed : ¬ NameEnds img.name ".txt".toList →
      Holds e.buf img.offset [0x23#8, 0x50#8, 0x72#8, 0x6F#8, 0x70#8, 0x65#8, 0x72#8, 0x74#8, 0x79#8] → 9 ≤ img.blockSize →
      TakenImage e img [("text.txt".toList, .prop (.node (.raw (img.offset + 9) (img.blockSize - 9)) []))]
  /-- a list of properties behind a name and a number, one of which is right -/
  | properties (name : List Char) (bs : Bytes) (value q : Nat) (kids : List (List Char × PNode)) :
      ¬ NameEnds img.name ".txt".toList → TextIs e.ks name bs → value < 2 ^ 16 →
      Holds e.buf img.offset (0x73#8 :: (bs ++ toLE 2 value)) → name = "Property".toList ∨ value = 0 →
      TakenList e img.offset kids (img.offset + 1 + bs.length + 2) q →
      TakenImage e img (kids.map fun x => (x.1, .prop x.2))

end Wz.Spec
