import Verif.Whole.MediaModel
import Verif.Whole.Spec
import Verif.Png.Props
import Verif.Media.SoundProps
import Verif.Media.LuaProps

/-!
# Payloads as they are stored, and what a user gets
-/

set_option autoImplicit false

namespace Wz.Spec

open Wz

/-! ## pictures -/

/-- The data of a picture, as it is stored, packs these bytes: a zlib stream, or pieces, each encrypted, of a stream with
two bytes in front. -/
inductive Packed (inflate : Inflate) (ks : Nat → Byte) : Bytes → Bytes → Prop
  | plain (data px : Bytes) : leNat (data.take 2) ∈ [0x9C78, 0xDA78, 0x0178, 0x5E78] → inflate true data px.length = .ok px →
      Packed inflate ks data px
  | pieces (chunks : List Bytes) (head z px : Bytes) : chunks.flatten = head ++ z → head.length = 2 →
      (∀ c ∈ chunks, c.length < 2 ^ 31) → inflate false z px.length = .ok px →
      (leNat ((chunked ks chunks).take 2) ∉ [0x9C78, 0xDA78, 0x0178, 0x5E78] ∨
        ∃ x, inflate true (chunked ks chunks) px.length = .error x) →
      Packed inflate ks (chunked ks chunks) px

/-- a picture of this size and format is stored with the pixel data `px`, as much as the format takes -/
structure StoredPicture (inflate : Inflate) (ks : Nat → Byte) (w h code : Nat) (data px : Bytes) : Prop where
  known : code ∈ [1, 2, 257, 513, 517, 769, 1026, 2050, 2562]
  small : (w + 3) * (h + 3) * 4 < 2 ^ 32
  blocks : code ∈ [1026, 2050] → w % 4 = 0
  squares : code = 517 → 0 < w ∧ w % 16 = 0 ∧ h % 16 = 0 ∧ px.length = w * h / 128
  count : ∀ count, (code, count) ∈ byteCount → px.length = count w h
  packed : Packed inflate ks data px

/-! ## links in an image: `look` says what is at each path below it -/

/-- there is a picture -/
def CanvasAt (look : List (List Char) → Option AVal) (ns : List (List Char)) : Prop :=
  ∃ w h f s pages data, look ns = some (.prop (.canvas w h f s pages data))

/-- the text `_inlink` of what is at `ns` is a path to something in the image -/
def InlinkIn (look : List (List Char) → Option AVal) (ns ms : List (List Char)) : Prop :=
  ∃ s, look (ns ++ ["_inlink".toList]) = some (.prop (.str s)) ∧ Pieces s ms ∧ look ms ≠ none

/-- from picture to picture -/
inductive LinkedTo (look : List (List Char) → Option AVal) : List (List Char) → List (List Char) → Prop
  | here (ns : List (List Char)) : LinkedTo look ns ns
  | next (ns ms ks : List (List Char)) : CanvasAt look ns → InlinkIn look ns ms → LinkedTo look ms ks → LinkedTo look ns ks

/-- What `get_image` gives for the node `j` of the path `ns` in the image.  The links lead to a picture that has none:
that picture.  They lead to something else: an error.  They never end: neither does the call.  Nothing changes in the
tree.  `alone` says that there is no file to follow an `_outlink` from. -/
structure GivesPicture (content : Content) (inflate : Inflate) (bc7 : Bc7) (aes : Aes) (e : Env) (alone : Prop) (g : NHeap) (j : Nat)
    (look : List (List Char) → Option AVal) (ns : List (List Char)) : Prop where
  picture : ∀ ks w h f s pages data px iv key (ops : List Props.KeyOp), LinkedTo look ns ks → look ks = some (.prop (.canvas w h f s pages data)) →
    (∀ ms, ¬ InlinkIn look ks ms) → (alone ∨ ∀ t, look (ks ++ ["_outlink".toList]) ≠ some (.prop (.str t))) →
    aes.Sized → iv.length = 4 → e.ks = keyByte aes key iv → StoredPicture inflate e.ks w h (f + s) data px →
    ∃ img keys N, Props.Decoded (f + s) px w h img ∧ ∀ fuel, N ≤ fuel →
      g.picture content inflate bc7 aes e (ops.foldl (Props.KeyOp.after aes) (Ecb.new iv key)) fuel j = (.ok (img, keys), g)
  other : ∀ ks keys, LinkedTo look ns ks → look ks ≠ none → ¬ CanvasAt look ks →
    ∃ N, ∀ fuel, N ≤ fuel → g.picture content inflate bc7 aes e keys fuel j = (.error (.lib "NotPngProperty"), g)
  circle : ∀ (S : List (List Char) → Prop) keys, S ns → (∀ ms, S ms → CanvasAt look ms ∧ ∃ ms', InlinkIn look ms ms' ∧ S ms') →
    ∀ fuel, g.picture content inflate bc7 aes e keys fuel j = (.error .fuel, g)

/-! ## everything else -/

/-- the bytes of a script: its text, encrypted with one of the known IVs, such that no IV tried before makes a text of its first
64 bytes and no character crosses the border behind them -/
def StoredScript (aes : Aes) (key data : Bytes) (s : List Char) : Prop :=
  ∃ before iv after, luaIvs = before ++ iv :: after ∧ data = xorStream (keyByte aes key iv) (utf8EncStr s) ∧
    (∃ x y, s = x ++ y ∧ (utf8EncStr x).length = min 64 (utf8EncStr s).length) ∧
    ∀ iv' ∈ before, ¬ IsText (xorStream (keyByte aes key iv') (data.take 64))

/-- a sound with a wave header (not a binary in disguise) -/
def IsPcm (duration : Nat) (header data : Bytes) : Prop :=
  header.length = 70 ∧ ¬ (leNat (part header 56 60) = data.length ∧ duration = 1000)

/-- What the accessors give for a node where the archive holds `v`: each gives the payload of its own kind, and nothing or
an error for all others. -/
structure GivesPayload (aes : Aes) (e : Env) (g : NHeap) (j : Nat) (v : AVal) : Prop where
  text : (∀ s, v = .prop (.str s) → g.nodeText e j = .ok s) ∧
    ((∀ s, v ≠ .prop (.str s)) → g.nodeText e j = .error (.lib "NotStringProperty"))
  sound : (∀ d header data, v = .prop (.sound d header data) → data.length + 36 < 2 ^ 32 → ∃ f, g.soundFile e j = some (.ok f) ∧
      (IsPcm d header data → IsWav f (part header 52 68) data) ∧ (¬ IsPcm d header data → f = data)) ∧
    ((∀ d header data, v ≠ .prop (.sound d header data)) → g.soundFile e j = none)
  raw : (∀ data, v = .prop (.raw data) → g.rawData e j = some (.ok data)) ∧
    ((∀ data, v ≠ .prop (.raw data)) → g.rawData e j = none)
  video : (∀ data, v = .prop (.video data) → g.videoData e j = some (.ok data)) ∧
    ((∀ data, v ≠ .prop (.video data)) → g.videoData e j = none)
  script : (∀ data s key a b c, v = .script data → aes.Sized → StoredScript aes key data s →
      g.scriptText aes e (Props.globalAfter aes key a b c) j = some (.ok s)) ∧
    ((∀ data, v ≠ .script data) → ∀ keys, g.scriptText aes e keys j = none)

/-- the file stands on its own: nothing above it, and its name is not "Base" -/
def OnItsOwn (h : NHeap) (i : Nat) : Prop := ∃ c, h.cell i = some c ∧ c.parent = none ∧ c.name ≠ "Base".toList

/-- Every path finds the payload of what is in the archive, and in images the pictures. -/
def FindsPayloads (content : Content) (inflate : Inflate) (bc7 : Bc7) (aes : Aes) (e : Env) (alone : Prop) (g : NHeap) (i : Nat)
    (arch : List (List Char × ATree)) : Prop :=
  ∀ path ns v, Pieces path ns → NoUolOn arch ns → arcAt arch ns = some v →
    ∃ j g', g.atPathParsed content i path = (.ok j, g') ∧ GivesPayload aes e g' j v ∧
      ∀ ds ms, ns = ds ++ ms → ms ≠ [] → arcAt arch ds = some .image →
        GivesPicture content inflate bc7 aes e alone g' j (fun ks => arcAt arch (ds ++ ks)) ms

end Wz.Spec
