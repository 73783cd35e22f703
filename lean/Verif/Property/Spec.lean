import Verif.Reader.Spec
import Verif.Property.Model
/-!
# What a property tree is and how a file stores it
-/

set_option autoImplicit false

namespace Wz.Spec

/-- the content of a property, as a user sees it -/
inductive PVal where
  | null
  | short (v : Int)
  | int (v : Int)
  | long (v : Int)
  | float (bits : Nat)
  | double (bits : Nat)
  | str (s : List Char)
  | sub
  | canvas (width height format scale : Nat) (pages : Int) (data : Bytes)
  | convex
  | vector (x y : Int)
  | sound (duration : Nat) (header data : Bytes)
  | uol (s : List Char)
  | raw (data : Bytes)
  | video (data : Bytes)

/-- a tree of named properties -/
inductive PTree where
  | node (v : PVal) (kids : List (List Char × PTree))

/-- The value of a parsed node shows this content: numbers are kept, strings resolve to the text, pictures,
sounds and data point at their bytes. -/
inductive ShowsVal (e : Env) : PObj → PVal → Prop
  | null : ShowsVal e .null .null
  | short (v : Int) : ShowsVal e (.short v) (.short v)
  | int (v : Int) : ShowsVal e (.int v) (.int v)
  | long (v : Int) : ShowsVal e (.long v) (.long v)
  | float (b : Nat) : ShowsVal e (.float b) (.float b)
  | double (b : Nat) : ShowsVal e (.double b) (.double b)
  | str (m : StrMeta) (s : List Char) : resolveMeta e m.ty m.offset m.length = .ok s → ShowsVal e (.str m) (.str s)
  | sub : ShowsVal e .property .sub
  | canvas (g : Png) (pages : Int) (data : Bytes) : g.pages = pages → g.size = data.length →
      Holds e.buf g.offset data → g.header = leNat (data.take 2) →
      ShowsVal e (.canvas g) (.canvas g.width g.height g.format1 g.format2 pages data)
  | convex : ShowsVal e .convex .convex
  | vector (x y : Int) : ShowsVal e (.vector x y) (.vector x y)
  | sound (s : Sound) (header data : Bytes) : s.headerSize = header.length → Holds e.buf s.headerOffset header →
      s.length = data.length → Holds e.buf s.offset data →
      (s.ty = .mp3 ↔ header.length ≠ 70) →
      (s.ty = .binary ↔ header.length = 70 ∧ leNat ((header.drop 56).take 4) = data.length ∧ s.duration = 1000) →
      ShowsVal e (.sound s) (.sound s.duration header data)
  | uol (m : StrMeta) (s : List Char) : resolveMeta e m.ty m.offset m.length = .ok s → ShowsVal e (.uol m) (.uol s)
  | raw (off : Nat) (data : Bytes) : Holds e.buf off data → ShowsVal e (.raw off data.length) (.raw data)
  | video (off : Nat) (data : Bytes) : Holds e.buf off data → ShowsVal e (.video off data.length) (.video data)

/-- The same names in the same order, with the same content, and so on below. -/
inductive ShowsKids (e : Env) : List (List Char × PNode) → List (List Char × PTree) → Prop
  | nil : ShowsKids e [] []
  | cons (name : List Char) (o : PObj) (v : PVal) (ks rest : List (List Char × PNode))
      (ks' rest' : List (List Char × PTree)) : ShowsVal e o v → ShowsKids e ks ks' → ShowsKids e rest rest' →
      ShowsKids e ((name, .node o ks) :: rest) ((name, .node v ks') :: rest')

/-- a parsed node shows a tree -/
def Shows (e : Env) (n : PNode) (t : PTree) : Prop := ShowsKids e [([], n)] [([], t)]

/-- A string stored in a block at `p` that ends at `q`: in place, elsewhere relative to the base offset `o`, or
left out. -/
inductive StrBlock (e : Env) (o : Nat) : Nat → List Char → Nat → Prop
  | inline (p : Nat) (t : Byte) (s : List Char) (bs : Bytes) : t = 0x00#8 ∨ t = 0x73#8 → IsWzString e.ks s bs →
      Holds e.buf p (t :: bs) → StrBlock e o p s (p + (1 + bs.length))
  | elsewhere (p : Nat) (t : Byte) (n : Nat) (s : List Char) (bs : Bytes) : t = 0x01#8 ∨ t = 0x1B#8 → n < 2 ^ 31 →
      IsWzString e.ks s bs → Holds e.buf p (t :: toLE 4 n) → Holds e.buf (o + n) bs → StrBlock e o p s (p + 5)
  | absent (p : Nat) (t : Byte) : t ∉ [0x00#8, 0x73#8, 0x01#8, 0x1B#8] → Holds e.buf p [t] →
      StrBlock e o p [] (p + 1)

/-- the single-precision number with the value of a byte: sign 0, exponent and fraction by hand -/
def IsSmallFloat (b : Byte) (bits : Nat) : Prop :=
  (b = 0#8 ∧ bits = 0) ∨
    ∃ k f : Nat, f < 2 ^ 23 ∧ bits = (127 + k) * 2 ^ 23 + f ∧ b.toNat * 2 ^ 23 = 2 ^ k * (2 ^ 23 + f)

/-- type code, content and stored bytes of the plain values -/
inductive IsPlain : Byte → PVal → Bytes → Prop
  | null : IsPlain 0 .null []
  | short (ty : Byte) (v : Int) : ty = 2#8 ∨ ty = 11#8 → -2 ^ 15 ≤ v → v < 2 ^ 15 →
      IsPlain ty (.short v) (toLE 2 (unsign 16 v))
  | int (ty : Byte) (v : Int) (bs : Bytes) : ty = 3#8 ∨ ty = 19#8 → IsWzInt 4 v bs → IsPlain ty (.int v) bs
  | long (v : Int) (bs : Bytes) : IsWzInt 8 v bs → IsPlain 20 (.long v) bs
  | float (bits : Nat) : bits < 2 ^ 32 → IsPlain 4 (.float bits) (0x80#8 :: toLE 4 bits)
  | smallFloat (b : Byte) (bits : Nat) : b ≠ 0x80#8 → IsSmallFloat b bits → IsPlain 4 (.float bits) [b]
  | double (bits : Nat) : bits < 2 ^ 64 → IsPlain 5 (.double bits) (toLE 8 bits)

/-- what can be stored: the body of an extended property inside a block that ends at `eob`, a run of list
entries, the points of a shape numbered from `i` -/
inductive Piece where
  | ext (eob : Nat) (t : PTree)
  | items (kids : List (List Char × PTree))
  | points (eob i : Nat) (kids : List (List Char × PTree))

/-- the kinds of extended properties -/
def knownKinds : List (List Char) :=
  ["Property".toList, "Canvas".toList, "Shape2D#Convex2D".toList, "Shape2D#Vector2D".toList, "Sound_DX8".toList,
    "UOL".toList, "RawData".toList, "Canvas#Video".toList]

def names (kids : List (List Char × PTree)) : List (List Char) := kids.map Prod.fst

/-- the fields of a canvas stored at `p`; they end two bytes into the picture data -/
structure CanvasFields (e : Env) (p w h fmt scale : Nat) (pages : Int) (data : Bytes) (q : Nat) : Prop where
  bytes : ∃ wb hb fb gb ub : Bytes, ∃ u : Int, ∃ j1 j2 j3 : Byte,
    IsWzInt 4 w wb ∧ IsWzInt 4 h hb ∧ IsWzInt 4 fmt fb ∧ scale < 128 ∧ IsWzInt 4 pages gb ∧ IsWzInt 4 u ub ∧
    2 ≤ data.length ∧ data.length + 1 < 2 ^ 31 ∧
    Holds e.buf p (wb ++ (hb ++ (fb ++ ([BitVec.ofNat 8 scale] ++ (gb ++ (ub ++ ([j1, j2] ++ (toLE 4 (data.length + 1) ++
      ([j3] ++ data))))))))) ∧
    q = p + (wb.length + hb.length + fb.length + 1 + gb.length + ub.length + 2 + 4 + 1 + 2)

/-- `Stored e o piece p q`: the piece is stored at position `p`; a reader is at `q` when it is through.
Strings stored elsewhere are relative to `o`. -/
inductive Stored (e : Env) (o : Nat) : Piece → Nat → Nat → Prop
  | nil (p : Nat) : Stored e o (.items []) p p
  | plain (p p1 q : Nat) (name : List Char) (ty : Byte) (v : PVal) (bs : Bytes) (rest : List (List Char × PTree)) :
      StrBlock e o p name p1 → IsPlain ty v bs → Holds e.buf p1 (ty :: bs) →
      Stored e o (.items rest) (p1 + (1 + bs.length)) q →
      Stored e o (.items ((name, .node v []) :: rest)) p q
  | str (p p1 p2 q : Nat) (name s : List Char) (rest : List (List Char × PTree)) :
      StrBlock e o p name p1 → Holds e.buf p1 [8#8] → StrBlock e o (p1 + 1) s p2 →
      Stored e o (.items rest) p2 q →
      Stored e o (.items ((name, .node (.str s) []) :: rest)) p q
  | block (p p1 r q size : Nat) (name : List Char) (t : PTree) (rest : List (List Char × PTree)) :
      StrBlock e o p name p1 → size < 2 ^ 32 → Holds e.buf p1 (9#8 :: toLE 4 size) →
      Stored e o (.ext (p1 + 5 + size) t) (p1 + 5) r →
      Stored e o (.items rest) (p1 + 5 + size) q →
      Stored e o (.items ((name, t) :: rest)) p q
  | unknown (p p1 r q size : Nat) (name kind : List Char) (rest : List (List Char × PTree)) :
      StrBlock e o p name p1 → size < 2 ^ 32 → Holds e.buf p1 (9#8 :: toLE 4 size) →
      StrBlock e o (p1 + 5) kind r → kind ∉ knownKinds →
      Stored e o (.items rest) (p1 + 5 + size) q →
      Stored e o (.items ((name, .node .null []) :: rest)) p q
  | property (p p1 q eob : Nat) (nb : Bytes) (kids : List (List Char × PTree)) :
      StrBlock e o p "Property".toList p1 → IsWzInt 4 kids.length nb → Holds e.buf (p1 + 2) nb →
      (names kids).Nodup → Stored e o (.items kids) (p1 + 2 + nb.length) q →
      Stored e o (.ext eob (.node .sub kids)) p q
  | canvas (p p1 q eob w h fmt scale : Nat) (j b : Byte) (pages : Int) (data : Bytes) :
      StrBlock e o p "Canvas".toList p1 → Holds e.buf p1 [j, b] → b ≠ 1#8 →
      CanvasFields e (p1 + 2) w h fmt scale pages data q →
      Stored e o (.ext eob (.node (.canvas w h fmt scale pages data) [])) p q
  | canvasKids (p p1 p2 q eob w h fmt scale : Nat) (j : Byte) (nb : Bytes) (kids : List (List Char × PTree))
      (pages : Int) (data : Bytes) :
      StrBlock e o p "Canvas".toList p1 → Holds e.buf p1 [j, 1#8] → IsWzInt 4 kids.length nb →
      Holds e.buf (p1 + 4) nb → (names kids).Nodup → Stored e o (.items kids) (p1 + 4 + nb.length) p2 →
      CanvasFields e p2 w h fmt scale pages data q →
      Stored e o (.ext eob (.node (.canvas w h fmt scale pages data) kids)) p q
  | convex (p p1 q eob : Nat) (nb : Bytes) (kids : List (List Char × PTree)) :
      StrBlock e o p "Shape2D#Convex2D".toList p1 → IsWzInt 4 kids.length nb → Holds e.buf p1 nb →
      Stored e o (.points eob 0 kids) (p1 + nb.length) q →
      Stored e o (.ext eob (.node .convex kids)) p q
  | vector (p p1 eob : Nat) (x y : Int) (xb yb : Bytes) :
      StrBlock e o p "Shape2D#Vector2D".toList p1 → IsWzInt 4 x xb → IsWzInt 4 y yb → Holds e.buf p1 (xb ++ yb) →
      Stored e o (.ext eob (.node (.vector x y) [])) p (p1 + xb.length + yb.length)
  | sound (p p1 eob d : Nat) (j : Byte) (sb db header data : Bytes) :
      StrBlock e o p "Sound_DX8".toList p1 → IsWzInt 4 data.length sb → IsWzInt 4 d db →
      Holds e.buf p1 ([j] ++ (sb ++ (db ++ (header ++ data)))) →
      eob = p1 + (1 + sb.length + db.length + header.length + data.length) →
      Stored e o (.ext eob (.node (.sound d header data) [])) p (p1 + (1 + sb.length + db.length))
  | uol (p p1 p2 eob : Nat) (s : List Char) :
      StrBlock e o p "UOL".toList p1 → StrBlock e o (p1 + 1) s p2 →
      Stored e o (.ext eob (.node (.uol s) [])) p p2
  | raw (p p1 eob : Nat) (head sb data : Bytes) :
      StrBlock e o p "RawData".toList p1 → (∃ v, v ≠ 1#8 ∧ head = [v]) ∨ (∃ b, b ≠ 1#8 ∧ head = [1#8, b]) →
      IsWzInt 4 data.length sb → Holds e.buf p1 (head ++ (sb ++ data)) →
      Stored e o (.ext eob (.node (.raw data) [])) p (p1 + head.length + sb.length)
  | rawKids (p p1 p2 eob : Nat) (nb sb data : Bytes) (kids : List (List Char × PTree)) :
      StrBlock e o p "RawData".toList p1 → Holds e.buf p1 [1#8, 1#8] → IsWzInt 4 kids.length nb →
      Holds e.buf (p1 + 4) nb → (names kids).Nodup → Stored e o (.items kids) (p1 + 4 + nb.length) p2 →
      IsWzInt 4 data.length sb → Holds e.buf p2 (sb ++ data) →
      Stored e o (.ext eob (.node (.raw data) kids)) p (p2 + sb.length)
  | video (p p1 eob : Nat) (j1 j2 j3 : Byte) (sb data : Bytes) :
      StrBlock e o p "Canvas#Video".toList p1 → IsWzInt 4 data.length sb →
      Holds e.buf p1 ([j1, j2, j3] ++ (sb ++ data)) →
      Stored e o (.ext eob (.node (.video data) [])) p (p1 + 3 + sb.length)
  | noPoint (p eob i : Nat) : Stored e o (.points eob i []) p p
  | point (p p1 q eob i : Nat) (t : PTree) (rest : List (List Char × PTree)) :
      Stored e o (.ext eob t) p p1 → Stored e o (.points eob (i + 1) rest) p1 q →
      Stored e o (.points eob i ((Nat.toDigits 10 i, t) :: rest)) p q

/-- a list of properties: how many, then the entries -/
def StoredList (e : Env) (o : Nat) (kids : List (List Char × PTree)) (p q : Nat) : Prop :=
  ∃ nb, IsWzInt 4 kids.length nb ∧ Holds e.buf p nb ∧ Stored e o (.items kids) (p + nb.length) q

end Wz.Spec

namespace Wz.Spec

/-- the tree `t` is found in a list of properties by going down the path, through sub-properties only -/
inductive AtPath : List (List Char × PTree) → List (List Char) → PTree → Prop
  | last (kids : List (List Char × PTree)) (name : List Char) (t : PTree) : (name, t) ∈ kids → AtPath kids [name] t
  | step (kids ks : List (List Char × PTree)) (name next : List Char) (rest : List (List Char)) (t : PTree) :
      (name, .node .sub ks) ∈ kids → AtPath ks (next :: rest) t → AtPath kids (name :: next :: rest) t

end Wz.Spec

namespace Wz.Spec

/-- no name occurs twice among the children of one node -/
inductive NodupTree : List (List Char × PTree) → Prop
  | mk (kids : List (List Char × PTree)) : (names kids).Nodup →
      (∀ name v ks, (name, PTree.node v ks) ∈ kids → NodupTree ks) → NodupTree kids

theorem NodupTree.here {kids : List (List Char × PTree)} (h : NodupTree kids) : (names kids).Nodup := by
  cases h with | mk _ h _ => exact h

theorem NodupTree.down {kids : List (List Char × PTree)} (h : NodupTree kids) (name : List Char) (v : PVal)
    (ks : List (List Char × PTree)) (hm : (name, PTree.node v ks) ∈ kids) : NodupTree ks := by
  cases h with | mk _ _ h => exact h name v ks hm

end Wz.Spec

namespace Wz.Spec

/-- the path leads through sub-properties to a list without its last component -/
inductive MissingAt : List (List Char × PTree) → List (List Char) → Prop
  | last (kids : List (List Char × PTree)) (name : List Char) : name ∉ names kids → MissingAt kids [name]
  | step (kids ks : List (List Char × PTree)) (name next : List Char) (rest : List (List Char)) :
      (name, .node .sub ks) ∈ kids → MissingAt ks (next :: rest) → MissingAt kids (name :: next :: rest)

end Wz.Spec
