import Verif.Property.Spec
/-!
# What any bytes are taken for

`Stored` of `Spec.lean` says how a tool stores a tree of properties.  Here, from the other side: what a reader may take
any bytes for.  Texts that are no proper UTF-8 or UTF-16, several entries with one name, payloads that do not lie in the
file and numbers no tool writes are all included.
-/

set_option autoImplicit false

namespace Wz.Spec

/-- The bytes of a text that is read at once: a length and as many masked bytes or UTF-16 units.  What is no proper text
is shown with replacement characters. -/
inductive TextIs (ks : Nat → Byte) (s : List Char) : Bytes → Prop
  | empty : s = [] → TextIs ks s [0#8]
  | ascii (bs lb : Bytes) : IsAsciiLen bs.length lb → s = utf8Lossy bs → TextIs ks s (lb ++ cipherAscii ks bs)
  | unicode (us : List (BitVec 16)) (lb : Bytes) : IsUnicodeLen us.length lb → s = utf16Lossy us →
      TextIs ks s (lb ++ cipherUnicode ks us)

/-- A text in a block at `p` that ends at `q`: in place, elsewhere relative to `o`, or left out. -/
inductive TextBlock (e : Env) (o : Nat) : Nat → List Char → Nat → Prop
  | inline (p : Nat) (t : Byte) (s : List Char) (bs : Bytes) : t = 0x00#8 ∨ t = 0x73#8 → TextIs e.ks s bs →
      Holds e.buf p (t :: bs) → TextBlock e o p s (p + (1 + bs.length))
  | elsewhere (p : Nat) (t : Byte) (n : Nat) (s : List Char) (bs : Bytes) : t = 0x01#8 ∨ t = 0x1B#8 → n < 2 ^ 31 →
      TextIs e.ks s bs → Holds e.buf p (t :: toLE 4 n) → Holds e.buf (o + n) bs → TextBlock e o p s (p + 5)
  | absent (p : Nat) (t : Byte) : t ∉ [0x00#8, 0x73#8, 0x01#8, 0x1B#8] → Holds e.buf p [t] →
      TextBlock e o p [] (p + 1)

/-- Of a text that is a value only the length is read, its bytes may be missing.  At `p` are the bytes `lb` of a length:
the text is described by `m`, and a reader is behind it at `q`.  A long length is a signed number: a negative one is
taken for a huge one. -/
inductive Announced (p : Nat) : Bytes → StrMeta → Nat → Prop
  | empty : Announced p [0#8] { offset := 0, length := 0, ty := .empty } (p + 1)
  | asciiShort (n : Nat) : 1 ≤ n → n ≤ 127 →
      Announced p [byteOf (-n)] { offset := p + 1, length := n, ty := .ascii } (p + 1 + n)
  | asciiLong (l : Int) : -2 ^ 31 ≤ l → l < 2 ^ 31 → p + 5 + unsign 64 l < 2 ^ 64 →
      Announced p (0x80#8 :: toLE 4 (unsign 32 l)) { offset := p + 5, length := unsign 32 l, ty := .ascii } (p + 5 + unsign 64 l)
  | unicodeShort (n : Nat) : 1 ≤ n → n ≤ 126 →
      Announced p [byteOf n] { offset := p + 1, length := 2 * n, ty := .unicode } (p + 1 + 2 * n)
  | unicodeLong (n : Nat) : n < 2 ^ 31 →
      Announced p (0x7F#8 :: toLE 4 n) { offset := p + 5, length := 2 * n, ty := .unicode } (p + 5 + 2 * n)

/-- the same for a text in a block -/
inductive MetaBlock (e : Env) (o : Nat) : Nat → StrMeta → Nat → Prop
  | inline (p q : Nat) (t : Byte) (m : StrMeta) (lb : Bytes) : t = 0x00#8 ∨ t = 0x73#8 → Announced (p + 1) lb m q →
      Holds e.buf p (t :: lb) → MetaBlock e o p m q
  | elsewhere (p q : Nat) (t : Byte) (n : Nat) (m : StrMeta) (lb : Bytes) : t = 0x01#8 ∨ t = 0x1B#8 → n < 2 ^ 31 →
      Announced (o + n) lb m q → Holds e.buf p (t :: toLE 4 n) → Holds e.buf (o + n) lb → MetaBlock e o p m (p + 5)
  | absent (p : Nat) (t : Byte) : t ∉ [0x00#8, 0x73#8, 0x01#8, 0x1B#8] → Holds e.buf p [t] →
      MetaBlock e o p { offset := 0, length := 0, ty := .empty } (p + 1)

/-- the members of a list, each at its first place -/
def firsts : List (List Char) → List (List Char)
  | [] => []
  | x :: xs => x :: (firsts xs).filter fun y => decide (y ≠ x)

/-- `kids` is `raw` with one entry for each name: at the place of the first entry with this name, with the value of the
last. -/
def MergedKids {ν : Type} (raw kids : List (List Char × ν)) : Prop :=
  kids.map Prod.fst = firsts (raw.map Prod.fst) ∧
  ∀ n v, (n, v) ∈ kids ↔ ∃ before after, raw = before ++ (n, v) :: after ∧ ∀ it ∈ after, it.1 ≠ n

/-- the value of a property that has the code `ty` and is followed by the bytes `bs` -/
inductive PlainIs : Byte → PObj → Bytes → Prop
  | null : PlainIs 0 .null []
  | short (ty : Byte) (v : Int) : ty = 2#8 ∨ ty = 11#8 → -2 ^ 15 ≤ v → v < 2 ^ 15 →
      PlainIs ty (.short v) (toLE 2 (unsign 16 v))
  | int (ty : Byte) (v : Int) (bs : Bytes) : ty = 3#8 ∨ ty = 19#8 → IsWzInt 4 v bs → PlainIs ty (.int v) bs
  | long (v : Int) (bs : Bytes) : IsWzInt 8 v bs → PlainIs 20 (.long v) bs
  | float (bits : Nat) : bits < 2 ^ 32 → PlainIs 4 (.float bits) (0x80#8 :: toLE 4 bits)
  | smallFloat (b : Byte) (bits : Nat) : b ≠ 0x80#8 → IsSmallFloat b bits → PlainIs 4 (.float bits) [b]
  | double (bits : Nat) : bits < 2 ^ 64 → PlainIs 5 (.double bits) (toLE 8 bits)

/-- the fields of a picture at `p`; what they say may be negative or lie outside the file -/
def PictureIs (e : Env) (p : Nat) (g : Png) (q : Nat) : Prop :=
  ∃ (w h f sc n u : Int) (wb hb fb gb ub : Bytes), IsWzInt 4 w wb ∧ IsWzInt 4 h hb ∧ IsWzInt 4 f fb ∧
    -128 ≤ sc ∧ sc < 128 ∧ IsWzInt 4 g.pages gb ∧ IsWzInt 4 u ub ∧ -2 ^ 31 < n ∧ n < 2 ^ 31 ∧ g.header < 2 ^ 16 ∧
    Holds e.buf p (wb ++ (hb ++ (fb ++ ([byteOf sc] ++ (gb ++ ub))))) ∧
    Holds e.buf (p + (wb.length + hb.length + fb.length + 1 + gb.length + ub.length) + 2) (toLE 4 (unsign 32 n)) ∧
    Holds e.buf g.offset (toLE 2 g.header) ∧
    g.offset = p + (wb.length + hb.length + fb.length + 1 + gb.length + ub.length) + 7 ∧ q = g.offset + 2 ∧
    g.width = unsign 32 w ∧ g.height = unsign 32 h ∧ g.format1 = unsign 32 f ∧ g.format2 = unsign 32 sc ∧
    g.size = unsign 64 (n - 1)

/-- a sound at `p` in a block that ends at `eob`: its data are the last bytes of the block, its header is between its
fields and its data -/
def SoundIs (e : Env) (eob p : Nat) (s : Sound) (q : Nat) : Prop :=
  ∃ (n d : Int) (nb db header : Bytes), IsWzInt 4 n nb ∧ IsWzInt 4 d db ∧ Holds e.buf (p + 1) (nb ++ db) ∧
    q = p + 1 + nb.length + db.length ∧ Holds e.buf q header ∧ s.headerOffset = q ∧ s.headerSize = header.length ∧
    s.offset = q + header.length ∧ s.length = unsign 32 n ∧ s.offset + s.length = eob ∧ s.duration = unsign 32 d ∧
    (s.ty = .mp3 ↔ header.length ≠ 70) ∧
    (s.ty = .binary ↔ header.length = 70 ∧ leNat ((header.drop 56).take 4) = s.length ∧ s.duration = 1000)

/-- what bytes may be taken for: an extended property inside a block that ends at `eob`, a run of entries, the points of
a shape numbered from `i`; an extended property that is not understood, because of its own kind or because of the point
with the given name; at most `n` points from number `i` on of which the one with the given name is not understood -/
inductive Taking where
  | ext (eob : Nat) (n : PNode)
  | items (kids : List (List Char × PNode))
  | points (eob i : Nat) (kids : List (List Char × PNode))
  | strange (eob : Nat) (point : Option (List Char))
  | strangePoint (eob i n : Nat) (name : List Char)

/-- `Taken e o t p q`: the bytes at `p` may be taken for `t`; a reader is at `q` then. -/
inductive Taken (e : Env) (o : Nat) : Taking → Nat → Nat → Prop
  | nil (p : Nat) : Taken e o (.items []) p p
  | plain (p p1 q : Nat) (name : List Char) (ty : Byte) (v : PObj) (bs : Bytes) (rest : List (List Char × PNode)) :
      TextBlock e o p name p1 → PlainIs ty v bs → Holds e.buf p1 (ty :: bs) →
      Taken e o (.items rest) (p1 + (1 + bs.length)) q →
      Taken e o (.items ((name, .node v []) :: rest)) p q
  | str (p p1 p2 q : Nat) (name : List Char) (m : StrMeta) (rest : List (List Char × PNode)) :
      TextBlock e o p name p1 → Holds e.buf p1 [8#8] → MetaBlock e o (p1 + 1) m p2 →
      Taken e o (.items rest) p2 q →
      Taken e o (.items ((name, .node (.str m) []) :: rest)) p q
  | block (p p1 r q size : Nat) (name : List Char) (n : PNode) (rest : List (List Char × PNode)) :
      TextBlock e o p name p1 → size < 2 ^ 32 → Holds e.buf p1 (9#8 :: toLE 4 size) →
      Taken e o (.ext (p1 + 5 + size) n) (p1 + 5) r →
      Taken e o (.items rest) (p1 + 5 + size) q →
      Taken e o (.items ((name, n) :: rest)) p q
  /-- a block that is not understood is shown as nothing, under the name of the point because of which it is not -/
  | strangeBlock (p p1 r q size : Nat) (name : List Char) (point : Option (List Char)) (rest : List (List Char × PNode)) :
      TextBlock e o p name p1 → size < 2 ^ 32 → Holds e.buf p1 (9#8 :: toLE 4 size) →
      Taken e o (.strange (p1 + 5 + size) point) (p1 + 5) r →
      Taken e o (.items rest) (p1 + 5 + size) q →
      Taken e o (.items ((point.getD name, .node .null []) :: rest)) p q
  | property (p p1 q eob : Nat) (nb : Bytes) (raw kids : List (List Char × PNode)) :
      TextBlock e o p "Property".toList p1 → IsWzInt 4 raw.length nb → Holds e.buf (p1 + 2) nb →
      Taken e o (.items raw) (p1 + 2 + nb.length) q → MergedKids raw kids →
      Taken e o (.ext eob (.node .property kids)) p q
  | canvas (p p1 q eob : Nat) (b : Byte) (g : Png) :
      TextBlock e o p "Canvas".toList p1 → Holds e.buf (p1 + 1) [b] → b ≠ 1#8 → PictureIs e (p1 + 2) g q →
      Taken e o (.ext eob (.node (.canvas g) [])) p q
  | canvasKids (p p1 p2 q eob : Nat) (nb : Bytes) (raw kids : List (List Char × PNode)) (g : Png) :
      TextBlock e o p "Canvas".toList p1 → Holds e.buf (p1 + 1) [1#8] → IsWzInt 4 raw.length nb →
      Holds e.buf (p1 + 4) nb → Taken e o (.items raw) (p1 + 4 + nb.length) p2 → MergedKids raw kids →
      PictureIs e p2 g q →
      Taken e o (.ext eob (.node (.canvas g) kids)) p q
  | convex (p p1 q eob : Nat) (nb : Bytes) (kids : List (List Char × PNode)) :
      TextBlock e o p "Shape2D#Convex2D".toList p1 → IsWzInt 4 kids.length nb → Holds e.buf p1 nb →
      Taken e o (.points eob 0 kids) (p1 + nb.length) q →
      Taken e o (.ext eob (.node .convex kids)) p q
  | vector (p p1 eob : Nat) (x y : Int) (xb yb : Bytes) :
      TextBlock e o p "Shape2D#Vector2D".toList p1 → IsWzInt 4 x xb → IsWzInt 4 y yb → Holds e.buf p1 (xb ++ yb) →
      Taken e o (.ext eob (.node (.vector x y) [])) p (p1 + xb.length + yb.length)
  | sound (p p1 q eob : Nat) (s : Sound) :
      TextBlock e o p "Sound_DX8".toList p1 → SoundIs e eob p1 s q →
      Taken e o (.ext eob (.node (.sound s) [])) p q
  | uol (p p1 p2 eob : Nat) (m : StrMeta) :
      TextBlock e o p "UOL".toList p1 → MetaBlock e o (p1 + 1) m p2 →
      Taken e o (.ext eob (.node (.uol m) [])) p p2
  | raw (p p1 eob : Nat) (n : Int) (head nb : Bytes) :
      TextBlock e o p "RawData".toList p1 → (∃ v, v ≠ 1#8 ∧ head = [v]) ∨ (∃ b, b ≠ 1#8 ∧ head = [1#8, b]) →
      IsWzInt 4 n nb → Holds e.buf p1 (head ++ nb) →
      Taken e o (.ext eob (.node (.raw (p1 + head.length + nb.length) (unsign 64 n)) [])) p (p1 + head.length + nb.length)
  | rawKids (p p1 p2 eob : Nat) (n : Int) (nb sb : Bytes) (raw kids : List (List Char × PNode)) :
      TextBlock e o p "RawData".toList p1 → Holds e.buf p1 [1#8, 1#8] → IsWzInt 4 raw.length nb →
      Holds e.buf (p1 + 4) nb → Taken e o (.items raw) (p1 + 4 + nb.length) p2 → MergedKids raw kids →
      IsWzInt 4 n sb → Holds e.buf p2 sb →
      Taken e o (.ext eob (.node (.raw (p2 + sb.length) (unsign 64 n)) kids)) p (p2 + sb.length)
  | video (p p1 eob : Nat) (n : Int) (sb : Bytes) :
      TextBlock e o p "Canvas#Video".toList p1 → IsWzInt 4 n sb → Holds e.buf (p1 + 3) sb →
      Taken e o (.ext eob (.node (.video (p1 + 3 + sb.length) (unsign 64 n)) [])) p (p1 + 3 + sb.length)
  | noPoint (p eob i : Nat) : Taken e o (.points eob i []) p p
  | point (p p1 q eob i : Nat) (n : PNode) (rest : List (List Char × PNode)) :
      Taken e o (.ext eob n) p p1 → Taken e o (.points eob (i + 1) rest) p1 q →
      Taken e o (.points eob i ((Nat.toDigits 10 i, n) :: rest)) p q
  | unknown (p p1 eob : Nat) (kind : List Char) : TextBlock e o p kind p1 → kind ∉ knownKinds →
      Taken e o (.strange eob none) p p1
  | strangeShape (p p1 q eob n : Nat) (name : List Char) (nb : Bytes) :
      TextBlock e o p "Shape2D#Convex2D".toList p1 → IsWzInt 4 n nb → Holds e.buf p1 nb →
      Taken e o (.strangePoint eob 0 n name) (p1 + nb.length) q →
      Taken e o (.strange eob (some name)) p q
  | strangeHere (p q eob i n : Nat) (point : Option (List Char)) : Taken e o (.strange eob point) p q →
      Taken e o (.strangePoint eob i (n + 1) (point.getD (Nat.toDigits 10 i))) p q
  | strangeLater (p p1 q eob i n : Nat) (x : PNode) (name : List Char) : Taken e o (.ext eob x) p p1 →
      Taken e o (.strangePoint eob (i + 1) n name) p1 q →
      Taken e o (.strangePoint eob i (n + 1) name) p q

/-- a list of properties: how many, then the entries -/
def TakenList (e : Env) (o : Nat) (kids : List (List Char × PNode)) (p q : Nat) : Prop :=
  ∃ nb, IsWzInt 4 kids.length nb ∧ Holds e.buf p nb ∧ Taken e o (.items kids) (p + nb.length) q

end Wz.Spec
