import Verif.Whole.Spec
import Verif.Whole.JsonModel
import Verif.Value.JsonProps

/-!
# The JSON of what an author put into an image
-/

set_option autoImplicit false

namespace Wz.Spec

open Wz

/-- the name of the kind of a sound: by the length of its header and the length stored in it -/
def soundKind (duration : Nat) (header data : Bytes) : List Char :=
  if header.length ≠ 70 then "Mp3".toList
  else if leNat ((header.drop 56).take 4) = data.length ∧ duration = 1000 then "Binary".toList
  else "Wav".toList

/-- the fields a picture or a sound has of its own -/
def fieldsOf : PVal → List Char → Option Json
  | .canvas width height _ _ _ _, k =>
    if k = "width".toList then some (.int width) else if k = "height".toList then some (.int height) else none
  | .sound duration header data, k =>
    if k = "duration".toList then some (.int duration)
    else if k = "sound_type".toList then some (.str (soundKind duration header data)) else none
  | _, _ => none

/-- the JSON of a property without children -/
inductive JsonVal : PVal → Json → Prop
  | null : JsonVal .null .null
  | sub : JsonVal .sub .null
  | convex : JsonVal .convex .null
  | raw (data : Bytes) : JsonVal (.raw data) .null
  | video (data : Bytes) : JsonVal (.video data) .null
  | short (v : Int) : JsonVal (.short v) (.int v)
  | int (v : Int) : JsonVal (.int v) (.int v)
  | long (v : Int) : JsonVal (.long v) (.int v)
  /-- the same number with the same sign -/
  | float (b d : Nat) : ¬ NotFinite64 d → num64 d = num32 b * 2 ^ 925 → d / 9223372036854775808 = b / 2147483648 →
      JsonVal (.float b) (.float d)
  | double (b : Nat) : JsonVal (.double b) (.float b)
  | str (s : List Char) : JsonVal (.str s) (.str s)
  | vector (x y : Int) (m : List (List Char × Json)) : (m.map Prod.fst).Nodup →
      (∀ k, entry m k = if k = "x".toList then some (.int x) else if k = "y".toList then some (.int y) else none) →
      JsonVal (.vector x y) (.obj m)
  | canvas (w h f s : Nat) (p : Int) (data : Bytes) (m : List (List Char × Json)) : (m.map Prod.fst).Nodup →
      (∀ k, entry m k = fieldsOf (.canvas w h f s p data) k) → JsonVal (.canvas w h f s p data) (.obj m)
  | sound (d : Nat) (header data : Bytes) (m : List (List Char × Json)) : (m.map Prod.fst).Nodup →
      (∀ k, entry m k = fieldsOf (.sound d header data) k) → JsonVal (.sound d header data) (.obj m)

/-- The JSON of a property with everything below it: its children under their names, beside them its own fields as far as no
child has the same name. -/
inductive ShowsJson : PTree → Json → Prop
  | leaf (v : PVal) (j : Json) : JsonVal v j → ShowsJson (.node v []) j
  | node (v : PVal) (kids : List (List Char × PTree)) (m : List (List Char × Json)) (f : List Char → Json) : kids ≠ [] →
      (m.map Prod.fst).Nodup → (∀ n t, lastNamed kids n = some t → entry m n = some (f n)) →
      (∀ n t, lastNamed kids n = some t → ShowsJson t (f n)) →
      (∀ n, lastNamed kids n = none → entry m n = fieldsOf v n) → ShowsJson (.node v kids) (.obj m)

/-- what is found in JSON by names, one after the other -/
def jsonAt : Json → List (List Char) → Option Json
  | j, [] => some j
  | .obj m, n :: ns => match entry m n with
    | some j => jsonAt j ns
    | none => none
  | _, _ :: _ => none

/-- what is found in an image by names, one after the other -/
def partAt : PTree → List (List Char) → Option PTree
  | t, [] => some t
  | .node _ kids, n :: ns => match lastNamed kids n with
    | some t => partAt t ns
    | none => none

/-- all numbers that can be seen are finite: JSON has no others -/
def FiniteNumbers (kids : List (List Char × PTree)) : Prop :=
  ∀ d v, propAt kids d = some v → (∀ b, v = .float b → ¬ NotFinite32 b) ∧ ∀ b, v = .double b → ¬ NotFinite64 b

/-- the properties of an image; that of a text or a script is raw data -/
def propsOf : ATree → Option (List (List Char × PTree))
  | .image ps => some ps
  | .text d => some [("text.txt".toList, .node (.raw d) [])]
  | .script d => some [("Script".toList, .node (.raw d) [])]
  | .dir _ => none

/-- the properties of the image at the end of a path -/
def imageAt : List (List Char × ATree) → List (List Char) → Option (List (List Char × PTree))
  | _, [] => none
  | kids, n :: ns => match lastNamed kids n with
    | some (.dir ks) => imageAt ks ns
    | some t => if ns = [] then propsOf t else none
    | none => none

/-- Node `k` can be exported, and its JSON shows these properties. -/
def ExportsAs (e : Env) (h : NHeap) (k : Nat) (props : List (List Char × PTree)) : Prop :=
  ∃ j N, (∀ fuel, N ≤ fuel → h.exportJson e fuel k = some (.ok j)) ∧ ShowsJson (.node .sub props) j

/-- every image is without links and with finite numbers only -/
def Exportable (arch : List (List Char × ATree)) : Prop :=
  ∀ ns props, imageAt arch ns = some props → NoUol props ∧ FiniteNumbers props

/-- The JSON of what is at path `d` of an archive of which some images have been read: these show their properties, the others are null;
directories have their children under their names, empty ones are null. -/
inductive ShowsArc (read : List (List Char) → Prop) : List (List Char) → ATree → Json → Prop
  | unread (d : List (List Char)) (t : ATree) (props : List (List Char × PTree)) : propsOf t = some props → ¬ read d → ShowsArc read d t .null
  | image (d : List (List Char)) (t : ATree) (props : List (List Char × PTree)) (j : Json) : propsOf t = some props → read d →
      ShowsJson (.node .sub props) j → ShowsArc read d t j
  | empty (d : List (List Char)) : ShowsArc read d (.dir []) .null
  | dir (d : List (List Char)) (kids : List (List Char × ATree)) (m : List (List Char × Json)) (f : List Char → Json) : kids ≠ [] →
      (m.map Prod.fst).Nodup → (∀ n t, lastNamed kids n = some t → entry m n = some (f n)) →
      (∀ n t, lastNamed kids n = some t → ShowsArc read (d ++ [n]) t (f n)) →
      (∀ n, lastNamed kids n = none → entry m n = none) → ShowsArc read d (.dir kids) (.obj m)

/-- the image at path `d` below node `i` has been read -/
def IsRead (h : NHeap) (i : Nat) (d : List (List Char)) : Prop :=
  ∃ k c s, follow h i d = some k ∧ h.cell k = some c ∧ c.kind = .image true s

end Wz.Spec
