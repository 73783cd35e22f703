import Verif.Whole.JsonSpec
import Verif.Whole.LinkSpec

/-!
# The JSON of an image with links
-/

set_option autoImplicit false

namespace Wz.Spec

open Wz

/-- the value at a place of an image; the image itself is a folder -/
def placeValue (ps : List (List Char × PTree)) (d : List (List Char)) : Option PVal := if d = [] then some .sub else propAt ps d

/-- The JSON of a place of an image: under each name the JSON of the place that is seen there, which for a link is the one it
leads to; beside them the own fields of the value.  A link that leads nowhere is its text. -/
inductive ShowsPlace (ps : List (List Char × PTree)) : List (List Char) → Json → Prop
  | leaf (d : List (List Char)) (v : PVal) (j : Json) : placeValue ps d = some v → (∀ n, propAt ps (d ++ [n]) = none) → JsonVal v j →
      ShowsPlace ps d j
  | dead (d : List (List Char)) (s : List Char) : placeValue ps d = some (.uol s) → (∀ n, propAt ps (d ++ [n]) = none) →
      ShowsPlace ps d (.str s)
  | node (d : List (List Char)) (v : PVal) (m : List (List Char × Json)) (f : List Char → Json) : placeValue ps d = some v →
      (∃ n w, propAt ps (d ++ [n]) = some w) → (m.map Prod.fst).Nodup →
      (∀ n t, SeenAt (linkPlaces ps) d [n] (some t) → entry m n = some (f n)) →
      (∀ n t, SeenAt (linkPlaces ps) d [n] (some t) → ShowsPlace ps t (f n)) →
      (∀ n, propAt ps (d ++ [n]) = none → entry m n = fieldsOf v n) → ShowsPlace ps d (.obj m)

/-- some names, beginning at the image and links taken for what they lead to, come back to a place where they were -/
def GoesRound (ps : List (List Char × PTree)) : Prop :=
  ∃ ms ns d, ns ≠ [] ∧ SeenAt (linkPlaces ps) [] ms (some d) ∧ SeenAt (linkPlaces ps) d ns (some d)

/-- every image has no name twice in one place, direct links in which no way goes round, and finite numbers only -/
def ExportableLinks (arch : List (List Char × ATree)) : Prop :=
  ∀ ns props, imageAt arch ns = some props → DistinctProps props ∧ DirectLinks (linkPlaces props) ∧ ¬ GoesRound props ∧ FiniteNumbers props

/-- `ShowsArc` with links: the JSON of what is at path `d` of an archive of which some images have been read. -/
inductive ShowsLinked (read : List (List Char) → Prop) : List (List Char) → ATree → Json → Prop
  | unread (d : List (List Char)) (t : ATree) (props : List (List Char × PTree)) : propsOf t = some props → ¬ read d → ShowsLinked read d t .null
  | image (d : List (List Char)) (t : ATree) (props : List (List Char × PTree)) (j : Json) : propsOf t = some props → read d →
      ShowsPlace props [] j → ShowsLinked read d t j
  | empty (d : List (List Char)) : ShowsLinked read d (.dir []) .null
  | dir (d : List (List Char)) (kids : List (List Char × ATree)) (m : List (List Char × Json)) (f : List Char → Json) : kids ≠ [] →
      (m.map Prod.fst).Nodup → (∀ n t, lastNamed kids n = some t → entry m n = some (f n)) →
      (∀ n t, lastNamed kids n = some t → ShowsLinked read (d ++ [n]) t (f n)) →
      (∀ n, lastNamed kids n = none → entry m n = none) → ShowsLinked read d (.dir kids) (.obj m)

end Wz.Spec
