import Verif.Value.SerdeLemmas

/-!
# The full JSON of a node and reading it back (C63)
-/

set_option autoImplicit false

namespace Wz.Props

open Wz Spec

/-- C63: a tree whose objects can be kept is exported, the JSON is read, and the tree that is read has the same names, types, values and
texts in the same places.  Missing: null, numbers that are not finite and texts outside of the basic plane (counterexamples below); raw
data, videos and scripts cannot be exported at all (`C63_exported_iff`). -/
theorem C63_read_back_partial (m : Mode) (a : SNode) (h : Throughout (fun o _ => Keepable o) a) :
    ∃ j b, a.toJson = .ok j ∧ SNode.ofJson m j = some b ∧ ReadBack a b := by
  obtain ⟨j, b, h1, h2, h3, _⟩ := node_back m a h
  exact ⟨j, b, h1, h2, h3⟩

/-- C63: what is read back is exported to the same JSON again. -/
theorem C63_same_json (m : Mode) (a b : SNode) (j : JVal) (h : Throughout (fun o _ => Keepable o) a) (h1 : a.toJson = .ok j)
    (h2 : SNode.ofJson m j = some b) : b.toJson = .ok j := by
  obtain ⟨j', b', g1, g2, _, g4⟩ := node_back m a h
  rw [h1] at g1
  cases g1
  rw [h2] at g2
  cases g2
  exact g4

/-- C63: the JSON of every tree that is exported says the name, the type, the data and the children of every node. -/
theorem C63_format (a : SNode) (j : JVal) (h : a.toJson = .ok j) : Describes a j := node_format a j h

/-- C63: a tree is exported exactly if it has no raw data, video or script in it and the reading of no text in it panics. -/
theorem C63_exported_iff (a : SNode) : (∃ j, a.toJson = .ok j) ↔ Throughout (fun o _ => ¬ IsBinary o ∧ ¬ TextPanics o) a := node_written a

/-- C63: whatever JSON is read, no node in the tree has a parent. -/
theorem C63_no_parents (m : Mode) (j : JVal) (b : SNode) (h : SNode.ofJson m j = some b) : Throughout (fun _ p => p = false) b :=
  node_parentless m j b h

/-- C63: whatever JSON is read, the node has the name that the JSON says and one child for every entry of the children, under the key of
the entry; if one child cannot be read, nothing is. -/
theorem C63_reads_all (m : Mode) (j : JVal) (n : List Char) (o : SObj) (p : Bool) (ks : List (List Char × SNode))
    (h : SNode.ofJson m j = some (.node n o p ks)) :
    ∃ e js, j = .obj e ∧ jget e chars!"name" = some (.str n) ∧ jget e chars!"children" = some (.obj js) ∧ ks.length = js.length ∧
      ∀ (i : Nat) (k : List Char) (v : JVal), js[i]? = some (k, v) → ∃ c, ks[i]? = some (k, c) ∧ SNode.ofJson m v = some c := by
  obtain ⟨e, n', o', ks', rfl, hb, h1, _, h3⟩ := read_node h
  cases hb
  obtain ⟨js, g1, g2⟩ := children_read e ks h3
  exact ⟨e, js, rfl, h1, g1, kids_read js ks g2⟩

/-- C63: a node of a type that is not known is read as a property if it has no data, and otherwise not at all. -/
theorem C63_unknown_type (m : Mode) (e : List (List Char × JVal)) (t : List Char) (h : jget e chars!"type" = some (.str t))
    (ht : t ∉ knownTypes) :
    (jget e chars!"data" = none ∨ jget e chars!"data" = some .null → SObj.read m e = some (.property .property)) ∧
    (jget e chars!"data" ≠ none → jget e chars!"data" ≠ some .null → SNode.ofJson m (.obj e) = none) := by
  have hu := unknown_read m h ht
  constructor
  · intro hd
    rw [hu]
    rcases hd with hd | hd <;> rw [hd] <;> rfl
  · intro h1 h2
    have hn : SObj.read m e = none := by
      rw [hu]
      cases hd : jget e chars!"data" with
      | none => exact (h1 hd).elim
      | some v =>
        cases v with
        | null => exact (h2 hd).elim
        | _ => rfl
    cases hr : SNode.ofJson m (.obj e) with
    | none => rfl
    | some b =>
      obtain ⟨e', _, o, _, he, _, _, h3, _⟩ := read_node hr
      cases he
      rw [hn] at h3
      cases h3

/-- C63, counterexample: a null is exported and read back as a property. -/
theorem C63_null_counterexample (m : Mode) (n : List Char) (p : Bool) :
    ∃ j, (SNode.node n (.value .null) p []).toJson = .ok j ∧ SNode.ofJson m j = some (.node n (.property .property) false []) :=
  ⟨_, rfl, rfl⟩

/-- C63, counterexample: a float or double that is not finite is read back as a property. -/
theorem C63_nan_counterexample (m : Mode) (n : List Char) (p : Bool) (b : Nat) :
    (b / 2 ^ 23 % 256 = 255 → ∃ j, (SNode.node n (.value (.float b)) p []).toJson = .ok j ∧
      SNode.ofJson m j = some (.node n (.property .property) false [])) ∧
    (b / 2 ^ 52 % 2048 = 2047 → ∃ j, (SNode.node n (.value (.double b)) p []).toJson = .ok j ∧
      SNode.ofJson m j = some (.node n (.property .property) false [])) := by
  have key (x : Nat) (t : List Char) (hx : finite64 x = false) :
      tagged t (some (jfloat x)) = tagged t (some .null) := by
    unfold jfloat
    rw [hx]
    rfl
  constructor
  · intro h
    refine ⟨.obj (nodeEntries n (tagged chars!"Float" (some .null)) []), ?_, rfl⟩
    refine toJson_node ?_ rfl
    exact congrArg Except.ok (key _ _ (float_not_finite h))
  · intro h
    refine ⟨.obj (nodeEntries n (tagged chars!"Double" (some .null)) []), ?_, rfl⟩
    refine toJson_node ?_ rfl
    refine congrArg Except.ok (key _ _ ?_)
    unfold finite64
    rw [show b / 2 ^ 52 % 2 ^ 11 = 2047 from h]
    decide

/-- C63, counterexample: a text with a character outside of the basic plane comes back as another text. -/
theorem C63_astral_counterexample (m : Mode) (n t : List Char) (p : Bool) (s : StrRef) (h : s.get = .ok t) (hl : t.length < 2 ^ 30)
    (c : Char) (hc : c ∈ t) (ha : 0x10000 ≤ c.toNat) :
    ∃ j s', (SNode.node n (.value (.str s)) p []).toJson = .ok j ∧ SNode.ofJson m j = some (.node n (.value (.str s')) false []) ∧
      s'.get ≠ .ok t := by
  refine ⟨.obj (nodeEntries n (tagged chars!"String" (some (.str t))) []), StrRef.make m t, toJson_node ?_ rfl, rfl, fun hg => ?_⟩
  · show s.write.map _ = _
    rw [text_write h]
    rfl
  · have := (make_get m hl).1 hg c hc
    omega

/-- C63, counterexample: a picture without its data is not an error but a null. -/
theorem C63_picture_counterexample (m : Mode) (n : List Char) : SNode.ofJson m
    (.obj [(chars!"name", .str n), (chars!"type", .str chars!"PNG"), (chars!"children", .obj [])]) = some (.node n (.value .null) false []) := rfl

/-! ## Examples -/

/-- a directory with an image, which has a number, a text, a float and a picture -/
def sampleExport : SNode :=
  .node chars!"Map" (.directory (some 7)) false [(chars!"a.img", .node chars!"a.img" (.image (some 9)) true [
    (chars!"x", .node chars!"x" (.value (.int (-5))) true []),
    (chars!"s", .node chars!"s" (.value (.str (StrRef.make .checked chars!"ab"))) true []),
    (chars!"f", .node chars!"f" (.value (.float 0x3f8ccccd)) true []),
    (chars!"p", .node chars!"p" (.property (.png ⟨100, 20, 1, 0, 0, 0, 4, 6⟩)) true [])])]

theorem sampleExport_kept : Throughout (fun o _ => Keepable o) sampleExport := by
  refine .node _ _ _ _ trivial (.cons _ _ _ (.node _ _ _ _ trivial ?_) .nil)
  refine .cons _ _ _ (.node _ _ _ _ ⟨by decide, by decide⟩ .nil) (.cons _ _ _ (.node _ _ _ _ ?_ .nil) ?_)
  · exact ⟨chars!"ab", (make_get .checked (by decide)).2 (by decide), by decide, by decide⟩
  · exact .cons _ _ _ (.node _ _ _ _ ⟨by decide, by decide⟩ .nil) (.cons _ _ _ (.node _ _ _ _ ⟨by decide, by decide⟩ .nil) .nil)

example : ∃ j b, sampleExport.toJson = .ok j ∧ SNode.ofJson .checked j = some b ∧ ReadBack sampleExport b :=
  C63_read_back_partial .checked sampleExport sampleExport_kept

example : ∃ j b, sampleExport.toJson = .ok j ∧ SNode.ofJson .checked j = some b ∧ b.toJson = .ok j := by
  obtain ⟨j, b, h1, h2, _⟩ := C63_read_back_partial .checked sampleExport sampleExport_kept
  exact ⟨j, b, h1, h2, C63_same_json .checked _ b j sampleExport_kept h1 h2⟩

example : ∃ j, sampleExport.toJson = .ok j ∧ Describes sampleExport j := by
  obtain ⟨j, _, h1, _⟩ := C63_read_back_partial .checked sampleExport sampleExport_kept
  exact ⟨j, h1, C63_format _ j h1⟩

example : ¬ ∃ j, (SNode.node chars!"a" (.image none) false [(chars!"v", .node chars!"v" (.value (.video 3 9)) true [])]).toJson = .ok j := by
  rw [C63_exported_iff]
  intro h
  cases h with
  | node _ _ _ _ _ hk =>
    cases hk with
    | cons _ _ _ h1 _ =>
      cases h1 with
      | node _ _ _ _ h2 _ => exact h2.1 trivial

example : SNode.ofJson .checked (.obj [(chars!"name", .str chars!"n"), (chars!"type", .str chars!"Shape"), (chars!"data", .int 4),
    (chars!"children", .obj [])]) = none :=
  (C63_unknown_type .checked _ chars!"Shape" rfl (by decide)).2 (by simp [jget]) (by simp [jget])

example : ∃ j n o p ks, sampleExport.toJson = .ok j ∧ SNode.ofJson .checked j = some (.node n o p ks) ∧ ks.length = 1 := by
  obtain ⟨j, b, h1, h2, h3⟩ := C63_read_back_partial .checked sampleExport sampleExport_kept
  cases h3 with
  | node n o o' p ks ks' _ hk =>
    cases hk with
    | cons _ _ _ _ _ _ hn =>
      cases hn
      exact ⟨j, _, _, _, _, h1, h2, rfl⟩

example : (0x7f800000 / 2 ^ 23 % 256 = 255) ∧ (0x7ff8000000000000 / 2 ^ 52 % 2048 = 2047) := by decide

/-- a stored text with one character of two units -/
def faceText : StrRef := ⟨⟨.checked, encryptStr (fun _ => 0#8) [Char.ofNat 0x1F600] .unicode, fun _ => 0#8, fun _ => 0#8⟩, ⟨0, 4, .unicode⟩⟩

theorem faceText_get : faceText.get = .ok [Char.ofNat 0x1F600] := by decide +kernel

example : ∃ j s', (SNode.node chars!"t" (.value (.str faceText)) false []).toJson = .ok j ∧
    SNode.ofJson .checked j = some (.node chars!"t" (.value (.str s')) false []) ∧ s'.get ≠ .ok [Char.ofNat 0x1F600] :=
  C63_astral_counterexample .checked chars!"t" _ false faceText faceText_get (by decide) _ (List.mem_singleton.2 rfl) (by decide)

example : ∃ b, (∃ j, sampleExport.toJson = .ok j ∧ SNode.ofJson .wrap j = some b) ∧ Throughout (fun _ p => p = false) b := by
  obtain ⟨j, b, h1, h2, _⟩ := C63_read_back_partial .wrap sampleExport sampleExport_kept
  exact ⟨b, ⟨j, h1, h2⟩, C63_no_parents .wrap j b h2⟩

end Wz.Props
