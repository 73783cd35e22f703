import Verif.Value.SerdeRangeSpec
import Verif.Value.SerdeProps

/-!
# Whatever JSON is read, the numbers fit (C63)
-/

set_option autoImplicit false

namespace Wz

open Spec

theorem jint_range {lo hi v : Int} {d : Option JVal} (h : jint lo hi d = some v) : lo ≤ v ∧ v ≤ hi := by
  unfold jint at h
  split at h
  · split at h
    · cases h; assumption
    · cases h
  · cases h

theorem juint_range {n v : Nat} {d : Option JVal} (h : juint n d = some v) : v < 2 ^ n := by
  unfold juint at h
  obtain ⟨x, hx, rfl⟩ := Option.map_eq_some_iff.mp h
  have := jint_range hx
  have hp : (0 : Int) < 2 ^ n := Int.pow_pos (by decide)
  have hc : ((2 ^ n : Nat) : Int) = 2 ^ n := by simp
  omega

theorem fileMeta_range {e : List (List Char × JVal)} {d : FileMeta} (h : FileMeta.read e = some d) :
    IsI32 d.patch ∧ IsI32 d.verHeader ∧ d.hash < 2 ^ 64 := by
  unfold FileMeta.read at h
  simp only [Option.bind_eq_bind, Option.bind_eq_some_iff, Option.pure_def, Option.some.injEq] at h
  obtain ⟨_, _, a, ha, b, hb, _, _, c, hc, _, _, rfl⟩ := h
  exact ⟨jint_range ha, jint_range hb, juint_range hc⟩

theorem msMeta_range {e : List (List Char × JVal)} {d : MsMeta} (h : MsMeta.read e = some d) :
    IsI32 d.headerHash ∧ d.version < 256 ∧ IsI32 d.entryCount ∧ d.hstart < 2 ^ 64 ∧ d.estart < 2 ^ 64 ∧ d.msVersion < 256 := by
  unfold MsMeta.read at h
  simp only [Option.bind_eq_bind, Option.bind_eq_some_iff, Option.pure_def, Option.some.injEq] at h
  obtain ⟨_, _, _, _, a, ha, b, hb, c, hc, s, hs, t, ht, v, hv, rfl⟩ := h
  exact ⟨jint_range ha, juint_range (n := 8) hb, jint_range hc, juint_range hs, juint_range ht, juint_range (n := 8) hv⟩

theorem tagged_range {t : List Char} {d : Option JVal} {o : SObj} (h : SObj.readTagged t d = some o) : ReadableObj o := by
  unfold SObj.readTagged at h
  split at h
  · obtain ⟨x, hx, rfl⟩ := Option.map_eq_some_iff.mp h
    obtain ⟨e, _, he⟩ := Option.bind_eq_some_iff.mp hx
    obtain ⟨a, b, c⟩ := fileMeta_range he
    exact ⟨a, b, c, rfl⟩
  split at h
  · obtain ⟨x, hx, rfl⟩ := Option.map_eq_some_iff.mp h
    obtain ⟨e, _, he⟩ := Option.bind_eq_some_iff.mp hx
    obtain ⟨a, b, c, d, f, g⟩ := msMeta_range he
    exact ⟨a, b, c, d, f, g, rfl⟩
  split at h
  · obtain ⟨_, _, rfl⟩ := Option.map_eq_some_iff.mp h; rfl
  split at h
  · obtain ⟨_, _, rfl⟩ := Option.map_eq_some_iff.mp h; rfl
  split at h
  · obtain ⟨_, _, rfl⟩ := Option.map_eq_some_iff.mp h; rfl
  · cases h

theorem sub_range {t : List Char} {d : Option JVal} {s : Sub} (h : Sub.read t d = some s) : ReadableObj (.property s) := by
  unfold Sub.read at h
  split at h
  · split at h
    · cases h; trivial
    · cases h
  split at h
  · simp only [Option.bind_eq_bind, Option.bind_eq_some_iff, Option.pure_def, Option.some.injEq] at h
    obtain ⟨_, _, a, ha, _, _, rfl⟩ := h
    exact ⟨juint_range ha, rfl, rfl⟩
  split at h
  · simp only [Option.bind_eq_bind, Option.bind_eq_some_iff, Option.pure_def, Option.some.injEq] at h
    obtain ⟨_, _, a, ha, b, hb, rfl⟩ := h
    exact ⟨juint_range ha, juint_range hb, rfl, rfl⟩
  split at h
  · cases h; trivial
  · cases h

theorem vec_range {d : Option JVal} {v : V2} (h : V2.read d = some v) : IsI32 v.x ∧ IsI32 v.y := by
  unfold V2.read at h
  split at h
  · simp only [Option.bind_eq_bind, Option.bind_eq_some_iff, Option.pure_def, Option.some.injEq] at h
    obtain ⟨a, ha, b, hb, rfl⟩ := h
    exact ⟨jint_range ha, jint_range hb⟩
  · cases h

theorem val_range {m : Mode} {t : List Char} {d : Option JVal} {v : Val} (h : Val.read m t d = some v) : ReadableObj (.value v) := by
  unfold Val.read at h
  split at h
  · obtain ⟨_, hx, rfl⟩ := Option.map_eq_some_iff.mp h; exact jint_range hx
  split at h
  · obtain ⟨_, hx, rfl⟩ := Option.map_eq_some_iff.mp h; exact jint_range hx
  split at h
  · obtain ⟨_, hx, rfl⟩ := Option.map_eq_some_iff.mp h; exact jint_range hx
  split at h
  · obtain ⟨_, _, rfl⟩ := Option.map_eq_some_iff.mp h; trivial
  split at h
  · obtain ⟨_, _, rfl⟩ := Option.map_eq_some_iff.mp h; trivial
  split at h
  · obtain ⟨_, hx, rfl⟩ := Option.map_eq_some_iff.mp h; exact vec_range hx
  split at h
  · obtain ⟨_, _, rfl⟩ := Option.map_eq_some_iff.mp h; trivial
  split at h
  · obtain ⟨_, _, rfl⟩ := Option.map_eq_some_iff.mp h; trivial
  split at h
  · obtain ⟨_, _, rfl⟩ := Option.map_eq_some_iff.mp h; trivial
  split at h
  · cases h; trivial
  · cases h

theorem obj_range {m : Mode} {e : List (List Char × JVal)} {o : SObj} (h : SObj.read m e = some o) : ReadableObj o := by
  unfold SObj.read at h
  split at h
  · split at h
    · cases h; exact tagged_range (by assumption)
    · split at h
      · cases h; exact sub_range (by assumption)
      · obtain ⟨_, hx, rfl⟩ := Option.map_eq_some_iff.mp h; exact val_range hx
  · cases h

mutual
theorem node_range (m : Mode) : (b : SNode) → (j : JVal) → SNode.ofJson m j = some b → Throughout (fun o _ => ReadableObj o) b
  | .node n o p ks, j, h => by
    obtain ⟨e, n', o', ks', _, hb, _, h2, h3⟩ := read_node h
    cases hb
    obtain ⟨js, _, g⟩ := children_read e ks h3
    exact .node n o false ks (obj_range h2) (kids_range m ks js g)
theorem kids_range (m : Mode) : (ks : List (List Char × SNode)) → (js : List (List Char × JVal)) → readKids m js = some ks →
    ThroughoutAll (fun o _ => ReadableObj o) ks
  | [], _, _ => .nil
  | (k, a) :: ks, [], h => by rw [readKids] at h; cases h
  | (k, a) :: ks, (k', v) :: e, h => by
    rw [readKids] at h
    cases h1 : SNode.ofJson m v with
    | none => rw [h1] at h; cases h
    | some c =>
      cases h2 : readKids m e with
      | none => rw [h1, h2] at h; cases h
      | some r =>
        rw [h1, h2] at h
        cases h
        exact .cons k a ks (node_range m a v h1) (kids_range m ks e h2)
end

end Wz

namespace Wz.Props

open Wz Spec

/-- C63: whatever JSON is read, also one that this library did not write, every number in the tree is within the bounds of its type; no raw
data, video or script is read; and no node says where data would be. -/
theorem C63_in_range (m : Mode) (j : JVal) (b : SNode) (h : SNode.ofJson m j = some b) : Throughout (fun o _ => ReadableObj o) b :=
  node_range m b j h

/-- C63: a picture whose width or height does not fit into 32 bits is not read. -/
theorem C63_wide_picture (m : Mode) (e d : List (List Char × JVal)) (w : Int) (ht : jget e chars!"type" = some (.str chars!"PNG"))
    (hd : jget e chars!"data" = some (.obj d)) (hw : jget d chars!"width" = some (.int w) ∨ jget d chars!"height" = some (.int w))
    (h : w < 0 ∨ 4294967295 < w) : SNode.ofJson m (.obj e) = none := by
  have hj : juint 32 (some (.int w)) = none := by
    unfold juint jint
    dsimp only
    rw [if_neg (by omega)]
    rfl
  have hs : Sub.read chars!"PNG" (some (.obj d)) = none := by
    unfold Sub.read
    rw [if_neg (by decide), if_neg (by decide), if_pos rfl]
    simp only [jobj, Option.bind_eq_bind, Option.bind_some]
    rcases hw with hw | hw
    · rw [hw, hj]; rfl
    · rw [hw, hj]; cases juint 32 (jget d chars!"width") <;> rfl
  have ho : SObj.read m e = none := by
    unfold SObj.read
    rw [ht, hd]
    dsimp only
    rw [show SObj.readTagged chars!"PNG" (some (.obj d)) = none from rfl, hs]
    rfl
  cases hb : SNode.ofJson m (.obj e) with
  | none => rfl
  | some b =>
    obtain ⟨e', _, o, _, he, _, _, h2, _⟩ := read_node hb
    cases he
    rw [ho] at h2
    cases h2

/-- C63: a whole number is read as it is if it is within the bounds of its type, and otherwise the node is not read. -/
theorem C63_number (m : Mode) (e : List (List Char × JVal)) (t : List Char) (lo hi v : Int) (hb : numberBounds t = some (lo, hi))
    (ht : jget e chars!"type" = some (.str t)) (hd : jget e chars!"data" = some (.int v)) :
    (lo ≤ v ∧ v ≤ hi → SObj.read m e = some (.value (if t = chars!"Short" then .short v else if t = chars!"Int" then .int v else .long v))) ∧
    (v < lo ∨ hi < v → SNode.ofJson m (.obj e) = none) := by
  have key : SObj.read m e = if lo ≤ v ∧ v ≤ hi then
      some (.value (if t = chars!"Short" then .short v else if t = chars!"Int" then .int v else .long v)) else none := by
    unfold SObj.read
    rw [ht, hd]
    dsimp only
    unfold numberBounds at hb
    split at hb
    · subst t; cases hb
      by_cases hv : -32768 ≤ v ∧ v ≤ 32767
      · simp [SObj.readTagged, Sub.read, Val.read, jnothing, jint, hv]
      · simp [SObj.readTagged, Sub.read, Val.read, jnothing, jint, hv]
    split at hb
    · subst t; cases hb
      by_cases hv : -2147483648 ≤ v ∧ v ≤ 2147483647
      · simp [SObj.readTagged, Sub.read, Val.read, jnothing, jint, hv]
      · simp [SObj.readTagged, Sub.read, Val.read, jnothing, jint, hv]
    split at hb
    · subst t; cases hb
      by_cases hv : -9223372036854775808 ≤ v ∧ v ≤ 9223372036854775807
      · simp [SObj.readTagged, Sub.read, Val.read, jnothing, jint, hv]
      · simp [SObj.readTagged, Sub.read, Val.read, jnothing, jint, hv]
    · cases hb
  refine ⟨fun h => by rw [key, if_pos h], fun h => ?_⟩
  rw [if_neg (by omega)] at key
  cases hn : SNode.ofJson m (.obj e) with
  | none => rfl
  | some b =>
    obtain ⟨e', _, o, _, he, _, _, h2, _⟩ := read_node hn
    cases he
    rw [key] at h2
    cases h2

example : SNode.ofJson .checked (.obj [(chars!"name", .str chars!"x"), (chars!"type", .str chars!"Short"), (chars!"data", .int 32768),
    (chars!"children", .obj [])]) = none :=
  (C63_number .checked _ chars!"Short" (-32768) 32767 32768 rfl rfl rfl).2 (.inr (by decide))

example : ∃ j b, sampleExport.toJson = .ok j ∧ SNode.ofJson .checked j = some b ∧ Throughout (fun o _ => ReadableObj o) b := by
  obtain ⟨j, b, h1, h2, _⟩ := C63_read_back_partial .checked sampleExport sampleExport_kept
  exact ⟨j, b, h1, h2, C63_in_range .checked j b h2⟩

example : SNode.ofJson .checked (.obj [(chars!"name", .str chars!"p"), (chars!"type", .str chars!"PNG"),
    (chars!"data", .obj [(chars!"width", .int 4), (chars!"height", .int 4294967296)]), (chars!"children", .obj [])]) = none :=
  C63_wide_picture .checked _ _ 4294967296 rfl rfl (.inr rfl) (.inr (by decide))

end Wz.Props
