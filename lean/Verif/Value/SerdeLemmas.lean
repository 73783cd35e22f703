import Verif.Value.SerdeSpec
import Verif.Reader.Props
import Verif.Value.JsonProps

/-!
# Lemmas for C63
-/

set_option autoImplicit false

namespace Wz

open Spec

/-! ### floats -/

theorem roundEven_exact (n s : Nat) : roundEven (n * 2 ^ s) s = n := by
  unfold roundEven
  have hp : 0 < 2 ^ s := Nat.two_pow_pos s
  rw [Nat.mul_mod_left, Nat.mul_div_cancel _ hp]
  rw [if_neg]
  omega

theorem f32_parts {b : Nat} (h : b < 2 ^ 32) : ∃ s e f, b = s * 2 ^ 31 + e * 2 ^ 23 + f ∧ s < 2 ∧ e < 256 ∧ f < 2 ^ 23 ∧
    b / 2 ^ 31 = s ∧ b / 2 ^ 23 % 2 ^ 8 = e ∧ b % 2 ^ 23 = f :=
  ⟨b / 2 ^ 31, b / 2 ^ 23 % 2 ^ 8, b % 2 ^ 23, by omega, by omega, by omega, by omega, rfl, rfl, rfl⟩

theorem sub_parts {f : Nat} (h0 : f ≠ 0) (hf : f < 2 ^ 23) :
    f.log2 ≤ 22 ∧ (f - 2 ^ f.log2) * 2 ^ (52 - f.log2) < 2 ^ 52 ∧ 2 ^ 52 + (f - 2 ^ f.log2) * 2 ^ (52 - f.log2) = f * 2 ^ (52 - f.log2) := by
  have h1 : 2 ^ f.log2 ≤ f := Nat.log2_self_le h0
  have h2 : f < 2 ^ (f.log2 + 1) := Nat.lt_log2_self
  have h3 : f.log2 ≤ 22 := by
    have := (Nat.log2_lt h0).2 hf
    omega
  have h4 : 2 ^ f.log2 * 2 ^ (52 - f.log2) = 2 ^ 52 := by
    rw [← Nat.pow_add]
    congr 1
    omega
  refine ⟨h3, ?_, ?_⟩
  · rw [← h4]
    have h5 : f - 2 ^ f.log2 < 2 ^ f.log2 := by
      rw [Nat.pow_succ] at h2
      omega
    exact Nat.mul_lt_mul_of_pos_right h5 (Nat.two_pow_pos _)
  · rw [← h4, ← Nat.add_mul]
    congr 1
    omega

theorem float_back {b : Nat} (h : FiniteF32 b) : f32OfF64 (f64OfF32 b) = b ∧ finite64 (f64OfF32 b) = true := by
  obtain ⟨hb, he⟩ := h
  obtain ⟨s, e, f, h0, hs, hE, hf, h1, h2, h3⟩ := f32_parts hb
  have hne : e ≠ 255 := by omega
  unfold f64OfF32
  dsimp only
  rw [h1, h2, h3, if_neg hne]
  by_cases hz : e = 0
  · rw [if_pos hz]
    by_cases hf0 : f = 0
    · rw [if_pos hf0]
      unfold f32OfF64 finite64
      dsimp only
      have a1 : s * 2 ^ 63 / 2 ^ 63 = s := by omega
      have a2 : s * 2 ^ 63 / 2 ^ 52 % 2 ^ 11 = 0 := by omega
      rw [a1, a2]
      refine ⟨?_, by decide⟩
      rw [if_neg (by omega), if_pos rfl, h0, hz, hf0]
      omega
    · rw [if_neg hf0]
      obtain ⟨g1, g2, g3⟩ := sub_parts hf0 hf
      generalize hL : f.log2 = L at *
      generalize hF : (f - 2 ^ L) * 2 ^ (52 - L) = F at *
      unfold f32OfF64 finite64
      dsimp only
      have a1 : (s * 2 ^ 63 + (L + 874) * 2 ^ 52 + F) / 2 ^ 63 = s := by omega
      have a2 : (s * 2 ^ 63 + (L + 874) * 2 ^ 52 + F) / 2 ^ 52 % 2 ^ 11 = L + 874 := by omega
      have a3 : (s * 2 ^ 63 + (L + 874) * 2 ^ 52 + F) % 2 ^ 52 = F := by omega
      rw [a1, a2, a3, if_neg (by omega), if_neg (by omega), if_pos (by omega), g3, show 29 + (897 - (L + 874)) = 52 - L by omega,
        roundEven_exact]
      refine ⟨by omega, ?_⟩
      simp only [bne_iff_ne, ne_eq]
      omega
  · rw [if_neg hz]
    unfold f32OfF64 finite64
    dsimp only
    have a1 : (s * 2 ^ 63 + (e + 896) * 2 ^ 52 + f * 2 ^ 29) / 2 ^ 63 = s := by omega
    have a2 : (s * 2 ^ 63 + (e + 896) * 2 ^ 52 + f * 2 ^ 29) / 2 ^ 52 % 2 ^ 11 = e + 896 := by omega
    have a3 : (s * 2 ^ 63 + (e + 896) * 2 ^ 52 + f * 2 ^ 29) % 2 ^ 52 = f * 2 ^ 29 := by omega
    rw [a1, a2, a3, if_neg (by omega), if_neg (by omega), if_neg (by omega), show 2 ^ 52 + f * 2 ^ 29 = (2 ^ 23 + f) * 2 ^ 29 by omega,
      roundEven_exact, if_pos (by omega)]
    refine ⟨by omega, ?_⟩
    simp only [bne_iff_ne, ne_eq]
    omega

theorem float_not_finite {b : Nat} (h : b / 2 ^ 23 % 256 = 255) : finite64 (f64OfF32 b) = false := by
  unfold f64OfF32 finite64
  dsimp only
  rw [if_pos (by omega)]
  have : b % 2 ^ 23 < 2 ^ 23 := Nat.mod_lt _ (by decide)
  generalize b % 2 ^ 23 = f at *
  generalize b / 2 ^ 31 = s at *
  have a2 : (s * 2 ^ 63 + 2047 * 2 ^ 52 + f * 2 ^ 29) / 2 ^ 52 % 2 ^ 11 = 2047 := by omega
  rw [a2]
  decide

/-! ### texts -/

theorem make_get (m : Mode) {t : List Char} (hl : t.length < 2 ^ 30) : (StrRef.make m t).get = .ok t ↔ ∀ c ∈ t, c.toNat < 0x10000 :=
  Props.C06_from_str_iff m (fun _ => 0#8) (fun _ => 0#8) t hl

/-! ### objects -/

theorem jint_ok {lo hi v : Int} (h : lo ≤ v ∧ v ≤ hi) : jint lo hi (some (.int v)) = some v := if_pos h

theorem juint_ok {n v : Nat} (h : v < 2 ^ n) : juint n (some (.int v)) = some v := by
  unfold juint
  rw [jint_ok]
  · rfl
  · have : ((2 : Int) ^ n) = ((2 ^ n : Nat) : Int) := by simp
    rw [this]
    omega

theorem jfloat_ok {b : Nat} (h : finite64 b = true) : jfloat b = .float b := if_pos h

theorem jint32_ok {v : Int} (h : IsI32 v) : jint (-2 ^ 31) (2 ^ 31 - 1) (some (.int v)) = some v :=
  jint_ok (by unfold IsI32 at h; omega)

theorem fileMeta_back {d : FileMeta} (h1 : IsI32 d.patch) (h2 : IsI32 d.verHeader) (h3 : d.hash < 2 ^ 64) :
    (jobj (some d.write)).bind FileMeta.read = some d := by
  have e1 := jint32_ok h1
  have e2 := jint32_ok h2
  have e3 := juint_ok h3
  show ((some d.path).bind fun path => (jint (-2 ^ 31) (2 ^ 31 - 1) (some (.int d.patch))).bind fun patch =>
    (jint (-2 ^ 31) (2 ^ 31 - 1) (some (.int d.verHeader))).bind fun v => (some d.withEnc).bind fun we =>
    (juint 64 (some (.int d.hash))).bind fun hash => (some d.verified).bind fun vf => some (FileMeta.mk path patch v we hash vf)) = _
  rw [e1, e2, e3]
  rfl

theorem msMeta_back {d : MsMeta} (h1 : IsI32 d.headerHash) (h2 : d.version < 256) (h3 : IsI32 d.entryCount) (h4 : d.hstart < 2 ^ 64)
    (h5 : d.estart < 2 ^ 64) (h6 : d.msVersion < 256) : (jobj (some d.write)).bind MsMeta.read = some d := by
  have e1 := jint32_ok h1
  have e2 := juint_ok (n := 8) h2
  have e3 := jint32_ok h3
  have e4 := juint_ok h4
  have e5 := juint_ok h5
  have e6 := juint_ok (n := 8) h6
  show ((some d.keySalt).bind fun a => (some d.nameWithSalt).bind fun b => (jint (-2 ^ 31) (2 ^ 31 - 1) (some (.int d.headerHash))).bind fun c =>
    (juint 8 (some (.int d.version))).bind fun v => (jint (-2 ^ 31) (2 ^ 31 - 1) (some (.int d.entryCount))).bind fun ec =>
    (juint 64 (some (.int d.hstart))).bind fun hs => (juint 64 (some (.int d.estart))).bind fun es =>
    (juint 8 (some (.int d.msVersion))).bind fun mv => some (MsMeta.mk a b c v ec hs es mv)) = _
  rw [e1, e2, e3, e4, e5, e6]
  rfl

/-- the entries of a node with such a type and content -/
def nodeEntries (name : List Char) (o : List (List Char × JVal)) (ks : List (List Char × JVal)) : List (List Char × JVal) :=
  [(chars!"name", .str name)] ++ o ++ [(chars!"children", .obj ks)]

theorem sound_back (s : Sound) (h : s.duration < 2 ^ 32) :
    Sub.read chars!"Sound" (some (.obj [(chars!"duration", .int s.duration), (chars!"sound_type", .str s.ty.name)])) =
      some (.sound ⟨0, 0, 0, 0, s.duration, s.ty⟩) := by
  have e := juint_ok h
  show ((juint 32 (some (.int s.duration))).bind fun d => ((some s.ty.name).bind SoundType.ofName).bind fun ty =>
    some (Sub.sound ⟨0, 0, 0, 0, d, ty⟩)) = _
  rw [e]
  cases s.ty <;> rfl

theorem png_back (p : Png) (h1 : p.width < 2 ^ 32) (h2 : p.height < 2 ^ 32) :
    Sub.read chars!"PNG" (some (.obj [(chars!"width", .int p.width), (chars!"height", .int p.height)])) =
      some (.png ⟨0, 0, 0, 0, 0, 0, p.width, p.height⟩) := by
  have e1 := juint_ok h1
  have e2 := juint_ok h2
  show ((juint 32 (some (.int p.width))).bind fun w => (juint 32 (some (.int p.height))).bind fun h =>
    some (Sub.png ⟨0, 0, 0, 0, 0, 0, w, h⟩)) = _
  rw [e1, e2]
  rfl

theorem read_tagged (m : Mode) (name t : List Char) (d : Option JVal) (ks : List (List Char × JVal)) :
    SObj.read m (nodeEntries name (tagged t d) ks) = match SObj.readTagged t d with
      | some o => some o
      | none => match Sub.read t d with
        | some s => some (.property s)
        | none => (Val.read m t d).map SObj.value := by
  cases d <;> rfl

theorem text_write {s : StrRef} {t : List Char} (h : s.get = .ok t) : s.write = .ok (.str t) := by
  unfold StrRef.write
  rw [h]

/-- an object that can be kept is written and read back -/
theorem obj_back (m : Mode) {o : SObj} (h : Keepable o) : ∃ e o', o.write = .ok e ∧ SameObj o o' ∧ o'.write = .ok e ∧
    ∀ name ks, SObj.read m (nodeEntries name e ks) = some o' := by
  cases o with
  | file d r =>
    refine ⟨_, _, rfl, .file d r, rfl, fun name ks => ?_⟩
    rw [read_tagged]
    show (match ((jobj (some d.write)).bind FileMeta.read).map (SObj.file · none) with
      | some o => some o
      | none => _) = _
    rw [fileMeta_back h.1 h.2.1 h.2.2]
    rfl
  | msFile d r =>
    refine ⟨_, _, rfl, .msFile d r, rfl, fun name ks => ?_⟩
    rw [read_tagged]
    show (match ((jobj (some d.write)).bind MsMeta.read).map (SObj.msFile · none) with
      | some o => some o
      | none => _) = _
    rw [msMeta_back h.1 h.2.1 h.2.2.1 h.2.2.2.1 h.2.2.2.2.1 h.2.2.2.2.2]
    rfl
  | image r => exact ⟨_, _, rfl, .image r, rfl, fun _ _ => rfl⟩
  | msImage r => exact ⟨_, _, rfl, .msImage r, rfl, fun _ _ => rfl⟩
  | directory r => exact ⟨_, _, rfl, .directory r, rfl, fun _ _ => rfl⟩
  | property s =>
    cases s with
    | convex => exact ⟨_, _, rfl, .convex, rfl, fun _ _ => rfl⟩
    | property => exact ⟨_, _, rfl, .property, rfl, fun _ _ => rfl⟩
    | sound s =>
      refine ⟨_, _, rfl, .sound s ⟨0, 0, 0, 0, s.duration, s.ty⟩ rfl rfl rfl rfl, rfl, fun name ks => ?_⟩
      rw [Sub.write, read_tagged, sound_back s h]
      rfl
    | png p =>
      refine ⟨_, _, rfl, .png p ⟨0, 0, 0, 0, 0, 0, p.width, p.height⟩ rfl rfl rfl rfl, rfl, fun name ks => ?_⟩
      rw [Sub.write, read_tagged, png_back p h.1 h.2]
      rfl
  | value v =>
    cases v with
    | null => exact h.elim
    | rawData => exact h.elim
    | video => exact h.elim
    | lua => exact h.elim
    | parsed s => exact ⟨_, _, rfl, .parsed s, rfl, fun _ _ => rfl⟩
    | short v =>
      refine ⟨_, _, rfl, .short v, rfl, fun name ks => ?_⟩
      rw [read_tagged]
      show ((jint (-2 ^ 15) (2 ^ 15 - 1) (some (.int v))).map Val.short).map SObj.value = _
      rw [jint_ok (by have := h.1; have := h.2; omega)]
      rfl
    | int v =>
      refine ⟨_, _, rfl, .int v, rfl, fun name ks => ?_⟩
      rw [read_tagged]
      show ((jint (-2 ^ 31) (2 ^ 31 - 1) (some (.int v))).map Val.int).map SObj.value = _
      rw [jint32_ok h]
      rfl
    | long v =>
      refine ⟨_, _, rfl, .long v, rfl, fun name ks => ?_⟩
      rw [read_tagged]
      show ((jint (-2 ^ 63) (2 ^ 63 - 1) (some (.int v))).map Val.long).map SObj.value = _
      rw [jint_ok (by have := h.1; have := h.2; omega)]
      rfl
    | float b =>
      obtain ⟨h1, h2⟩ := float_back h
      refine ⟨tagged chars!"Float" (some (.float (f64OfF32 b))), _, ?_, .float b, ?_, fun name ks => ?_⟩
      · show Except.ok (tagged _ (some (jfloat _))) = _
        rw [jfloat_ok h2]
      · show Except.ok (tagged _ (some (jfloat _))) = _
        rw [jfloat_ok h2]
      · rw [read_tagged]
        show some (SObj.value (Val.float (f32OfF64 (f64OfF32 b)))) = _
        rw [h1]
    | double b =>
      have h2 : finite64 b = true := by
        unfold finite64
        simp only [bne_iff_ne, ne_eq]
        exact h.2
      refine ⟨tagged chars!"Double" (some (.float b)), _, ?_, .double b, ?_, fun name ks => ?_⟩
      · show Except.ok (tagged _ (some (jfloat _))) = _
        rw [jfloat_ok h2]
      · show Except.ok (tagged _ (some (jfloat _))) = _
        rw [jfloat_ok h2]
      · rw [read_tagged]
        rfl
    | vector v =>
      refine ⟨_, _, rfl, .vector v, rfl, fun name ks => ?_⟩
      rw [read_tagged]
      show ((((jint (-2 ^ 31) (2 ^ 31 - 1) (some (.int v.x))).bind fun x => (jint (-2 ^ 31) (2 ^ 31 - 1) (some (.int v.y))).bind fun y =>
        some (V2.mk x y))).map Val.vector).map SObj.value = _
      rw [jint32_ok h.1, jint32_ok h.2]
      rfl
    | uol s =>
      obtain ⟨t, h1, h2, h3⟩ := h
      have hg := (make_get m h2).2 h3
      refine ⟨tagged chars!"UOL" (some (.str t)), _, ?_, .uol s (StrRef.make m t) t h1 hg, ?_, fun name ks => ?_⟩
      · show s.write.map _ = _
        rw [text_write h1]
        rfl
      · show (StrRef.make m t).write.map _ = _
        rw [text_write hg]
        rfl
      · rw [read_tagged]
        rfl
    | str s =>
      obtain ⟨t, h1, h2, h3⟩ := h
      have hg := (make_get m h2).2 h3
      refine ⟨tagged chars!"String" (some (.str t)), _, ?_, .str s (StrRef.make m t) t h1 hg, ?_, fun name ks => ?_⟩
      · show s.write.map _ = _
        rw [text_write h1]
        rfl
      · show (StrRef.make m t).write.map _ = _
        rw [text_write hg]
        rfl
      · rw [read_tagged]
        rfl

/-! ### trees -/

theorem toJson_node {n : List Char} {o : SObj} {p : Bool} {ks : List (List Char × SNode)} {e js : List (List Char × JVal)}
    (h1 : o.write = .ok e) (h2 : writeKids ks = .ok js) : (SNode.node n o p ks).toJson = .ok (.obj (nodeEntries n e js)) := by
  rw [SNode.toJson, h1, h2]
  rfl

theorem writeKids_cons {k : List Char} {a : SNode} {ks : List (List Char × SNode)} {j : JVal} {js : List (List Char × JVal)}
    (h1 : a.toJson = .ok j) (h2 : writeKids ks = .ok js) : writeKids ((k, a) :: ks) = .ok ((k, j) :: js) := by
  rw [writeKids]
  dsimp only
  rw [h1, h2]
  rfl

theorem readChildren_skip (m : Mode) {k : List Char} (v : JVal) (e : List (List Char × JVal)) (h : k ≠ chars!"children") :
    readChildren m ((k, v) :: e) = readChildren m e := by
  cases v <;> · rw [readChildren, if_neg h]; try (intro e he; cases he)

theorem readChildren_tagged (m : Mode) (n t : List Char) (d : Option JVal) (js : List (List Char × JVal)) :
    readChildren m (nodeEntries n (tagged t d) js) = readKids m js := by
  have last : readChildren m [(chars!"children", .obj js)] = readKids m js := by rw [readChildren, if_pos rfl]
  cases d with
  | none =>
    show readChildren m [(chars!"name", _), (chars!"type", _), (chars!"children", _)] = _
    rw [readChildren_skip m _ _ (by decide), readChildren_skip m _ _ (by decide), last]
  | some d =>
    show readChildren m [(chars!"name", _), (chars!"type", _), (chars!"data", _), (chars!"children", _)] = _
    rw [readChildren_skip m _ _ (by decide), readChildren_skip m _ _ (by decide), readChildren_skip m _ _ (by decide), last]

theorem write_is_tagged {o : SObj} {e : List (List Char × JVal)} (h : o.write = .ok e) : ∃ t d, e = tagged t d := by
  cases o with
  | file d r => cases h; exact ⟨_, _, rfl⟩
  | msFile d r => cases h; exact ⟨_, _, rfl⟩
  | image r => cases h; exact ⟨_, _, rfl⟩
  | msImage r => cases h; exact ⟨_, _, rfl⟩
  | directory r => cases h; exact ⟨_, _, rfl⟩
  | property s => cases h; cases s <;> exact ⟨_, _, by rw [Sub.write]⟩
  | value v =>
    cases v with
    | rawData => cases h
    | video => cases h
    | lua => cases h
    | uol s =>
      change s.write.map _ = _ at h
      cases hw : s.write with
      | error x => rw [hw] at h; cases h
      | ok j => rw [hw] at h; cases h; exact ⟨_, _, rfl⟩
    | str s =>
      change s.write.map _ = _ at h
      cases hw : s.write with
      | error x => rw [hw] at h; cases h
      | ok j => rw [hw] at h; cases h; exact ⟨_, _, rfl⟩
    | _ => cases h; exact ⟨_, _, rfl⟩

theorem ofJson_node {m : Mode} {n : List Char} {e js : List (List Char × JVal)} {o : SObj} {ks : List (List Char × SNode)}
    (he : ∃ t d, e = tagged t d) (h1 : SObj.read m (nodeEntries n e js) = some o) (h2 : readKids m js = some ks) :
    SNode.ofJson m (.obj (nodeEntries n e js)) = some (.node n o false ks) := by
  obtain ⟨t, d, rfl⟩ := he
  rw [SNode.ofJson, h1, readChildren_tagged, h2]
  rfl

mutual
theorem node_back (m : Mode) : (a : SNode) → Throughout (fun o _ => Keepable o) a →
    ∃ j b, a.toJson = .ok j ∧ SNode.ofJson m j = some b ∧ ReadBack a b ∧ b.toJson = .ok j
  | .node n o p ks, h => by
    cases h with
    | node _ _ _ _ ho hk =>
      obtain ⟨e, o', h1, h2, h3, h4⟩ := obj_back m ho
      obtain ⟨js, ks', g1, g2, g3, g4⟩ := kids_back m ks hk
      exact ⟨_, _, toJson_node h1 g1, ofJson_node (write_is_tagged h1) (h4 n js) g2, .node n o o' p ks ks' h2 g3, toJson_node h3 g4⟩
theorem kids_back (m : Mode) : (ks : List (List Char × SNode)) → ThroughoutAll (fun o _ => Keepable o) ks →
    ∃ js ks', writeKids ks = .ok js ∧ readKids m js = some ks' ∧ ReadBackAll ks ks' ∧ writeKids ks' = .ok js
  | [], _ => ⟨[], [], by rw [writeKids], by rw [readKids], .nil, by rw [writeKids]⟩
  | (k, a) :: ks, h => by
    cases h with
    | cons _ _ _ ha hk =>
      obtain ⟨j, b, h1, h2, h3, h4⟩ := node_back m a ha
      obtain ⟨js, ks', g1, g2, g3, g4⟩ := kids_back m ks hk
      refine ⟨_, (k, b) :: ks', writeKids_cons h1 g1, ?_, .cons k a b ks ks' h3 g3, writeKids_cons h4 g4⟩
      rw [readKids, h2, g2]
end

/-! ### what can be written -/

/-- the object is written exactly if it is neither binary nor a text that panics -/
theorem obj_written (o : SObj) : (∃ e, o.write = .ok e) ↔ ¬ IsBinary o ∧ ¬ TextPanics o := by
  have txt (s : StrRef) : (∃ j, s.write = .ok j) ↔ ¬ ∃ e, s.get = .error e ∧ e.isPanic = true := by
    unfold StrRef.write
    cases h : s.get with
    | ok t => simp
    | error e =>
      by_cases hp : e.isPanic = true
      · simp [hp]
      · simp [hp]
  cases o with
  | value v =>
    cases v with
    | rawData => exact ⟨fun ⟨_, h⟩ => (by cases h), fun h => (h.1 trivial).elim⟩
    | video => exact ⟨fun ⟨_, h⟩ => (by cases h), fun h => (h.1 trivial).elim⟩
    | lua => exact ⟨fun ⟨_, h⟩ => (by cases h), fun h => (h.1 trivial).elim⟩
    | uol s =>
      show (∃ e, s.write.map _ = _) ↔ ¬ False ∧ ¬ ∃ e, s.get = .error e ∧ e.isPanic = true
      rw [← txt s]
      cases s.write with
      | ok j => exact ⟨fun _ => ⟨id, j, rfl⟩, fun _ => ⟨_, rfl⟩⟩
      | error x => exact ⟨fun ⟨_, h⟩ => (by cases h), fun ⟨_, _, h⟩ => (by cases h)⟩
    | str s =>
      show (∃ e, s.write.map _ = _) ↔ ¬ False ∧ ¬ ∃ e, s.get = .error e ∧ e.isPanic = true
      rw [← txt s]
      cases s.write with
      | ok j => exact ⟨fun _ => ⟨id, j, rfl⟩, fun _ => ⟨_, rfl⟩⟩
      | error x => exact ⟨fun ⟨_, h⟩ => (by cases h), fun ⟨_, _, h⟩ => (by cases h)⟩
    | _ => exact ⟨fun _ => ⟨id, id⟩, fun _ => ⟨_, rfl⟩⟩
  | _ => exact ⟨fun _ => ⟨id, id⟩, fun _ => ⟨_, rfl⟩⟩

mutual
theorem node_written : (a : SNode) → ((∃ j, a.toJson = .ok j) ↔ Throughout (fun o _ => ¬ IsBinary o ∧ ¬ TextPanics o) a)
  | .node n o p ks => by
    constructor
    · rintro ⟨j, h⟩
      rw [SNode.toJson] at h
      cases ho : o.write with
      | error x => rw [ho] at h; cases h
      | ok e =>
        cases hk : writeKids ks with
        | error x => rw [ho, hk] at h; cases h
        | ok js => exact .node n o p ks ((obj_written o).1 ⟨e, ho⟩) ((kids_written ks).1 ⟨js, hk⟩)
    · intro h
      cases h with
      | node _ _ _ _ h1 h2 =>
        obtain ⟨e, he⟩ := (obj_written o).2 h1
        obtain ⟨js, hj⟩ := (kids_written ks).2 h2
        exact ⟨_, toJson_node he hj⟩
theorem kids_written : (ks : List (List Char × SNode)) →
    ((∃ js, writeKids ks = .ok js) ↔ ThroughoutAll (fun o _ => ¬ IsBinary o ∧ ¬ TextPanics o) ks)
  | [] => ⟨fun _ => .nil, fun _ => ⟨[], by rw [writeKids]⟩⟩
  | (k, a) :: ks => by
    constructor
    · rintro ⟨js, h⟩
      rw [writeKids] at h
      dsimp only at h
      cases ha : a.toJson with
      | error x => rw [ha] at h; cases h
      | ok j =>
        cases hk : writeKids ks with
        | error x => rw [ha, hk] at h; cases h
        | ok js' => exact .cons k a ks ((node_written a).1 ⟨j, ha⟩) ((kids_written ks).1 ⟨js', hk⟩)
    · intro h
      cases h with
      | cons _ _ _ h1 h2 =>
        obtain ⟨j, hj⟩ := (node_written a).2 h1
        obtain ⟨js, hjs⟩ := (kids_written ks).2 h2
        exact ⟨_, writeKids_cons hj hjs⟩
end

/-! ### what is read -/

theorem read_node {m : Mode} {j : JVal} {b : SNode} (h : SNode.ofJson m j = some b) : ∃ e n o ks, j = .obj e ∧ b = .node n o false ks ∧
    jget e chars!"name" = some (.str n) ∧ SObj.read m e = some o ∧ readChildren m e = some ks := by
  cases j with
  | obj e =>
    rw [SNode.ofJson] at h
    cases h1 : jstr (jget e chars!"name") with
    | none => rw [h1] at h; cases h
    | some n =>
      cases h2 : SObj.read m e with
      | none => rw [h1, h2] at h; cases h
      | some o =>
        cases h3 : readChildren m e with
        | none => rw [h1, h2, h3] at h; cases h
        | some ks =>
          rw [h1, h2, h3] at h
          cases h
          refine ⟨e, n, o, ks, rfl, rfl, ?_, h2, h3⟩
          cases hj : jget e chars!"name" with
          | none => rw [hj] at h1; cases h1
          | some v =>
            rw [hj] at h1
            cases v with
            | str s => cases h1; rfl
            | _ => cases h1
  | _ => rw [SNode.ofJson] at h; cases h; intro e he; cases he

mutual
theorem node_parentless (m : Mode) : (j : JVal) → (b : SNode) → SNode.ofJson m j = some b → Throughout (fun _ p => p = false) b
  | .obj e, b, h => by
    obtain ⟨e', n, o, ks, he, rfl, _, _, h3⟩ := read_node h
    cases he
    exact .node n o false ks rfl (children_parentless m e ks h3)
  | .null, b, h => by obtain ⟨_, _, _, _, he, _⟩ := read_node h; cases he
  | .bool _, b, h => by obtain ⟨_, _, _, _, he, _⟩ := read_node h; cases he
  | .int _, b, h => by obtain ⟨_, _, _, _, he, _⟩ := read_node h; cases he
  | .float _, b, h => by obtain ⟨_, _, _, _, he, _⟩ := read_node h; cases he
  | .str _, b, h => by obtain ⟨_, _, _, _, he, _⟩ := read_node h; cases he
  | .arr _, b, h => by obtain ⟨_, _, _, _, he, _⟩ := read_node h; cases he
theorem children_parentless (m : Mode) : (e : List (List Char × JVal)) → (ks : List (List Char × SNode)) → readChildren m e = some ks →
    ThroughoutAll (fun _ p => p = false) ks
  | [], ks, h => by rw [readChildren] at h; cases h
  | (k, .obj l) :: e, ks, h => by
    by_cases hk : k = chars!"children"
    · rw [readChildren, if_pos hk] at h
      exact kids_parentless m l ks h
    · rw [readChildren_skip m _ _ hk] at h
      exact children_parentless m e ks h
  | (k, .null) :: e, ks, h => by
    by_cases hk : k = chars!"children"
    · rw [readChildren, if_pos hk] at h
      · cases h
      · intro _ he; cases he
    · rw [readChildren_skip m _ _ hk] at h
      exact children_parentless m e ks h
  | (k, .bool _) :: e, ks, h => by
    by_cases hk : k = chars!"children"
    · rw [readChildren, if_pos hk] at h
      · cases h
      · intro _ he; cases he
    · rw [readChildren_skip m _ _ hk] at h
      exact children_parentless m e ks h
  | (k, .int _) :: e, ks, h => by
    by_cases hk : k = chars!"children"
    · rw [readChildren, if_pos hk] at h
      · cases h
      · intro _ he; cases he
    · rw [readChildren_skip m _ _ hk] at h
      exact children_parentless m e ks h
  | (k, .float _) :: e, ks, h => by
    by_cases hk : k = chars!"children"
    · rw [readChildren, if_pos hk] at h
      · cases h
      · intro _ he; cases he
    · rw [readChildren_skip m _ _ hk] at h
      exact children_parentless m e ks h
  | (k, .str _) :: e, ks, h => by
    by_cases hk : k = chars!"children"
    · rw [readChildren, if_pos hk] at h
      · cases h
      · intro _ he; cases he
    · rw [readChildren_skip m _ _ hk] at h
      exact children_parentless m e ks h
  | (k, .arr _) :: e, ks, h => by
    by_cases hk : k = chars!"children"
    · rw [readChildren, if_pos hk] at h
      · cases h
      · intro _ he; cases he
    · rw [readChildren_skip m _ _ hk] at h
      exact children_parentless m e ks h
theorem kids_parentless (m : Mode) : (l : List (List Char × JVal)) → (ks : List (List Char × SNode)) → readKids m l = some ks →
    ThroughoutAll (fun _ p => p = false) ks
  | [], ks, h => by
    rw [readKids] at h
    cases h
    exact .nil
  | (k, v) :: e, ks, h => by
    rw [readKids] at h
    cases h1 : SNode.ofJson m v with
    | none => rw [h1] at h; cases h
    | some n =>
      cases h2 : readKids m e with
      | none => rw [h1, h2] at h; cases h
      | some r =>
        rw [h1, h2] at h
        cases h
        exact .cons k n r (node_parentless m v n h1) (kids_parentless m e r h2)
end

theorem children_read {m : Mode} : (e : List (List Char × JVal)) → (ks : List (List Char × SNode)) → readChildren m e = some ks →
    ∃ js, jget e chars!"children" = some (.obj js) ∧ readKids m js = some ks
  | [], ks, h => by rw [readChildren] at h; cases h
  | (k, v) :: e, ks, h => by
    by_cases hk : k = chars!"children"
    · cases v with
      | obj l =>
        rw [readChildren, if_pos hk] at h
        exact ⟨l, by rw [jget, if_pos hk], h⟩
      | _ =>
        rw [readChildren, if_pos hk] at h
        · cases h
        · intro _ he; cases he
    · rw [readChildren_skip m _ _ hk] at h
      obtain ⟨js, h1, h2⟩ := children_read e ks h
      exact ⟨js, by rw [jget, if_neg hk]; exact h1, h2⟩

theorem kids_read {m : Mode} : (js : List (List Char × JVal)) → (ks : List (List Char × SNode)) → readKids m js = some ks →
    ks.length = js.length ∧ ∀ (i : Nat) (k : List Char) (v : JVal), js[i]? = some (k, v) → ∃ c, ks[i]? = some (k, c) ∧ SNode.ofJson m v = some c
  | [], ks, h => by
    rw [readKids] at h
    cases h
    exact ⟨rfl, fun i k v hi => by simp at hi⟩
  | (k, v) :: e, ks, h => by
    rw [readKids] at h
    cases h1 : SNode.ofJson m v with
    | none => rw [h1] at h; cases h
    | some n =>
      cases h2 : readKids m e with
      | none => rw [h1, h2] at h; cases h
      | some r =>
        rw [h1, h2] at h
        cases h
        obtain ⟨g1, g2⟩ := kids_read e r h2
        refine ⟨by simp [g1], fun i k' v' hi => ?_⟩
        cases i with
        | zero => simp only [List.getElem?_cons_zero, Option.some.injEq, Prod.mk.injEq] at hi; obtain ⟨rfl, rfl⟩ := hi; exact ⟨n, rfl, h1⟩
        | succ i => exact g2 i k' v' (by simpa using hi)

/-- a type that is not known is a property if there are no data with it, and otherwise an error -/
theorem unknown_read (m : Mode) {e : List (List Char × JVal)} {t : List Char} (h : jget e chars!"type" = some (.str t)) (ht : t ∉ knownTypes) :
    SObj.read m e = if jnothing (jget e chars!"data") then some (.property .property) else none := by
  simp only [knownTypes, List.mem_cons, List.not_mem_nil, or_false, not_or] at ht
  unfold SObj.read
  rw [h]
  dsimp only
  simp only [SObj.readTagged, Sub.read, Val.read, ht, if_false, or_self]
  by_cases hn : jnothing (jget e chars!"data") = true
  · simp only [hn, if_true]
  · simp only [hn, if_false, Bool.false_eq_true]
    rfl

/-! ### the format -/

theorem hasFields_self {m fs : List (List Char × JVal)} (hl : m.length = fs.length) (h : ∀ x ∈ fs, jget m x.1 = some x.2) :
    JsonFields (some (.obj m)) fs := ⟨m, rfl, hl, fun k v hx => h (k, v) hx⟩

theorem text_data {s : StrRef} {j : JVal} (h : s.write = .ok j) : (∀ t, s.get = .ok t → some j = some (.str t)) ∧
    (∀ e, s.get = .error e → some j = some (.str [])) := by
  unfold StrRef.write at h
  cases hg : s.get with
  | ok t =>
    rw [hg] at h
    cases h
    exact ⟨fun _ ht => by cases ht; rfl, fun _ he => by cases he⟩
  | error e =>
    rw [hg] at h
    dsimp only at h
    split at h
    · cases h
    · cases h
      exact ⟨fun _ ht => (by cases ht), fun _ _ => rfl⟩

theorem obj_format {o : SObj} {e : List (List Char × JVal)} (h : o.write = .ok e) : ∃ d, e = tagged (typeName o) d ∧ DataOf o d := by
  cases o with
  | file d r =>
    cases h
    refine ⟨_, rfl, hasFields_self rfl ?_⟩
    simp only [List.forall_mem_cons, List.not_mem_nil, false_imp_iff, implies_true, and_true]
    exact ⟨rfl, rfl, rfl, rfl, rfl, rfl⟩
  | msFile d r =>
    cases h
    refine ⟨_, rfl, hasFields_self rfl ?_⟩
    simp only [List.forall_mem_cons, List.not_mem_nil, false_imp_iff, implies_true, and_true]
    exact ⟨rfl, rfl, rfl, rfl, rfl, rfl, rfl, rfl⟩
  | image r => cases h; exact ⟨_, rfl, hasFields_self rfl fun _ h => by cases h⟩
  | msImage r => cases h; exact ⟨_, rfl, hasFields_self rfl fun _ h => by cases h⟩
  | directory r => cases h; exact ⟨_, rfl, hasFields_self rfl fun _ h => by cases h⟩
  | property s =>
    cases h
    cases s with
    | convex => exact ⟨none, rfl, rfl⟩
    | property => exact ⟨none, rfl, rfl⟩
    | sound s =>
      rw [Sub.write]
      refine ⟨_, rfl, hasFields_self rfl ?_⟩
      simp only [List.forall_mem_cons, List.not_mem_nil, false_imp_iff, implies_true, and_true]
      refine ⟨rfl, ?_⟩
      show some (JVal.str s.ty.name) = _
      cases s.ty <;> rfl
    | png p =>
      rw [Sub.write]
      refine ⟨_, rfl, hasFields_self rfl ?_⟩
      simp only [List.forall_mem_cons, List.not_mem_nil, false_imp_iff, implies_true, and_true]
      exact ⟨rfl, rfl⟩
  | value v =>
    cases v with
    | rawData => cases h
    | video => cases h
    | lua => cases h
    | null => cases h; exact ⟨none, rfl, rfl⟩
    | short v => cases h; exact ⟨_, rfl, rfl⟩
    | int v => cases h; exact ⟨_, rfl, rfl⟩
    | long v => cases h; exact ⟨_, rfl, rfl⟩
    | vector v => cases h; exact ⟨_, rfl, rfl⟩
    | parsed v => cases h; exact ⟨_, rfl, rfl⟩
    | float b =>
      cases h
      refine ⟨_, rfl, fun hf => ?_, fun hn => ?_⟩
      · obtain ⟨h1, h2⟩ := float_back hf
        exact ⟨_, congrArg some (jfloat_ok h2), widen_value b (by unfold NotFinite32; exact hf.2), widen_sign b⟩
      · unfold jfloat
        rw [float_not_finite hn]
        rfl
    | double b =>
      cases h
      refine ⟨_, rfl, fun hf => ?_, fun hn => ?_⟩
      · have h2 : finite64 b = true := by
          unfold finite64
          simp only [bne_iff_ne, ne_eq]
          exact hf.2
        exact congrArg some (jfloat_ok h2)
      · have h2 : finite64 b = false := by
          unfold finite64
          rw [show b / 2 ^ 52 % 2 ^ 11 = 2047 from hn]
          decide
        unfold jfloat
        rw [h2]
        rfl
    | uol s =>
      change s.write.map _ = _ at h
      cases hw : s.write with
      | error x => rw [hw] at h; cases h
      | ok j => rw [hw] at h; cases h; exact ⟨_, rfl, text_data hw⟩
    | str s =>
      change s.write.map _ = _ at h
      cases hw : s.write with
      | error x => rw [hw] at h; cases h
      | ok j => rw [hw] at h; cases h; exact ⟨_, rfl, text_data hw⟩

mutual
theorem node_format : (a : SNode) → (j : JVal) → a.toJson = .ok j → Describes a j
  | .node n o p ks, j, h => by
    rw [SNode.toJson] at h
    cases ho : o.write with
    | error x => rw [ho] at h; cases h
    | ok e =>
      cases hk : writeKids ks with
      | error x => rw [ho, hk] at h; cases h
      | ok js =>
        rw [ho, hk] at h
        cases h
        obtain ⟨d, rfl, hd⟩ := obj_format ho
        refine .node n o p ks _ js ?_ ?_ ?_ ?_ (kids_format ks js hk)
        · cases d <;> rfl
        · cases d <;> rfl
        · have : jget ([(chars!"name", JVal.str n)] ++ tagged (typeName o) d ++ [(chars!"children", .obj js)]) chars!"data" = d := by
            cases d <;> rfl
          rw [this]
          exact hd
        · cases d <;> rfl
theorem kids_format : (ks : List (List Char × SNode)) → (js : List (List Char × JVal)) → writeKids ks = .ok js → DescribesAll ks js
  | [], js, h => by
    rw [writeKids] at h
    cases h
    exact .nil
  | (k, a) :: ks, js, h => by
    rw [writeKids] at h
    dsimp only at h
    cases ha : a.toJson with
    | error x => rw [ha] at h; cases h
    | ok j =>
      cases hk : writeKids ks with
      | error x => rw [ha, hk] at h; cases h
      | ok js' =>
        rw [ha, hk] at h
        cases h
        exact .cons k a j ks js' (node_format a j ha) (kids_format ks js' hk)
end

end Wz
