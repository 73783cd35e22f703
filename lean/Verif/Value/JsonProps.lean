import Verif.Value.Model
/-!
# JSON export (C46)
-/

set_option autoImplicit false

namespace Wz

namespace Spec

/-- the entry of an object under a name -/
def entry : List (List Char × Json) → List Char → Option Json
  | [], _ => none
  | (n, j) :: m, k => if n = k then some j else entry m k

/-- the value of a single precision number, in units of `2^-149` -/
def num32 (bits : Nat) : Int :=
  let e := bits / 8388608 % 256
  let f := bits % 8388608
  let mag : Nat := if e = 0 then f else (8388608 + f) * 2 ^ (e - 1)
  if bits / 2147483648 = 0 then mag else -mag

/-- the value of a double precision number, in units of `2^-1074` -/
def num64 (bits : Nat) : Int :=
  let e := bits / 4503599627370496 % 2048
  let f := bits % 4503599627370496
  let mag : Nat := if e = 0 then f else (4503599627370496 + f) * 2 ^ (e - 1)
  if bits / 9223372036854775808 = 0 then mag else -mag

/-- infinities and NaN -/
def NotFinite32 (bits : Nat) : Prop := bits / 8388608 % 256 = 255
/-- infinities and NaN -/
def NotFinite64 (bits : Nat) : Prop := bits / 4503599627370496 % 2048 = 2047

/-- the JSON of a scalar -/
inductive Scalar : Val → Json → Prop
  | null : Scalar .null .null
  | rawData (o l : Nat) : Scalar (.rawData o l) .null
  | video (o l : Nat) : Scalar (.video o l) .null
  | lua (o l : Nat) : Scalar (.lua o l) .null
  | short (v : Int) : Scalar (.short v) (.int v)
  | int (v : Int) : Scalar (.int v) (.int v)
  | long (v : Int) : Scalar (.long v) (.int v)
  /-- the same number, `2^925 = 2^1074 / 2^149`, with the same sign -/
  | float (b d : Nat) (hd : ¬ NotFinite64 d) (hv : num64 d = num32 b * 2 ^ 925)
      (hs : d / 9223372036854775808 = b / 2147483648) : Scalar (.float b) (.float d)
  | double (b : Nat) (hd : ¬ NotFinite64 b) : Scalar (.double b) (.float b)
  | vector (v : V2) (m : List (List Char × Json)) (hk : (m.map Prod.fst).Nodup)
      (hm : ∀ k, entry m k = if k = "x".toList then some (.int v.x) else if k = "y".toList then some (.int v.y) else none) :
      Scalar (.vector v) (.obj m)
  | str (s : StrRef) (t : List Char) (h : s.get = .ok t) : Scalar (.str s) (.str t)
  | uol (s : StrRef) (t : List Char) (h : s.get = .ok t) : Scalar (.uol s) (.str t)
  | parsed (t : List Char) : Scalar (.parsed t) (.str t)
  /-- a text that cannot be read is exported as the empty text -/
  | badStr (s : StrRef) (e : Err) (h : s.get = .error e) : Scalar (.str s) (.str [])
  | badUol (s : StrRef) (e : Err) (h : s.get = .error e) : Scalar (.uol s) (.str [])

/-- the fields of a node itself -/
def ownField : Obj → List Char → Option Json
  | .property (.png p), k =>
    if k = "width".toList then some (.int p.width) else if k = "height".toList then some (.int p.height) else none
  | .property (.sound s), k =>
    if k = "duration".toList then some (.int s.duration)
    else if k = "sound_type".toList then
      some (.str (match s.ty with | .mp3 => "Mp3".toList | .wav => "Wav".toList | .binary => "Binary".toList))
    else none
  | _, _ => none

/-- pictures and sounds -/
inductive HasFields : Obj → Prop
  | png (p : Png) : HasFields (.property (.png p))
  | sound (s : Sound) : HasFields (.property (.sound s))

/-- the JSON of a tree -/
inductive JShows : JNode → Json → Prop
  | scalar (v : Val) (j : Json) (h : Scalar v j) : JShows (.node (.value v) []) j
  | fields (o : Obj) (m : List (List Char × Json)) (ho : HasFields o) (hk : (m.map Prod.fst).Nodup)
      (hm : ∀ k, entry m k = ownField o k) : JShows (.node o []) (.obj m)
  | empty (o : Obj) (ho : ¬ HasFields o) (hv : ∀ v, o ≠ .value v) : JShows (.node o []) .null
  | container (o : Obj) (kids : List (List Char × JNode)) (m : List (List Char × Json)) (f : List Char → Json)
      (hne : kids ≠ []) (hk : (m.map Prod.fst).Nodup)
      (hkid : ∀ e, e ∈ kids → JShows e.2 (f e.1))
      (hin : ∀ e, e ∈ kids → entry m e.1 = some (f e.1))
      (hout : ∀ n, n ∉ kids.map Prod.fst → entry m n = ownField o n) : JShows (.node o kids) (.obj m)

/-- children have different names, as in a map -/
inductive Wf : JNode → Prop
  | node (o : Obj) (kids : List (List Char × JNode)) (hd : (kids.map Prod.fst).Nodup) (hk : ∀ e, e ∈ kids → Wf e.2) : Wf (.node o kids)

/-- the scalars of a tree that are exported: those of nodes without children -/
inductive HasLeaf : JNode → Val → Prop
  | here (v : Val) : HasLeaf (.node (.value v) []) v
  | kid (o : Obj) (kids : List (List Char × JNode)) (e : List Char × JNode) (v : Val) (he : e ∈ kids) (h : HasLeaf e.2 v) :
      HasLeaf (.node o kids) v

/-- the scalars that cannot be exported -/
inductive Unfit : Val → Prop
  | float (b : Nat) (h : NotFinite32 b) : Unfit (.float b)
  | double (b : Nat) (h : NotFinite64 b) : Unfit (.double b)
  | str (s : StrRef) (e : Err) (h : s.get = .error e) (hp : e.isPanic = true) : Unfit (.str s)
  | uol (s : StrRef) (e : Err) (h : s.get = .error e) (hp : e.isPanic = true) : Unfit (.uol s)

end Spec

open Spec

/-! ## floats -/

theorem join64 (s e f : Nat) (he : e < 2048) (hf : f < 4503599627370496) :
    (s * 2 ^ 63 + e * 2 ^ 52 + f) / 9223372036854775808 = s ∧
    (s * 2 ^ 63 + e * 2 ^ 52 + f) / 4503599627370496 % 2048 = e ∧
    (s * 2 ^ 63 + e * 2 ^ 52 + f) % 4503599627370496 = f := by
  have h1 : (2 : Nat) ^ 63 = 9223372036854775808 := by decide
  have h2 : (2 : Nat) ^ 52 = 4503599627370496 := by decide
  rw [h1, h2]
  omega

/-- the magnitude of a double -/
def mag64 (e f : Nat) : Nat := if e = 0 then f else (4503599627370496 + f) * 2 ^ (e - 1)

theorem num64_join (s e f : Nat) (he : e < 2048) (hf : f < 4503599627370496) :
    num64 (s * 2 ^ 63 + e * 2 ^ 52 + f) = if s = 0 then (mag64 e f : Int) else -(mag64 e f : Int) := by
  obtain ⟨h1, h2, h3⟩ := join64 s e f he hf
  unfold num64 mag64
  dsimp only
  rw [h1, h2, h3]

/-- the parts of a widened number -/
theorem widen_parts (b : Nat) : ∃ e f, f64OfF32 b = b / 2147483648 * 2 ^ 63 + e * 2 ^ 52 + f ∧ e < 2048 ∧ f < 4503599627370496 ∧
    (e = 2047 ↔ NotFinite32 b) ∧
    (¬ NotFinite32 b → mag64 e f =
      (if b / 8388608 % 256 = 0 then b % 8388608 else (8388608 + b % 8388608) * 2 ^ (b / 8388608 % 256 - 1)) * 2 ^ 925) := by
  have hE : b / 8388608 % 256 < 256 := Nat.mod_lt _ (by decide)
  have hF : b % 8388608 < 8388608 := Nat.mod_lt _ (by decide)
  have hdef : f64OfF32 b = if b / 8388608 % 256 = 255 then b / 2147483648 * 2 ^ 63 + 2047 * 2 ^ 52 + b % 8388608 * 2 ^ 29
      else if b / 8388608 % 256 = 0 then
        if b % 8388608 = 0 then b / 2147483648 * 2 ^ 63
        else b / 2147483648 * 2 ^ 63 + ((b % 8388608).log2 + 874) * 2 ^ 52 +
          (b % 8388608 - 2 ^ (b % 8388608).log2) * 2 ^ (52 - (b % 8388608).log2)
      else b / 2147483648 * 2 ^ 63 + (b / 8388608 % 256 + 896) * 2 ^ 52 + b % 8388608 * 2 ^ 29 := rfl
  unfold NotFinite32
  revert hdef
  generalize f64OfF32 b = w
  generalize b / 8388608 % 256 = E at *
  generalize b % 8388608 = F at *
  generalize b / 2147483648 = S
  intro hdef
  have h29 : (2 : Nat) ^ 29 = 536870912 := by decide
  by_cases h1 : E = 255
  · rw [if_pos h1] at hdef
    exact ⟨2047, F * 2 ^ 29, hdef, by decide, by rw [h29]; omega, by omega, fun h => absurd h1 h⟩
  rw [if_neg h1] at hdef
  by_cases h2 : E = 0
  · rw [if_pos h2] at hdef
    by_cases h3 : F = 0
    · rw [if_pos h3] at hdef
      exact ⟨0, 0, by rw [hdef]; simp, by decide, by decide, by omega, fun _ => by simp [h2, h3, mag64]⟩
    · rw [if_neg h3] at hdef
      have hlow : 2 ^ F.log2 ≤ F := Nat.log2_self_le h3
      have hup : F < 2 ^ (F.log2 + 1) := Nat.lt_log2_self
      have hk : F.log2 < 23 := (Nat.log2_lt h3).2 (by have : (2:Nat)^23 = 8388608 := by decide
                                                      omega)
      generalize F.log2 = k at *
      have hsplit : 2 ^ k * 2 ^ (52 - k) = 4503599627370496 := by
        rw [← Nat.pow_add, show k + (52 - k) = 52 by omega]
      have hr : (F - 2 ^ k) * 2 ^ (52 - k) < 4503599627370496 := by
        rw [← hsplit]
        refine Nat.mul_lt_mul_of_pos_right ?_ (Nat.pow_pos (by decide))
        rw [Nat.pow_succ] at hup
        omega
      refine ⟨k + 874, (F - 2 ^ k) * 2 ^ (52 - k), hdef, by omega, hr, by omega, fun _ => ?_⟩
      rw [if_pos h2]
      unfold mag64
      rw [if_neg (by omega), ← hsplit, ← Nat.add_mul, Nat.add_sub_cancel' hlow, Nat.mul_assoc, ← Nat.pow_add,
        show 52 - k + (k + 874 - 1) = 925 by omega]
  · rw [if_neg h2] at hdef
    refine ⟨E + 896, F * 2 ^ 29, hdef, by omega, by rw [h29]; omega, by omega, fun _ => ?_⟩
    rw [if_neg h2]
    unfold mag64
    rw [if_neg (by omega), show (4503599627370496 : Nat) = 8388608 * 2 ^ 29 by decide, ← Nat.add_mul, Nat.mul_assoc, Nat.mul_assoc,
      ← Nat.pow_add, ← Nat.pow_add, show 29 + (E + 896 - 1) = E - 1 + 925 by omega]

theorem finite64_iff (b : Nat) : finite64 b = true ↔ ¬ NotFinite64 b := by
  unfold finite64 NotFinite64
  rw [show (2 : Nat) ^ 52 = 4503599627370496 by decide, show (2 : Nat) ^ 11 = 2048 by decide]
  simp

theorem widen_finite (b : Nat) : NotFinite64 (f64OfF32 b) ↔ NotFinite32 b := by
  obtain ⟨e, f, h, he, hf, hfin, _⟩ := widen_parts b
  rw [← hfin]
  unfold NotFinite64
  rw [h, (join64 _ e f he hf).2.1]

theorem widen_sign (b : Nat) : f64OfF32 b / 9223372036854775808 = b / 2147483648 := by
  obtain ⟨e, f, h, he, hf, _, _⟩ := widen_parts b
  rw [h, (join64 _ e f he hf).1]

theorem widen_value (b : Nat) (h : ¬ NotFinite32 b) : num64 (f64OfF32 b) = num32 b * 2 ^ 925 := by
  obtain ⟨e, f, hw, he, hf, _, hm⟩ := widen_parts b
  rw [hw, num64_join _ e f he hf, hm h]
  unfold num32
  dsimp only
  generalize (if b / 8388608 % 256 = 0 then b % 8388608 else (8388608 + b % 8388608) * 2 ^ (b / 8388608 % 256 - 1)) = g
  have hp : ((2 ^ 925 : Nat) : Int) = (2 : Int) ^ 925 := by rw [Int.natCast_pow]; rfl
  by_cases hs : b / 2147483648 = 0
  · rw [if_pos hs, if_pos hs, Int.natCast_mul, hp]
  · rw [if_neg hs, if_neg hs, Int.natCast_mul, hp, Int.neg_mul]

/-! ## objects -/

theorem entry_insert (m : List (List Char × Json)) (k n : List Char) (v : Json) :
    entry (jsonInsert m k v) n = if k = n then some v else entry m n := by
  induction m with
  | nil => rfl
  | cons e m ih =>
    obtain ⟨a, b⟩ := e
    unfold jsonInsert
    by_cases h : a = k
    · rw [if_pos h]
      subst h
      by_cases h2 : a = n <;> simp [entry, h2]
    · rw [if_neg h]
      by_cases h2 : a = n
      · have h3 : ¬ k = n := fun hk => h (h2.trans hk.symm)
        simp [entry, h2, h3]
      · simp only [entry, if_neg h2, ih]

theorem mem_insert (m : List (List Char × Json)) (k n : List Char) (v : Json) (h : n ∈ (jsonInsert m k v).map Prod.fst) :
    n = k ∨ n ∈ m.map Prod.fst := by
  induction m with
  | nil => simpa [jsonInsert] using h
  | cons e m ih =>
    unfold jsonInsert at h
    by_cases he : e.1 = k
    · rw [if_pos he] at h
      simp only [List.map_cons, List.mem_cons] at h ⊢
      rcases h with h | h
      · exact .inl h
      · exact .inr (.inr h)
    · rw [if_neg he] at h
      simp only [List.map_cons, List.mem_cons] at h ⊢
      rcases h with h | h
      · exact .inr (.inl h)
      · rcases ih h with h | h
        · exact .inl h
        · exact .inr (.inr h)

theorem insert_nodup (m : List (List Char × Json)) (k : List Char) (v : Json) (h : (m.map Prod.fst).Nodup) :
    ((jsonInsert m k v).map Prod.fst).Nodup := by
  induction m with
  | nil => simp [jsonInsert]
  | cons e m ih =>
    simp only [List.map_cons, List.nodup_cons] at h
    unfold jsonInsert
    by_cases he : e.1 = k
    · rw [if_pos he]
      simp only [List.map_cons, List.nodup_cons]
      exact ⟨he ▸ h.1, h.2⟩
    · rw [if_neg he]
      simp only [List.map_cons, List.nodup_cons]
      refine ⟨fun hm => ?_, ih h.2⟩
      rcases mem_insert m k e.1 v hm with h1 | h1
      · exact he h1
      · exact h.1 h1

theorem own_nodup (o : Obj) : (o.ownEntries.map Prod.fst).Nodup := by
  cases o with
  | property s =>
    cases s with
    | png p => exact insert_nodup _ _ _ (insert_nodup _ _ _ List.nodup_nil)
    | sound s => exact insert_nodup _ _ _ (insert_nodup _ _ _ List.nodup_nil)
    | _ => exact List.nodup_nil
  | _ => exact List.nodup_nil

theorem two_entries (a b k : List Char) (x y : Json) (hab : a ≠ b) :
    entry (jsonInsert (jsonInsert [] a x) b y) k = if k = a then some x else if k = b then some y else none := by
  rw [entry_insert, entry_insert]
  by_cases h1 : k = a
  · subst h1
    rw [if_neg (fun h => hab h.symm), if_pos rfl, if_pos rfl]
  · rw [if_neg h1]
    by_cases h2 : k = b
    · subst h2
      rw [if_pos rfl, if_pos rfl]
    · rw [if_neg (fun h => h2 h.symm), if_neg (fun h => h1 h.symm), if_neg h2]
      rfl

theorem two_listed (a b k : List Char) (x y : Json) :
    entry [(a, x), (b, y)] k = if k = a then some x else if k = b then some y else none := by
  show (if a = k then some x else if b = k then some y else none) = _
  simp only [eq_comm]

theorem own_entry (o : Obj) (k : List Char) : entry o.ownEntries k = ownField o k := by
  cases o with
  | property s =>
    cases s with
    | png p => exact two_entries "width".toList "height".toList k _ _ (by decide)
    | sound s =>
      refine (two_entries "duration".toList "sound_type".toList k _ _ (by decide)).trans ?_
      obtain ⟨_, _, _, _, _, ty⟩ := s
      cases ty <;> rfl
    | _ => rfl
  | _ => rfl

/-! ## scalars -/

theorem jsonStr_cases (s : StrRef) :
    (∃ t, s.get = .ok t ∧ jsonStr s = .ok (.str t)) ∨ (∃ e, s.get = .error e ∧ e.isPanic = false ∧ jsonStr s = .ok (.str [])) ∨
    (∃ e, s.get = .error e ∧ e.isPanic = true ∧ jsonStr s = .error e) := by
  unfold jsonStr
  cases h : s.get with
  | ok t => exact .inl ⟨t, rfl, rfl⟩
  | error e =>
    by_cases hp : e.isPanic = true
    · exact .inr (.inr ⟨e, rfl, hp, if_pos hp⟩)
    · exact .inr (.inl ⟨e, rfl, by simpa using hp, if_neg hp⟩)

theorem val_json (v : Val) :
    (Unfit v ∧ ∃ e, v.json = .error e ∧ e.isPanic = true) ∨ (¬ Unfit v ∧ ∃ j, v.json = .ok j ∧ Scalar v j) := by
  cases v with
  | float b =>
    have hj : (Val.float b).json = if finite64 (f64OfF32 b) then .ok (.float (f64OfF32 b)) else .error .panicUnwrap := rfl
    by_cases h : NotFinite32 b
    · refine .inl ⟨.float b h, .panicUnwrap, ?_, rfl⟩
      rw [hj, if_neg (fun hf => (finite64_iff _).1 hf ((widen_finite b).2 h))]
    · have hf : ¬ NotFinite64 (f64OfF32 b) := fun hh => h ((widen_finite b).1 hh)
      refine .inr ⟨(fun hu => by cases hu with | float _ hb => exact h hb), _, ?_, .float b _ hf (widen_value b h) (widen_sign b)⟩
      rw [hj, if_pos ((finite64_iff _).2 hf)]
  | double b =>
    have hj : (Val.double b).json = if finite64 b then .ok (.float b) else .error .panicUnwrap := rfl
    by_cases h : NotFinite64 b
    · refine .inl ⟨.double b h, .panicUnwrap, ?_, rfl⟩
      rw [hj, if_neg (fun hf => (finite64_iff _).1 hf h)]
    · refine .inr ⟨(fun hu => by cases hu with | double _ hb => exact h hb), _, ?_, .double b h⟩
      rw [hj, if_pos ((finite64_iff _).2 h)]
  | str s =>
    rcases jsonStr_cases s with ⟨t, h, hj⟩ | ⟨e, h, hp, hj⟩ | ⟨e, h, hp, hj⟩
    · exact .inr ⟨(fun hu => by cases hu with | str _ e he _ => rw [h] at he; cases he), _, hj, .str s t h⟩
    · exact .inr ⟨(fun hu => by cases hu with | str _ e' he hp' => rw [h] at he; cases he; rw [hp] at hp'; cases hp'), _, hj, .badStr s e h⟩
    · exact .inl ⟨.str s e h hp, e, hj, hp⟩
  | uol s =>
    rcases jsonStr_cases s with ⟨t, h, hj⟩ | ⟨e, h, hp, hj⟩ | ⟨e, h, hp, hj⟩
    · exact .inr ⟨(fun hu => by cases hu with | uol _ e he _ => rw [h] at he; cases he), _, hj, .uol s t h⟩
    · exact .inr ⟨(fun hu => by cases hu with | uol _ e' he hp' => rw [h] at he; cases he; rw [hp] at hp'; cases hp'), _, hj, .badUol s e h⟩
    · exact .inl ⟨.uol s e h hp, e, hj, hp⟩
  | vector v =>
    refine .inr ⟨(fun hu => by cases hu), _, rfl, .vector v _ (insert_nodup _ _ _ (insert_nodup _ _ _ List.nodup_nil)) fun k => ?_⟩
    exact two_entries "x".toList "y".toList k _ _ (by decide)
  | rawData a b => exact .inr ⟨(fun hu => by cases hu), _, rfl, .rawData a b⟩
  | video a b => exact .inr ⟨(fun hu => by cases hu), _, rfl, .video a b⟩
  | lua a b => exact .inr ⟨(fun hu => by cases hu), _, rfl, .lua a b⟩
  | short v => exact .inr ⟨(fun hu => by cases hu), _, rfl, .short v⟩
  | int v => exact .inr ⟨(fun hu => by cases hu), _, rfl, .int v⟩
  | long v => exact .inr ⟨(fun hu => by cases hu), _, rfl, .long v⟩
  | parsed t => exact .inr ⟨(fun hu => by cases hu), _, rfl, .parsed t⟩
  | null => exact .inr ⟨(fun hu => by cases hu), _, rfl, .null⟩

/-! ## trees -/

/-- the result for a tree: a panic exactly if a scalar cannot be exported -/
def Good (t : JNode) : Prop :=
  (∃ v, HasLeaf t v ∧ Unfit v ∧ ∃ e, t.json = .error e ∧ e.isPanic = true) ∨
  ((∀ v, HasLeaf t v → ¬ Unfit v) ∧ ∃ j, t.json = .ok j ∧ (Wf t → JShows t j))

theorem leaf_good (o : Obj) : Good (.node o []) := by
  have hj : (JNode.node o []).json = o.leafJson := by rw [JNode.json]
  have hno : (∀ v, o ≠ .value v) → ∀ v, ¬ HasLeaf (.node o []) v := by
    intro h v hl
    cases hl with
    | here _ => exact h v rfl
    | kid _ _ e _ he _ => cases he
  cases o with
  | value v =>
    rcases val_json v with ⟨hu, e, he, hp⟩ | ⟨hu, j, h, hs⟩
    · exact .inl ⟨v, .here v, hu, e, hj.trans he, hp⟩
    · refine .inr ⟨fun w hw => ?_, j, hj.trans h, fun _ => .scalar v j hs⟩
      cases hw with
      | here _ => exact hu
      | kid _ _ e _ he _ => cases he
  | property s =>
    cases s with
    | png p =>
      exact .inr ⟨fun v hv => absurd hv (hno (fun _ h => by cases h) v), _, hj, fun _ => .fields _ _ (.png p)
        (by simp [Png.json]) fun k => two_listed _ _ k _ _⟩
    | sound s =>
      refine .inr ⟨fun v hv => absurd hv (hno (fun _ h => by cases h) v), _, hj, fun _ => .fields _ _ (.sound s)
        (by simp [Sound.json]) fun k => (two_listed _ _ k _ _).trans ?_⟩
      obtain ⟨_, _, _, _, _, ty⟩ := s
      cases ty <;> rfl
    | _ =>
      exact .inr ⟨fun v hv => absurd hv (hno (fun _ h => by cases h) v), _, hj,
        fun _ => .empty _ (fun h => by cases h) (fun _ h => by cases h)⟩
  | _ =>
    exact .inr ⟨fun v hv => absurd hv (hno (fun _ h => by cases h) v), _, hj,
      fun _ => .empty _ (fun h => by cases h) (fun _ h => by cases h)⟩

theorem kids_run (kids : List (List Char × JNode)) (hg : ∀ e, e ∈ kids → Good e.2) (m : List (List Char × Json))
    (hm : (m.map Prod.fst).Nodup) :
    (∃ e v, e ∈ kids ∧ HasLeaf e.2 v ∧ Unfit v ∧ ∃ x, kidsJson kids m = .error x ∧ x.isPanic = true) ∨
    ((∀ e v, e ∈ kids → HasLeaf e.2 v → ¬ Unfit v) ∧ ∃ r, kidsJson kids m = .ok r ∧ (r.map Prod.fst).Nodup ∧
      ((kids.map Prod.fst).Nodup → (∀ e, e ∈ kids → Wf e.2) →
        ∃ f : List Char → Json, (∀ e, e ∈ kids → JShows e.2 (f e.1)) ∧ (∀ e, e ∈ kids → entry r e.1 = some (f e.1)) ∧
          ∀ n, n ∉ kids.map Prod.fst → entry r n = entry m n)) := by
  induction kids generalizing m with
  | nil =>
    refine .inr ⟨fun e v h => (by cases h), m, by rw [kidsJson], hm, fun _ _ => ⟨fun _ => .null, fun e h => (by cases h), fun e h => (by cases h), fun _ _ => rfl⟩⟩
  | cons k ks ih =>
    have hrun : kidsJson (k :: ks) m = k.2.json >>= fun j => kidsJson ks (jsonInsert m k.1 j) := by rw [kidsJson]
    rcases hg k List.mem_cons_self with ⟨v, hl, hu, x, hx, hp⟩ | ⟨hfit, j, hj, hshow⟩
    · exact .inl ⟨k, v, List.mem_cons_self, hl, hu, x, by rw [hrun, hx]; rfl, hp⟩
    · have hrun2 : kidsJson (k :: ks) m = kidsJson ks (jsonInsert m k.1 j) := by rw [hrun, hj]; rfl
      rcases ih (fun e he => hg e (List.mem_cons_of_mem _ he)) (jsonInsert m k.1 j) (insert_nodup _ _ _ hm) with
        ⟨e, v, he, hl, hu, x, hx, hp⟩ | ⟨hfits, r, hr, hnd, hex⟩
      · exact .inl ⟨e, v, List.mem_cons_of_mem _ he, hl, hu, x, hrun2.trans hx, hp⟩
      · refine .inr ⟨fun e v he hl => ?_, r, hrun2.trans hr, hnd, fun hd hw => ?_⟩
        · rcases List.mem_cons.1 he with rfl | he
          · exact hfit v hl
          · exact hfits e v he hl
        · simp only [List.map_cons, List.nodup_cons] at hd
          obtain ⟨f, h1, h2, h3⟩ := hex hd.2 fun e he => hw e (List.mem_cons_of_mem _ he)
          have hother : ∀ e, e ∈ ks → e.1 ≠ k.1 := fun e he h => hd.1 (h ▸ List.mem_map_of_mem he)
          refine ⟨fun n => if n = k.1 then j else f n, fun e he => ?_, fun e he => ?_, fun n hn => ?_⟩
          · rcases List.mem_cons.1 he with rfl | he
            · simpa using hshow (hw _ List.mem_cons_self)
            · simpa [hother e he] using h1 e he
          · rcases List.mem_cons.1 he with rfl | he
            · rw [h3 _ hd.1, entry_insert]; simp
            · simpa [hother e he] using h2 e he
          · simp only [List.map_cons, List.mem_cons, not_or] at hn
            rw [h3 n hn.2, entry_insert, if_neg (fun h => hn.1 h.symm)]

theorem container_good (o : Obj) (k : List Char × JNode) (ks : List (List Char × JNode)) (hg : ∀ e, e ∈ k :: ks → Good e.2) :
    Good (.node o (k :: ks)) := by
  have hrun : (JNode.node o (k :: ks)).json = kidsJson (k :: ks) o.ownEntries >>= fun m => .ok (.obj m) := by rw [JNode.json]; rfl
  rcases kids_run (k :: ks) hg o.ownEntries (own_nodup o) with ⟨e, v, he, hl, hu, x, hx, hp⟩ | ⟨hfit, r, hr, hnd, hex⟩
  · exact .inl ⟨v, .kid o _ e v he hl, hu, x, by rw [hrun, hx]; rfl, hp⟩
  · refine .inr ⟨fun v hv => ?_, .obj r, by rw [hrun, hr]; rfl, fun hw => ?_⟩
    · cases hv with
      | kid _ _ e _ he hl => exact hfit e v he hl
    · cases hw with
      | node _ _ hd hk =>
        obtain ⟨f, h1, h2, h3⟩ := hex hd hk
        exact .container o _ r f (by simp) hnd h1 h2 fun n hn => (h3 n hn).trans (own_entry o n)

theorem good_all : ∀ t : JNode, Good t
  | .node o [] => leaf_good o
  | .node o (k :: ks) => container_good o k ks fun e he => good_all e.2
termination_by t => sizeOf t
decreasing_by
  have := List.sizeOf_lt_of_mem he
  obtain ⟨a, b⟩ := e
  simp only [JNode.node.sizeOf_spec, Prod.mk.sizeOf_spec] at *
  omega

theorem units_even (bs : Bytes) (h : bs.length % 2 = 0) : ∃ us, units bs = .ok us := by
  induction bs using units.induct with
  | case1 => exact ⟨_, rfl⟩
  | case2 b => simp at h
  | case3 a b r ih =>
    obtain ⟨us, hu⟩ := ih (by simp at h; omega)
    exact ⟨_, by rw [units, hu]; rfl⟩

theorem slice_length {m : Mode} {buf : Bytes} {ks : Nat → Byte} {off len : Nat} (h : off + len < 2 ^ 64) :
    (∃ d, decryptSlice m buf ks off len = .ok d ∧ d.length = len) ∨
      ∃ a b, decryptSlice m buf ks off len = .error (.outOfBounds a b) := by
  unfold decryptSlice sliceOrError
  rw [addU_ok h]
  by_cases hb : off + len ≤ buf.length
  · refine .inl ⟨decryptWith ks ((buf.drop off).take (off + len - off)), ?_, ?_⟩
    · show (if _ then _ else _ : Except Err Bytes) >>= _ = _
      rw [if_pos ⟨by omega, hb⟩]; rfl
    · simp [decryptWith]; omega
  · refine .inr ⟨off + len, buf.length, ?_⟩
    show (if _ then _ else _ : Except Err Bytes) >>= _ = _
    rw [if_neg (by omega)]; rfl

/-- reading a text does not panic if its end is a 64-bit number and wide text has an even number of bytes -/
theorem get_noPanic (s : StrRef) (h : s.pos.offset + s.pos.length < 2 ^ 64)
    (hw : s.pos.ty = .unicode ∨ s.pos.ty = .pkg2Dir → s.pos.length % 2 = 0) (e : Err) (he : s.get = .error e) : e.isPanic = false := by
  unfold StrRef.get resolveMeta at he
  cases hty : s.pos.ty with
  | empty => rw [hty] at he; cases he
  | ascii =>
    rw [hty] at he
    dsimp only at he
    unfold resolveAsciiRaw at he
    rcases slice_length (m := s.env.mode) (buf := s.env.buf) (ks := s.env.ks) h with ⟨d, hd, _⟩ | ⟨a, b, hd⟩
    · rw [hd] at he; cases he
    · rw [hd] at he; cases he; rfl
  | unicode =>
    rw [hty] at he
    dsimp only at he
    unfold resolveUnicodeRaw at he
    rcases slice_length (m := s.env.mode) (buf := s.env.buf) (ks := s.env.ks) h with ⟨d, hd, hl⟩ | ⟨a, b, hd⟩
    · obtain ⟨us, hu⟩ := units_even d (hl ▸ hw (.inl hty))
      rw [hd] at he
      replace he : (units d >>= _ : Except Err _) >>= _ = Except.error e := he
      rw [hu] at he
      cases he
    · rw [hd] at he; cases he; rfl
  | pkg2Dir =>
    rw [hty] at he
    dsimp only at he
    unfold resolvePkg2DirRaw at he
    rcases slice_length (m := s.env.mode) (buf := s.env.buf) (ks := s.env.ks2) h with ⟨d, hd, hl⟩ | ⟨a, b, hd⟩
    · obtain ⟨us, hu⟩ := units_even d (hl ▸ hw (.inr hty))
      rw [hd] at he
      replace he : (units d : Except Err _) >>= _ = Except.error e := he
      rw [hu] at he
      cases he
    · rw [hd] at he; cases he; rfl

namespace Props

/-- C46: the export succeeds exactly when no childless node holds an infinity, a NaN or a text whose reading panics. -/
theorem C46_total_partial (t : JNode) : (∃ j, t.json = .ok j) ↔ ∀ v, HasLeaf t v → ¬ Unfit v := by
  rcases good_all t with ⟨v, hl, hu, e, he, _⟩ | ⟨hf, j, hj, _⟩
  · exact ⟨fun hj => (by obtain ⟨j, hj⟩ := hj; rw [he] at hj; cases hj), fun h => absurd hu (h v hl)⟩
  · exact ⟨fun _ => hf, fun _ => ⟨j, hj⟩⟩

/-- C46, violated: otherwise it panics; no error is ever returned. -/
theorem C46_panics (t : JNode) (e : Err) (h : t.json = .error e) : e.isPanic = true := by
  rcases good_all t with ⟨_, _, _, e', he, hp⟩ | ⟨_, j, hj, _⟩
  · rw [he] at h; cases h; exact hp
  · rw [hj] at h; cases h

/-- C46, violated: a NaN (here a float) anywhere in a tree makes the export of the whole tree panic. -/
theorem C46_nan (t : JNode) (b : Nat) (hb : NotFinite32 b) (hl : HasLeaf t (.float b)) : ∃ e, t.json = .error e ∧ e.isPanic = true := by
  rcases good_all t with ⟨_, _, _, e, he, hp⟩ | ⟨hf, _⟩
  · exact ⟨e, he, hp⟩
  · exact absurd (.float b hb) (hf _ hl)

example : NotFinite32 0x7fc00000 ∧ HasLeaf (.node (.property .property) [("n".toList, .node (.value (.float 0x7fc00000)) [])]) (.float 0x7fc00000) :=
  ⟨rfl, .kid _ _ _ _ (.head _) (.here _)⟩

/-- C46: what is exported shows the tree: scalars their values, nodes with children an object with exactly the children and, for
pictures and sounds, their fields that no child hides. -/
theorem C46_faithful_partial (t : JNode) (hw : Wf t) (j : Json) (h : t.json = .ok j) : JShows t j := by
  rcases good_all t with ⟨_, _, _, e, he, _⟩ | ⟨_, j', hj, hs⟩
  · rw [he] at h; cases h
  · rw [hj] at h; cases h; exact hs hw

/-- a tree: a folder with a picture that has a child, a vector, a float and an empty folder -/
def sampleTree : JNode :=
  .node (.property .property)
    [("pic".toList, .node (.property (.png ⟨0, 0, 0, 0, 0, 0, 3, 4⟩)) [("origin".toList, .node (.value (.vector ⟨1, -2⟩)) [])]),
     ("f".toList, .node (.value (.float 0x3f800000)) []), ("e".toList, .node (.property .property) [])]

example : ∃ j, sampleTree.json = .ok j ∧ JShows sampleTree j := by
  refine ⟨_, rfl, C46_faithful_partial _ ?_ _ rfl⟩
  refine .node _ _ (by decide) fun e he => ?_
  simp only [List.mem_cons, List.not_mem_nil, or_false] at he
  rcases he with rfl | rfl | rfl
  · refine .node _ _ (by decide) fun e he => ?_
    simp only [List.mem_cons, List.not_mem_nil, or_false] at he
    subst he
    exact .node _ _ (by decide) fun e he => by cases he
  · exact .node _ _ (by decide) fun e he => by cases he
  · exact .node _ _ (by decide) fun e he => by cases he

example : (JNode.node (.property .property) [("n".toList, .node (.value (.float 0x7fc00000)) [])]).json = .error .panicUnwrap := rfl
example : num32 0x3f800000 = 2 ^ 149 ∧ num32 0x80000001 = -1 := by decide

/-- C46: a single precision number is exported as the same number. -/
theorem C46_float (b : Nat) (h : ¬ NotFinite32 b) :
    ∃ d, (Val.float b).json = .ok (.float d) ∧ num64 d = num32 b * 2 ^ 925 ∧ d / 9223372036854775808 = b / 2147483648 := by
  refine ⟨f64OfF32 b, ?_, widen_value b h, widen_sign b⟩
  show (if finite64 (f64OfF32 b) then .ok (.float (f64OfF32 b)) else .error .panicUnwrap : Except Err Json) = _
  rw [if_pos ((finite64_iff _).2 fun hh => h ((widen_finite b).1 hh))]

example : f64OfF32 0x3f800000 = 0x3ff0000000000000 ∧ f64OfF32 1 = 0x36a0000000000000 := by decide

/-- C46, violated: an empty folder, image or file is not exported as an object but as `null`, like a null value. -/
theorem C46_empty_container : (JNode.node (.property .property) []).json = (JNode.node (.value .null) []).json := by
  rw [JNode.json, JNode.json]; rfl

/-- C46, violated: the value of a node that has children is lost. -/
theorem C46_value_with_children (v w : Val) (kids : List (List Char × JNode)) (h : kids ≠ []) :
    (JNode.node (.value v) kids).json = (JNode.node (.value w) kids).json := by
  cases kids with
  | nil => exact absurd rfl h
  | cons k ks => rw [JNode.json, JNode.json]; rfl

/-- C46, violated: a text that cannot be read is exported as the empty text. -/
theorem C46_unreadable (s : StrRef) (e : Err) (h : s.get = .error e) (hp : e.isPanic = false) : (Val.str s).json = .ok (.str []) := by
  show jsonStr s = _
  unfold jsonStr
  rw [h]
  exact if_neg (by rw [hp]; decide)

/-- a text behind the end of the file -/
example : (Val.str ⟨⟨.checked, [], fun _ => 0#8, fun _ => 0#8⟩, ⟨0, 5, .ascii⟩⟩).json = .ok (.str []) :=
  C46_unreadable _ (.outOfBounds 5 0) rfl rfl

/-- C46, violated: a child named like a field of its picture hides the field. -/
theorem C46_hidden_field (p : Png) (v : Int) :
    ∃ m, (JNode.node (.property (.png p)) [("width".toList, .node (.value (.int v)) [])]).json = .ok (.obj m) ∧
      entry m "width".toList = some (.int v) := ⟨_, rfl, rfl⟩

/-- C46: texts found in a file do not make the export panic. -/
theorem C46_text_no_panic (s : StrRef) (h : s.pos.offset + s.pos.length < 2 ^ 64)
    (hw : s.pos.ty = .unicode ∨ s.pos.ty = .pkg2Dir → s.pos.length % 2 = 0) : ¬ Unfit (.str s) ∧ ¬ Unfit (.uol s) := by
  constructor <;> intro hu
  · cases hu with | str _ e he hp => rw [get_noPanic s h hw e he] at hp; cases hp
  · cases hu with | uol _ e he hp => rw [get_noPanic s h hw e he] at hp; cases hp

example (env : Env) : ¬ Unfit (.str ⟨env, ⟨10, 6, .unicode⟩⟩) := (C46_text_no_panic ⟨env, ⟨10, 6, .unicode⟩⟩ (by simp) (by simp)).1

end Props
end Wz
