import Verif.Version.Pkg1Model
import Init.Data.Nat.ToString
import Init.Data.Int.ToString
/-!
# Property theorems about PKG1 version detection: C11, C49
-/

set_option autoImplicit false

namespace Wz.Spec

/-- The hash of a version number: its decimal digits, most significant first, each multiplied in as
`h * 32 + ('0' + digit) + 1`. -/
def verHash (n : Nat) : Nat :=
  if n < 10 then n + 49 else verHash (n / 10) * 32 + n % 10 + 49
termination_by n

/-- The one byte checksum of a version hash: its four bytes xored together, complemented. -/
def verCheck (h : Nat) : Nat :=
  (h % 256) ^^^ (h / 256 % 256) ^^^ (h / 65536 % 256) ^^^ (h / 16777216 % 256) ^^^ 255

/-- version `v` fits the number stored in the header -/
def VersionFits (encver : Int) (v : Nat) : Prop := encver = v ∨ encver = verCheck (verHash v)

instance (e : Int) (v : Nat) : Decidable (VersionFits e v) := by unfold VersionFits; infer_instance

end Wz.Spec

namespace Wz.Props
open Wz Wz.Spec Wz.Pkg1

theorem verHash_lt (n : Nat) (hn : n < 10) : verHash n = n + 49 := by
  rw [verHash, if_pos hn]

theorem verHash_ge (n : Nat) (hn : 10 ≤ n) : verHash n = verHash (n / 10) * 32 + n % 10 + 49 := by
  rw [verHash, if_neg (by omega)]

/-- digits seen so far bound the hash -/
private theorem verHash_bound (k n : Nat) (hn : n < 10 ^ (k + 1)) : verHash n ≤ 58 * 32 ^ k * 2 - 58 := by
  induction k generalizing n with
  | zero => rw [verHash_lt n (by omega)]; omega
  | succ k ih =>
    by_cases h10 : n < 10
    · rw [verHash_lt n h10]
      have : 1 ≤ 32 ^ k := Nat.one_le_pow _ _ (by omega)
      rw [Nat.pow_succ]; omega
    · rw [verHash_ge n (by omega)]
      have := ih (n / 10) (by rw [Nat.pow_succ] at hn; omega)
      have : 1 ≤ 32 ^ k := Nat.one_le_pow _ _ (by omega)
      rw [Nat.pow_succ 32]; omega

private theorem verHash_small (n : Nat) (hn : n < 10 ^ 6) : verHash n < 2 ^ 32 := by
  have := verHash_bound 5 n hn
  omega

private theorem digit_code (d : Nat) (hd : d < 10) : lowerCode (Nat.digitChar d) = d + 48 := by
  have : ∀ d : Fin 10, lowerCode (Nat.digitChar d.val) = d.val + 48 := by decide
  exact this ⟨d, hd⟩

private theorem hashStep_ok (m : Mode) (h d : Nat) (hd : d < 10) (hb : h * 32 + d + 49 < 2 ^ 32) :
    hashStep m h (Nat.digitChar d) = .ok (h * 32 + d + 49) := by
  unfold hashStep
  rw [digit_code d hd]
  unfold mulU32
  rw [if_pos (by omega)]
  show (addU32 m (h * 32) (d + 48) >>= fun y => addU32 m y 1) = _
  unfold addU32
  rw [if_pos (by omega)]
  show (if _ then _ else _) = _
  rw [if_pos (by omega)]
  congr 1

private theorem hashStep_overflow (h d : Nat) (hd : d < 10) (hb : 2 ^ 32 ≤ h * 32) :
    hashStep .checked h (Nat.digitChar d) = .error .panicOverflow := by
  unfold hashStep mulU32
  rw [if_neg (by omega)]
  rfl

private theorem hash_digits (m : Mode) (n : Nat) (hn : verHash n < 2 ^ 32) :
    (Nat.toDigits 10 n).foldlM (hashStep m) 0 = .ok (verHash n) := by
  induction n using Nat.strongRecOn with
  | ind n ih =>
    by_cases h10 : n < 10
    · rw [Nat.toDigits_of_lt_base h10, verHash_lt n h10, List.foldlM_cons]
      rw [hashStep_ok m 0 n h10 (by omega)]
      show Except.ok _ = _
      congr 1
      omega
    · rw [verHash_ge n (by omega)] at hn ⊢
      rw [Nat.toDigits_of_base_le (by omega) (by omega), List.foldlM_append]
      rw [ih (n / 10) (by omega) (by omega)]
      show (List.foldlM (hashStep m) (verHash (n / 10)) [(n % 10).digitChar]) = _
      rw [List.foldlM_cons, hashStep_ok m _ _ (by omega) (by omega)]
      rfl

private theorem versionHash_nat (m : Mode) (n : Nat) (hn : verHash n < 2 ^ 32) :
    versionHash m (n : Int) = .ok (verHash n) := by
  unfold versionHash
  rw [show (toString (n : Int)) = n.repr from rfl, Nat.toList_repr]
  exact hash_digits m n hn

private theorem verHash_pos (n : Nat) : 49 ≤ verHash n := by
  by_cases h10 : n < 10
  · rw [verHash_lt n h10]; omega
  · rw [verHash_ge n (by omega)]; omega

private theorem verHash_low (k n : Nat) (hn : 10 ^ k ≤ n) : 49 * 32 ^ k ≤ verHash n := by
  induction k generalizing n with
  | zero => have := verHash_pos n; omega
  | succ k ih =>
    rw [Nat.pow_succ] at hn
    have : 1 ≤ 10 ^ k := Nat.one_le_pow _ _ (by omega)
    rw [verHash_ge n (by omega)]
    have := ih (n / 10) (by omega)
    rw [Nat.pow_succ]; omega

/-! ## C11 version candidates -/

/-- C11: the hash of every version below one million is computed without overflow, is the digit-wise hash
and is never zero. -/
theorem C11_hash (m : Mode) (n : Nat) (hn : n < 10 ^ 6) :
    versionHash m n = .ok (verHash n) ∧ 0 < verHash n ∧ verHash n < 2 ^ 32 :=
  ⟨versionHash_nat m n (verHash_small n hn), by have := verHash_pos n; omega, verHash_small n hn⟩

example : verHash 83 = 1876 ∧ verHash 2000 = 1722961 := by simp [verHash]

/-- C11: one million is the exact limit: from there on the computation overflows. -/
theorem C11_hash_overflow (n : Nat) (hn : 10 ^ 6 ≤ n) :
    versionHash .checked n = .error .panicOverflow := by
  unfold versionHash
  rw [show (toString (n : Int)) = n.repr from rfl, Nat.toList_repr]
  induction n using Nat.strongRecOn with
  | ind n ih =>
    rw [Nat.toDigits_of_base_le (by omega) (by omega), List.foldlM_append]
    by_cases hs : n / 10 < 10 ^ 6
    · rw [hash_digits _ _ (verHash_small _ hs)]
      show (List.foldlM (hashStep .checked) (verHash (n / 10)) [(n % 10).digitChar]) = _
      have := verHash_low 5 (n / 10) (by omega)
      rw [List.foldlM_cons, hashStep_overflow _ _ (by omega) (by omega)]
      rfl
    · rw [ih (n / 10) (by omega) (by omega)]
      rfl

private theorem enc_eq (h : Nat) (hh : h < 2 ^ 32) :
    0xff ^^^ ((h >>> 24) &&& 0xff) ^^^ ((h >>> 16) &&& 0xff) ^^^ ((h >>> 8) &&& 0xff) ^^^ (h &&& 0xff) =
      verCheck h := by
  have e : ∀ x, x &&& 0xff = x % 256 := fun x => Nat.and_two_pow_sub_one_eq_mod x 8
  simp only [e, Nat.shiftRight_eq_div_pow, verCheck]
  generalize h % 256 = a
  rw [show h / 2 ^ 24 % 256 = h / 16777216 % 256 from rfl, show h / 2 ^ 16 % 256 = h / 65536 % 256 from rfl,
    show h / 2 ^ 8 % 256 = h / 256 % 256 from rfl]
  generalize h / 256 % 256 = b
  generalize h / 65536 % 256 = c
  generalize h / 16777216 % 256 = d
  rw [Nat.xor_comm _ a, Nat.xor_comm _ b, Nat.xor_comm _ c, Nat.xor_comm _ d]
  simp only [Nat.xor_assoc]

private theorem verCheck_lt (h : Nat) : verCheck h < 256 := by
  unfold verCheck
  have key : ∀ a b, a < 2 ^ 8 → b < 2 ^ 8 → a ^^^ b < 2 ^ 8 := fun a b => Nat.xor_lt_two_pow
  exact key _ _ (key _ _ (key _ _ (key _ _ (by omega) (by omega)) (by omega)) (by omega)) (by omega)

theorem checkHash_eq (m : Mode) (g : Gen) (n : Nat) (hc : g.current = n) (hn : n < 10 ^ 6)
    (h0 : -2 ^ 31 ≤ g.encver) (h1 : g.encver < 2 ^ 31) :
    g.checkHash m = .ok (if VersionFits g.encver n then verHash n else 0) := by
  unfold Gen.checkHash
  obtain ⟨e, _, hl⟩ := C11_hash m n hn
  rw [hc, e]
  have := verCheck_lt (verHash n)
  have key : (verCheck (verHash n) = asU32 g.encver) ↔ g.encver = verCheck (verHash n) := by
    unfold asU32
    omega
  simp only [bind, Except.bind, pure, Except.pure]
  rw [enc_eq _ hl]
  by_cases he : g.encver = n
  · rw [if_pos he, if_pos (show VersionFits g.encver n from Or.inl he)]
  · rw [if_neg he]
    by_cases hk : g.encver = verCheck (verHash n)
    · rw [if_pos (key.mpr hk), if_pos (show VersionFits g.encver n from Or.inr hk)]
    · rw [if_neg (fun h => hk (key.mp h)),
        if_neg (show ¬ VersionFits g.encver n from fun h => h.elim he hk)]

private theorem addI32_ok {m : Mode} {a b : Int} (h : -2 ^ 31 ≤ a + b ∧ a + b < 2 ^ 31) :
    addI32 m a b = .ok (a + b) := by
  unfold addI32
  exact if_pos h

private theorem next_run {m : Mode} {g : Gen} {x : Nat} {c : Int} (hm : g.current ≤ g.maxVersion)
    (hc : g.checkHash m = .ok x) (ha : addI32 m g.current 1 = .ok c) :
    Gen.next m g = .ok (some (g.current, x), { g with current := c }) := by
  unfold Gen.next
  rw [if_neg (by omega), hc]
  show (addI32 m g.current 1 >>= _) = _
  rw [ha]
  rfl

theorem next_some (m : Mode) (encver mx : Int) (lo : Nat) (hlo : lo < 10 ^ 6) (hm : (lo : Int) ≤ mx)
    (h0 : -2 ^ 31 ≤ encver) (h1 : encver < 2 ^ 31) :
    Gen.next m ⟨encver, mx, lo⟩ = .ok (some ((lo : Int), if VersionFits encver lo then verHash lo else 0),
      ⟨encver, mx, ((lo + 1 : Nat) : Int)⟩) := by
  have ha : addI32 m (lo : Int) 1 = .ok ((lo + 1 : Nat) : Int) := by
    have : (lo : Int) + 1 = ((lo + 1 : Nat) : Int) := by omega
    rw [addI32_ok ⟨by omega, by omega⟩, this]
  exact next_run (g := ⟨encver, mx, lo⟩) hm (checkHash_eq m ⟨encver, mx, lo⟩ lo rfl hlo h0 h1) ha

theorem next_none (m : Mode) (encver mx : Int) (lo : Nat) (hm : mx < (lo : Int)) :
    Gen.next m ⟨encver, mx, lo⟩ = .ok (none, ⟨encver, mx, lo⟩) := by
  unfold Gen.next
  rw [if_pos (by show (lo : Int) > mx; omega)]
  rfl

private theorem collect_none {m : Mode} {n : Nat} {g g' : Gen} (h : g.next m = .ok (none, g')) :
    Gen.collect m (n + 1) g = .ok [] := by
  rw [Gen.collect, h]
  rfl

private theorem collect_some {m : Mode} {n : Nat} {g g' : Gen} {x : Int × Nat} {xs : List (Int × Nat)}
    (h : g.next m = .ok (some x, g')) (h2 : Gen.collect m n g' = .ok xs) :
    Gen.collect m (n + 1) g = .ok (x :: xs) := by
  rw [Gen.collect, h]
  simp only [bind, Except.bind, pure, Except.pure, h2]

/-- C11: iterating the generator from version `lo` to version `hi` gives every version of the range once,
in ascending order, each with its own hash if it fits the stored number and with 0 otherwise; and then
stops. -/
theorem C11_sequence (m : Mode) (encver : Int) (lo cnt : Nat) (hb : lo + cnt ≤ 10 ^ 6)
    (h0 : -2 ^ 31 ≤ encver) (h1 : encver < 2 ^ 31) :
    Gen.collect m (cnt + 1) (Gen.new encver lo ((lo : Int) + cnt - 1)) =
      .ok ((List.range' lo cnt).map fun (v : Nat) => ((v : Int), if VersionFits encver v then verHash v else 0)) := by
  unfold Gen.new
  generalize hmx : ((lo : Int) + cnt - 1) = mx
  induction cnt generalizing lo with
  | zero => rw [collect_none (next_none m encver mx lo (by omega))]; rfl
  | succ k ih =>
    rw [collect_some (next_some m encver mx lo (by omega) (by omega) h0 h1) (ih (lo + 1) (by omega) (by omega))]
    rw [List.range'_succ, List.map_cons]

/-- C11: so the candidates that a caller may use, those with a non-zero hash, are exactly the versions of
the range that fit, with their hashes. -/
theorem C11_candidates (m : Mode) (encver : Int) (lo cnt : Nat) (hb : lo + cnt ≤ 10 ^ 6)
    (h0 : -2 ^ 31 ≤ encver) (h1 : encver < 2 ^ 31) :
    ∃ items, Gen.collect m (cnt + 1) (Gen.new encver lo ((lo : Int) + cnt - 1)) = .ok items ∧
      items.filter (fun p => p.2 ≠ 0) =
        ((List.range' lo cnt).filter fun v => VersionFits encver v).map fun (v : Nat) => ((v : Int), verHash v) := by
  refine ⟨_, C11_sequence m encver lo cnt hb h0 h1, ?_⟩
  rw [List.filter_map]
  have hf : (List.range' lo cnt).filter ((fun p : Int × Nat => decide (p.2 ≠ 0)) ∘
      fun (v : Nat) => ((v : Int), if VersionFits encver v then verHash v else 0)) =
      (List.range' lo cnt).filter fun v => VersionFits encver v := by
    apply List.filter_congr
    intro v _
    have := verHash_pos v
    simp only [Function.comp]
    by_cases hv : VersionFits encver v
    · simp [hv]; omega
    · simp [hv]
  rw [hf]
  apply List.map_congr_left
  intro v hv
  rw [List.mem_filter] at hv
  simp only [decide_eq_true_eq] at hv
  simp [hv.2]

/-- the candidates of a file whose header says 172, among 80..90 -/
example : ((List.range' 80 11).filter fun v => VersionFits 172 v) = [83] := by
  have h : ∀ v ∈ List.range' 80 11, decide (VersionFits 172 v) = decide (v = 83) := by
    intro v hv
    simp [List.range'_succ] at hv
    rcases hv with h | h | h | h | h | h | h | h | h | h | h <;> subst h <;> simp [VersionFits, verCheck, verHash]
  rw [List.filter_congr h]
  decide

/-- C11: a file with version number `ev` in its header is tried with exactly the versions 1..2000 that
fit. -/
theorem C11_parse_with_version (m : Mode) (ev : Nat) (he : ev < 2 ^ 16) :
    ∃ items, Gen.collect m 2001 (parseGen (some ev)) = .ok items ∧
      items.filter (fun p => p.2 ≠ 0) =
        ((List.range' 1 2000).filter fun v => VersionFits ev v).map fun (v : Nat) => ((v : Int), verHash v) :=
  C11_candidates m ev 1 2000 (by decide) (by omega) (by omega)

/-! ## C49 files without a version number -/

/-- C49, violated: of the eleven versions 770..780 that are meant to be tried for a file without version
number only 770 gets a hash; the others get 0 and are rejected. -/
theorem C49_only_770 (m : Mode) :
    ∃ items, Gen.collect m 12 (parseGen none) = .ok items ∧ items.map Prod.fst = [770, 771, 772, 773, 774, 775, 776, 777, 778, 779, 780] ∧
      items.filter (fun p => p.2 ≠ 0) = [(770, verHash 770)] := by
  obtain ⟨items, h, hf⟩ := C11_candidates m 770 770 11 (by decide) (by decide) (by decide)
  refine ⟨items, h, ?_, ?_⟩
  · have := C11_sequence m 770 770 11 (by decide) (by decide) (by decide)
    rw [this] at h
    injection h with h
    rw [← h, List.map_map]
    rfl
  · rw [hf]
    have : ((List.range' 770 11).filter fun (v : Nat) => VersionFits 770 v) = [770] := by
      have h770 : decide (VersionFits 770 (770 : Nat)) = true := decide_eq_true (Or.inl rfl)
      rw [List.range'_succ, List.filter_cons, if_pos h770, List.filter_eq_nil_iff.mpr]
      intro v hv
      rw [List.mem_range'_1] at hv
      have : ¬ VersionFits 770 v := by
        rintro (h | h)
        · omega
        · have := verCheck_lt (verHash v); omega
      simpa using this
    rw [this]
    rfl

/-- C49, in general: without a version number no version above 770 can ever be chosen, because a checksum
is at most 255. -/
theorem C49_never_above (v : Nat) (hv : v ≠ 770) : ¬ VersionFits 770 v := by
  rintro (h | h)
  · omega
  · have := verCheck_lt (verHash v); omega

end Wz.Props
