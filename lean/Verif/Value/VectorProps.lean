import Verif.Value.Model
/-!
# Vector arithmetic (C48)
-/

set_option autoImplicit false

namespace Wz

namespace Spec

/-- the values of a 32-bit signed integer -/
def Fits32 (v : Int) : Prop := -2147483648 ≤ v ∧ v ≤ 2147483647

instance (v : Int) : Decidable (Fits32 v) := inferInstanceAs (Decidable (_ ∧ _))

/-- `r` is what is left of `v` in 32 bits -/
def Wraps32 (v r : Int) : Prop := Fits32 r ∧ ∃ k : Int, r = v + k * 4294967296

/-- `q` is the quotient of `a` by `b`, rounded towards zero -/
def IsQuot (a b q : Int) : Prop := ∃ r, a = q * b + r ∧ r.natAbs < b.natAbs ∧ (0 ≤ a → 0 ≤ r) ∧ (a ≤ 0 → r ≤ 0)

end Spec

open Spec

theorem wraps_bmod (v : Int) : Wraps32 v (Int.bmod v (2 ^ 32)) := by
  refine ⟨⟨?_, ?_⟩, ?_⟩
  · have := Int.le_bmod (x := v) (m := 2 ^ 32) (by decide); omega
  · have := Int.bmod_lt (x := v) (m := 2 ^ 32) (by decide); omega
  · unfold Int.bmod
    have h2 : ((2 ^ 32 : Nat) : Int) = 4294967296 := by decide
    rw [h2]
    have h3 := Int.mul_ediv_add_emod v 4294967296
    dsimp only
    split
    · exact ⟨-(v / 4294967296), by omega⟩
    · exact ⟨-(v / 4294967296) - 1, by omega⟩

theorem fits_iff (v : Int) : (-2 ^ 31 ≤ v ∧ v < 2 ^ 31) ↔ Fits32 v := by
  unfold Fits32
  omega

/-- the shape of the three operations on one component -/
theorem arith_cases (op : Mode → Except Err Int) (v : Int)
    (h : ∀ m, op m = if -2 ^ 31 ≤ v ∧ v < 2 ^ 31 then .ok v else match m with
      | .checked => .error .panicOverflow
      | .wrap => .ok (Int.bmod v (2 ^ 32))) :
    (Fits32 v → ∀ m, op m = .ok v) ∧ (¬ Fits32 v → op .checked = .error .panicOverflow) ∧ ∃ r, op .wrap = .ok r ∧ Wraps32 v r := by
  refine ⟨fun hf m => ?_, fun hf => ?_, ?_⟩
  · rw [h, if_pos ((fits_iff v).2 hf)]
  · rw [h, if_neg (fun hh => hf ((fits_iff v).1 hh))]
  · by_cases hf : Fits32 v
    · exact ⟨v, by rw [h, if_pos ((fits_iff v).2 hf)], hf, 0, by omega⟩
    · exact ⟨_, by rw [h, if_neg (fun hh => hf ((fits_iff v).1 hh))], wraps_bmod v⟩

theorem add_cases (a b : Int) : (Fits32 (a + b) → ∀ m, addI32 m a b = .ok (a + b)) ∧
    (¬ Fits32 (a + b) → addI32 .checked a b = .error .panicOverflow) ∧ ∃ r, addI32 .wrap a b = .ok r ∧ Wraps32 (a + b) r :=
  arith_cases (fun m => addI32 m a b) (a + b) (fun _ => rfl)
theorem sub_cases (a b : Int) : (Fits32 (a - b) → ∀ m, subI32 m a b = .ok (a - b)) ∧
    (¬ Fits32 (a - b) → subI32 .checked a b = .error .panicOverflow) ∧ ∃ r, subI32 .wrap a b = .ok r ∧ Wraps32 (a - b) r :=
  arith_cases (fun m => subI32 m a b) (a - b) (fun _ => rfl)
theorem mul_cases (a b : Int) : (Fits32 (a * b) → ∀ m, mulI32 m a b = .ok (a * b)) ∧
    (¬ Fits32 (a * b) → mulI32 .checked a b = .error .panicOverflow) ∧ ∃ r, mulI32 .wrap a b = .ok r ∧ Wraps32 (a * b) r :=
  arith_cases (fun m => mulI32 m a b) (a * b) (fun _ => rfl)

/-- two components one after the other -/
def pair (f g : Except Err Int) : Except Err V2 := do
  let x ← f
  let y ← g
  return ⟨x, y⟩

theorem pair_cases (f g : Mode → Except Err Int) (u v : Int)
    (hf : (Fits32 u → ∀ m, f m = .ok u) ∧ (¬ Fits32 u → f .checked = .error .panicOverflow) ∧ ∃ r, f .wrap = .ok r ∧ Wraps32 u r)
    (hg : (Fits32 v → ∀ m, g m = .ok v) ∧ (¬ Fits32 v → g .checked = .error .panicOverflow) ∧ ∃ r, g .wrap = .ok r ∧ Wraps32 v r) :
    (Fits32 u → Fits32 v → ∀ m, pair (f m) (g m) = .ok ⟨u, v⟩) ∧
    (¬ (Fits32 u ∧ Fits32 v) → pair (f .checked) (g .checked) = .error .panicOverflow) ∧
    ∃ r : V2, pair (f .wrap) (g .wrap) = .ok r ∧ Wraps32 u r.x ∧ Wraps32 v r.y := by
  refine ⟨fun h1 h2 m => ?_, fun hn => ?_, ?_⟩
  · rw [hf.1 h1, hg.1 h2]; rfl
  · by_cases h1 : Fits32 u
    · rw [hf.1 h1, hg.2.1 (fun h2 => hn ⟨h1, h2⟩)]; rfl
    · rw [hf.2.1 h1]; rfl
  · obtain ⟨x, hx, hx'⟩ := hf.2.2
    obtain ⟨y, hy, hy'⟩ := hg.2.2
    exact ⟨⟨x, y⟩, by rw [hx, hy]; rfl, hx', hy'⟩

theorem tdiv_isQuot (a b : Int) (hb : b ≠ 0) : IsQuot a b (a.tdiv b) := by
  refine ⟨a.tmod b, ?_, ?_, fun h => Int.tmod_nonneg b h, fun h => ?_⟩
  · have := Int.mul_tdiv_add_tmod a b
    rw [Int.mul_comm] at this
    omega
  · rw [Int.natAbs_tmod]
    exact Nat.mod_lt _ (Int.natAbs_pos.2 hb)
  · have h1 : (-a).tmod b = -(a.tmod b) := Int.neg_tmod a b
    have h2 := Int.tmod_nonneg b (show 0 ≤ -a by omega)
    omega

namespace Props

/-- C48: addition is component-wise wherever the sums are 32-bit integers.  Where one is not, a build with overflow checks
panics, and one without keeps the low 32 bits of each component. -/
theorem C48_add_partial (a b : V2) :
    (Fits32 (a.x + b.x) → Fits32 (a.y + b.y) → ∀ m, a.add m b = .ok ⟨a.x + b.x, a.y + b.y⟩) ∧
    (¬ (Fits32 (a.x + b.x) ∧ Fits32 (a.y + b.y)) → a.add .checked b = .error .panicOverflow) ∧
    ∃ r : V2, a.add .wrap b = .ok r ∧ Wraps32 (a.x + b.x) r.x ∧ Wraps32 (a.y + b.y) r.y :=
  pair_cases _ _ _ _ (add_cases a.x b.x) (add_cases a.y b.y)

example : V2.add .checked ⟨1, -2⟩ ⟨30, 40⟩ = .ok ⟨31, 38⟩ := (C48_add_partial ⟨1, -2⟩ ⟨30, 40⟩).1 (by decide) (by decide) _
example : V2.add .checked ⟨2147483647, 0⟩ ⟨1, 0⟩ = .error .panicOverflow := (C48_add_partial _ _).2.1 (fun h => absurd h.1 (by decide))

/-- C48: subtraction, in the same way. -/
theorem C48_sub_partial (a b : V2) :
    (Fits32 (a.x - b.x) → Fits32 (a.y - b.y) → ∀ m, a.sub m b = .ok ⟨a.x - b.x, a.y - b.y⟩) ∧
    (¬ (Fits32 (a.x - b.x) ∧ Fits32 (a.y - b.y)) → a.sub .checked b = .error .panicOverflow) ∧
    ∃ r : V2, a.sub .wrap b = .ok r ∧ Wraps32 (a.x - b.x) r.x ∧ Wraps32 (a.y - b.y) r.y :=
  pair_cases _ _ _ _ (sub_cases a.x b.x) (sub_cases a.y b.y)

example : V2.sub .checked ⟨1, -2⟩ ⟨30, 40⟩ = .ok ⟨-29, -42⟩ := (C48_sub_partial ⟨1, -2⟩ ⟨30, 40⟩).1 (by decide) (by decide) _

/-- C48: multiplication, in the same way. -/
theorem C48_mul_partial (a b : V2) :
    (Fits32 (a.x * b.x) → Fits32 (a.y * b.y) → ∀ m, a.mul m b = .ok ⟨a.x * b.x, a.y * b.y⟩) ∧
    (¬ (Fits32 (a.x * b.x) ∧ Fits32 (a.y * b.y)) → a.mul .checked b = .error .panicOverflow) ∧
    ∃ r : V2, a.mul .wrap b = .ok r ∧ Wraps32 (a.x * b.x) r.x ∧ Wraps32 (a.y * b.y) r.y :=
  pair_cases _ _ _ _ (mul_cases a.x b.x) (mul_cases a.y b.y)

example : V2.mul .checked ⟨3, -2⟩ ⟨30, 40⟩ = .ok ⟨90, -80⟩ := (C48_mul_partial ⟨3, -2⟩ ⟨30, 40⟩).1 (by decide) (by decide) _

/-- C48: division is component-wise, rounded towards zero, and succeeds exactly when no divisor is zero and no quotient is
`2^31`; otherwise it panics in every build. -/
theorem C48_div_partial (a b : V2) :
    ((∃ r, a.div b = .ok r) ↔ b.x ≠ 0 ∧ b.y ≠ 0 ∧ ¬ (a.x = -2147483648 ∧ b.x = -1) ∧ ¬ (a.y = -2147483648 ∧ b.y = -1)) ∧
    (∀ r, a.div b = .ok r → IsQuot a.x b.x r.x ∧ IsQuot a.y b.y r.y) ∧
    (∀ e, a.div b = .error e → e = .panicOverflow) := by
  have hd : a.div b = pair (divI32 a.x b.x) (divI32 a.y b.y) := rfl
  have key : ∀ u v : Int, divI32 u v = if v = 0 ∨ (u = -2147483648 ∧ v = -1) then .error .panicOverflow else .ok (u.tdiv v) :=
    fun u v => rfl
  rw [hd, key a.x b.x, key a.y b.y]
  by_cases h1 : b.x = 0 ∨ (a.x = -2147483648 ∧ b.x = -1)
  · rw [if_pos h1]
    refine ⟨⟨fun hr => (by obtain ⟨r, hr⟩ := hr; cases hr), fun h => absurd h1 (by omega)⟩, fun r hr => (by cases hr), fun e he => (by cases he; rfl)⟩
  · rw [if_neg h1]
    by_cases h2 : b.y = 0 ∨ (a.y = -2147483648 ∧ b.y = -1)
    · rw [if_pos h2]
      refine ⟨⟨fun hr => (by obtain ⟨r, hr⟩ := hr; cases hr), fun h => absurd h2 (by omega)⟩, fun r hr => (by cases hr), fun e he => (by cases he; rfl)⟩
    · rw [if_neg h2]
      refine ⟨⟨fun _ => by omega, fun _ => ⟨⟨_, _⟩, rfl⟩⟩, fun r hr => ?_, fun e he => (by cases he)⟩
      cases hr
      exact ⟨tdiv_isQuot _ _ (by omega), tdiv_isQuot _ _ (by omega)⟩

example : V2.div ⟨-7, 9⟩ ⟨2, -3⟩ = .ok ⟨-3, -3⟩ := by decide
example : V2.div ⟨-2147483648, 0⟩ ⟨-1, 1⟩ = .error .panicOverflow := by decide

/-- C48: the differences a distance is made from.  For points further apart than 32 bits they are wrong or a panic, although the
distance itself is a 64-bit float and would hold them. -/
theorem C48_distance_partial (a b : V2) :
    (Fits32 (b.x - a.x) → Fits32 (b.y - a.y) → ∀ m, a.diff m b = .ok ⟨b.x - a.x, b.y - a.y⟩) ∧
    (¬ (Fits32 (b.x - a.x) ∧ Fits32 (b.y - a.y)) → a.diff .checked b = .error .panicOverflow) ∧
    ∃ r : V2, a.diff .wrap b = .ok r ∧ Wraps32 (b.x - a.x) r.x ∧ Wraps32 (b.y - a.y) r.y :=
  pair_cases _ _ _ _ (sub_cases b.x a.x) (sub_cases b.y a.y)

example : V2.diff .wrap ⟨-2147483648, 0⟩ ⟨2147483647, 0⟩ = .ok ⟨-1, 0⟩ := by decide

/-- C48: vectors are equal exactly when both components are. -/
theorem C48_eq (a b : V2) : (a.eq b = true ↔ a.x = b.x ∧ a.y = b.y) ∧ (a.eq b = true ↔ a = b) := by
  have h : a.eq b = true ↔ a.x = b.x ∧ a.y = b.y := by simp [V2.eq]
  refine ⟨h, h.trans ⟨fun ⟨h1, h2⟩ => ?_, fun h => by subst h; exact ⟨rfl, rfl⟩⟩⟩
  cases a; cases b
  simp_all

example : V2.eq ⟨1, 2⟩ ⟨1, 3⟩ = false := by decide

end Props
end Wz
