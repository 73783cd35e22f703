/-!
# Common vocabulary of the model

Bytes, little-endian numbers, Rust integer casts, error values and the two arithmetic modes.
-/

set_option autoImplicit false

namespace Wz

abbrev Byte := BitVec 8
abbrev Bytes := List Byte

/-- How a build treats an arithmetic overflow in `a + b`, `a * b`, `a - b`, `-a`.
`checked`: debug profile, overflow panics.  `wrap`: release profile, two's complement wrap-around. -/
inductive Mode where
  | checked
  | wrap
deriving DecidableEq, Repr

/-- Error values.  The first group are `Err(..)` results of the library, the second group are panics,
the last one marks an exhausted recursion bound (it models nothing: theorems show when it cannot occur). -/
inductive Err where
  /-- `scroll` refused to read outside the buffer (`reader::Error` from `scroll::Error`, reader.rs 640-780) -/
  | read
  /-- `reader::Error::OutOfBounds(end, len)` (reader.rs 233-239, 316-321) -/
  | outOfBounds (stop len : Nat)
  /-- `reader::Error` from `FromUtf8Error` / `FromUtf16Error` (reader.rs 155-179) -/
  | decode
  /-- any other error result; the tag names the variant -/
  | lib (tag : String)
  /-- panic: attempt to add/multiply/negate with overflow (checked mode only) -/
  | panicOverflow
  /-- panic: slice index / range out of bounds -/
  | panicIndex
  /-- panic: `unwrap` on `None` / `Err`, `unreachable!` -/
  | panicUnwrap
  /-- model only: recursion bound exhausted -/
  | fuel
deriving DecidableEq, Repr

/-- Is this error value a panic of the modelled program (as opposed to a returned error)? -/
def Err.isPanic : Err → Bool
  | .panicOverflow | .panicIndex | .panicUnwrap => true
  | _ => false

deriving instance DecidableEq for Except

/-- Number denoted by little-endian bytes. -/
def leNat : Bytes → Nat
  | [] => 0
  | b :: bs => b.toNat + 256 * leNat bs

/-- The `w` little-endian bytes of `v` (Rust `to_le_bytes`). -/
def toLE : (w : Nat) → Nat → Bytes
  | 0, _ => []
  | w + 1, v => BitVec.ofNat 8 v :: toLE w (v / 256)

@[simp] theorem length_toLE (w v : Nat) : (toLE w v).length = w := by
  induction w generalizing v with
  | zero => rfl
  | succ n ih => simp [toLE, ih]

theorem leNat_toLE (w v : Nat) : leNat (toLE w v) = v % 256 ^ w := by
  induction w generalizing v with
  | zero => simp [toLE, leNat, Nat.mod_one]
  | succ n ih =>
    simp only [toLE, leNat, ih, BitVec.toNat_ofNat]
    rw [show (2:Nat)^8 = 256 from rfl, show 256 ^ (n+1) = 256 * 256 ^ n by rw [Nat.pow_succ, Nat.mul_comm]]
    rw [Nat.mod_mul]

theorem leNat_lt (bs : Bytes) : leNat bs < 256 ^ bs.length := by
  induction bs with
  | nil => simp [leNat]
  | cons b bs ih =>
    simp only [leNat, List.length_cons, Nat.pow_succ]
    have := b.isLt
    omega

theorem toLE_leNat (bs : Bytes) : toLE bs.length (leNat bs) = bs := by
  induction bs with
  | nil => rfl
  | cons b bs ih =>
    simp only [List.length_cons, toLE, leNat]
    have hb := b.isLt
    congr 1
    · apply BitVec.eq_of_toNat_eq
      simp only [BitVec.toNat_ofNat]
      omega
    · rw [show (b.toNat + 256 * leNat bs) / 256 = leNat bs by omega]; exact ih

theorem leNat_append (a b : Bytes) : leNat (a ++ b) = leNat a + 256 ^ a.length * leNat b := by
  induction a with
  | nil => simp [leNat]
  | cons x xs ih =>
    simp only [List.cons_append, leNat, ih, List.length_cons, Nat.pow_succ]
    rw [Nat.mul_add, Nat.add_assoc]
    congr 2
    rw [← Nat.mul_assoc, Nat.mul_comm 256]

/-- `w`-byte two's complement reading of a number (`u8 as i8`, ... and scroll's signed reads). -/
def signed (bits v : Nat) : Int := (BitVec.ofNat bits v).toInt

/-- `x as usize` for a signed `x` (sign extension to 64 bits, then reinterpretation). -/
def asUsize (x : Int) : Nat := (x % 2 ^ 64).toNat

/-- `x as u32` for a signed `x`. -/
def asU32 (x : Int) : Nat := (x % 2 ^ 32).toNat

/-- usize addition `a + b`. -/
def addU (m : Mode) (a b : Nat) : Except Err Nat :=
  if a + b < 2 ^ 64 then .ok (a + b)
  else match m with
    | .checked => .error .panicOverflow
    | .wrap => .ok ((a + b) % 2 ^ 64)

/-- u32 multiplication `a * b`. -/
def mulU32 (m : Mode) (a b : Nat) : Except Err Nat :=
  if a * b < 2 ^ 32 then .ok (a * b)
  else match m with
    | .checked => .error .panicOverflow
    | .wrap => .ok ((a * b) % 2 ^ 32)

/-- i32 multiplication `a * b`. -/
def mulI32 (m : Mode) (a b : Int) : Except Err Int :=
  if -2 ^ 31 ≤ a * b ∧ a * b < 2 ^ 31 then .ok (a * b)
  else match m with
    | .checked => .error .panicOverflow
    | .wrap => .ok (Int.bmod (a * b) (2 ^ 32))

/-- Negation `-x` of a `bits`-wide signed integer. -/
def negI (m : Mode) (bits : Nat) (x : Int) : Except Err Int :=
  if x = -2 ^ (bits - 1) then
    match m with
    | .checked => .error .panicOverflow
    | .wrap => .ok x
  else .ok (-x)

theorem addU_ok {m : Mode} {a b : Nat} (h : a + b < 2 ^ 64) : addU m a b = .ok (a + b) := by
  simp [addU, h]

theorem asUsize_nonneg {x : Int} (h0 : 0 ≤ x) (h1 : x < 2 ^ 64) : asUsize x = x.toNat := by
  unfold asUsize; rw [Int.emod_eq_of_lt h0 h1]

theorem asU32_nonneg {x : Int} (h0 : 0 ≤ x) (h1 : x < 2 ^ 32) : asU32 x = x.toNat := by
  unfold asU32; rw [Int.emod_eq_of_lt h0 h1]

/-- two's complement encoding of a signed number as a natural below `2^bits` -/
def unsign (bits : Nat) (x : Int) : Nat := (x % (2 ^ bits : Nat)).toNat

theorem unsign_lt (bits : Nat) (x : Int) : unsign bits x < 2 ^ bits := by
  unfold unsign
  have h : ((2 ^ bits : Nat) : Int) > 0 := by
    have := Nat.two_pow_pos bits
    omega
  have := Int.emod_lt_of_pos x h
  have := Int.emod_nonneg x (b := ((2 ^ bits : Nat) : Int)) (by omega)
  omega

theorem signed_unsign {bits : Nat} (hb : 0 < bits) {x : Int} (h0 : -2 ^ (bits - 1) ≤ x)
    (h1 : x < 2 ^ (bits - 1)) : signed bits (unsign bits x) = x := by
  unfold signed
  rw [BitVec.toInt_ofNat']
  unfold unsign
  have hpos : ((2 ^ bits : Nat) : Int) > 0 := by
    have := Nat.two_pow_pos bits
    omega
  rw [Int.toNat_of_nonneg (Int.emod_nonneg _ (by omega))]
  rw [Int.emod_bmod]
  have h2 : ((2 ^ bits : Nat) : Int) = 2 * 2 ^ (bits - 1) := by
    obtain ⟨k, rfl⟩ : ∃ k, bits = k + 1 := ⟨bits - 1, by omega⟩
    simp [Int.pow_succ, Int.mul_comm]
  apply Int.bmod_eq_of_le <;> omega

end Wz
