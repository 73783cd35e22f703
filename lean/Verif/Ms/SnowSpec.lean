import Verif.Base
/-!
# SNOW 2.0, as its authors describe it (P. Ekdahl, T. Johansson: "A new version of the stream cipher SNOW")

A shift register of sixteen 32-bit words over the field with `2^32` elements, and two registers.  Nothing here is taken from the
program.
-/

set_option autoImplicit false

namespace Wz.Spec.Snow

/-- multiplication by `x` of a polynomial of degree below eight, modulo `p` -/
def timesX (p a : Nat) : Nat := (2 * a) ^^^ (p * (a / 128))

/-- multiplication of polynomials of degree below eight, modulo `p`: for every bit of `b` that is set, a shifted `a` -/
def gmul (p a b : Nat) : Nat := (List.range 8).foldl (fun acc k => acc ^^^ b / 2 ^ k % 2 * Nat.repeat (timesX p) k a) 0

/-- powers -/
def gpow (p a : Nat) : Nat → Nat
  | 0 => 1
  | n + 1 => gmul p (gpow p a n) a

/-- `x^8 + x^7 + x^5 + x^3 + 1`; `β` is its root `x` -/
def betaPoly : Nat := 0x1A9

/-- `x^8 + x^4 + x^3 + x + 1`, the polynomial of AES -/
def aesPoly : Nat := 0x11B

/-- a byte times a power of `β` -/
def timesBeta (n : Nat) (c : BitVec 8) : BitVec 8 := BitVec.ofNat 8 (gmul betaPoly c.toNat (gpow betaPoly 2 n))

/-- bytes of a word, `byteOf 0` the lowest -/
def byteOf (n : Nat) (w : BitVec 32) : BitVec 8 := w.extractLsb' (8 * n) 8

/-- a word from its bytes, the highest first -/
def pack (a b c d : BitVec 8) : BitVec 32 := (a ++ b ++ c ++ d : BitVec 32)

/-- multiplication by `α`, where `α^4 = β^23 α^3 + β^245 α^2 + β^48 α + β^239` -/
def timesAlpha (w : BitVec 32) : BitVec 32 :=
  let c := byteOf 3 w
  pack (byteOf 2 w ^^^ timesBeta 23 c) (byteOf 1 w ^^^ timesBeta 245 c) (byteOf 0 w ^^^ timesBeta 48 c) (timesBeta 239 c)

/-- the affine map of AES -/
def affine (i : BitVec 8) : BitVec 8 :=
  i ^^^ i.rotateLeft 1 ^^^ i.rotateLeft 2 ^^^ i.rotateLeft 3 ^^^ i.rotateLeft 4 ^^^ 0x63#8

/-- the S-box of AES: the inverse in its field (zero for zero), then the affine map -/
def IsSbox (S : BitVec 8 → BitVec 8) : Prop :=
  ∀ x, ∃ i : BitVec 8, ((x = 0#8 ∧ i = 0#8) ∨ gmul aesPoly x.toNat i.toNat = 1) ∧ S x = affine i

/-- two and three times a byte, in the field of AES -/
def mul2 (x : BitVec 8) : BitVec 8 := BitVec.ofNat 8 (gmul aesPoly x.toNat 2)
def mul3 (x : BitVec 8) : BitVec 8 := BitVec.ofNat 8 (gmul aesPoly x.toNat 3)

/-- the S-box of the registers: the S-box of AES on each byte, then its column mixing -/
def subMix (S : BitVec 8 → BitVec 8) (w : BitVec 32) : BitVec 32 :=
  let s0 := S (byteOf 0 w)
  let s1 := S (byteOf 1 w)
  let s2 := S (byteOf 2 w)
  let s3 := S (byteOf 3 w)
  pack (mul3 s0 ^^^ s1 ^^^ s2 ^^^ mul2 s3) (s0 ^^^ s1 ^^^ mul2 s2 ^^^ mul3 s3) (s0 ^^^ mul2 s1 ^^^ mul3 s2 ^^^ s3)
    (mul2 s0 ^^^ mul3 s1 ^^^ s2 ^^^ s3)

/-- a state: the words `s(t), …, s(t+15)` of the shift register and the two registers -/
structure St where
  s : List (BitVec 32)
  r1 : BitVec 32
  r2 : BitVec 32

/-- a word of the shift register -/
def St.at (σ : St) (i : Nat) : BitVec 32 := σ.s.getD i 0#32

/-- the output of the registers -/
def St.fsm (σ : St) : BitVec 32 := (σ.at 15 + σ.r1) ^^^ σ.r2

/-- the two maps a step needs: multiplication by `1/α` and the S-box of AES -/
structure Maps where
  inv : BitVec 32 → BitVec 32
  S : BitVec 8 → BitVec 8

/-- one step; `feed` is what goes into the shift register besides -/
def St.step (M : Maps) (feed : BitVec 32) (σ : St) : St :=
  { s := σ.s.drop 1 ++ [timesAlpha (σ.at 0) ^^^ σ.at 2 ^^^ M.inv (σ.at 11) ^^^ feed]
    r1 := σ.r2 + σ.at 5
    r2 := subMix M.S σ.r1 }

/-- the state for a key of four words, the highest first, without initial value -/
def start (k3 k2 k1 k0 : BitVec 32) : St :=
  { s := [~~~k0, ~~~k1, ~~~k2, ~~~k3, k0, k1, k2, k3, ~~~k0, ~~~k1, ~~~k2, ~~~k3, k0, k1, k2, k3], r1 := 0#32, r2 := 0#32 }

/-- a step of the initialisation -/
def St.initStep (M : Maps) (σ : St) : St := σ.step M σ.fsm

/-- the state after the 32 steps of the initialisation and `n` steps more -/
def St.after (M : Maps) (σ : St) (n : Nat) : St :=
  Nat.repeat (St.step M 0#32) n (Nat.repeat (St.initStep M) 32 σ)

/-- word `n` of the key stream -/
def keyWord (M : Maps) (σ : St) (n : Nat) : BitVec 32 :=
  let τ := σ.after M (n + 1)
  τ.fsm ^^^ τ.at 0

/-- the maps are the right ones: `inv` undoes the multiplication by `α`, `S` is the S-box -/
def Maps.Ok (M : Maps) : Prop := (∀ w, M.inv (timesAlpha w) = w ∧ timesAlpha (M.inv w) = w) ∧ IsSbox M.S

end Wz.Spec.Snow
