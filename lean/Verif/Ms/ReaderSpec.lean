import Verif.Text.Model
/-!
# Reads from a decrypted stream
-/

set_option autoImplicit false

namespace Wz.Spec

/-- a read: a signed or unsigned 32-bit number, `n` bytes, or a text of `n` bytes of UTF-16 -/
inductive ReadOp where
  | i32
  | u32
  | bytes (n : Nat)
  | utf16 (n : Nat)
deriving DecidableEq

/-- how many bytes it reads -/
def ReadOp.size : ReadOp → Nat
  | .i32 | .u32 => 4
  | .bytes n | .utf16 n => n

/-- what it gives -/
inductive Ans where
  | num (v : Int)
  | raw (bs : Bytes)
  | text (s : List Char)
deriving DecidableEq

/-- the 16-bit units of a text, lowest byte first -/
def unitsOf (bs : Bytes) : List (BitVec 16) :=
  (List.range (bs.length / 2)).map fun i => BitVec.ofNat 16 ((bs.getD (2 * i) 0#8).toNat + 256 * (bs.getD (2 * i + 1) 0#8).toNat)

/-- what a read makes of the bytes it read -/
def ReadOp.answer : ReadOp → Bytes → Except Err Ans
  | .i32, p => .ok (.num (BitVec.ofNat 32 (leNat p)).toInt)
  | .u32, p => .ok (.num (leNat p))
  | .bytes _, p => .ok (.raw p)
  | .utf16 _, p => match utf16Strict (unitsOf p) with
    | .ok s => .ok (.text s)
    | .error e => .error e

/-- reads one after the other from the text `P`, from place `p` on: each gets the next piece -/
def pieces (P : Bytes) : Nat → List ReadOp → Except Err (List Ans)
  | _, [] => .ok []
  | p, op :: ops =>
    match op.answer ((P.drop p).take op.size) with
    | .error e => .error e
    | .ok a => match pieces P (p + op.size) ops with
      | .error e => .error e
      | .ok as => .ok (a :: as)

/-- the number of bytes read together -/
def total (ops : List ReadOp) : Nat := (ops.map ReadOp.size).sum

end Wz.Spec
