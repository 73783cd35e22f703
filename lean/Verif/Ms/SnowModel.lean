import Verif.Base
import Verif.Ms.SnowTables
/-!
# Model of the Snow2 decryptor (`ms/snow2_decryptor.rs`)

The sixteen copies of the clocking code in `initial_clocking` and `generate_keys` are one definition each, made from the source
text by a script.
-/

set_option autoImplicit false

namespace Wz

abbrev W32 := BitVec 32

namespace Snow

/-- an entry of a table of 256 words; the index is always a byte -/
def look (t : List Nat) (b : Nat) : W32 := BitVec.ofNat 32 (t.getD b 0)

/-- `byte` (ms/snow2_decryptor.rs 735-738) -/
def byte (n : Nat) (w : W32) : Nat := ((w >>> (n * 8)) &&& 0xFF#32).toNat

/-- `ainv_mul` (ms/snow2_decryptor.rs 740-743) -/
def ainvMul (w : W32) : W32 := (w >>> 8) ^^^ look alphaInvMulTable (w &&& 0xff#32).toNat

/-- `a_mul` (ms/snow2_decryptor.rs 745-748) -/
def aMul (w : W32) : W32 := (w <<< 8) ^^^ look alphaMulTable (w >>> 24).toNat

/-- the four table lookups written out in every clocking (for example ms/snow2_decryptor.rs 191-194) -/
def mix (w : W32) : W32 := look t0Table (byte 0 w) ^^^ look t1Table (byte 1 w) ^^^ look t2Table (byte 2 w) ^^^ look t3Table (byte 3 w)

/-- `Snow2Context` (ms/snow2_decryptor.rs 3-28); the keys are kept apart -/
structure Ctx where
  r1 : W32
  r2 : W32
  s0 : W32
  s1 : W32
  s2 : W32
  s3 : W32
  s4 : W32
  s5 : W32
  s6 : W32
  s7 : W32
  s8 : W32
  s9 : W32
  s10 : W32
  s11 : W32
  s12 : W32
  s13 : W32
  s14 : W32
  s15 : W32
deriving DecidableEq

/-- block 0 of `initial_clocking` (ms/snow2_decryptor.rs 188-195) -/
def init0 (c : Ctx) : Ctx :=
  let outFromFsm := (c.r1 + c.s15) ^^^ c.r2
  let c := { c with s0 := aMul c.s0 ^^^ c.s2 ^^^ ainvMul c.s11 ^^^ outFromFsm }
  let fsmTmp := c.r2 + c.s5
  { c with r2 := mix c.r1, r1 := fsmTmp }

/-- block 1 of `initial_clocking` (ms/snow2_decryptor.rs 197-204) -/
def init1 (c : Ctx) : Ctx :=
  let outFromFsm := (c.r1 + c.s0) ^^^ c.r2
  let c := { c with s1 := aMul c.s1 ^^^ c.s3 ^^^ ainvMul c.s12 ^^^ outFromFsm }
  let fsmTmp := c.r2 + c.s6
  { c with r2 := mix c.r1, r1 := fsmTmp }

/-- block 2 of `initial_clocking` (ms/snow2_decryptor.rs 206-213) -/
def init2 (c : Ctx) : Ctx :=
  let outFromFsm := (c.r1 + c.s1) ^^^ c.r2
  let c := { c with s2 := aMul c.s2 ^^^ c.s4 ^^^ ainvMul c.s13 ^^^ outFromFsm }
  let fsmTmp := c.r2 + c.s7
  { c with r2 := mix c.r1, r1 := fsmTmp }

/-- block 3 of `initial_clocking` (ms/snow2_decryptor.rs 215-222) -/
def init3 (c : Ctx) : Ctx :=
  let outFromFsm := (c.r1 + c.s2) ^^^ c.r2
  let c := { c with s3 := aMul c.s3 ^^^ c.s5 ^^^ ainvMul c.s14 ^^^ outFromFsm }
  let fsmTmp := c.r2 + c.s8
  { c with r2 := mix c.r1, r1 := fsmTmp }

/-- block 4 of `initial_clocking` (ms/snow2_decryptor.rs 224-231) -/
def init4 (c : Ctx) : Ctx :=
  let outFromFsm := (c.r1 + c.s3) ^^^ c.r2
  let c := { c with s4 := aMul c.s4 ^^^ c.s6 ^^^ ainvMul c.s15 ^^^ outFromFsm }
  let fsmTmp := c.r2 + c.s9
  { c with r2 := mix c.r1, r1 := fsmTmp }

/-- block 5 of `initial_clocking` (ms/snow2_decryptor.rs 233-240) -/
def init5 (c : Ctx) : Ctx :=
  let outFromFsm := (c.r1 + c.s4) ^^^ c.r2
  let c := { c with s5 := aMul c.s5 ^^^ c.s7 ^^^ ainvMul c.s0 ^^^ outFromFsm }
  let fsmTmp := c.r2 + c.s10
  { c with r2 := mix c.r1, r1 := fsmTmp }

/-- block 6 of `initial_clocking` (ms/snow2_decryptor.rs 242-249) -/
def init6 (c : Ctx) : Ctx :=
  let outFromFsm := (c.r1 + c.s5) ^^^ c.r2
  let c := { c with s6 := aMul c.s6 ^^^ c.s8 ^^^ ainvMul c.s1 ^^^ outFromFsm }
  let fsmTmp := c.r2 + c.s11
  { c with r2 := mix c.r1, r1 := fsmTmp }

/-- block 7 of `initial_clocking` (ms/snow2_decryptor.rs 251-258) -/
def init7 (c : Ctx) : Ctx :=
  let outFromFsm := (c.r1 + c.s6) ^^^ c.r2
  let c := { c with s7 := aMul c.s7 ^^^ c.s9 ^^^ ainvMul c.s2 ^^^ outFromFsm }
  let fsmTmp := c.r2 + c.s12
  { c with r2 := mix c.r1, r1 := fsmTmp }

/-- block 8 of `initial_clocking` (ms/snow2_decryptor.rs 260-267) -/
def init8 (c : Ctx) : Ctx :=
  let outFromFsm := (c.r1 + c.s7) ^^^ c.r2
  let c := { c with s8 := aMul c.s8 ^^^ c.s10 ^^^ ainvMul c.s3 ^^^ outFromFsm }
  let fsmTmp := c.r2 + c.s13
  { c with r2 := mix c.r1, r1 := fsmTmp }

/-- block 9 of `initial_clocking` (ms/snow2_decryptor.rs 269-276) -/
def init9 (c : Ctx) : Ctx :=
  let outFromFsm := (c.r1 + c.s8) ^^^ c.r2
  let c := { c with s9 := aMul c.s9 ^^^ c.s11 ^^^ ainvMul c.s4 ^^^ outFromFsm }
  let fsmTmp := c.r2 + c.s14
  { c with r2 := mix c.r1, r1 := fsmTmp }

/-- block 10 of `initial_clocking` (ms/snow2_decryptor.rs 278-285) -/
def init10 (c : Ctx) : Ctx :=
  let outFromFsm := (c.r1 + c.s9) ^^^ c.r2
  let c := { c with s10 := aMul c.s10 ^^^ c.s12 ^^^ ainvMul c.s5 ^^^ outFromFsm }
  let fsmTmp := c.r2 + c.s15
  { c with r2 := mix c.r1, r1 := fsmTmp }

/-- block 11 of `initial_clocking` (ms/snow2_decryptor.rs 287-294) -/
def init11 (c : Ctx) : Ctx :=
  let outFromFsm := (c.r1 + c.s10) ^^^ c.r2
  let c := { c with s11 := aMul c.s11 ^^^ c.s13 ^^^ ainvMul c.s6 ^^^ outFromFsm }
  let fsmTmp := c.r2 + c.s0
  { c with r2 := mix c.r1, r1 := fsmTmp }

/-- block 12 of `initial_clocking` (ms/snow2_decryptor.rs 296-303) -/
def init12 (c : Ctx) : Ctx :=
  let outFromFsm := (c.r1 + c.s11) ^^^ c.r2
  let c := { c with s12 := aMul c.s12 ^^^ c.s14 ^^^ ainvMul c.s7 ^^^ outFromFsm }
  let fsmTmp := c.r2 + c.s1
  { c with r2 := mix c.r1, r1 := fsmTmp }

/-- block 13 of `initial_clocking` (ms/snow2_decryptor.rs 305-312) -/
def init13 (c : Ctx) : Ctx :=
  let outFromFsm := (c.r1 + c.s12) ^^^ c.r2
  let c := { c with s13 := aMul c.s13 ^^^ c.s15 ^^^ ainvMul c.s8 ^^^ outFromFsm }
  let fsmTmp := c.r2 + c.s2
  { c with r2 := mix c.r1, r1 := fsmTmp }

/-- block 14 of `initial_clocking` (ms/snow2_decryptor.rs 314-321) -/
def init14 (c : Ctx) : Ctx :=
  let outFromFsm := (c.r1 + c.s13) ^^^ c.r2
  let c := { c with s14 := aMul c.s14 ^^^ c.s0 ^^^ ainvMul c.s9 ^^^ outFromFsm }
  let fsmTmp := c.r2 + c.s3
  { c with r2 := mix c.r1, r1 := fsmTmp }

/-- block 15 of `initial_clocking` (ms/snow2_decryptor.rs 323-330) -/
def init15 (c : Ctx) : Ctx :=
  let outFromFsm := (c.r1 + c.s14) ^^^ c.r2
  let c := { c with s15 := aMul c.s15 ^^^ c.s1 ^^^ ainvMul c.s10 ^^^ outFromFsm }
  let fsmTmp := c.r2 + c.s4
  { c with r2 := mix c.r1, r1 := fsmTmp }

/-- `initial_clocking` (ms/snow2_decryptor.rs 187-331) -/
def initialClocking (c : Ctx) : Ctx :=
  init15 <| init14 <| init13 <| init12 <| init11 <| init10 <| init9 <| init8 <| init7 <| init6 <| init5 <| init4 <| init3 <| init2 <| init1 <| init0 c

/-- block 0 of `generate_keys` (ms/snow2_decryptor.rs 335-342): the clocking -/
def gen0 (c : Ctx) : Ctx :=
  let c := { c with s0 := aMul c.s0 ^^^ c.s2 ^^^ ainvMul c.s11 }
  let fsmTmp := c.r2 + c.s5
  { c with r2 := mix c.r1, r1 := fsmTmp }

/-- block 0 of `generate_keys` (ms/snow2_decryptor.rs 342): the key word, from the new state -/
def out0 (c : Ctx) : W32 := (c.r1 + c.s0) ^^^ c.r2 ^^^ c.s1

/-- block 1 of `generate_keys` (ms/snow2_decryptor.rs 344-351): the clocking -/
def gen1 (c : Ctx) : Ctx :=
  let c := { c with s1 := aMul c.s1 ^^^ c.s3 ^^^ ainvMul c.s12 }
  let fsmTmp := c.r2 + c.s6
  { c with r2 := mix c.r1, r1 := fsmTmp }

/-- block 1 of `generate_keys` (ms/snow2_decryptor.rs 351): the key word, from the new state -/
def out1 (c : Ctx) : W32 := (c.r1 + c.s1) ^^^ c.r2 ^^^ c.s2

/-- block 2 of `generate_keys` (ms/snow2_decryptor.rs 353-360): the clocking -/
def gen2 (c : Ctx) : Ctx :=
  let c := { c with s2 := aMul c.s2 ^^^ c.s4 ^^^ ainvMul c.s13 }
  let fsmTmp := c.r2 + c.s7
  { c with r2 := mix c.r1, r1 := fsmTmp }

/-- block 2 of `generate_keys` (ms/snow2_decryptor.rs 360): the key word, from the new state -/
def out2 (c : Ctx) : W32 := (c.r1 + c.s2) ^^^ c.r2 ^^^ c.s3

/-- block 3 of `generate_keys` (ms/snow2_decryptor.rs 362-369): the clocking -/
def gen3 (c : Ctx) : Ctx :=
  let c := { c with s3 := aMul c.s3 ^^^ c.s5 ^^^ ainvMul c.s14 }
  let fsmTmp := c.r2 + c.s8
  { c with r2 := mix c.r1, r1 := fsmTmp }

/-- block 3 of `generate_keys` (ms/snow2_decryptor.rs 369): the key word, from the new state -/
def out3 (c : Ctx) : W32 := (c.r1 + c.s3) ^^^ c.r2 ^^^ c.s4

/-- block 4 of `generate_keys` (ms/snow2_decryptor.rs 371-378): the clocking -/
def gen4 (c : Ctx) : Ctx :=
  let c := { c with s4 := aMul c.s4 ^^^ c.s6 ^^^ ainvMul c.s15 }
  let fsmTmp := c.r2 + c.s9
  { c with r2 := mix c.r1, r1 := fsmTmp }

/-- block 4 of `generate_keys` (ms/snow2_decryptor.rs 378): the key word, from the new state -/
def out4 (c : Ctx) : W32 := (c.r1 + c.s4) ^^^ c.r2 ^^^ c.s5

/-- block 5 of `generate_keys` (ms/snow2_decryptor.rs 380-387): the clocking -/
def gen5 (c : Ctx) : Ctx :=
  let c := { c with s5 := aMul c.s5 ^^^ c.s7 ^^^ ainvMul c.s0 }
  let fsmTmp := c.r2 + c.s10
  { c with r2 := mix c.r1, r1 := fsmTmp }

/-- block 5 of `generate_keys` (ms/snow2_decryptor.rs 387): the key word, from the new state -/
def out5 (c : Ctx) : W32 := (c.r1 + c.s5) ^^^ c.r2 ^^^ c.s6

/-- block 6 of `generate_keys` (ms/snow2_decryptor.rs 389-396): the clocking -/
def gen6 (c : Ctx) : Ctx :=
  let c := { c with s6 := aMul c.s6 ^^^ c.s8 ^^^ ainvMul c.s1 }
  let fsmTmp := c.r2 + c.s11
  { c with r2 := mix c.r1, r1 := fsmTmp }

/-- block 6 of `generate_keys` (ms/snow2_decryptor.rs 396): the key word, from the new state -/
def out6 (c : Ctx) : W32 := (c.r1 + c.s6) ^^^ c.r2 ^^^ c.s7

/-- block 7 of `generate_keys` (ms/snow2_decryptor.rs 398-405): the clocking -/
def gen7 (c : Ctx) : Ctx :=
  let c := { c with s7 := aMul c.s7 ^^^ c.s9 ^^^ ainvMul c.s2 }
  let fsmTmp := c.r2 + c.s12
  { c with r2 := mix c.r1, r1 := fsmTmp }

/-- block 7 of `generate_keys` (ms/snow2_decryptor.rs 405): the key word, from the new state -/
def out7 (c : Ctx) : W32 := (c.r1 + c.s7) ^^^ c.r2 ^^^ c.s8

/-- block 8 of `generate_keys` (ms/snow2_decryptor.rs 407-414): the clocking -/
def gen8 (c : Ctx) : Ctx :=
  let c := { c with s8 := aMul c.s8 ^^^ c.s10 ^^^ ainvMul c.s3 }
  let fsmTmp := c.r2 + c.s13
  { c with r2 := mix c.r1, r1 := fsmTmp }

/-- block 8 of `generate_keys` (ms/snow2_decryptor.rs 414): the key word, from the new state -/
def out8 (c : Ctx) : W32 := (c.r1 + c.s8) ^^^ c.r2 ^^^ c.s9

/-- block 9 of `generate_keys` (ms/snow2_decryptor.rs 416-423): the clocking -/
def gen9 (c : Ctx) : Ctx :=
  let c := { c with s9 := aMul c.s9 ^^^ c.s11 ^^^ ainvMul c.s4 }
  let fsmTmp := c.r2 + c.s14
  { c with r2 := mix c.r1, r1 := fsmTmp }

/-- block 9 of `generate_keys` (ms/snow2_decryptor.rs 423): the key word, from the new state -/
def out9 (c : Ctx) : W32 := (c.r1 + c.s9) ^^^ c.r2 ^^^ c.s10

/-- block 10 of `generate_keys` (ms/snow2_decryptor.rs 425-432): the clocking -/
def gen10 (c : Ctx) : Ctx :=
  let c := { c with s10 := aMul c.s10 ^^^ c.s12 ^^^ ainvMul c.s5 }
  let fsmTmp := c.r2 + c.s15
  { c with r2 := mix c.r1, r1 := fsmTmp }

/-- block 10 of `generate_keys` (ms/snow2_decryptor.rs 432): the key word, from the new state -/
def out10 (c : Ctx) : W32 := (c.r1 + c.s10) ^^^ c.r2 ^^^ c.s11

/-- block 11 of `generate_keys` (ms/snow2_decryptor.rs 434-441): the clocking -/
def gen11 (c : Ctx) : Ctx :=
  let c := { c with s11 := aMul c.s11 ^^^ c.s13 ^^^ ainvMul c.s6 }
  let fsmTmp := c.r2 + c.s0
  { c with r2 := mix c.r1, r1 := fsmTmp }

/-- block 11 of `generate_keys` (ms/snow2_decryptor.rs 441): the key word, from the new state -/
def out11 (c : Ctx) : W32 := (c.r1 + c.s11) ^^^ c.r2 ^^^ c.s12

/-- block 12 of `generate_keys` (ms/snow2_decryptor.rs 443-450): the clocking -/
def gen12 (c : Ctx) : Ctx :=
  let c := { c with s12 := aMul c.s12 ^^^ c.s14 ^^^ ainvMul c.s7 }
  let fsmTmp := c.r2 + c.s1
  { c with r2 := mix c.r1, r1 := fsmTmp }

/-- block 12 of `generate_keys` (ms/snow2_decryptor.rs 450): the key word, from the new state -/
def out12 (c : Ctx) : W32 := (c.r1 + c.s12) ^^^ c.r2 ^^^ c.s13

/-- block 13 of `generate_keys` (ms/snow2_decryptor.rs 452-459): the clocking -/
def gen13 (c : Ctx) : Ctx :=
  let c := { c with s13 := aMul c.s13 ^^^ c.s15 ^^^ ainvMul c.s8 }
  let fsmTmp := c.r2 + c.s2
  { c with r2 := mix c.r1, r1 := fsmTmp }

/-- block 13 of `generate_keys` (ms/snow2_decryptor.rs 459): the key word, from the new state -/
def out13 (c : Ctx) : W32 := (c.r1 + c.s13) ^^^ c.r2 ^^^ c.s14

/-- block 14 of `generate_keys` (ms/snow2_decryptor.rs 461-468): the clocking -/
def gen14 (c : Ctx) : Ctx :=
  let c := { c with s14 := aMul c.s14 ^^^ c.s0 ^^^ ainvMul c.s9 }
  let fsmTmp := c.r2 + c.s3
  { c with r2 := mix c.r1, r1 := fsmTmp }

/-- block 14 of `generate_keys` (ms/snow2_decryptor.rs 468): the key word, from the new state -/
def out14 (c : Ctx) : W32 := (c.r1 + c.s14) ^^^ c.r2 ^^^ c.s15

/-- block 15 of `generate_keys` (ms/snow2_decryptor.rs 470-477): the clocking -/
def gen15 (c : Ctx) : Ctx :=
  let c := { c with s15 := aMul c.s15 ^^^ c.s1 ^^^ ainvMul c.s10 }
  let fsmTmp := c.r2 + c.s4
  { c with r2 := mix c.r1, r1 := fsmTmp }

/-- block 15 of `generate_keys` (ms/snow2_decryptor.rs 477): the key word, from the new state -/
def out15 (c : Ctx) : W32 := (c.r1 + c.s15) ^^^ c.r2 ^^^ c.s0

/-- `generate_keys` (ms/snow2_decryptor.rs 332-480): the new state and the sixteen key words -/
def generateKeys (c : Ctx) : Ctx × List W32 :=
  let c0 := gen0 c
  let c1 := gen1 c0
  let c2 := gen2 c1
  let c3 := gen3 c2
  let c4 := gen4 c3
  let c5 := gen5 c4
  let c6 := gen6 c5
  let c7 := gen7 c6
  let c8 := gen8 c7
  let c9 := gen9 c8
  let c10 := gen10 c9
  let c11 := gen11 c10
  let c12 := gen12 c11
  let c13 := gen13 c12
  let c14 := gen14 c13
  let c15 := gen15 c14
  (c15, [out0 c0, out1 c1, out2 c2, out3 c3, out4 c4, out5 c5, out6 c6, out7 c7, out8 c8, out9 c9, out10 c10, out11 c11, out12 c12, out13 c13, out14 c14, out15 c15])

/-- a key byte as `i8`, then as `u32`: sign-extended (ms/snow2_decryptor.rs 31-53) -/
def signedByte (b : Byte) : W32 := b.signExtend 32

/-- four key bytes put together (ms/snow2_decryptor.rs 50-53) -/
def word (a b c d : Byte) : W32 := (signedByte a <<< 24) ||| (signedByte b <<< 16) ||| (signedByte c <<< 8) ||| signedByte d

/-- the registers set by `with_key_and_iv` (ms/snow2_decryptor.rs 31-77) on the default context; the key has 16 bytes -/
def loadKey (key : Bytes) : Ctx :=
  let k := fun i => key.getD i 0#8
  let s15 := word (k 0) (k 1) (k 2) (k 3)
  let s14 := word (k 4) (k 5) (k 6) (k 7)
  let s13 := word (k 8) (k 9) (k 10) (k 11)
  let s12 := word (k 12) (k 13) (k 14) (k 15)
  let s11 := ~~~s15
  let s10 := ~~~s14
  let s9 := ~~~s13
  let s8 := ~~~s12
  let s7 := s15
  let s6 := s14
  let s5 := s13
  let s4 := s12
  let s3 := ~~~s15
  let s2 := ~~~s14
  let s1 := ~~~s13
  let s0 := ~~~s12
  ⟨0#32, 0#32, s0, s1, s2, s3, s4, s5, s6, s7, s8, s9, s10, s11, s12, s13, s14, s15⟩

end Snow

/-- `Snow2Decryptor` (ms/snow2_decryptor.rs 483-486) -/
structure Snow2 where
  index : Nat
  ctx : Snow.Ctx
  keys : List W32
deriving DecidableEq

namespace Snow2

/-- `new` (ms/snow2_decryptor.rs 488-493, 83-90): no IV is given, so `calc_iv` is not called -/
def new (key : Bytes) : Snow2 :=
  let r := Snow.generateKeys (Snow.initialClocking (Snow.initialClocking (Snow.loadKey key)))
  ⟨0, r.1, r.2⟩

/-- `decrypt_block` (ms/snow2_decryptor.rs 495-505); an index of 16 or more would panic -/
def decryptBlock (d : Snow2) (data : W32) : Except Err (W32 × Snow2) :=
  match d.keys[d.index]? with
  | none => .error .panicIndex
  | some key =>
    let num := data - key
    let d := { d with index := d.index + 1 }
    if d.index ≥ 16 then
      let r := Snow.generateKeys d.ctx
      .ok (num, ⟨0, r.1, r.2⟩)
    else .ok (num, d)

/-- `decrypt_slice` (ms/snow2_decryptor.rs 508-518): the new contents of the slice, the length of the rest, the new state -/
def decryptSlice (d : Snow2) : Bytes → Except Err (Bytes × Nat × Snow2)
  | a :: b :: c :: e :: rest => do
    let (num, d) ← d.decryptBlock (BitVec.ofNat 32 (leNat [a, b, c, e]))
    let (out, n, d) ← d.decryptSlice rest
    return (toLE 4 num.toNat ++ out, n, d)
  | rest => .ok (rest, rest.length, d)

end Snow2

end Wz
