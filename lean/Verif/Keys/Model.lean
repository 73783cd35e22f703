import Verif.Reader.Model
/-!
# String decryptors

The AES-ECB key stream generator, the PKG2 eight byte key, and the shared use of one generator by
several readers.  AES-256 itself (crates `aes`, `ecb`) is a parameter: a function from a 32 byte key and
a 16 byte block to a 16 byte block.
-/

set_option autoImplicit false

namespace Wz

/-- `DecrypterType` (util/string_decryptor/mod.rs 28-39) -/
inductive DecType where
  | bms | kms | gms | kmst1198 | kmst1199 | kmst1202 | custom | unknown
deriving DecidableEq, Repr

/-- Single block encryption of the external `aes` crate: key, then block. -/
abbrev Aes := Bytes → Bytes → Bytes

/-- what is assumed about the external block cipher: blocks of sixteen bytes go to blocks of sixteen bytes -/
def Aes.Sized (aes : Aes) : Prop := ∀ k b, b.length = 16 → (aes k b).length = 16

/-- `MAPLESTORY_USERKEY_DEFAULT` (util/maple_crypto_constants.rs 1-11) -/
def userKeyDefault : Bytes :=
  [0x13, 0x00, 0x00, 0x00, 0x52, 0x00, 0x00, 0x00, 0x2A, 0x00, 0x00, 0x00, 0x5B, 0x00, 0x00, 0x00,
   0x08, 0x00, 0x00, 0x00, 0x02, 0x00, 0x00, 0x00, 0x10, 0x00, 0x00, 0x00, 0x60, 0x00, 0x00, 0x00,
   0x06, 0x00, 0x00, 0x00, 0x02, 0x00, 0x00, 0x00, 0x43, 0x00, 0x00, 0x00, 0x0F, 0x00, 0x00, 0x00,
   0xB4, 0x00, 0x00, 0x00, 0x4B, 0x00, 0x00, 0x00, 0x35, 0x00, 0x00, 0x00, 0x05, 0x00, 0x00, 0x00,
   0x1B, 0x00, 0x00, 0x00, 0x0A, 0x00, 0x00, 0x00, 0x5F, 0x00, 0x00, 0x00, 0x09, 0x00, 0x00, 0x00,
   0x0F, 0x00, 0x00, 0x00, 0x50, 0x00, 0x00, 0x00, 0x0C, 0x00, 0x00, 0x00, 0x1B, 0x00, 0x00, 0x00,
   0x33, 0x00, 0x00, 0x00, 0x55, 0x00, 0x00, 0x00, 0x01, 0x00, 0x00, 0x00, 0x09, 0x00, 0x00, 0x00,
   0x52, 0x00, 0x00, 0x00, 0xDE, 0x00, 0x00, 0x00, 0xC7, 0x00, 0x00, 0x00, 0x1E, 0x00, 0x00, 0x00].map
    (BitVec.ofNat 8)

/-- `WZ_GMSIV` (util/maple_crypto_constants.rs 13) -/
def gmsIv : Bytes := [0x4D#8, 0x23#8, 0xC7#8, 0x2B#8]
/-- `WZ_MSEAIV` (util/maple_crypto_constants.rs 14) -/
def mseaIv : Bytes := [0xB9#8, 0x7D#8, 0x63#8, 0xE9#8]

/-- `get_trimmed_user_key` (util/maple_crypto_constants.rs 17-26): `trimmed[i / 4] = user_key[i]` for
`i = 0, 16, .., 112`, zero elsewhere.  A user key shorter than 113 bytes panics. -/
def trimmedUserKey (userKey : Bytes) : Except Err Bytes :=
  (List.range' 0 8 16).foldlM (fun t i =>
    match userKey[i]? with
    | some b => .ok (t.set (i / 4) b)
    | none => .error .panicIndex) (List.replicate 32 0#8)

/-- `EcbDecryptor` (ecb_decryptor.rs 10-18) -/
structure Ecb where
  iv : Bytes
  keys : Bytes
  aesKey : Bytes
  encType : DecType
  withoutDecrypt : Bool
deriving DecidableEq

namespace Ecb

/-- `EcbDecryptor::new` (ecb_decryptor.rs 21-29); also `from_iv` (39-47), which uses the default user key -/
def new (iv aesKey : Bytes) : Ecb :=
  { iv := iv, keys := [], aesKey := aesKey, withoutDecrypt := signed 32 (leNat iv) == 0, encType := .bms }

/-- `EcbDecryptor::from_iv` (ecb_decryptor.rs 39-47) -/
def fromIv (iv : Bytes) : Except Err Ecb := do
  let k ← trimmedUserKey userKeyDefault
  return new iv k

/-- `EcbDecryptor::new_lua` (ecb_decryptor.rs 30-38) -/
def newLua : Except Err Ecb := do
  let k ← trimmedUserKey userKeyDefault
  return { iv := mseaIv, keys := [], aesKey := k, withoutDecrypt := false, encType := .bms }

/-- `set_iv` (ecb_decryptor.rs 64-67): neither the generated keys nor `without_decrypt` are updated. -/
def setIv (d : Ecb) (iv : Nat) (t : DecType) : Ecb :=
  { d with encType := t, iv := toLE 4 (iv % 2 ^ 32) }

/-- `get_iv_hash` (ecb_decryptor.rs 69-71) -/
def ivHash (d : Ecb) : Nat := leNat d.iv

/-- `Decryptor::is_enough` (ecb_decryptor.rs 77-82) -/
def isEnough (d : Ecb) (size : Nat) : Bool := if d.withoutDecrypt then true else decide (size ≤ d.keys.length)

/-- `encrypt_padded_b2b_mut::<Pkcs7>` of crates `cipher`/`block-padding` on one block of input: writes the
encrypted block and an encrypted padding block of sixteen bytes 16, and fails if the output is shorter
than that.  Used at ecb_decryptor.rs 126-128 and 145-148, always with a sixteen byte input. -/
def encPadded (E : Bytes → Bytes) (inp out : Bytes) : Except Err Bytes :=
  if out.length < 32 then .error (.lib "Failed to encrypt block")
  else .ok (E inp ++ E (List.replicate 16 16#8) ++ out.drop 32)

/-- the size rounded up to a multiple of 4096 (ecb_decryptor.rs 112).  The code computes it in `f64`,
which is exact for sizes below 2^53; larger requests are not modelled. -/
def roundUp (size : Nat) : Nat := (size + 4095) / 4096 * 4096

/-- one iteration of the loop ecb_decryptor.rs 143-149 -/
def growStep (E : Bytes → Bytes) (keys : Bytes) (i : Nat) : Except Err Bytes :=
  if keys.length < i ∨ i < 16 then .error .panicIndex
  else do
    let out ← encPadded E ((keys.take i).drop (i - 16)) (keys.drop i)
    return keys.take i ++ out

/-- `resize(n, 0)` of `Vec<u8>` -/
def resize (keys : Bytes) (n : Nat) : Bytes := keys.take n ++ List.replicate (n - keys.length) 0#8

/-- generate the first block if there is none (ecb_decryptor.rs 119-131) -/
def initKeys (E : Bytes → Bytes) (iv keys : Bytes) : Except Err Bytes :=
  if keys = [] then
    match encPadded E ((List.range 16).map fun i => iv.getD (i % 4) 0#8) (resize keys 32) with
    | .ok out => .ok (out.take 16)
    | .error e => .error e
  else .ok keys

/-- fill up to `size` bytes and cut off the padding (ecb_decryptor.rs 133-153) -/
def fillKeys (E : Bytes → Bytes) (size : Nat) (keys : Bytes) : Except Err Bytes :=
  let start := keys.length
  let keys := if keys.length < size then resize keys (size + 16) else keys
  match (List.range' start ((size - start + 15) / 16) 16).foldlM (growStep E) keys with
  | .ok keys => .ok (if size < keys.length then keys.take size else keys)
  | .error e => .error e

/-- `ensure_key_size` (ecb_decryptor.rs 107-156); capacity reservation (114-116) has no effect on values -/
def ensure (aes : Aes) (d : Ecb) (size : Nat) : Except Err Ecb :=
  if d.isEnough size || d.withoutDecrypt then .ok d
  else
    match initKeys (aes d.aesKey) d.iv d.keys with
    | .error e => .error e
    | .ok keys =>
      match fillKeys (aes d.aesKey) (roundUp size) keys with
      | .error e => .error e
      | .ok keys => .ok { d with keys := keys }

/-- `at` (ecb_decryptor.rs 85-90) -/
def «at» (aes : Aes) (d : Ecb) (i : Nat) : Except Err (Byte × Ecb) := do
  let d ← if d.keys.length ≤ i then ensure aes d (i + 1) else pure d
  match d.keys[i]? with
  | some b => return (b, d)
  | none => throw .panicIndex

/-- `try_at` (ecb_decryptor.rs 93-95) -/
def tryAt (d : Ecb) (i : Nat) : Option Byte := d.keys[i]?

/-- `decrypt_slice` (ecb_decryptor.rs 97-105): panics if fewer key bytes than data bytes exist -/
def decrypt (d : Ecb) (data : Bytes) : Except Err Bytes :=
  if d.withoutDecrypt then .ok data
  else if d.keys.length < data.length then .error .panicIndex
  else .ok (List.zipWith (fun b k => b ^^^ k) data (d.keys.take data.length))

/-- first half of `get_decrypt_slice` (reader.rs 932-940), under the write lock -/
def grow (aes : Aes) (d : Ecb) (len : Nat) : Except Err Ecb :=
  if d.isEnough len then .ok d else ensure aes d len

end Ecb

/-- `get_decrypt_slice` (reader.rs 925-945) by one reader, nobody else using the keys in between -/
def getDecryptSlice (aes : Aes) (d : Ecb) (data : Bytes) : Except Err (Bytes × Ecb) := do
  let d ← d.grow aes data.length
  let out ← d.decrypt data
  return (out, d)

/-- `encrypt_str` (property/string.rs 177-229) with an actual decryptor; result and decryptor afterwards -/
def encryptStrEcb (aes : Aes) (d : Ecb) (s : List Char) : StrType → Except Err (Bytes × Ecb)
  | .empty => .ok ([], d)
  | .unicode => do
    let us := utf16EncStr s
    let d ← d.ensure aes (us.length * 2)
    return ((us.mapIdx fun i b =>
      toLE 2 (b ^^^ (BitVec.ofNat 16 (i + 0xAAAA) ^^^ ((d.tryAt (i * 2)).getD 0#8).setWidth 16 ^^^
        (((d.tryAt (i * 2 + 1)).getD 0#8).setWidth 16 <<< 8))).toNat).flatten, d)
  | .ascii => do
    let bs := utf8EncStr s
    let d ← d.ensure aes bs.length
    return (bs.mapIdx fun i b => b ^^^ (BitVec.ofNat 8 (i + 0xAA) ^^^ ((d.tryAt i).getD 0#8)), d)
  | .pkg2Dir => do
    let bs := (utf16EncStr s).flatMap fun u => toLE 2 u.toNat
    let d ← d.ensure aes (bs.length * 2)
    let out ← d.decrypt bs
    return (out, d)

/-! ## PKG2 keys -/

/-- `Pkg2Decryptor` (pkg2_decryptor.rs 5-9) -/
structure Pkg2Dec where
  iv : BitVec 32
  encType : DecType
  keys : Bytes
deriving DecidableEq

namespace Pkg2Dec

/-- `Default` (pkg2_decryptor.rs 11-19) -/
def default : Pkg2Dec := { iv := 0, encType := .kmst1199, keys := List.replicate 8 0#8 }

/-- `calculate_keys` and `set_iv` (pkg2_decryptor.rs 29-51, 59-62) -/
def setIv (_ : Pkg2Dec) (key : BitVec 64) (t : DecType) : Pkg2Dec :=
  let k : Nat → Byte := fun i => (key >>> (8 * i)).setWidth 8
  { iv := key.setWidth 32, encType := t, keys := [k 0, k 1, k 1, k 2, k 2, k 3, k 3, k 4] }

/-- `new_with_key` (pkg2_decryptor.rs 22-28) -/
def newWithKey (key : BitVec 64) (t : DecType) : Pkg2Dec := default.setIv key t

/-- `at` / `try_at` (pkg2_decryptor.rs 74-80); `keys` always has eight entries -/
def keyAt (d : Pkg2Dec) (i : Nat) : Option Byte := d.keys[i % 8]?

/-- `decrypt_slice` (pkg2_decryptor.rs 82-86) -/
def decrypt (d : Pkg2Dec) (data : Bytes) : Except Err Bytes :=
  (data.mapIdx fun i b => (i, b)).mapM fun (i, b) =>
    match d.keys[i % 8]? with
    | some k => .ok (b ^^^ k)
    | none => .error .panicIndex

end Pkg2Dec

/-- `mix_kmst1199` (pkg2_decryptor.rs 103-109) -/
def mixKmst1199 (key : BitVec 32) : BitVec 32 :=
  let key := key ^^^ (key >>> 16)
  let key := key * 0x7FEB352D#32
  let key := key ^^^ (key >>> 15)
  let key := key * 0x846CA68B#32
  key ^^^ (key >>> 16)

/-- `get_kmst1199_key` (pkg2_decryptor.rs 93-96) -/
def kmst1199Key (hash1 hashVersion : BitVec 32) : BitVec 32 :=
  mixKmst1199 (mixKmst1199 (hash1 ^^^ hashVersion ^^^ 0x6D4C3B2A#32) ^^^ 0x4F4CB34A#32)

/-- `get_kmst1202_key` (pkg2_decryptor.rs 98-100) -/
def kmst1202Key (hash1 hashVersion : BitVec 64) : BitVec 64 := hash1 ^^^ hashVersion ^^^ 0x66B57FEE317FD3DF#64

/-! ## Several readers sharing one decryptor -/

/-- Where one call of `get_decrypt_slice` stands: the two lock scopes (reader.rs 932-940 and 942) are the
atomic steps. -/
inductive Phase where
  | start
  | grown
  | done (r : Except Err Bytes)
deriving DecidableEq

structure Call where
  data : Bytes
  phase : Phase
deriving DecidableEq

structure Shared where
  dec : Ecb
  calls : List Call

/-- call number `t` performs its next atomic step -/
def Shared.step (aes : Aes) (s : Shared) (t : Nat) : Shared :=
  match s.calls[t]? with
  | none => s
  | some c =>
    match c.phase with
    | .start =>
      match s.dec.grow aes c.data.length with
      | .ok d => { dec := d, calls := s.calls.set t { c with phase := .grown } }
      | .error e => { s with calls := s.calls.set t { c with phase := .done (.error e) } }
    | .grown => { s with calls := s.calls.set t { c with phase := .done (s.dec.decrypt c.data) } }
    | .done _ => s

end Wz
