import Verif.Media.LuaModel
import Verif.Png.Model
/-!
# What a panic does to a shared decryptor

Decryptors are behind `RwLock`s, and the three of `GLOBAL_STRING_DECRYPTOR` are shared by all files of a program.  A thread that panics
while it has such a lock for writing leaves the lock poisoned: from then on `write().unwrap()` and `read().unwrap()` panic for everybody.
A panic that happens under no lock, or under a lock taken for reading, leaves nothing behind.
-/

set_option autoImplicit false

namespace Wz

/-- the static `GLOBAL_STRING_DECRYPTOR` (util/string_decryptor/mod.rs 233-246) with its locks; `bad s`: the lock of `s` is poisoned -/
structure KeyStore where
  keys : GlobalKeys
  bad : Slot → Bool

namespace KeyStore

/-- a panic while the lock of `s` is held for writing -/
def poison (st : KeyStore) (s : Slot) : KeyStore := { st with bad := fun t => if t = s then true else st.bad t }

/-- `get_decrypt_slice` (reader.rs 925-945): the lock for writing while the key grows, then the lock for reading.  Growing gives an error, it
does not panic. -/
def text (aes : Aes) (st : KeyStore) (s : Slot) (data : Bytes) : Except Err Bytes × KeyStore :=
  if st.bad s then (.error .panicUnwrap, st)
  else match (st.keys.get s).grow aes data.length with
    | .error _ => (.error (.lib "DecryptError"), st)
    | .ok d => (d.decrypt data, { st with keys := st.keys.put s d })

/-- `ensure_key_size(len).unwrap(); decrypt_slice(data)` under the lock for writing (property/lua.rs 50-54, 71-75) -/
def held (aes : Aes) (st : KeyStore) (s : Slot) (data : Bytes) : Except Err Bytes × KeyStore :=
  if st.bad s then (.error .panicUnwrap, st)
  else match st.keys.decryptAll aes s data with
    | .error e => (.error e, st.poison s)
    | .ok (out, g) => (.ok out, { st with keys := g })

/-- the loop over the IVs (property/lua.rs 66-81) -/
def scriptTry (aes : Aes) (test : Bytes) : List Bytes → KeyStore → Except Err (Option Slot) × KeyStore
  | [], st => (.ok none, st)
  | iv :: ivs, st => match slotOfIv iv with
    | none => scriptTry aes test ivs st
    | some s => match st.held aes s test with
      | (.error e, st) => (.error e, st)
      | (.ok out, st) => match utf8Strict out with
        | .ok _ => (.ok (some s), st)
        | .error _ => scriptTry aes test ivs st

/-- `extract_lua` (property/lua.rs 37-57) -/
def script (aes : Aes) (m : Mode) (st : KeyStore) (buf : Bytes) (offset length : Nat) : Except Err (List Char) × KeyStore :=
  match (addU m length offset).bind (sliceIdx buf offset) with
  | .error e => (.error e, st)
  | .ok data => match (addU m offset (min 64 length)).bind (sliceIdx buf offset) with
    | .error e => (.error e, st)
    | .ok test => match scriptTry aes test [mseaIv, gmsIv, [0#8, 0#8, 0#8, 0#8]] st with
      | (.error e, st) => (.error e, st)
      | (.ok none, st) => (.error (.lib "UnknownLuaIv"), st)
      | (.ok (some s), st) => match st.held aes s data with
        | (.error e, st) => (.error e, st)
        | (.ok out, st) => (luaText out, st)

/-- the pixels become a picture (property/png.rs 189-209), under no lock -/
def pixels (bc7 : Bc7) (m : Mode) (p : Png) (px : Bytes) : Except Err Img8 := (p.format m).bind fun f => decodePixels bc7 m f px p.width p.height

/-- `get_raw_data` from line 247 on (property/png.rs 247-272): the lock is held for writing to the end.  What the loop panics with and the
panic of `&decrypted[2..]` poison it; `inflate` gives an error back, it does not panic. -/
def chunks (inflate : Inflate) (bc7 : Bc7) (aes : Aes) (m : Mode) (st : KeyStore) (s : Slot) (buf : Bytes) (p : Png) (capacity : Nat) :
    Except Err Img8 × KeyStore :=
  if st.bad s then (.error .panicUnwrap, st)
  else match (addU m p.offset p.size).bind fun stop => rawChunks aes m buf stop (stop - p.offset) p.offset [] (st.keys.get s) with
    | .error e => (.error e, st.poison s)
    | .ok (plain, keys) => match sliceIdx plain 2 plain.length with
      | .error e => (.error e, st.poison s)
      | .ok z => ((inflate false z capacity).bind (pixels bc7 m p), { st with keys := st.keys.put s keys })

/-- `extract_png` (property/png.rs 182-210) with the decryptor `s`; the lock is taken only if the data cannot be unpacked as they are
(property/png.rs 236-244) -/
def picture (inflate : Inflate) (bc7 : Bc7) (aes : Aes) (m : Mode) (st : KeyStore) (s : Slot) (buf : Bytes) (p : Png) :
    Except Err Img8 × KeyStore :=
  match (addU m p.offset p.size).bind (sliceIdx buf p.offset) with
  | .error e => (.error e, st)
  | .ok data => match p.buffSize m with
    | .error e => (.error e, st)
    | .ok capacity => match if p.hasZlibHeader then inflate true data capacity else .error (.lib "UnsupportedHeader") with
      | .ok px => (pixels bc7 m p px, st)
      | .error _ => st.chunks inflate bc7 aes m s buf p capacity

end KeyStore

/-- what a program asks for: the bytes of a text, a script, a picture, each with the decryptor of its file (a script tries all of them) -/
inductive Access where
  | text (s : Slot) (data : Bytes)
  | script (buf : Bytes) (offset length : Nat)
  | picture (s : Slot) (buf : Bytes) (p : Png)

/-- what it gets -/
inductive Shown where
  | text (bytes : Bytes)
  | script (text : List Char)
  | picture (image : Img8)

/-- one access (reader.rs 925-945, property/lua.rs 37-57, property/png.rs 182-210).  The program goes on after a panic: it happened in another thread, or was caught. -/
def KeyStore.access (inflate : Inflate) (bc7 : Bc7) (aes : Aes) (m : Mode) (st : KeyStore) : Access → Except Err Shown × KeyStore
  | .text s data => match st.text aes s data with
    | (r, st) => (r.map .text, st)
  | .script buf offset length => match st.script aes m buf offset length with
    | (r, st) => (r.map .script, st)
  | .picture s buf p => match st.picture inflate bc7 aes m s buf p with
    | (r, st) => (r.map .picture, st)

/-- one access (reader.rs 925-945, property/lua.rs 37-57, property/png.rs 182-210) after the other -/
def KeyStore.history (inflate : Inflate) (bc7 : Bc7) (aes : Aes) (m : Mode) : List Access → KeyStore → List (Except Err Shown) × KeyStore
  | [], st => ([], st)
  | a :: as, st => match st.access inflate bc7 aes m a with
    | (x, st) => match KeyStore.history inflate bc7 aes m as st with
      | (xs, st) => (x :: xs, st)

/-- the static at the start of a program (util/string_decryptor/mod.rs 233-246) -/
def KeyStore.start (key : Bytes) : KeyStore :=
  ⟨{ gms := Ecb.new gmsIv key, kms := Ecb.new mseaIv key, general := Ecb.new [0#8, 0#8, 0#8, 0#8] key }, fun _ => false⟩

end Wz
