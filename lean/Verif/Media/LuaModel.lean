import Verif.Keys.Model
import Verif.Property.Model
/-!
# Model of scripts (`property/lua.rs`) and of the shared decryptors they use
-/

set_option autoImplicit false

namespace Wz

/-- the decryptors of `StringDecryptor` that are chosen by an IV (util/string_decryptor/mod.rs 189-195) -/
inductive Slot where
  | gms
  | kms
  | general
deriving DecidableEq, Repr

/-- the static `GLOBAL_STRING_DECRYPTOR` (util/string_decryptor/mod.rs 233-246), without the slots not used here.  Every use can
generate more key bytes, so it has a state. -/
structure GlobalKeys where
  gms : Ecb
  kms : Ecb
  general : Ecb

def GlobalKeys.get (g : GlobalKeys) : Slot → Ecb
  | .gms => g.gms
  | .kms => g.kms
  | .general => g.general

def GlobalKeys.put (g : GlobalKeys) (s : Slot) (d : Ecb) : GlobalKeys :=
  match s with
  | .gms => { g with gms := d }
  | .kms => { g with kms := d }
  | .general => { g with general := d }

/-- `get_decryptor_by_iv` (util/string_decryptor/mod.rs 223-230); `none` is the case of a new decryptor -/
def slotOfIv (iv : Bytes) : Option Slot :=
  if iv = gmsIv then some .gms
  else if iv = mseaIv then some .kms
  else if iv = [0#8, 0#8, 0#8, 0#8] then some .general
  else none

/-- `ensure_key_size(data.len()).unwrap(); decrypt_slice(data)` under one write lock (property/lua.rs 50-54, 72-76) -/
def GlobalKeys.decryptAll (aes : Aes) (g : GlobalKeys) (s : Slot) (data : Bytes) : Except Err (Bytes × GlobalKeys) :=
  match (g.get s).ensure aes data.length with
  | .error _ => .error .panicUnwrap
  | .ok d =>
    match d.decrypt data with
    | .error e => .error e
    | .ok out => .ok (out, g.put s d)

/-- the loop over the IVs (property/lua.rs 66-81) on the first bytes; an IV without a slot does not occur in the list -/
def luaTry (aes : Aes) (test : Bytes) : List Bytes → GlobalKeys → Except Err (Option Slot × GlobalKeys)
  | [], g => .ok (none, g)
  | iv :: ivs, g =>
    match slotOfIv iv with
    | none => luaTry aes test ivs g
    | some s =>
      match g.decryptAll aes s test with
      | .error e => .error e
      | .ok (out, g) =>
        match utf8Strict out with
        | .ok _ => .ok (some s, g)
        | .error _ => luaTry aes test ivs g

/-- `get_mtb_keys_from_guess_lua_iv` (property/lua.rs 60-84) -/
def luaGuess (aes : Aes) (m : Mode) (buf : Bytes) (offset length : Nat) (g : GlobalKeys) : Except Err (Option Slot × GlobalKeys) := do
  let last ← addU m offset (min 64 length)
  let test ← sliceIdx buf offset last
  luaTry aes test [mseaIv, gmsIv, [0#8, 0#8, 0#8, 0#8]] g

/-- `String::from_utf8(decoded).map_err(..)` (property/lua.rs 56) -/
def luaText (out : Bytes) : Except Err (List Char) :=
  match utf8Strict out with
  | .ok t => .ok t
  | .error _ => .error (.lib "StringDecodeFail")

/-- the rest of `extract_lua` with the keys found (property/lua.rs 42-56) -/
def luaDecode (aes : Aes) (data : Bytes) (r : Option Slot × GlobalKeys) : Except Err (List Char × GlobalKeys) :=
  match r.1 with
  | none => .error (.lib "UnknownLuaIv")
  | some s => do
    let (out, g) ← r.2.decryptAll aes s data
    let text ← luaText out
    return (text, g)

/-- `extract_lua` (property/lua.rs 37-57) -/
def extractLua (aes : Aes) (m : Mode) (buf : Bytes) (offset length : Nat) (g : GlobalKeys) : Except Err (List Char × GlobalKeys) := do
  let last ← addU m length offset
  let data ← sliceIdx buf offset last
  let r ← luaGuess aes m buf offset length g
  luaDecode aes data r

end Wz
