import Verif.Media.PayloadModel
import Verif.Media.SoundProps
import Verif.Png.Model
/-!
# What a user gets from the nodes of a tree that was read from any bytes
-/

set_option autoImplicit false

namespace Wz.Spec

open Wz

/-- this holds of the values of all nodes of a tree -/
inductive EveryValue (P : PObj → Prop) : List (List Char × PNode) → Prop
  | nil : EveryValue P []
  | cons (name : List Char) (o : PObj) (ks rest : List (List Char × PNode)) : P o → EveryValue P ks → EveryValue P rest →
      EveryValue P ((name, .node o ks) :: rest)

/-- these bytes of the file if the file has them all, and otherwise a panic -/
def GivesPart (buf : Bytes) (offset size : Nat) (r : Except Err Bytes) : Prop :=
  (offset + size ≤ buf.length → ∃ d, r = .ok d ∧ d.length = size ∧ Holds buf offset d) ∧
  (buf.length < offset + size → ∃ x, r = .error x ∧ x.isPanic = true)

/-- What the access to a value gives.  Texts are read or are an error, never a panic.  Raw data, videos and sounds are the bytes of the file,
or a panic if they go beyond its end; PCM sounds get a header.  A picture that goes beyond the end panics. -/
def Accessed (e : Env) : PObj → Prop
  | .str m | .uol m =>
    (m.ty = .empty ∨ m.offset + m.length ≤ e.buf.length → ∃ t, resolveMeta e m.ty m.offset m.length = .ok t) ∧
    (m.ty ≠ .empty → e.buf.length < m.offset + m.length →
      resolveMeta e m.ty m.offset m.length = .error (.outOfBounds (m.offset + m.length) e.buf.length))
  | .raw offset size => GivesPart e.buf offset size (rawBuffer e.mode e.buf offset size)
  | .video offset size => GivesPart e.buf offset size (videoBuffer e.mode e.buf offset size)
  | .sound s =>
    (s.ty ≠ .wav → GivesPart e.buf s.offset s.length (s.getBuffer e.mode e.buf)) ∧
    (s.ty = .wav → (s.offset + s.length ≤ e.buf.length → s.length + 36 < 2 ^ 32 → ∃ f header data, s.getBuffer e.mode e.buf = .ok f ∧
        IsWav f (part header 52 68) data ∧ Holds e.buf s.headerOffset header ∧ header.length = 70 ∧ Holds e.buf s.offset data ∧
        data.length = s.length) ∧
      (e.buf.length < s.offset + s.length → ∃ x, s.getBuffer e.mode e.buf = .error x ∧ x.isPanic = true))
  | .canvas p => e.buf.length < p.offset + p.size → ∀ (inflate : Inflate) (bc7 : Bc7) (aes : Aes) (keys : Ecb),
      ∃ x, p.extract inflate bc7 aes e.mode e.buf keys = .error x ∧ x.isPanic = true
  | _ => True

/-- no dot in a name -/
def NoDot (name : List Char) : Prop := '.' ∉ name

end Wz.Spec
