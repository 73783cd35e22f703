import Verif.File.Model
/-!
# What overflow checks change

Rust programs are built with checks for overflows (debug builds, the default for tests) or without (release builds).  What a
user tried in one build should hold in the other.
-/

set_option autoImplicit false

namespace Wz.Spec

open Wz

/-- without overflow checks the same result, be it a value or an error, as with them, unless the checks found an overflow -/
def SameUnlessOverflow {α : Type} (f : Mode → Except Err α) : Prop := f .checked = .error .panicOverflow ∨ f .wrap = f .checked

/-- the same for the result and the state behind it -/
def SameStateUnlessOverflow {α σ : Type} (f : Mode → Except Err α × σ) : Prop := (f .checked).1 = .error .panicOverflow ∨ f .wrap = f .checked

/-- the reader of these bytes with these keys in a build -/
def readerIn (m : Mode) (buf : Bytes) (ks ks2 : Nat → Byte) : Env := { mode := m, buf := buf, ks := ks, ks2 := ks2 }

/-- the same file in a build -/
def fileIn (m : Mode) (f : WFile) : WFile := { f with env := readerIn m f.env.buf f.env.ks f.env.ks2 }

/-- all of a file but the build: its bytes, its keys and the rest -/
def fileData (f : WFile) : WFile := fileIn .checked f

end Wz.Spec
