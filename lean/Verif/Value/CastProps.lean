import Verif.Value.Model
/-!
# Typed access (C43)
-/

set_option autoImplicit false

namespace Wz

namespace Spec

/-- the accessors of a node -/
inductive Accessor where
  | file | directory | image | sub | value | png | sound | string | lua | rawData | video | vector
  | short | int | long | float | double | uol
deriving DecidableEq, Repr

/-- what an accessor can return -/
inductive Shown where
  | id (n : Nat)
  | sub (s : Sub)
  | val (v : Val)
  | png (p : Png)
  | sound (s : Sound)
  | str (s : StrRef)
  | range (offset length : Nat)
  | vec (v : V2)
  | num (v : Int)
  | bits (v : Nat)

/-- the table: which accessor belongs to which kind of node, and the content of the node -/
inductive Contains : Accessor → Obj → Shown → Prop
  | file (n : Nat) : Contains .file (.file n) (.id n)
  | directory (n : Nat) : Contains .directory (.directory n) (.id n)
  | image (n : Nat) : Contains .image (.image n) (.id n)
  | sub (s : Sub) : Contains .sub (.property s) (.sub s)
  | value (v : Val) : Contains .value (.value v) (.val v)
  | png (p : Png) : Contains .png (.property (.png p)) (.png p)
  | sound (s : Sound) : Contains .sound (.property (.sound s)) (.sound s)
  | string (s : StrRef) : Contains .string (.value (.str s)) (.str s)
  | stringOfUol (s : StrRef) : Contains .string (.value (.uol s)) (.str s)
  | lua (o l : Nat) : Contains .lua (.value (.lua o l)) (.range o l)
  | rawData (o l : Nat) : Contains .rawData (.value (.rawData o l)) (.range o l)
  | video (o l : Nat) : Contains .video (.value (.video o l)) (.range o l)
  | vector (v : V2) : Contains .vector (.value (.vector v)) (.vec v)
  | short (v : Int) : Contains .short (.value (.short v)) (.num v)
  | int (v : Int) : Contains .int (.value (.int v)) (.num v)
  | long (v : Int) : Contains .long (.value (.long v)) (.num v)
  | float (b : Nat) : Contains .float (.value (.float b)) (.bits b)
  | double (b : Nat) : Contains .double (.value (.double b)) (.bits b)
  | uol (s : StrRef) : Contains .uol (.value (.uol s)) (.str s)

/-- the accessors for one kind of content (not the two for a whole class of nodes) -/
def Accessor.isLeaf : Accessor → Bool
  | .sub | .value => false
  | _ => true

end Spec

open Spec

/-- the call of an accessor -/
def Spec.Accessor.call : Accessor → Obj → Option Shown
  | .file, o => o.asFile.map .id
  | .directory, o => o.asDirectory.map .id
  | .image, o => o.asImage.map .id
  | .sub, o => o.asSub.map .sub
  | .value, o => o.asValue.map .val
  | .png, o => o.asPng.map .png
  | .sound, o => o.asSound.map .sound
  | .string, o => o.asString.map .str
  | .lua, o => o.asLua.map fun r => .range r.1 r.2
  | .rawData, o => o.asRawData.map fun r => .range r.1 r.2
  | .video, o => o.asVideo.map fun r => .range r.1 r.2
  | .vector, o => o.asVector.map .vec
  | .short, o => o.asShort.map .num
  | .int, o => o.asInt.map .num
  | .long, o => o.asLong.map .num
  | .float, o => o.asFloat.map .bits
  | .double, o => o.asDouble.map .bits
  | .uol, o => o.asUol.map .str

theorem call_of_contains {a : Accessor} {o : Obj} {x : Shown} (h : Contains a o x) : a.call o = some x := by
  cases h <;> rfl

theorem contains_of_call {a : Accessor} {o : Obj} {x : Shown} (h : a.call o = some x) : Contains a o x := by
  cases o with
  | property s => cases a <;> cases s <;> first | (cases h; constructor) | cases h
  | value v => cases a <;> cases v <;> first | (cases h; constructor) | cases h
  | _ => cases a <;> first | (cases h; constructor) | cases h

namespace Props

/-- C43: every accessor returns the content exactly for the nodes of its kind, and nothing for all others. -/
theorem C43_access (a : Accessor) (o : Obj) (x : Shown) : a.call o = some x ↔ Contains a o x :=
  ⟨contains_of_call, call_of_contains⟩

example : Accessor.int.call (.value (.int 7)) = some (.num 7) := (C43_access _ _ _).2 (.int 7)
example (x : Shown) : Accessor.int.call (.value (.short 7)) ≠ some x := fun h => by cases (C43_access _ _ _).1 h

/-- C43: at most one leaf accessor succeeds on a node, but for the text of a UOL, which two show. -/
theorem C43_exclusive (a b : Accessor) (o : Obj) (x y : Shown) (ha : a.isLeaf = true) (hb : b.isLeaf = true)
    (hx : a.call o = some x) (hy : b.call o = some y) :
    (a = b ∧ x = y) ∨ ∃ s, o = .value (.uol s) ∧ x = .str s ∧ y = .str s ∧
      ((a = .string ∧ b = .uol) ∨ (a = .uol ∧ b = .string)) := by
  have h1 := contains_of_call hx
  have h2 := contains_of_call hy
  cases h1 <;> cases h2 <;>
    first
    | exact .inl ⟨rfl, rfl⟩
    | exact .inr ⟨_, rfl, rfl, rfl, .inl ⟨rfl, rfl⟩⟩
    | exact .inr ⟨_, rfl, rfl, rfl, .inr ⟨rfl, rfl⟩⟩
    | exact absurd ha (by decide)
    | exact absurd hb (by decide)

example (s : StrRef) : Accessor.string.call (.value (.uol s)) = some (.str s) ∧ Accessor.uol.call (.value (.uol s)) = some (.str s) :=
  ⟨rfl, rfl⟩

/-- C43: the three questions without content. -/
theorem C43_flags (o : Obj) :
    (o.isSub = true ↔ o = .property .property) ∧ (o.isConvex = true ↔ o = .property .convex) ∧ (o.isNull = true ↔ o = .value .null) := by
  cases o with
  | property s => cases s <;> simp [Obj.isSub, Obj.isConvex, Obj.isNull]
  | value v => cases v <;> simp [Obj.isSub, Obj.isConvex, Obj.isNull]
  | _ => simp [Obj.isSub, Obj.isConvex, Obj.isNull]

/-- C43: the kinds whose content no leaf accessor shows: packages in the MS format, text set by the user, and the three kinds
without content. -/
theorem C43_uncovered (o : Obj) :
    (∀ a : Accessor, a.isLeaf = true → a.call o = none) ↔
      (∃ n, o = .msFile n) ∨ (∃ n, o = .msImage n) ∨ (∃ s, o = .value (.parsed s)) ∨ o = .value .null ∨
        o = .property .convex ∨ o = .property .property := by
  have no : ∀ {a : Accessor} {x : Shown}, Contains a o x → a.isLeaf = true → ¬ ∀ a : Accessor, a.isLeaf = true → a.call o = none :=
    fun h hl hn => absurd (call_of_contains h) (by rw [hn _ hl]; simp)
  constructor
  · intro h
    cases o with
    | file n => exact absurd h (no (.file n) rfl)
    | msFile n => exact .inl ⟨n, rfl⟩
    | image n => exact absurd h (no (.image n) rfl)
    | msImage n => exact .inr (.inl ⟨n, rfl⟩)
    | directory n => exact absurd h (no (.directory n) rfl)
    | property s =>
      cases s with
      | convex => simp
      | sound s => exact absurd h (no (.sound s) rfl)
      | png p => exact absurd h (no (.png p) rfl)
      | property => simp
    | value v =>
      cases v with
      | rawData a b => exact absurd h (no (.rawData a b) rfl)
      | video a b => exact absurd h (no (.video a b) rfl)
      | lua a b => exact absurd h (no (.lua a b) rfl)
      | short v => exact absurd h (no (.short v) rfl)
      | int v => exact absurd h (no (.int v) rfl)
      | long v => exact absurd h (no (.long v) rfl)
      | float v => exact absurd h (no (.float v) rfl)
      | double v => exact absurd h (no (.double v) rfl)
      | vector v => exact absurd h (no (.vector v) rfl)
      | uol s => exact absurd h (no (.uol s) rfl)
      | str s => exact absurd h (no (.string s) rfl)
      | parsed s => exact .inr (.inr (.inl ⟨s, rfl⟩))
      | null => simp
  · rintro (⟨n, rfl⟩ | ⟨n, rfl⟩ | ⟨s, rfl⟩ | rfl | rfl | rfl) a ha <;> cases a <;> first | rfl | cases ha

/-- C43: what is put into a node by a conversion is what the accessor of its type returns. -/
theorem C43_converted :
    (∀ n, Accessor.file.call (.ofFile n) = some (.id n)) ∧
    (∀ n, Accessor.directory.call (.ofDirectory n) = some (.id n)) ∧
    (∀ n, Accessor.image.call (.ofImage n) = some (.id n)) ∧
    (∀ v, Accessor.short.call (.ofI16 v) = some (.num v)) ∧
    (∀ v, Accessor.int.call (.ofI32 v) = some (.num v)) ∧
    (∀ v, Accessor.long.call (.ofI64 v) = some (.num v)) ∧
    (∀ v, Accessor.float.call (.ofF32 v) = some (.bits v)) ∧
    (∀ v, Accessor.double.call (.ofF64 v) = some (.bits v)) ∧
    (∀ s, Accessor.string.call (.ofString s) = some (.str s) ∧ Accessor.uol.call (.ofString s) = none) ∧
    (∀ v, Accessor.vector.call (.ofVector v) = some (.vec v)) ∧
    (∀ a b, Accessor.rawData.call (.ofRawData a b) = some (.range a b)) ∧
    (∀ a b, Accessor.video.call (.ofVideo a b) = some (.range a b)) ∧
    (∀ a b, Accessor.lua.call (.ofLua a b) = some (.range a b)) ∧
    (∀ p, Accessor.png.call (.ofPng p) = some (.png p)) ∧
    (∀ s, Accessor.sound.call (.ofSound s) = some (.sound s)) := by
  refine ⟨?_, ?_, ?_, ?_, ?_, ?_, ?_, ?_, ?_, ?_, ?_, ?_, ?_, ?_, ?_⟩ <;> intros <;> first | rfl | exact ⟨rfl, rfl⟩

/-- C43: a converted MS package shows itself to no leaf accessor. -/
theorem C43_ms_hidden (n : Nat) (a : Accessor) (h : a.isLeaf = true) : a.call (.ofMsFile n) = none ∧ a.call (.ofMsImage n) = none :=
  ⟨(C43_uncovered _).2 (.inl ⟨n, rfl⟩) a h, (C43_uncovered _).2 (.inr (.inl ⟨n, rfl⟩)) a h⟩

example : Accessor.file.call (.ofMsFile 3) = none := (C43_ms_hidden 3 .file rfl).1

end Props
end Wz
