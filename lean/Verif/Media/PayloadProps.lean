import Verif.Media.PayloadLemmas
import Verif.Property.Props
/-!
# C64: what the nodes of a tree give that was read from any bytes
-/

set_option autoImplicit false

namespace Wz.Props
open Wz Wz.Spec

/-- C64: whatever the bytes are, everything in a list of properties that was read from them without error is accessed as `Accessed` says: texts
are never a panic, raw data, videos and sounds are the bytes of the file, and a panic exactly if they go beyond its end. -/
theorem C64_parsed (e : Env) (hb : e.buf.length < 2 ^ 63) (o fuel : Nat) (c c' : Cur) (ks : List (List Char × PNode))
    (h : (Rd.parseList o fuel).run e c = (.ok ks, c')) : EveryValue (Accessed e) ks :=
  Rd.Post.list hb (ext_post hb o fuel) o c ks c' h

/-- C64: the same of a node that was looked up by its path. -/
theorem C64_looked_up (e : Env) (hb : e.buf.length < 2 ^ 63) (path : List Char) (o fuel : Nat) (c c' : Cur) (name : List Char) (v : PObj)
    (ks : List (List Char × PNode)) (h : (Rd.getNode path o fuel).run e c = (.ok (name, .node v ks), c')) :
    Accessed e v ∧ EveryValue (Accessed e) ks := by
  unfold Rd.getNode at h
  split at h
  · cases h
  · split at h
    · exact (everyValue_iff _).1 (Rd.Post.look hb (ext_post hb o fuel) o _ _ c _ c' h) name v ks (List.mem_singleton.2 rfl)
    · cases h

/-- C64: raw data and videos that are stored in full are what the access gives. -/
theorem C64_stored (e : Env) (hb : e.buf.length < 2 ^ 63) (v : PObj) (data : Bytes) :
    (ShowsVal e v (.raw data) → ∃ offset size, v = .raw offset size ∧ rawBuffer e.mode e.buf offset size = .ok data) ∧
    (ShowsVal e v (.video data) → ∃ offset size, v = .video offset size ∧ videoBuffer e.mode e.buf offset size = .ok data) := by
  have key : ∀ off, Holds e.buf off data → (addU e.mode off data.length >>= sliceIdx e.buf off) = .ok data := by
    intro off hd
    have hl := hd.le
    rw [addU_ok (by omega)]
    exact sliceIdx_holds hd
  constructor
  · intro h
    cases h with
    | raw off _ hd => exact ⟨off, _, rfl, key off hd⟩
  · intro h
    cases h with
    | video off _ hd => exact ⟨off, _, rfl, key off hd⟩

/-- a text `t` that is stored at the end, where nine characters are claimed and none are, and raw data `r` that claims nine bytes and has two -/
def cutBuf : Bytes :=
  [2#8] ++ (sblk ['t'] ++ [8#8, 1#8] ++ toLE 4 30) ++ (sblk ['r'] ++ ([9#8] ++ toLE 4 13 ++ (sblk "RawData".toList ++ [0#8, 9#8, 1#8, 0xF7#8])))

/-- what the accesses to the first two nodes give -/
def firstTwo (e : Env) (x : Except Err (List (List Char × PNode))) : Option (Except Err (List Char) × Except Err Bytes) :=
  match x with
  | .ok [(_, .node (.str m) _), (_, .node (.raw off size) _)] => some (resolveMeta e m.ty m.offset m.length, rawBuffer e.mode e.buf off size)
  | _ => none

/-- C64: the panic is there.  This list is read without error; the text is then an error, and the raw data is a panic. -/
theorem C64_cut_counterexample :
    firstTwo (envOf .checked cutBuf) ((Rd.parseList 0 9).run (envOf .checked cutBuf) ⟨0, 0⟩).1 =
      some (.error (.outOfBounds 40 31), .error .panicIndex) := by
  decide +kernel

/-- the case of `C64_parsed`: the list in `cutBuf` is read -/
example : ∃ ks c', (Rd.parseList 0 9).run (envOf .checked cutBuf) ⟨0, 0⟩ = (.ok ks, c') ∧ ks.length = 2 ∧ EveryValue (Accessed (envOf .checked cutBuf)) ks := by
  have h : flat ((Rd.parseList 0 9).run (envOf .checked cutBuf) ⟨0, 0⟩).1 = .ok [(['t'], .str ⟨31, 9, .ascii⟩), (['r'], .raw 29 9)] := by decide +kernel
  rcases hr : (Rd.parseList 0 9).run (envOf .checked cutBuf) ⟨0, 0⟩ with ⟨r, c'⟩
  rw [hr] at h
  cases r with
  | error x => cases h
  | ok ks =>
    refine ⟨ks, c', rfl, ?_, C64_parsed _ (by decide) _ _ _ _ _ hr⟩
    have h2 := congrArg (fun x => x.map List.length) h
    simpa [flat, Except.map] using h2

/-- the case of `C64_looked_up`: the same raw data found by its path -/
example : ((Rd.getNode ['r'] 0 9).run (envOf .checked cutBuf) ⟨0, 0⟩).1.map (fun x => x.2.obj) = .ok (.raw 29 9) := by decide +kernel

/-- the case of `C64_stored` -/
example : ShowsVal (envOf .checked cutBuf) (.raw 29 2) (.raw [1#8, 0xF7#8]) := .raw 29 [1#8, 0xF7#8] (holdsAt 29 (by decide +kernel))

/-- C64: sounds with different names without dots are saved into different files, whatever their kinds are, and the name says the kind. -/
theorem C64_save_names_partial (s t : Sound) (a b : List Char) (ha : NoDot a) (hb : NoDot b) (hna : a ≠ []) (hnb : b ≠ []) :
    (a ≠ b → s.saveName a ≠ t.saveName b) ∧ (s.ty = .wav → s.saveName a = a ++ ['.', 'w', 'a', 'v']) ∧
    (s.ty = .mp3 → s.saveName a = a ++ ['.', 'm', 'p', '3']) ∧ (s.ty = .binary → s.saveName a = a) := by
  refine ⟨fun hne he => hne ?_, fun h => ?_, fun h => ?_, fun h => ?_⟩
  · have hst : ∀ (u : Sound) (n : List Char), NoDot n → n ≠ [] → nameStem (u.saveName n) = n := by
      intro u n hn hz
      unfold Sound.saveName
      rw [nameStem_plain hn]
      have hd : n ≠ ['.'] := fun h => hn (by rw [h]; exact List.mem_cons_self)
      cases u.ty with
      | wav => exact nameStem_dot hz (.inl hd) (by unfold NoDot; decide)
      | mp3 => exact nameStem_dot hz (.inl hd) (by unfold NoDot; decide)
      | binary => exact nameStem_plain hn
    rw [← hst s a ha hna, ← hst t b hb hnb, he]
  · unfold Sound.saveName
    rw [h, nameStem_plain ha]
  · unfold Sound.saveName
    rw [h, nameStem_plain ha]
  · unfold Sound.saveName
    rw [h]

example : NoDot ['b', 'g', 'm'] ∧ (['b', 'g', 'm'] : List Char) ≠ [] := ⟨by unfold NoDot; decide, by decide⟩

/-- C64 fails for names with dots: the text behind the last dot is dropped, so that two sounds of one kind whose names differ only there are
saved into one file. -/
theorem C64_save_names_counterexample (s t : Sound) (hs : s.ty = t.ty) (hb : s.ty ≠ .binary) (a x y : List Char) (ha : a ≠ []) (hx : NoDot x) (hy : NoDot y)
    (hn : x ≠ []) (hm : y ≠ []) : s.saveName (a ++ '.' :: x) = t.saveName (a ++ '.' :: y) := by
  unfold Sound.saveName
  rw [nameStem_dot ha (.inr hn) hx, nameStem_dot ha (.inr hm) hy, ← hs]
  cases h : s.ty with
  | wav => rfl
  | mp3 => rfl
  | binary => exact (hb h).elim

example : (⟨0, 0, 0, 0, 0, .mp3⟩ : Sound).saveName "bgm.1".toList = (⟨9, 9, 9, 9, 9, .mp3⟩ : Sound).saveName "bgm.2".toList := by decide +kernel

end Wz.Props
