import Verif.Property.TakenTree
import Verif.Property.Props
/-!
# C72: what is shown of a list of properties is stored there, and all of it
-/

set_option autoImplicit false

namespace Wz.Props

open Spec

/-- C72: a list of properties that was read is what the bytes may be taken for, whatever the bytes. -/
theorem C72_shown_is_stored (e : Env) (o fuel : Nat) (kids : List (List Char × PNode)) (c c' : Cur) (hb : e.buf.length < 2 ^ 63)
    (hm : e.mode = .checked) (h : (Rd.parseList o fuel).run e c = (.ok kids, c')) : TakenList e o kids c.pos c'.pos :=
  list_of_read hb hm (ext_of_read hb hm fuel) h

/-- C72: and what the bytes may be taken for is read: reading succeeds exactly there.  `fuel` bounds the recursion of the
model only. -/
theorem C72_list (e : Env) (o fuel q : Nat) (kids : List (List Char × PNode)) (c : Cur) (hb : e.buf.length < 2 ^ 63)
    (hm : e.mode = .checked) (hf : e.buf.length + 2 ≤ fuel) :
    (∃ c', (Rd.parseList o fuel).run e c = (.ok kids, c') ∧ c'.pos = q) ↔ TakenList e o kids c.pos q := by
  constructor
  · rintro ⟨c', h, rfl⟩
    exact C72_shown_is_stored e o fuel kids c c' hb hm h
  · rintro ⟨nb, h1, h2, h3⟩
    obtain ⟨N, hN⟩ := h3.reads hb
    obtain ⟨c', h4, h5⟩ := parseListWith_reads hb h1 h2 (hN (fuel + N) (by omega)) c rfl
    refine ⟨c', ?_, h5⟩
    rw [← C23_bound_irrelevant_partial e o fuel (fuel + N) c hm (by omega) (by omega) (by omega)]
    exact h4

/-- C72: the same bytes are not taken for two things. -/
theorem C72_one_reading (e : Env) (o p q q' : Nat) (kids kids' : List (List Char × PNode)) (hb : e.buf.length < 2 ^ 63)
    (h : TakenList e o kids p q) (h' : TakenList e o kids' p q') : kids = kids' ∧ q = q' := by
  obtain ⟨nb, h1, h2, h3⟩ := h
  obtain ⟨nb', h1', h2', h3'⟩ := h'
  obtain ⟨N, hN⟩ := h3.reads hb
  obtain ⟨N', hN'⟩ := h3'.reads hb
  obtain ⟨c, h4, h5⟩ := parseListWith_reads hb h1 h2 (hN (N + N') (by omega)) ⟨p, 0⟩ rfl
  obtain ⟨c', h4', h5'⟩ := parseListWith_reads hb h1' h2' (hN' (N + N') (by omega)) ⟨p, 0⟩ rfl
  rw [h4] at h4'
  cases h4'
  exact ⟨rfl, h5.symm.trans h5'⟩

/-- C72: a text shown for a description found in the file is stored where the description says, and such a text is
shown. -/
theorem C72_text (e : Env) (o p q : Nat) (m : StrMeta) (s : List Char) (hb : e.buf.length < 2 ^ 63) (h : MetaBlock e o p m q) :
    resolveMeta e m.ty m.offset m.length = .ok s ↔
      (m.ty = .empty ∧ s = []) ∨
      (m.ty = .ascii ∧ ∃ bs : Bytes, bs.length = m.length ∧ Holds e.buf m.offset (cipherAscii e.ks bs) ∧ s = utf8Lossy bs) ∨
      (m.ty = .unicode ∧ ∃ us : List (BitVec 16), 2 * us.length = m.length ∧ Holds e.buf m.offset (cipherUnicode e.ks us) ∧ s = utf16Lossy us) := by
  have key : m.length < 2 ^ 64 ∧ m.ty ≠ .pkg2Dir := by
    have ann : ∀ {p q : Nat} {lb : Bytes}, Announced p lb m q → m.length < 2 ^ 64 ∧ m.ty ≠ .pkg2Dir := by
      intro p q lb ha
      cases ha with
      | empty => exact ⟨by decide, by decide⟩
      | asciiShort n h1 h2 => exact ⟨by dsimp only; omega, (fun h => nomatch h)⟩
      | asciiLong l h1 h2 h3 => exact ⟨Nat.lt_trans (unsign_lt 32 l) (by decide), (fun h => nomatch h)⟩
      | unicodeShort n h1 h2 => exact ⟨by dsimp only; omega, (fun h => nomatch h)⟩
      | unicodeLong n h1 => exact ⟨by dsimp only; omega, (fun h => nomatch h)⟩
    cases h with
    | inline _ _ _ lb _ ha _ => exact ann ha
    | elsewhere _ _ _ _ lb _ _ ha _ _ => exact ann ha
    | absent _ _ _ => exact ⟨by decide, by decide⟩
  obtain ⟨off, len, ty⟩ := m
  obtain ⟨hl, ht⟩ := key
  dsimp only at *
  cases ty with
  | empty => simp [resolveMeta, eq_comm]
  | pkg2Dir => exact absurd rfl ht
  | ascii =>
    simp only [reduceCtorEq, false_and, true_and, false_or, or_false]
    constructor
    · intro h
      obtain ⟨bs, h1, h2, h3⟩ := asciiIs hb hl h
      exact ⟨bs, h1, h3, h2⟩
    · rintro ⟨bs, h1, h2, rfl⟩
      simp only [resolveMeta]
      rw [resolveAscii_cipher h2 h1 hb]
      rfl
  | unicode =>
    simp only [reduceCtorEq, false_and, true_and, false_or]
    constructor
    · intro h
      obtain ⟨us, h1, h2, h3⟩ := unicodeIs hb hl h
      exact ⟨us, h1, h3, h2⟩
    · rintro ⟨us, h1, h2, rfl⟩
      simp only [resolveMeta]
      rw [resolveUnicode_cipher h2 h1 hb]
      rfl

/-! ### examples -/

/-- what no tool writes: a sub-property `p` with two entries `a`, a name that is no UTF-8, a text that is cut
off by the end of the file -/
def oddBuf : Bytes :=
  [2#8] ++ (sblk ['p'] ++ ([9#8] ++ toLE 4 24 ++ (sblk "Property".toList ++ [0#8, 0#8] ++
      ([2#8] ++ (sblk ['a'] ++ [3#8, 5#8]) ++ (sblk ['a'] ++ [3#8, 7#8]) ++ [0xEE#8])))) ++
    ([0#8, 0xFF#8, 0xFF#8 ^^^ 0xAA#8] ++ [8#8, 0#8, 0xF0#8, 1#8, 2#8])

def oddKids : List (List Char × PNode) :=
  [(['p'], .node .property [(['a'], .node (.int 7) [])]),
   ([Char.ofNat 0xFFFD], .node (.str { offset := 39, length := 16, ty := .ascii }) [])]

theorem oddBuf_read : (Rd.parseList 0 60).run (envOf .checked oddBuf) ⟨0, 0⟩ = (.ok oddKids, ⟨55, 0⟩) := by rfl

example : TakenList (envOf .checked oddBuf) 0 oddKids 0 55 :=
  C72_shown_is_stored (envOf .checked oddBuf) 0 60 oddKids ⟨0, 0⟩ ⟨55, 0⟩ (by decide +kernel) rfl oddBuf_read

example : ∃ c', (Rd.parseList 0 60).run (envOf .checked oddBuf) ⟨0, 0⟩ = (.ok oddKids, c') ∧ c'.pos = 55 :=
  (C72_list (envOf .checked oddBuf) 0 60 55 oddKids ⟨0, 0⟩ (by decide +kernel) rfl (by decide +kernel)).mpr
    (C72_shown_is_stored (envOf .checked oddBuf) 0 60 oddKids ⟨0, 0⟩ ⟨55, 0⟩ (by decide +kernel) rfl oddBuf_read)

/-- `raw` with the same name twice -/
example : MergedKids [(['a'], 5), (['b'], 6), (['a'], 7)] [(['a'], 7), (['b'], 6)] := merged_all [(['a'], 5), (['b'], 6), (['a'], 7)]

/-- a point of an unknown kind: the shape is shown under the name of the point -/
example : TakenList (envOf .checked shapeBuf) 0 [(['0'], .node .null []), (['a'], .node (.int 5) [])] 0 37 :=
  C72_shown_is_stored (envOf .checked shapeBuf) 0 60 _ ⟨0, 0⟩ ⟨37, 0⟩ (by decide +kernel) rfl (by rfl)

/-- the text that is cut off is described but not shown -/
example : MetaBlock (envOf .checked oddBuf) 0 37 { offset := 39, length := 16, ty := .ascii } 55 :=
  .inline 37 55 0#8 _ [0xF0#8] (.inl rfl) (.asciiShort 16 (by decide) (by decide)) (holdsAt 37 (by decide +kernel))

example (s : List Char) : resolveMeta (envOf .checked oddBuf) .ascii 39 16 ≠ .ok s := by
  have : resolveMeta (envOf .checked oddBuf) .ascii 39 16 = .error (.outOfBounds 55 41) := by decide +kernel
  rw [this]
  exact fun h => nomatch h

end Wz.Props
