import Verif.Media.LuaModel
import Verif.Keys.Props
import Verif.Text.Inverse
import Verif.Reader.Spec
/-!
# C37: scripts
-/

set_option autoImplicit false

namespace Wz.Spec

/-- the IVs scripts are tried with, in this order -/
def luaIvs : List Bytes := [[0xB9#8, 0x7D#8, 0x63#8, 0xE9#8], [0x4D#8, 0x23#8, 0xC7#8, 0x2B#8], [0#8, 0#8, 0#8, 0#8]]

/-- these bytes are text in UTF-8 -/
def IsText (bs : Bytes) : Prop := ∃ s, bs = utf8EncStr s

/-- What a script is read as: the first IV under which the first 64 bytes are text decides; if there is none, `none`. -/
inductive ReadAs (ks : Bytes → Nat → Byte) (data : Bytes) : List Bytes → Option Bytes → Prop
  | nil : ReadAs ks data [] none
  | here (iv : Bytes) (ivs : List Bytes) : IsText (xorStream (ks iv) (data.take 64)) → ReadAs ks data (iv :: ivs) (some (xorStream (ks iv) data))
  | there (iv : Bytes) (ivs : List Bytes) (r : Option Bytes) : ¬ IsText (xorStream (ks iv) (data.take 64)) → ReadAs ks data ivs r → ReadAs ks data (iv :: ivs) r

end Wz.Spec

namespace Wz.Props
open Spec

/-- the shared decryptors after any use of each -/
def globalAfter (aes : Aes) (key : Bytes) (a b c : List KeyOp) : GlobalKeys :=
  { gms := a.foldl (KeyOp.after aes) (Ecb.new gmsIv key), kms := b.foldl (KeyOp.after aes) (Ecb.new mseaIv key),
    general := c.foldl (KeyOp.after aes) (Ecb.new ivZero key) }

def Slot.iv : Slot → Bytes
  | .gms => [0x4D#8, 0x23#8, 0xC7#8, 0x2B#8]
  | .kms => [0xB9#8, 0x7D#8, 0x63#8, 0xE9#8]
  | .general => [0#8, 0#8, 0#8, 0#8]

/-- all decryptors are in order and have their own IV -/
def GlobalOk (aes : Aes) (key : Bytes) (g : GlobalKeys) : Prop := ∀ s, (g.get s).Good aes ∧ (g.get s).iv = Slot.iv s ∧ (g.get s).aesKey = key

theorem globalAfter_ok {aes : Aes} (ha : aes.Sized) (key : Bytes) (a b c : List KeyOp) : GlobalOk aes key (globalAfter aes key a b c) := by
  intro s
  cases s with
  | gms => obtain ⟨h1, h2, h3, _⟩ := history_good ha (Ecb.good_new aes gmsIv key rfl) a; exact ⟨h1, h2, h3⟩
  | kms => obtain ⟨h1, h2, h3, _⟩ := history_good ha (Ecb.good_new aes mseaIv key rfl) b; exact ⟨h1, h2, h3⟩
  | general => obtain ⟨h1, h2, h3, _⟩ := history_good ha (Ecb.good_new aes ivZero key rfl) c; exact ⟨h1, h2, h3⟩

theorem put_ok {aes : Aes} {key : Bytes} {g : GlobalKeys} (h : GlobalOk aes key g) {s : Slot} {d : Ecb} (h1 : d.Good aes) (h2 : d.iv = Slot.iv s)
    (h3 : d.aesKey = key) : GlobalOk aes key (g.put s d) := by
  intro t
  have := h t
  cases s <;> cases t <;> first | exact ⟨h1, h2, h3⟩ | exact this

theorem decryptAll_run {aes : Aes} (ha : aes.Sized) {key : Bytes} {g : GlobalKeys} (h : GlobalOk aes key g) (s : Slot) (data : Bytes) :
    ∃ g', g.decryptAll aes s data = .ok (xorStream (keyByte aes key (Slot.iv s)) data, g') ∧ GlobalOk aes key g' := by
  obtain ⟨h1, h2, h3⟩ := h s
  have hrun := Ecb.ensure_run ha h1 data.length
  obtain ⟨i1, i2, i3, i4, _, i6⟩ := Ecb.ensure_good ha h1 hrun
  unfold GlobalKeys.decryptAll
  rw [hrun]
  dsimp only
  generalize (if (g.get s).withoutDecrypt = true ∨ data.length ≤ (g.get s).keys.length then g.get s else _) = d at i1 i2 i3 i4 i6
  rw [Ecb.decrypt_run i1 _ (by
    by_cases hw : (g.get s).withoutDecrypt = true
    · exact .inl (i4.trans hw)
    · exact .inr (i6 (Bool.eq_false_iff.mpr hw))), i2, i3, h2, h3]
  exact ⟨_, rfl, put_ok h i1 (i2.trans h2) (i3.trans h3)⟩

theorem isText_iff {bs : Bytes} : IsText bs ↔ ∃ s, utf8Strict bs = .ok s :=
  ⟨fun ⟨s, h⟩ => ⟨s, h ▸ utf8Strict_encStr s⟩, fun ⟨s, h⟩ => ⟨s, utf8Strict_inv h⟩⟩

/-- the IVs that have slots -/
theorem slotOfIv_eq {iv : Bytes} (h : iv ∈ luaIvs) : ∃ s, slotOfIv iv = some s ∧ Slot.iv s = iv := by
  simp only [luaIvs, List.mem_cons, List.not_mem_nil, or_false] at h
  rcases h with rfl | rfl | rfl
  · exact ⟨.kms, rfl, rfl⟩
  · exact ⟨.gms, rfl, rfl⟩
  · exact ⟨.general, rfl, rfl⟩

theorem luaTry_run {aes : Aes} (ha : aes.Sized) {key : Bytes} (data : Bytes) : ∀ (ivs : List Bytes) (g : GlobalKeys), GlobalOk aes key g → (∀ iv ∈ ivs, iv ∈ luaIvs) →
    ∃ s g', luaTry aes (data.take 64) ivs g = .ok (s, g') ∧ GlobalOk aes key g' ∧
      ReadAs (keyByte aes key) data ivs (s.map fun s => xorStream (keyByte aes key (Slot.iv s)) data) := by
  intro ivs
  induction ivs with
  | nil => intro g h _; exact ⟨none, g, rfl, h, .nil⟩
  | cons iv ivs ih =>
    intro g h hivs
    obtain ⟨s, hs, hsi⟩ := slotOfIv_eq (hivs iv List.mem_cons_self)
    obtain ⟨g', hg, hok⟩ := decryptAll_run ha h s (data.take 64)
    unfold luaTry
    rw [hs]
    dsimp only
    rw [hg]
    dsimp only
    cases hu : utf8Strict (xorStream (keyByte aes key (Slot.iv s)) (data.take 64)) with
    | ok t =>
      refine ⟨some s, g', rfl, hok, ?_⟩
      rw [hsi] at hu
      rw [Option.map_some, hsi]
      exact .here iv ivs (isText_iff.mpr ⟨t, hu⟩)
    | error e =>
      obtain ⟨s', g'', h1, h2, h3⟩ := ih g' hok (fun x hx => hivs x (List.mem_cons_of_mem _ hx))
      refine ⟨s', g'', h1, h2, .there iv ivs _ (fun ht => ?_) h3⟩
      obtain ⟨t, ht⟩ := isText_iff.mp ht
      rw [hsi, ht] at hu
      cases hu

theorem slice_of_holds {buf bs : Bytes} {p n : Nat} (h : Holds buf p bs) (hn : n ≤ bs.length) : sliceIdx buf p (p + n) = .ok (bs.take n) := by
  obtain ⟨pre, post, rfl, rfl⟩ := h
  unfold sliceIdx
  rw [if_pos ⟨by omega, by simp; omega⟩, List.append_assoc, List.drop_left' rfl, Nat.add_sub_cancel_left, List.take_append_of_le_length hn]

/-- C37: exactly how a script is read, whatever the shared decryptors have been used for before. -/
theorem C37_read (aes : Aes) (ha : aes.Sized) (key : Bytes) (a b c : List KeyOp) (m : Mode) (buf data : Bytes) (offset : Nat)
    (hb : buf.length < 2 ^ 63) (hh : Holds buf offset data) :
    ∃ r, ReadAs (keyByte aes key) data luaIvs r ∧
      (r = none → extractLua aes m buf offset data.length (globalAfter aes key a b c) = .error (.lib "UnknownLuaIv")) ∧
      (∀ plain s, r = some plain → plain = utf8EncStr s → (extractLua aes m buf offset data.length (globalAfter aes key a b c)).map Prod.fst = .ok s) ∧
      (∀ plain, r = some plain → ¬ IsText plain → extractLua aes m buf offset data.length (globalAfter aes key a b c) = .error (.lib "StringDecodeFail")) := by
  have hl : offset + data.length ≤ buf.length := by
    obtain ⟨pre, post, rfl, h⟩ := hh
    simp; omega
  obtain ⟨s, g', h1, h2, h3⟩ := luaTry_run ha data luaIvs _ (globalAfter_ok ha key a b c) (fun _ h => h)
  have a1 : addU m data.length offset = .ok (offset + data.length) := by rw [Nat.add_comm offset]; exact addU_ok (by omega)
  have a2 : addU m offset (min 64 data.length) = .ok (offset + min 64 data.length) := addU_ok (by omega)
  have s1 : sliceIdx buf offset (offset + data.length) = .ok data := by
    rw [slice_of_holds hh (Nat.le_refl _), List.take_length]
  have s2 : sliceIdx buf offset (offset + min 64 data.length) = .ok (data.take 64) := by
    rw [slice_of_holds hh (Nat.min_le_right _ _)]
    congr 1
    by_cases h : 64 ≤ data.length
    · rw [Nat.min_eq_left h]
    · rw [Nat.min_eq_right (by omega), List.take_length, List.take_of_length_le (by omega)]
  have hguess : luaGuess aes m buf offset data.length (globalAfter aes key a b c) = .ok (s, g') := by
    unfold luaGuess
    rw [a2]
    show (sliceIdx buf offset (offset + min 64 data.length) >>= _) = _
    rw [s2]
    exact h1
  have hstart : extractLua aes m buf offset data.length (globalAfter aes key a b c) = luaDecode aes data (s, g') := by
    unfold extractLua
    rw [a1]
    show (sliceIdx buf offset (offset + data.length) >>= _) = _
    rw [s1]
    show (luaGuess aes m buf offset data.length (globalAfter aes key a b c) >>= _) = _
    rw [hguess]
    rfl
  refine ⟨_, h3, ?_, ?_, ?_⟩
  · intro hr
    cases s with
    | none => rw [hstart]; rfl
    | some s => cases hr
  · intro plain t hr hp
    cases s with
    | none => cases hr
    | some s =>
      cases hr
      obtain ⟨g'', hd, _⟩ := decryptAll_run ha h2 s data
      rw [hstart]
      show Except.map Prod.fst (g'.decryptAll aes s data >>= _) = _
      rw [hd]
      show Except.map Prod.fst (luaText (xorStream (keyByte aes key (Slot.iv s)) data) >>= _) = _
      unfold luaText
      dsimp only at hp
      rw [hp, utf8Strict_encStr]
      rfl
  · intro plain hr hp
    cases s with
    | none => cases hr
    | some s =>
      cases hr
      obtain ⟨g'', hd, _⟩ := decryptAll_run ha h2 s data
      rw [hstart]
      show (g'.decryptAll aes s data >>= _) = _
      rw [hd]
      show (luaText (xorStream (keyByte aes key (Slot.iv s)) data) >>= _) = _
      unfold luaText
      cases hu : utf8Strict (xorStream (keyByte aes key (Slot.iv s)) data) with
      | ok t => exact absurd (isText_iff.mpr ⟨t, hu⟩) hp
      | error e => rfl

theorem ReadAs.unique {ks : Bytes → Nat → Byte} {data : Bytes} {ivs : List Bytes} {r r' : Option Bytes} (h : ReadAs ks data ivs r) (h' : ReadAs ks data ivs r') : r = r' := by
  induction h with
  | nil => cases h'; rfl
  | here iv ivs h => cases h' with
    | here => rfl
    | there _ _ _ hn => exact absurd h hn
  | there iv ivs r hn _ ih => cases h' with
    | here _ _ h => exact absurd h hn
    | there _ _ _ _ h => exact ih h

theorem xorStream_take (ks : Nat → Byte) (l : Bytes) (n : Nat) : xorStream ks (l.take n) = (xorStream ks l).take n := by
  apply List.ext_getElem
  · simp [xorStream]
  · intro i h1 h2
    simp [xorStream]

theorem xorStream_xorStream (ks : Nat → Byte) (l : Bytes) : xorStream ks (xorStream ks l) = l := by
  apply List.ext_getElem
  · simp [xorStream]
  · intro i h1 h2
    simp [xorStream, BitVec.xor_assoc]

/-- the first 64 bytes of a text are a text exactly if no character crosses that border -/
theorem text_take {s : List Char} {n : Nat} : IsText ((utf8EncStr s).take n) ↔ ∃ x y, s = x ++ y ∧ (utf8EncStr x).length = min n (utf8EncStr s).length := by
  constructor
  · rintro ⟨x, hx⟩
    obtain ⟨y, hy, _⟩ := utf8_prefix (a := x) (s := s) (r := (utf8EncStr s).drop n) (by rw [← hx, List.take_append_drop])
    exact ⟨x, y, hy, by rw [← hx, List.length_take]⟩
  · rintro ⟨x, y, rfl, h⟩
    refine ⟨x, ?_⟩
    rw [utf8EncStr_append] at h ⊢
    by_cases hn : n ≤ (utf8EncStr x ++ utf8EncStr y).length
    · rw [Nat.min_eq_left hn] at h
      exact List.take_left' h
    · rw [Nat.min_eq_right (by omega)] at h
      rw [List.take_of_length_le (by omega)]
      rw [List.length_append] at h
      rw [List.length_eq_zero_iff.mp (show (utf8EncStr y).length = 0 by omega), List.append_nil]

/-- C37: a script encrypted with one of the known IVs is given back, if no character of it crosses the border behind 64 bytes and
it does not look like text under an IV tried before. -/
theorem C37_text_partial (aes : Aes) (ha : aes.Sized) (key : Bytes) (a b c : List KeyOp) (m : Mode) (buf : Bytes) (offset : Nat) (s : List Char)
    (before after : List Bytes) (iv : Bytes) (hivs : luaIvs = before ++ iv :: after)
    (hb : buf.length < 2 ^ 63) (hh : Holds buf offset (xorStream (keyByte aes key iv) (utf8EncStr s)))
    (hborder : ∃ x y, s = x ++ y ∧ (utf8EncStr x).length = min 64 (utf8EncStr s).length)
    (hbefore : ∀ iv' ∈ before, ¬ IsText (xorStream (keyByte aes key iv') ((xorStream (keyByte aes key iv) (utf8EncStr s)).take 64))) :
    (extractLua aes m buf offset (utf8EncStr s).length (globalAfter aes key a b c)).map Prod.fst = .ok s := by
  obtain ⟨r, hr, _, h2, _⟩ := C37_read aes ha key a b c m buf _ offset hb hh
  have hlen : (xorStream (keyByte aes key iv) (utf8EncStr s)).length = (utf8EncStr s).length := by simp [xorStream]
  rw [hlen] at h2
  refine h2 _ s ?_ rfl
  refine ReadAs.unique hr ?_
  rw [hivs]
  clear hivs hr h2
  induction before with
  | nil =>
    have := ReadAs.here (ks := keyByte aes key) (data := xorStream (keyByte aes key iv) (utf8EncStr s)) iv after (by
      rw [xorStream_take, xorStream_xorStream]
      exact text_take.mpr hborder)
    rw [xorStream_xorStream] at this
    exact this
  | cons x before ih => exact .there x _ _ (hbefore x List.mem_cons_self) (ih fun y hy => hbefore y (List.mem_cons_of_mem _ hy))

/-- plain text of ASCII characters never crosses the border -/
theorem C37_ascii_border (s : List Char) (h : ∀ c ∈ s, c.toNat < 128) : ∃ x y, s = x ++ y ∧ (utf8EncStr x).length = min 64 (utf8EncStr s).length := by
  have hl : ∀ t : List Char, (∀ c ∈ t, c.toNat < 128) → (utf8EncStr t).length = t.length := by
    intro t ht
    induction t with
    | nil => rfl
    | cons c t ih =>
      have : utf8Enc c = [BitVec.ofNat 8 c.toNat] := by
        unfold utf8Enc
        dsimp only
        rw [if_pos (ht c List.mem_cons_self)]
      show (utf8Enc c ++ utf8EncStr t).length = _
      rw [this, List.length_append, ih (fun d hd => ht d (List.mem_cons_of_mem _ hd))]
      simp [Nat.add_comm]
  refine ⟨s.take 64, s.drop 64, (List.take_append_drop _ _).symm, ?_⟩
  rw [hl _ (fun c hc => h c (List.mem_of_mem_take hc)), hl s h, List.length_take]

/-- C37 fails for every other text: if a character crosses the border behind 64 bytes, the IV the script was encrypted with is
never chosen: the script is refused, or decrypted with the key of another IV. -/
theorem C37_border_violated (aes : Aes) (ha : aes.Sized) (key : Bytes) (a b c : List KeyOp) (m : Mode) (buf : Bytes) (offset : Nat) (s : List Char)
    (iv : Bytes) (hb : buf.length < 2 ^ 63) (hh : Holds buf offset (xorStream (keyByte aes key iv) (utf8EncStr s)))
    (hborder : ¬ ∃ x y, s = x ++ y ∧ (utf8EncStr x).length = min 64 (utf8EncStr s).length) :
    ∃ r, ReadAs (keyByte aes key) (xorStream (keyByte aes key iv) (utf8EncStr s)) (luaIvs.filter (· ≠ iv)) r ∧
      (r = none → extractLua aes m buf offset (utf8EncStr s).length (globalAfter aes key a b c) = .error (.lib "UnknownLuaIv")) ∧
      (∀ plain t, r = some plain → plain = utf8EncStr t → (extractLua aes m buf offset (utf8EncStr s).length (globalAfter aes key a b c)).map Prod.fst = .ok t) := by
  obtain ⟨r, hr, h1, h2, h3⟩ := C37_read aes ha key a b c m buf _ offset hb hh
  have hlen : (xorStream (keyByte aes key iv) (utf8EncStr s)).length = (utf8EncStr s).length := by simp [xorStream]
  rw [hlen] at h1 h2
  refine ⟨r, ?_, h1, h2⟩
  generalize luaIvs = ivs at hr
  have hno : ¬ IsText (xorStream (keyByte aes key iv) ((xorStream (keyByte aes key iv) (utf8EncStr s)).take 64)) := by
    rw [xorStream_take, xorStream_xorStream]
    exact fun h => hborder (text_take.mp h)
  clear h1 h2 h3
  induction hr with
  | nil => exact .nil
  | here iv' ivs h =>
    have hne : iv' ≠ iv := fun he => hno (he ▸ h)
    rw [List.filter_cons_of_pos (by simpa using hne)]
    exact .here _ _ h
  | there iv' ivs r hn _ ih =>
    by_cases he : iv' = iv
    · rw [List.filter_cons_of_neg (by simpa using he)]
      exact ih
    · rw [List.filter_cons_of_pos (by simpa using he)]
      exact .there _ _ _ hn ih

example : ¬ ∃ x y, List.replicate 63 'a' ++ ['中', 'b'] = x ++ y ∧ (utf8EncStr x).length = min 64 (utf8EncStr (List.replicate 63 'a' ++ ['中', 'b'])).length := by
  rintro ⟨x, y, h1, h2⟩
  have hx : x = (List.replicate 63 'a' ++ ['中', 'b']).take x.length := by rw [h1, List.take_left]
  have hl : x.length ≤ 65 := by
    have := congrArg List.length h1
    rw [List.length_append, List.length_append, List.length_replicate] at this
    simp only [List.length_cons, List.length_nil] at this
    omega
  have all : ∀ n, n < 66 → (utf8EncStr ((List.replicate 63 'a' ++ ['中', 'b']).take n)).length ≠
    min 64 (utf8EncStr (List.replicate 63 'a' ++ ['中', 'b'])).length := by decide +kernel
  exact all x.length (by omega) (by rw [← hx]; exact h2)

/-- such texts exist: 63 characters `a`, then `é` -/
theorem C37_border_example : ¬ ∃ x y, List.replicate 63 'a' ++ ['é'] = x ++ y ∧
    (utf8EncStr x).length = min 64 (utf8EncStr (List.replicate 63 'a' ++ ['é'])).length := by
  intro h
  obtain ⟨t, ht⟩ := isText_iff.mp (text_take.mpr h)
  have : (utf8Strict ((utf8EncStr (List.replicate 63 'a' ++ ['é'])).take 64)).toOption = none := by decide +kernel
  rw [ht] at this
  cases this

/-- C37 fails for a short plain script as soon as the first key byte of the first IV is below 128: the letter is then read as
another character. -/
theorem C37_wrong_key_wins (aes : Aes) (ha : aes.Sized) (key : Bytes) (a b c : List KeyOp) (m : Mode) (x : Byte) (hx : x.toNat < 128)
    (hk : (keyByte aes key [0xB9#8, 0x7D#8, 0x63#8, 0xE9#8] 0).toNat < 128) :
    (extractLua aes m [x] 0 1 (globalAfter aes key a b c)).map Prod.fst = .ok [Char.ofNat (x ^^^ keyByte aes key [0xB9#8, 0x7D#8, 0x63#8, 0xE9#8] 0).toNat] := by
  obtain ⟨r, hr, _, h2, _⟩ := C37_read aes ha key a b c m [x] [x] 0 (by show 1 < 2 ^ 63; decide) ⟨[], [], rfl, rfl⟩
  generalize hq : x ^^^ keyByte aes key [0xB9#8, 0x7D#8, 0x63#8, 0xE9#8] 0 = q
  have hq8 : q.toNat < 128 := by
    rw [← hq, BitVec.toNat_xor]
    exact Nat.xor_lt_two_pow (n := 7) hx hk
  have hxor : xorStream (keyByte aes key [0xB9#8, 0x7D#8, 0x63#8, 0xE9#8]) [x] = [q] := by
    rw [← hq]
    rfl
  have htext : [q] = utf8EncStr [Char.ofNat q.toNat] := by
    show [q] = utf8Enc (Char.ofNat q.toNat) ++ []
    unfold utf8Enc
    rw [toNat_ofNat (by omega)]
    dsimp only
    rw [if_pos hq8, byte_eq rfl]
    rfl
  refine h2 [q] _ (ReadAs.unique hr ?_) htext
  rw [← hxor]
  exact .here _ _ ⟨_, hxor.trans htext⟩

/-- a text of three characters, one of them of three bytes, encrypted with the first key -/
example (aes : Aes) (ha : aes.Sized) (key : Bytes) :
    (extractLua aes .checked ([9#8] ++ xorStream (keyByte aes key [0xB9#8, 0x7D#8, 0x63#8, 0xE9#8]) (utf8EncStr ['a', '中', '\n']) ++ [8#8]) 1 5
      (globalAfter aes key [.ensure 3] [] [.at 2])).map Prod.fst = .ok ['a', '中', '\n'] :=
  C37_text_partial aes ha key [.ensure 3] [] [.at 2] .checked _ 1 ['a', '中', '\n'] [] _ [0xB9#8, 0x7D#8, 0x63#8, 0xE9#8] rfl
    (by rw [List.length_append, List.length_append, show (xorStream _ _).length = 5 from rfl]; decide) ⟨_, _, rfl, rfl⟩
    ⟨['a', '中', '\n'], [], rfl, by decide +kernel⟩ (by simp)

end Wz.Props
