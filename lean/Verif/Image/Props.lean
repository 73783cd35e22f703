import Verif.Image.Lemmas
/-!
# Properties C51 (what an image holds) and C47 (the IV of an image)
-/

set_option autoImplicit false

namespace Wz.Props
open Spec

/-! ## C51 an image is read as what its data announces -/

/-- C51: behind a head with the name `Property` or the number 0 the list of properties is read, whatever the image is
called (unless `*.txt`), wherever it lies in the file and whatever the reader did before.  The head ought to need both;
see `C51_wrong_name_accepted`. -/
theorem C51_accepted_heads (e : Env) (img : Img) (name : List Char) (value q : Nat) (kids : List (List Char × PTree)) (hb : e.buf.length < 2 ^ 63)
    (ho : img.offset < 2 ^ 63) (h : HeadAndList e img.offset name value kids q) (hok : name = "Property".toList ∨ value = 0)
    (ht : ¬ NameEnds img.name ".txt".toList) :
    ∃ ks, ShowsKids e ks kids ∧ ∃ N, ∀ fuel, N ≤ fuel → ∀ c : Cur,
      ((Rd.imgChildren img fuel).run e c).1 = .ok (ks.map fun x => (x.1, ImgNode.prop x.2)) := by
  obtain ⟨h1, p, hs, h2, _⟩ := headRun hb h
  obtain ⟨ks, hk, N, hN⟩ := C21_tree e img.offset p q kids hb ho hs
  exact ⟨ks, hk, N, fun fuel hf c => (imgChildren_reads h1 (h2 hok) (hN fuel hf) ht c.pos).fst⟩

/-- C51: the children of a property image are the stored tree. -/
theorem C51_property_image (e : Env) (img : Img) (q : Nat) (kids : List (List Char × PTree)) (hb : e.buf.length < 2 ^ 63)
    (ho : img.offset < 2 ^ 63) (h : PropertyImage e img.offset kids q) (ht : ¬ NameEnds img.name ".txt".toList) :
    ∃ ks, ShowsKids e ks kids ∧ ∃ N, ∀ fuel, N ≤ fuel → ∀ c : Cur,
      ((Rd.imgChildren img fuel).run e c).1 = .ok (ks.map fun x => (x.1, ImgNode.prop x.2)) :=
  C51_accepted_heads e img _ 0 q kids hb ho h (.inr rfl) ht

/-- C51: with overflow checks the bound can be read off the length of the buffer. -/
theorem C51_property_image_bound (e : Env) (img : Img) (q : Nat) (kids : List (List Char × PTree)) (hb : e.buf.length < 2 ^ 63)
    (ho : img.offset < 2 ^ 63) (hc : e.mode = .checked) (h : PropertyImage e img.offset kids q) (ht : ¬ NameEnds img.name ".txt".toList) :
    ∃ ks, ShowsKids e ks kids ∧ ∀ fuel, e.buf.length + 2 ≤ fuel → ∀ c : Cur,
      ((Rd.imgChildren img fuel).run e c).1 = .ok (ks.map fun x => (x.1, ImgNode.prop x.2)) := by
  obtain ⟨h1, p, hs, h2, _⟩ := headRun hb h
  obtain ⟨ks, hk, hN⟩ := C21_tree_bound e img.offset p q kids hb ho hc hs
  exact ⟨ks, hk, fun fuel hf c => (imgChildren_reads h1 (h2 (.inr rfl)) (hN fuel hf) ht c.pos).fst⟩

/-- C51: a head with neither the name nor the number is refused, by a full parse and by direct access. -/
theorem C51_both_wrong_refused (e : Env) (img : Img) (name path : List Char) (value q fuel : Nat) (kids : List (List Char × PTree)) (hb : e.buf.length < 2 ^ 63)
    (h : HeadAndList e img.offset name value kids q) (hn : name ≠ "Property".toList) (hv : value ≠ 0)
    (ht : ¬ NameEnds img.name ".txt".toList) (c : Cur) :
    ((Rd.imgChildren img fuel).run e c).1 = .error (.lib "WrongVersion") ∧ ((Rd.imgAtPath img path fuel).run e c).1 = .error (.lib "ParseError") := by
  obtain ⟨h1, p, _, _, h3⟩ := headRun hb h
  have h4 := h3 (fun h => h.elim hn hv)
  constructor
  · unfold Rd.imgChildren
    obtain ⟨c2, e2, r2⟩ := runBind (f := _) h1 (show ({ c with pos := img.offset } : Cur).pos = img.offset from rfl)
    refine (congrArg Prod.fst r2).trans ?_
    rw [if_neg (by rw [endsWith_false (suffix := ['.', 't', 'x', 't']) ht]; exact Bool.false_ne_true), ImgHeader.of_73]
    exact runErr (h4 _ c2 e2)
  · unfold Rd.imgAtPath
    obtain ⟨c2, e2, r2⟩ := runBind (f := fun b => if b ≠ 0x73 then Rd.fail (.lib "UnknownImageHeader") else Rd.imgCheck (.lib "ParseError") >>= fun _ => Rd.getNode path img.offset fuel)
      h1 (show ({ c with pos := img.offset } : Cur).pos = img.offset from rfl)
    refine (congrArg Prod.fst r2).trans ?_
    exact runErr (h4 _ c2 e2)

/-- the image of the examples: the tree of C21 -/
def imgBuf (name : List Char) (value : Nat) : Bytes := [0x55#8, 0x55#8] ++ (sblk name ++ toLE 2 value) ++ treeBuf

theorem sblk_string (e : Env) (s : List Char) (hk : e.ks = fun _ => 0#8) (h : (∀ c ∈ s, c.toNat < 128) ∧ 1 ≤ s.length ∧ s.length ≤ 127) :
    IsWzString e.ks s (sblk s).tail := by
  have := IsWzString.ascii (ks := e.ks) (s := s) [byteOf (-(s.length : Int))] h.1 (.short h.2.1 h.2.2)
  rw [hk] at this ⊢
  have h2 : cipherAscii (fun _ => 0#8) (s.map fun c => BitVec.ofNat 8 c.toNat) = s.mapIdx fun i c => BitVec.ofNat 8 c.toNat ^^^ BitVec.ofNat 8 (0xAA + i) := by
    unfold cipherAscii
    apply List.ext_getElem
    · simp
    · intro i h1 h2; simp
  rw [h2] at this
  exact this

/-- an image that is not a property image at all: name `Prop`, number 0.  It is read all the same. -/
theorem imgBuf_stored (m : Mode) : HeadAndList (envOf m (imgBuf "Prop".toList 0)) 2 "Prop".toList 0 treeKids 77 := by
  refine ⟨(sblk "Prop".toList).tail, ?_, by decide, ?_, ?_⟩
  · exact sblk_string (envOf m (imgBuf "Prop".toList 0)) _ rfl (by decide)
  · exact holdsAt 2 (by decide +kernel)
  · have one : IsWzInt 4 1 [1#8] := .short (by decide) (by decide)
    show StoredList _ _ _ 10 77
    refine ⟨[3#8], .short (by decide) (by decide), holdsAt 10 (by decide +kernel), ?_⟩
    refine .plain 11 14 77 _ 3#8 (.int 5) [5#8] _ (sblk_at _ _ 11 ['a'] rfl (by decide) (holdsAt 11 (by decide +kernel)))
      (.int _ _ _ (.inl rfl) (.short (by decide) (by decide))) (holdsAt 14 (by decide +kernel)) ?_
    refine .block 16 19 65 77 41 _ _ _ (sblk_at _ _ 16 ['p'] rfl (by decide) (holdsAt 16 (by decide +kernel))) (by decide)
      (holdsAt 19 (by decide +kernel)) ?_ ?_
    · refine Stored.property (e := envOf m (imgBuf "Prop".toList 0)) (o := 2) 24 34 65 65 [1#8] [(['v'], .node (.vector 1 (-2)) [])] (sblk_at _ _ 24 "Property".toList rfl (by decide +kernel) (holdsAt 24 (by decide +kernel)))
        one (holdsAt 36 (by decide +kernel)) (by decide) ?_
      refine .block 37 40 65 65 20 _ _ _ (sblk_at _ _ 37 ['v'] rfl (by decide) (holdsAt 37 (by decide +kernel))) (by decide)
        (holdsAt 40 (by decide +kernel)) ?_ (.nil _)
      exact .vector 45 63 65 1 (-2) [1#8] [0xFE#8] (sblk_at _ _ 45 "Shape2D#Vector2D".toList rfl (by decide +kernel) (holdsAt 45 (by decide +kernel)))
        one (.short (by decide) (by decide)) (holdsAt 63 (by decide +kernel))
    · exact .unknown 65 68 76 77 4 _ ['?'] _ (sblk_at _ _ 65 ['x'] rfl (by decide) (holdsAt 65 (by decide +kernel))) (by decide)
        (holdsAt 68 (by decide +kernel)) (sblk_at _ _ 73 ['?'] rfl (by decide) (holdsAt 73 (by decide +kernel))) (by decide +kernel) (.nil _)

/-- C51 is violated: the check of the head asks for the name OR the number where it ought to ask for both, so images
with another name are taken for property images. -/
theorem C51_wrong_name_accepted : ∃ (e : Env) (img : Img) (name : List Char) (kids : List (List Char × PTree)) (q : Nat),
    HeadAndList e img.offset name 0 kids q ∧ name ≠ "Property".toList ∧ ∃ ks, ShowsKids e ks kids ∧ ∃ N, ∀ fuel, N ≤ fuel → ∀ c : Cur,
      ((Rd.imgChildren img fuel).run e c).1 = .ok (ks.map fun x => (x.1, ImgNode.prop x.2)) := by
  refine ⟨envOf .checked (imgBuf "Prop".toList 0), ⟨"a.img".toList, 2, 75⟩, "Prop".toList, treeKids, 77, imgBuf_stored _, by decide, ?_⟩
  exact C51_accepted_heads _ ⟨"a.img".toList, 2, 75⟩ _ 0 77 treeKids (by decide +kernel) (by decide) (imgBuf_stored _) (.inr rfl)
    (fun h => absurd (endsWith_iff.mpr h) (by decide))

/-- C51: an image called `*.txt` is its own data, as one node `text.txt`, if it has a first byte at all. -/
theorem C51_text_image (e : Env) (img : Img) (fuel : Nat) (data : Bytes) (hb : e.buf.length < 2 ^ 63)
    (ht : NameEnds img.name ".txt".toList) (hd : Holds e.buf img.offset data) (hs : img.blockSize = data.length) (hn : data ≠ []) (c : Cur) :
    ∃ o, ((Rd.imgChildren img fuel).run e c).1 = .ok [("text.txt".toList, .prop (.node o []))] ∧ ShowsVal e o (.raw data) := by
  obtain ⟨b, rest, rfl⟩ := List.exists_cons_of_ne_nil hn
  refine ⟨.raw img.offset img.blockSize, ?_, by rw [hs]; exact .raw _ _ hd⟩
  unfold Rd.imgChildren
  obtain ⟨c2, e2, r2⟩ := runBind (f := _) (Rd.Reads.readU8 hd.head hb) (show ({ c with pos := img.offset } : Cur).pos = img.offset from rfl)
  refine (congrArg Prod.fst r2).trans ?_
  rw [if_pos (show endsWith img.name ['.', 't', 'x', 't'] = true from endsWith_iff.mpr ht)]
  rfl

/-- C51: a script image, `*.lua` with the first byte 1, a length and the text: one node `Script` with the bytes of the
text. -/
theorem C51_lua_image (e : Env) (img : Img) (fuel : Nat) (nb text : Bytes) (hb : e.buf.length < 2 ^ 63)
    (hl : NameEnds img.name ".lua".toList) (hn : IsWzInt 4 text.length nb) (hh : Holds e.buf img.offset (1#8 :: (nb ++ text))) (c : Cur) :
    ∃ off, ((Rd.imgChildren img fuel).run e c).1 = .ok [("Script".toList, .lua off text.length)] ∧ Holds e.buf off text := by
  have h1 := hh.head
  have h2 : Holds e.buf (img.offset + 1) (nb ++ text) := hh.tail
  have h3 := h2.left
  have h4 := h2.right
  refine ⟨_, ?_, h4⟩
  have hnt : ¬ NameEnds img.name ".txt".toList := by
    rintro ⟨s, hs⟩
    obtain ⟨t, ht⟩ := hl
    have h5 := hs.symm.trans ht
    have h6 := congrArg (fun l : List Char => l.getLast?) h5
    revert h6
    simp [List.getLast?_append]
  unfold Rd.imgChildren
  obtain ⟨c2, e2, r2⟩ := runBind (f := _) (Rd.Reads.readU8 h1 hb) (show ({ c with pos := img.offset } : Cur).pos = img.offset from rfl)
  refine (congrArg Prod.fst r2).trans ?_
  rw [if_neg (by rw [endsWith_false (suffix := ['.', 't', 'x', 't']) hnt]; exact Bool.false_ne_true)]
  show ((Rd.imgLua img).run e c2).1 = _
  unfold Rd.imgLua
  rw [if_pos (show isLuaImage img.name = true from endsWith_iff.mpr hl)]
  obtain ⟨c3, e3, r3⟩ := runBind (f := fun len => Rd.getPos >>= fun off => (Pure.pure [(['S', 'c', 'r', 'i', 'p', 't'], ImgNode.lua off (asUsize len))] : Rd (List (List Char × ImgNode)))) (Rd.Reads.wzInt hn h3 hb) e2
  refine (congrArg Prod.fst r3).trans ?_
  show Except.ok [(_, ImgNode.lua c3.pos (asUsize text.length))] = _
  have := h4.le
  rw [e3, asUsize_nonneg (by omega) (by omega)]
  rfl

/-- C51: a first byte 1 without the name of a script is refused. -/
theorem C51_lua_without_name (e : Env) (img : Img) (fuel : Nat) (hb : e.buf.length < 2 ^ 63)
    (hl : ¬ NameEnds img.name ".lua".toList) (ht : ¬ NameEnds img.name ".txt".toList) (hh : Holds e.buf img.offset [1#8]) (c : Cur) :
    ((Rd.imgChildren img fuel).run e c).1 = .error (.lib "LuaParseError") := by
  unfold Rd.imgChildren
  obtain ⟨c2, e2, r2⟩ := runBind (f := _) (Rd.Reads.readU8 hh hb) (show ({ c with pos := img.offset } : Cur).pos = img.offset from rfl)
  refine (congrArg Prod.fst r2).trans ?_
  rw [if_neg (by rw [endsWith_false (suffix := ['.', 't', 'x', 't']) ht]; exact Bool.false_ne_true)]
  show ((Rd.imgLua img).run e c2).1 = _
  unfold Rd.imgLua
  rw [if_neg (by rw [isLuaImage, endsWith_false (suffix := ['.', 'l', 'u', 'a']) hl]; exact Bool.false_ne_true)]
  rfl

theorem packedRun (e : Env) (img : Img) (fuel : Nat) (rest : Bytes) (hb : e.buf.length < 2 ^ 63)
    (ht : ¬ NameEnds img.name ".txt".toList) (hh : Holds e.buf img.offset (0x23#8 :: rest)) (c : Cur) :
    ∃ c2, ((Rd.imgChildren img fuel).run e c).1 = ((Rd.imgPacked img).run e c2).1 := by
  unfold Rd.imgChildren
  obtain ⟨c2, e2, r2⟩ := runBind (f := _) (Rd.Reads.readU8 hh.head hb) (show ({ c with pos := img.offset } : Cur).pos = img.offset from rfl)
  refine ⟨c2, (congrArg Prod.fst r2).trans ?_⟩
  rw [if_neg (by rw [endsWith_false (suffix := ['.', 't', 'x', 't']) ht]; exact Bool.false_ne_true)]
  rfl

/-- the nine bytes `#Property` -/
def packedHead : Bytes := "#Property".toList.map fun c => BitVec.ofNat 8 c.toNat

/-- C51: packed text, `#Property` and the data: one node `text.txt` with the data. -/
theorem C51_packed_image (e : Env) (img : Img) (fuel : Nat) (data : Bytes) (hb : e.buf.length < 2 ^ 63)
    (ht : ¬ NameEnds img.name ".txt".toList) (hh : Holds e.buf img.offset (packedHead ++ data)) (hs : img.blockSize = 9 + data.length) (c : Cur) :
    ∃ o, ((Rd.imgChildren img fuel).run e c).1 = .ok [("text.txt".toList, .prop (.node o []))] ∧ ShowsVal e o (.raw data) := by
  have h2 : Holds e.buf img.offset packedHead := hh.left
  have h3 : Holds e.buf (img.offset + 9) data := hh.right
  have hle := h3.le
  refine ⟨.raw (img.offset + 9) data.length, ?_, .raw _ _ h3⟩
  obtain ⟨c2, h4⟩ := packedRun e img fuel _ hb ht h2 c
  rw [h4]
  have h5 : sliceIdx e.buf img.offset (img.offset + 9) = .ok packedHead := by
    unfold sliceIdx
    rw [if_pos ⟨by omega, by omega⟩, Nat.add_sub_cancel_left]
    exact congrArg _ h2.slice
  have h6 : subU e.mode img.blockSize 9 = .ok data.length := by
    unfold subU
    rw [if_pos (by omega), hs, Nat.add_sub_cancel_left]
  unfold Rd.imgPacked
  rw [Rd.bind_ok (Rd.getEnv_run _ _), addU_ok (by omega), Rd.bind_ok (Rd.lift_run _ _ _), h5, Rd.bind_ok (Rd.lift_run _ _ _)]
  rw [if_neg (show ¬ (packedHead.map (fun b => Char.ofNat b.toNat) ≠ ['#', 'P', 'r', 'o', 'p', 'e', 'r', 't', 'y']) by decide),
    Rd.bind_ok (Rd.lift_run _ _ _), h6, Rd.bind_ok (Rd.lift_run _ _ _)]
  rfl

/-- C51 is violated by packed text with fewer than nine bytes left in the file: a panic instead of an error. -/
theorem C51_packed_truncated_panics (e : Env) (img : Img) (fuel : Nat) (hb : e.buf.length < 2 ^ 63)
    (ht : ¬ NameEnds img.name ".txt".toList) (hh : Holds e.buf img.offset [0x23#8]) (hs : e.buf.length < img.offset + 9) (c : Cur) :
    ((Rd.imgChildren img fuel).run e c).1 = .error .panicIndex := by
  have := hh.le
  simp only [List.length_singleton] at this
  obtain ⟨c2, h4⟩ := packedRun e img fuel _ hb ht hh c
  rw [h4]
  unfold Rd.imgPacked
  rw [Rd.bind_ok (Rd.getEnv_run _ _), addU_ok (by omega), Rd.bind_ok (Rd.lift_run _ _ _)]
  unfold sliceIdx
  rw [if_neg (by omega)]
  rfl

/-- C51 is violated by packed text in an image that declares fewer than nine bytes: a panic, or, without overflow
checks, data of a length that no file has. -/
theorem C51_packed_short_block (e : Env) (img : Img) (fuel : Nat) (hb : e.buf.length < 2 ^ 63)
    (ht : ¬ NameEnds img.name ".txt".toList) (hh : Holds e.buf img.offset packedHead) (hs : img.blockSize < 9) (c : Cur) :
    ((Rd.imgChildren img fuel).run e c).1 = match e.mode with
      | .checked => .error .panicOverflow
      | .wrap => .ok [("text.txt".toList, .prop (.node (.raw (img.offset + 9) (2 ^ 64 - 9 + img.blockSize)) []))] := by
  have hle := hh.le
  obtain ⟨c2, h4⟩ := packedRun e img fuel _ hb ht hh c
  rw [h4]
  have h9 : packedHead.length = 9 := rfl
  have h5 : sliceIdx e.buf img.offset (img.offset + 9) = .ok packedHead := by
    unfold sliceIdx
    rw [if_pos ⟨by omega, by omega⟩, Nat.add_sub_cancel_left]
    exact congrArg _ hh.slice
  unfold Rd.imgPacked
  rw [Rd.bind_ok (Rd.getEnv_run _ _), addU_ok (by omega), Rd.bind_ok (Rd.lift_run _ _ _), h5, Rd.bind_ok (Rd.lift_run _ _ _)]
  rw [if_neg (show ¬ (packedHead.map (fun b => Char.ofNat b.toNat) ≠ ['#', 'P', 'r', 'o', 'p', 'e', 'r', 't', 'y']) by decide),
    Rd.bind_ok (Rd.lift_run _ _ _)]
  unfold subU
  rw [if_neg (by omega)]
  cases e.mode with
  | checked => rfl
  | wrap =>
    have : (img.blockSize + 2 ^ 64 - 9) % 2 ^ 64 = 2 ^ 64 - 9 + img.blockSize := by omega
    dsimp only
    rw [this]
    rfl

/-- C51: any other first byte is refused, the one for a name stored elsewhere (0x1B) included; direct access knows
0x73 only. -/
theorem C51_other_first_byte (e : Env) (img : Img) (fuel : Nat) (path : List Char) (b : Byte) (hb : e.buf.length < 2 ^ 63)
    (ht : ¬ NameEnds img.name ".txt".toList) (hh : Holds e.buf img.offset [b]) (c : Cur) :
    (b ∉ [0x73#8, 0x01#8, 0x23#8] → ((Rd.imgChildren img fuel).run e c).1 = .error (.lib "UnknownImageHeader")) ∧
      (b ≠ 0x73#8 → ((Rd.imgAtPath img path fuel).run e c).1 = .error (.lib "UnknownImageHeader")) := by
  have hne : ∀ k, k < 256 → b ≠ BitVec.ofNat 8 k → b.toNat ≠ k := fun k hk h h' => h ((marker_toNat hk).mp h')
  constructor
  · intro hu
    simp only [List.mem_cons, not_or, List.not_mem_nil, not_false_eq_true, and_true] at hu
    obtain ⟨h1, h2, h3⟩ := hu
    unfold Rd.imgChildren
    obtain ⟨c2, e2, r2⟩ := runBind (f := _) (Rd.Reads.readU8 hh hb) (show ({ c with pos := img.offset } : Cur).pos = img.offset from rfl)
    refine (congrArg Prod.fst r2).trans ?_
    rw [if_neg (by rw [endsWith_false (suffix := ['.', 't', 'x', 't']) ht]; exact Bool.false_ne_true)]
    unfold ImgHeader.of
    rw [if_neg (hne 0x73 (by decide) h1)]
    by_cases h4 : b.toNat = 0x1B
    · rw [if_pos h4]; rfl
    · rw [if_neg h4, if_neg (hne 1 (by decide) h2), if_neg (hne 0x23 (by decide) h3)]
      rfl
  · intro hu
    unfold Rd.imgAtPath
    obtain ⟨c2, e2, r2⟩ := runBind (f := fun b => if b ≠ 0x73 then Rd.fail (.lib "UnknownImageHeader") else Rd.imgCheck (.lib "ParseError") >>= fun _ => Rd.getNode path img.offset fuel)
      (Rd.Reads.readU8 hh hb) (show ({ c with pos := img.offset } : Cur).pos = img.offset from rfl)
    refine (congrArg Prod.fst r2).trans ?_
    rw [if_pos (hne 0x73 (by decide) hu)]
    rfl

/-! ### Cases that meet the hypotheses -/

example : ∃ o, ((Rd.imgChildren ⟨"readme.txt".toList, 1, 2⟩ 0).run (envOf .wrap [9#8, 0x73#8, 0x41#8]) ⟨7, 7⟩).1 = .ok [("text.txt".toList, .prop (.node o []))] ∧
    ShowsVal (envOf .wrap [9#8, 0x73#8, 0x41#8]) o (.raw [0x73#8, 0x41#8]) :=
  C51_text_image _ _ _ _ (by decide) ⟨"readme".toList, by decide⟩ (holdsAt 1 (by decide)) rfl (by decide) _

example : ∃ off, ((Rd.imgChildren ⟨"a.lua".toList, 0, 9⟩ 0).run (envOf .wrap [1#8, 2#8, 0x41#8, 0x42#8]) ⟨0, 0⟩).1 = .ok [("Script".toList, .lua off 2)] ∧
    Holds (envOf .wrap [1#8, 2#8, 0x41#8, 0x42#8]).buf off [0x41#8, 0x42#8] :=
  C51_lua_image (envOf .wrap [1#8, 2#8, 0x41#8, 0x42#8]) ⟨"a.lua".toList, 0, 9⟩ 0 [2#8] [0x41#8, 0x42#8] (by decide) ⟨"a".toList, by decide⟩
    (.short (by decide) (by decide)) (holdsAt 0 (by decide)) _

example : ((Rd.imgChildren ⟨"a.img".toList, 0, 9⟩ 0).run (envOf .wrap [1#8, 2#8]) ⟨0, 0⟩).1 = .error (.lib "LuaParseError") := by rfl

example : ∃ o, ((Rd.imgChildren ⟨"a.img".toList, 1, 11⟩ 0).run (envOf .checked (0#8 :: (packedHead ++ [0x41#8, 0x42#8]))) ⟨0, 0⟩).1 = .ok [("text.txt".toList, .prop (.node o []))] ∧
    ShowsVal (envOf .checked (0#8 :: (packedHead ++ [0x41#8, 0x42#8]))) o (.raw [0x41#8, 0x42#8]) :=
  C51_packed_image _ ⟨"a.img".toList, 1, 11⟩ 0 _ (by decide) (fun h => absurd (endsWith_iff.mpr h) (by decide)) (holdsAt 1 (by decide +kernel)) rfl _

example : ((Rd.imgChildren ⟨"a.img".toList, 0, 9⟩ 0).run (envOf .wrap (packedHead.take 8)) ⟨0, 0⟩).1 = .error .panicIndex := by rfl

example : ((Rd.imgChildren ⟨"a.img".toList, 0, 8⟩ 0).run (envOf .checked packedHead) ⟨0, 0⟩).1 = .error .panicOverflow := by rfl

example : ((Rd.imgChildren ⟨"a.img".toList, 0, 8⟩ 0).run (envOf .checked [0x1B#8]) ⟨0, 0⟩).1 = .error (.lib "UnknownImageHeader") := by rfl

example : ((Rd.imgChildren ⟨"a.img".toList, 2, 8⟩ 9).run (envOf .checked (imgBuf "Prop".toList 1)) ⟨0, 0⟩).1 = .error (.lib "WrongVersion") := by rfl

/-! ## C24 and C23 for whole images -/

/-- C24 for images: in a property image without double names, direct access by a path through sub-properties gives the
property a full parse gives. -/
theorem C24_image_same_partial (e : Env) (img : Img) (q : Nat) (kids : List (List Char × PTree)) (path : List Char) (t : PTree)
    (hb : e.buf.length < 2 ^ 63) (ho : img.offset < 2 ^ 63) (h : PropertyImage e img.offset kids q) (ht : ¬ NameEnds img.name ".txt".toList)
    (hn : (names kids).Nodup) (hp : path ≠ []) (ha : AtPath kids (splitSlash path) t) :
    ∃ ks n n', Shows e n t ∧ Shows e n' t ∧ walk ks (splitSlash path) = some n ∧ ∃ N, ∀ fuel, N ≤ fuel → ∀ c : Cur,
      ((Rd.imgChildren img fuel).run e c).1 = .ok (ks.map fun x => (x.1, ImgNode.prop x.2)) ∧
      ((Rd.imgAtPath img path fuel).run e c).1 = .ok ((splitSlash path).getLast!, n') := by
  obtain ⟨h1, p, hs, h2, _⟩ := headRun hb h
  obtain ⟨ks, n, n', s1, s2, hw, N, hN⟩ := C24_same_partial e img.offset p q kids path t hb ho hs hn hp ha
  obtain ⟨ks2, hk2, N2, hN2⟩ := C21_tree e img.offset p q kids hb ho hs
  refine ⟨ks, n, n', s1, s2, hw, N + N2, fun fuel hf c => ?_⟩
  have h3 : ks2 = ks := by
    obtain ⟨c', h4, _⟩ := hN2 fuel (by omega) ⟨p, 0⟩ rfl
    have h5 := (hN fuel (by omega) ⟨p, 0⟩ rfl).1
    rw [h4] at h5
    exact Except.ok.inj h5
  subst h3
  refine ⟨(imgChildren_reads h1 (h2 (.inr rfl)) (hN2 fuel (by omega)) ht c.pos).fst, ?_⟩
  obtain ⟨c1, e1, r1⟩ := imgAtPath_run (fuel := fuel) path h1 (h2 (.inr rfl)) c
  rw [r1]
  exact (hN fuel (by omega) c1 e1).2

/-- C23 for images: with overflow checks neither a full parse nor direct access reaches a recursion bound of the length of
the file and two, whatever the file holds. -/
theorem C23_image_partial (e : Env) (img : Img) (path : List Char) (fuel : Nat) (c : Cur) (hc : e.mode = .checked) (h : e.buf.length + 2 ≤ fuel) :
    ((Rd.imgChildren img fuel).run e c).1 ≠ .error .fuel ∧ ((Rd.imgAtPath img path fuel).run e c).1 ≠ .error .fuel := by
  have hcheck : ∀ t, (Rd.imgCheck (.lib t)).Good e 0 0 := by
    intro t
    unfold Rd.imgCheck
    refine .bind (Rd.Good.readWzString hc) fun s => .bind ((Rd.Good.readLE hc 2).mono (hi' := 0) (by omega)) fun v => ?_
    split
    · exact .fail nofun
    · exact .pure _
  have hbyte := (Rd.Good.readLE (lo := 0) hc 1).mono (hi' := 0) (by omega)
  have hext := Rd.Good.parseExt hc img.offset fuel 0 (by omega) (by omega)
  constructor
  · have : (Rd.imgChildren img fuel).Good e 0 0 := by
      unfold Rd.imgChildren
      refine .bind (Rd.Good.seek (Nat.zero_le _)) fun _ => .bind hbyte fun b => ?_
      split
      · exact .pure _
      · split
        · unfold Rd.imgLua
          split
          · exact .bind (Rd.Good.readWzInt hc) fun len => .getPosBind fun off _ => .pure _
          · exact .fail nofun
        · unfold Rd.imgPacked
          refine .getEnvBind (.liftBind addU_ne_fuel fun stop _ => .liftBind sliceIdx_ne_fuel fun s _ => ?_)
          split
          · exact .fail nofun
          · exact .liftBind addU_ne_fuel fun off _ => .liftBind subU_ne_fuel fun size _ => .pure _
        · exact .bind (hcheck _) fun _ => .bind (Rd.Good.parseListWith hc hext _) fun ks => .pure _
        · exact .fail nofun
    exact (this c (Nat.zero_le _)).1
  · have : (Rd.imgAtPath img path fuel).Good e 0 0 := by
      unfold Rd.imgAtPath
      refine .bind (Rd.Good.seek (Nat.zero_le _)) fun _ => .bind hbyte fun b => ?_
      split
      · exact .fail nofun
      · refine .bind (hcheck _) fun _ => ?_
        exact fun c _ => ⟨C23_lookup_partial e path img.offset fuel c hc (by omega) (by omega), fun _ _ _ => Nat.zero_le _⟩
    exact (this c (Nat.zero_le _)).1

end Wz.Props
