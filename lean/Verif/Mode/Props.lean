import Verif.Mode.Whole
import Verif.Mode.Spec
import Verif.Mode.Nodes
import Verif.Property.Props
import Verif.Image.IvProps
/-!
# C67: overflow checks change nothing else
-/

set_option autoImplicit false

namespace Wz.Props

open Wz.Spec

theorem same_of {α : Type} {f : Mode → Except Err α} (h : AgE (f .checked) (f .wrap)) : SameUnlessOverflow f := h.imp_right Eq.symm

theorem sameState_of {α σ : Type} {f : Mode → Except Err α × σ} (h : AgP (f .checked) (f .wrap)) : SameStateUnlessOverflow f := h.imp_right Eq.symm

/-- C67: numbers and texts are read the same, and the reader is then at the same place. -/
theorem C67_reader (buf : Bytes) (ks ks2 : Nat → Byte) (c : Cur) (offset : Nat) :
    SameStateUnlessOverflow (fun m => Rd.readWzInt.run (readerIn m buf ks ks2) c) ∧
    SameStateUnlessOverflow (fun m => Rd.readWzInt64.run (readerIn m buf ks ks2) c) ∧
    SameStateUnlessOverflow (fun m => Rd.readWzString.run (readerIn m buf ks ks2) c) ∧
    SameStateUnlessOverflow (fun m => Rd.readWzStringMeta.run (readerIn m buf ks ks2) c) ∧
    SameStateUnlessOverflow (fun m => (Rd.readWzStringBlock offset).run (readerIn m buf ks ks2) c) ∧
    SameStateUnlessOverflow (fun m => (Rd.readWzStringBlockMeta offset).run (readerIn m buf ks ks2) c) :=
  ⟨sameState_of (readWzInt_ag c), sameState_of (readWzInt64_ag c), sameState_of (readWzString_ag c), sameState_of (readWzStringMeta_ag c),
    sameState_of (readWzStringBlock_ag offset c), sameState_of (readWzStringBlockMeta_ag offset c)⟩

/-- C67: so are texts that were found before. -/
theorem C67_text (buf : Bytes) (ks ks2 : Nat → Byte) (s : StrMeta) :
    SameUnlessOverflow (fun m => resolveMeta (readerIn m buf ks ks2) s.ty s.offset s.length) ∧
    SameUnlessOverflow (fun m => tryResolveMeta (readerIn m buf ks ks2) s.ty s.offset s.length) :=
  ⟨same_of (resolveMeta_ag _ _ _), same_of (tryResolveMeta_ag _ _ _)⟩

/-- C67: the functions that read from a slice. -/
theorem C67_free (buf : Bytes) (w n o : Nat) (at? : Option Nat) :
    SameUnlessOverflow (fun m => freeWzInt m w buf at?) ∧ SameUnlessOverflow (fun m => freeStringByLen m buf n at?) ∧
    SameUnlessOverflow (fun m => freeWzString m buf) ∧ SameUnlessOverflow (fun m => freeWzStringBlock m buf o) :=
  ⟨same_of (freeWzInt_ag _ _ _), same_of (freeStringByLen_ag _ _ _), same_of (freeWzString_ag _), same_of (freeWzStringBlock_ag _ _)⟩

/-- C67: the properties of an image and a property that is looked up by its path. -/
theorem C67_image (buf : Bytes) (ks ks2 : Nat → Byte) (img : Img) (path : List Char) (fuel : Nat) (c : Cur) :
    SameStateUnlessOverflow (fun m => (Rd.imgChildren img fuel).run (readerIn m buf ks ks2) c) ∧
    SameStateUnlessOverflow (fun m => (Rd.imgAtPath img path fuel).run (readerIn m buf ks ks2) c) :=
  ⟨sameState_of (imgChildren_ag img fuel c), sameState_of (imgAtPath_ag img path fuel c)⟩

/-- C67: the key found for an image file, and the node that is made of one. -/
theorem C67_image_file (st : Bytes → Nat → Byte) (name : List Char) (file : Option (List Char)) (buf : Bytes) (iv : Option Bytes) (parent : Option Nat) :
    SameUnlessOverflow (fun m => guessImgIv m st buf) ∧ SameUnlessOverflow (fun m => imgFromFile m st name buf iv) ∧
    SameUnlessOverflow (fun m => (openImg m st file buf iv parent).map fun r => (r.1, readerIn .checked r.2.buf r.2.ks r.2.ks2)) := by
  refine ⟨same_of (guessImgIv_ag _), same_of (imgFromFile_ag _ _ _), same_of ?_⟩
  unfold openImg
  cases file with
  | none => exact .same _
  | some file =>
    dsimp only
    rcases imgFromFile_ag (b := buf) (imgStream st) file iv with h | h
    · rw [h]; exact .inl rfl
    · rw [h]
      cases imgFromFile .wrap (imgStream st) file buf iv with
      | error e => exact .same _
      | ok r => exact .same _

/-- C47 in both builds: the first known key with which the image can be read is found, and the image is opened with it. -/
theorem C47_found_in_any_build (m : Mode) (ks : Bytes → Nat → Byte) (name : List Char) (buf iv : Bytes) (hb : buf.length < 2 ^ 63)
    (hh : Holds buf 0 [0x73#8]) (hf : FirstOf ivOrder (fun iv => ImageOf (ks iv) buf) iv) :
    guessImgIv m ks buf = .ok (some iv) ∧ imgFromFile m ks name buf none = .ok (⟨name, 0, buf.length⟩, iv) ∧
      imgFromFile m ks name buf (some iv) = .ok (⟨name, 0, buf.length⟩, iv) := by
  have h1 := (C47_guess_first ks buf iv hb).2 ⟨hh, hf⟩
  have h2 := (C47_open_image ks name buf iv hb (⟨name, 0, buf.length⟩, iv)).2.2 ⟨hh, hf, rfl⟩
  have hv : ImageOf (ks iv) buf := by obtain ⟨_, _, _, hx, _⟩ := hf; exact hx
  have h3 := (C47_open_image ks name buf iv hb (⟨name, 0, buf.length⟩, iv)).1.2 ⟨hv, rfl⟩
  cases m with
  | checked => exact ⟨h1, h2, h3⟩
  | wrap =>
    refine ⟨?_, ?_, ?_⟩
    · exact ((C67_image_file ks name none buf none none).1.resolve_left fun h => by dsimp only at h; rw [h1] at h; cases h).trans h1
    · exact ((C67_image_file ks name none buf none none).2.1.resolve_left fun h => by dsimp only at h; rw [h2] at h; cases h).trans h2
    · exact ((C67_image_file ks name none buf (some iv) none).2.1.resolve_left fun h => by dsimp only at h; rw [h3] at h; cases h).trans h3

example (m : Mode) : guessImgIv m ivStream (ivImg [0xB9#8, 0x7D#8, 0x63#8, 0xE9#8]) = .ok (some [0xB9#8, 0x7D#8, 0x63#8, 0xE9#8]) := by
  refine (C47_found_in_any_build m ivStream ['a'] _ [0xB9#8, 0x7D#8, 0x63#8, 0xE9#8] (by decide) (holds_slice 0 (by decide +kernel))
    ⟨[_], [_], rfl, (C47_verify_iff ivStream _ _ (by decide)).mp (by decide +kernel), fun y hy => ?_⟩).1
  cases List.mem_singleton.1 hy
  exact fun h => absurd ((C47_verify_iff ivStream _ _ (by decide)).mpr h) (by decide +kernel)

/-- C67: the directories of a file, and the file after it was parsed. -/
theorem C67_parse (F : Fuel) (n : Nat) (f : WFile) (patch : Option Int) (cache : List Cached) :
    SameStateUnlessOverflow (fun m => let r := (fileIn m f).parseTop F n patch cache; (r.1, fileData r.2.1, r.2.2)) ∧
    SameStateUnlessOverflow (fun m => let r := (fileIn m f).parse F n cache; (r.1, fileData r.2)) := by
  refine ⟨?_, ?_⟩
  · rcases (parseTop_ag F n f patch cache).cases with ⟨g, s, h⟩ | ⟨r, g, s, h, h'⟩
    · exact .inl (congrArg Prod.fst h)
    · exact .inr (by dsimp only; rw [show (fileIn .checked f).parseTop F n patch cache = _ from h, show (fileIn .wrap f).parseTop F n patch cache = _ from h']; rfl)
  · rcases (parse_ag F n f cache).cases with ⟨g, s, h⟩ | ⟨r, g, s, h, h'⟩
    · exact .inl (congrArg Prod.fst h)
    · refine .inr ?_
      dsimp only
      rcases h1 : (fileIn .checked f).parse F n cache with ⟨r1, f1⟩
      rcases h2 : (fileIn .wrap f).parse F n cache with ⟨r2, f2⟩
      rw [show (f.inMode .checked).parse F n cache = _ from h1] at h
      rw [show (f.inMode .wrap).parse F n cache = _ from h2] at h'
      cases h; cases h'
      rfl

/-- C67: the key found for a file, and the file that is opened. -/
theorem C67_open (st : Bytes → Nat → Byte) (buf : Bytes) (existing : Option SKey) (iv : Option Bytes) (patch : Option Int) :
    SameUnlessOverflow (fun m => guessKey m st buf) ∧ SameUnlessOverflow (fun m => guessFileIv m st buf) ∧
    SameUnlessOverflow (fun m => (WFile.fromBuf m st buf existing iv patch).map fileData) := by
  refine ⟨same_of (guessKey_ag _), same_of (guessFileIv_ag _), same_of ?_⟩
  unfold WFile.fromBuf
  rcases openKey_ag (b := buf) st (givenKey st existing iv) with h | h
  · rw [h]; exact .inl rfl
  · rw [h]
    cases openKey .wrap st buf (givenKey st existing iv) with
    | error e => exact .same _
    | ok key => exact .same _

/-- C67: every node of an archive, if its directory is read without an overflow. -/
theorem C67_archive (F : Fuel) (n fuel : Nat) (cache : List Cached) (f : WFile) (hb : f.env.buf.length < 2 ^ 63)
    (hp : ((fileIn .checked f).parse F n cache).1 ≠ .error .panicOverflow) (s : Nat) :
    SameUnlessOverflow (fun m => arcContent F n fuel cache (fileIn m f) s) :=
  same_of (arcContent_ag F n fuel cache f hb hp s)

/-- C67: what is done with nodes, if what is read for them is the same unless there are overflows: loading one, going along a path, walking over
all, and following the links of a picture. -/
theorem C67_nodes (content : Mode → Content) (hs : ∀ s, SameUnlessOverflow (fun m => content m s)) (h : NHeap) (i : Nat) (path : List Char) (fuel : Nat)
    (png : Nat → Bool) (text : Nat → Option (List Char)) :
    SameStateUnlessOverflow (fun m => h.parse (content m) i) ∧
    SameStateUnlessOverflow (fun m => h.atPathParsed (content m) i path) ∧
    SameUnlessOverflow (fun m => NHeap.walkForce (content m) fuel h [] i) ∧
    SameStateUnlessOverflow (fun m => NHeap.getImage (content m) png text fuel h [] i) := by
  have hc : AgC (content .checked) (content .wrap) := fun s => (hs s).imp_right Eq.symm
  exact ⟨sameState_of (nodeParse_ag hc h i), sameState_of (atPathParsed_ag hc h i path), same_of (walkForce_ag hc fuel h [] i),
    sameState_of (getImage_ag hc png text fuel h [] i)⟩

/-- C67: the nodes of an image file. -/
theorem C67_image_nodes (buf : Bytes) (hb : buf.length < 2 ^ 63) (ks ks2 : Nat → Byte) (fuel s : Nat) :
    SameUnlessOverflow (fun m => imgContent (readerIn m buf ks ks2) fuel s) :=
  same_of (imgContent_ag hb fuel s)

/-- C67: MS archives, their images and the nodes of these. -/
theorem C67_ms (C : ChaCha) (ks2 : Nat → Byte) (fuel : Nat) (buf : Bytes) (name : List Char) (f : MsFile) (im : MsImage) (s : Nat) :
    SameUnlessOverflow (fun m => msOpen m C buf name) ∧ SameUnlessOverflow (fun m => f.parse m C) ∧ SameUnlessOverflow (fun m => f.toWzImage m C im) ∧
    (f.buf.length < 2 ^ 63 → SameUnlessOverflow (fun m => msContent m C ks2 fuel f s)) :=
  ⟨same_of (msOpen_ag _ _ _), same_of (msParse_ag _ _), same_of (toWzImage_ag _ _ _), fun hb => same_of (msContent_ag C ks2 fuel f hb s)⟩

/-- C67: raw data, videos, sounds and scripts. -/
theorem C67_media {σ : Type} (put : σ → Bytes → Except Err σ) (w : σ) (aes : Aes) (g : GlobalKeys) (buf : Bytes) (offset size : Nat) (s : Sound) :
    SameUnlessOverflow (fun m => rawBuffer m buf offset size) ∧ SameUnlessOverflow (fun m => videoBuffer m buf offset size) ∧
    SameUnlessOverflow (fun m => s.getBuffer m buf) ∧ SameUnlessOverflow (fun m => s.writeTo put m buf w) ∧
    SameUnlessOverflow (fun m => extractLua aes m buf offset size g) :=
  ⟨same_of (rawBuffer_ag _ _ _), same_of (videoBuffer_ag _ _ _), same_of (soundBuffer_ag _ _), same_of (soundWrite_ag _ _ _ _), same_of (extractLua_ag _ _ _ _ _)⟩

/-- C67: pictures, also without the feature `rayon`. -/
theorem C67_picture (inflate : Inflate) (bc7 : Bc7) (aes : Aes) (keys : Ecb) (buf : Bytes) (p : Png) (alpha : Bytes → Except Err (List Byte)) (w h : Nat) :
    SameUnlessOverflow (fun m => p.extract inflate bc7 aes m buf keys) ∧ SameUnlessOverflow (fun m => dxtImageSeq alpha m buf w h) :=
  ⟨same_of (pngExtract_ag _ _ _ _ _ _), same_of (dxtSeq_ag _ _ _ _)⟩

/-- a list with one text whose length is stored as -5 -/
def backText : Bytes := [1#8] ++ sblk ['t'] ++ [8#8, 0#8, 0x80#8] ++ toLE 4 0xFFFFFFFB

/-- what is found for the first node of a list, and where the reader is then -/
def firstText : Except Err (List (List Char × PNode)) × Cur → Except Err (Option StrMeta) × Nat
  | (.ok [(_, .node (.str m) _)], c) => (.ok (some m), c.pos)
  | (.ok _, c) => (.ok none, c.pos)
  | (.error x, c) => (.error x, c.pos)

/-- C67: overflows do make a difference.  This list is a panic in a debug build; in a release build it is read without an error: its text has more than
four billion characters, and the reader goes five bytes back. -/
theorem C67_counterexample :
    firstText ((Rd.parseList 0 9).run (readerIn .checked backText noKeys noKeys) ⟨0, 0⟩) = (.error .panicOverflow, 11) ∧
    firstText ((Rd.parseList 0 9).run (readerIn .wrap backText noKeys noKeys) ⟨0, 0⟩) = (.ok (some ⟨11, 4294967291, .ascii⟩), 6) := by
  decide +kernel

end Wz.Props
