import Verif.Directory.Errs
/-!
# Properties of directory parsing (C18, C19, C20, C50)
-/

set_option autoImplicit false

namespace Wz.Props
open Wz Spec

/-! ## C19: written directories read back -/

/-- C19 for PKG1: a directory stored at `p` with everything below it (entries with names in place or elsewhere,
meaningless chunks between them) is parsed into exactly its entries, in order, for every nesting depth. -/
theorem C19_pkg1 (x : DirCtx) (hash : BitVec 64) (p size : Nat) (items : List (List Char × DNode))
    (hv : x.hdr.ident = .v1) (hf : x.hdr.fstart < 2 ^ 32) (hb : x.env.buf.length < 2 ^ 63) (hs : size ≠ 0)
    (h : HoldsDir (Block1 x hash) p items) :
    ∃ N, ∀ loopFuel fuel, N ≤ loopFuel → N ≤ fuel →
      resolveDir x loopFuel fuel { offset := p, blockSize := size, hash := hash, ver := .pkg1 } = .ok items := by
  obtain ⟨N, hN⟩ := HoldsDir.resolve hf hb (fun _ _ => Block1.reads hv hb) h
  exact ⟨N, fun lf fl h1 h2 => hN lf fl size h1 h2 hs⟩

/-- C19 for the 32-bit PKG2 formats, with any of their offset schemes. -/
theorem C19_pkg2 (x : DirCtx) (hash : BitVec 64) (ver : OffsetVersion) (p size : Nat) (items : List (List Char × DNode))
    (hv : x.hdr.ident = .v2) (h64 : x.hdr.isPkg2_64 = false) (hf : x.hdr.fstart < 2 ^ 32)
    (hb : x.env.buf.length < 2 ^ 63) (hs : size ≠ 0) (h : HoldsDir (Block2 x ver hash) p items) :
    ∃ N, ∀ loopFuel fuel, N ≤ loopFuel → N ≤ fuel →
      resolveDir x loopFuel fuel { offset := p, blockSize := size, hash := hash, ver := ver } = .ok items := by
  obtain ⟨N, hN⟩ := HoldsDir.resolve hf hb (fun _ _ => Block2.reads hv h64 hb) h
  exact ⟨N, fun lf fl h1 h2 => hN lf fl size h1 h2 hs⟩

/-- C19 for the 64-bit PKG2 format.  `Located` asks that the encrypted entry count of each subdirectory is not
negative; see `C19_pkg2_64_negative_count` for what happens otherwise. -/
theorem C19_pkg2_64_partial (x : DirCtx) (hash : BitVec 64) (p size : Nat) (items : List (List Char × DNode))
    (hv : x.hdr.ident = .v2) (h64 : x.hdr.isPkg2_64 = true) (hf : x.hdr.fstart < 2 ^ 32)
    (hb : x.env.buf.length < 2 ^ 63) (hs : size ≠ 0) (h : HoldsDir (Block64 x hash) p items) :
    ∃ N, ∀ loopFuel fuel, N ≤ loopFuel → N ≤ fuel →
      resolveDir x loopFuel fuel { offset := p, blockSize := size, hash := hash, ver := .pkg2_64V1 } = .ok items := by
  obtain ⟨N, hN⟩ := HoldsDir.resolve hf hb (fun _ _ => Block64.reads hv h64 hb) h
  exact ⟨N, fun lf fl h1 h2 => hN lf fl size h1 h2 hs⟩

/-! ### a concrete PKG1 file -/

def hdr1 : Header := { ident := .v1, fstart := 60, dataStart := 62, encVer := some 172 }
def st1 (pos real : Nat) : Bytes := toLE 4 (storedOffset .pkg1 pos 60 1876 0 real)

/-- root at 62: a meaningless chunk, image "a", directory "b" (name stored at 106); directory at 94: image "c" -/
def file1 : Bytes := List.replicate 62 0#8 ++
  ([3#8] ++ [1#8] ++ List.replicate 10 7#8) ++
  ([4#8, 0xFF#8, 0xCB#8, 1#8, 0#8] ++ st1 79 104) ++
  ([2#8] ++ toLE 4 46 ++ [10#8, 0#8] ++ st1 90 94) ++
  ([1#8] ++ [4#8, 0xFF#8, 0xC9#8, 1#8, 0#8] ++ st1 100 105) ++
  [0x73#8, 0x23#8] ++ [3#8, 0xFF#8, 0xC8#8]

def ctx1 (m : Mode) (b : Bytes) : DirCtx := { env := ⟨m, b, fun _ => 0#8, fun _ => 0#8⟩, hdr := hdr1, keys2 := false }

theorem holds_slice {buf bs : Bytes} (p : Nat) (h : p + bs.length ≤ buf.length ∧ (buf.drop p).take bs.length = bs) :
    Holds buf p bs := by
  have := Holds.of_slice h.1
  rwa [h.2] at this

theorem ascii1 (c : Char) (b : Byte) (h : c.toNat < 128) (hb : b = BitVec.ofNat 8 c.toNat ^^^ 0xAA#8) :
    IsWzString (fun _ => 0#8) [c] [0xFF#8, b] := by
  have := IsWzString.ascii (ks := fun _ => 0#8) (s := [c]) [byteOf (-1)] (by simpa using h)
    (IsAsciiLen.short (n := 1) (by decide) (by decide))
  subst hb
  simpa [cipherAscii, byteOf] using this

/-- the hypotheses of `C19_pkg1` are met by a nested directory -/
theorem file1_holds : HoldsDir (Block1 (ctx1 .checked file1) 1876#64) 62
    [(['a'], .image 104 1), (['b'], .dir 94 10 [(['c'], .image 105 1)])] := by
  have img (o : Nat) (b : Byte) (h : Holds file1 o [b]) (hb : b = 0x73#8 ∨ b = 0x01#8 ∨ b = 0x23#8)
      (ho : o + 1 ≤ file1.length) : Located (ctx1 .checked file1) (.image o 1) := ⟨ho, b, h, hb⟩
  have one : IsWzInt 4 ((1 : Nat) : Int) [1#8] := .short (by decide) (by decide)
  have ten : IsWzInt 4 ((10 : Nat) : Int) [10#8] := .short (by decide) (by decide)
  have zero : IsWzInt 4 0 [0#8] := .short (by decide) (by decide)
  have three : IsWzInt 4 ((3 : Nat) : Int) [3#8] := .short (by decide) (by decide)
  refine .mk _ _ ⟨3, [3#8], 94, by decide, three, holds_slice 62 (by decide +kernel), ?_⟩ ?_ ?_ ?_
  · refine .skip 2 63 94 _ (List.replicate 10 7#8) rfl (holds_slice 63 (by decide +kernel)) ?_
    refine .cons 1 74 83 94 _ _ ?_ ?_
    · exact .direct 74 4#8 ['a'] (.image 104 1) 104 1 0 [0xFF#8, 0xCB#8] [1#8] [0#8] (.image _ _)
        (img 104 0x73#8 (holds_slice 104 (by decide +kernel)) (.inl rfl) (by decide +kernel)) (by decide)
        (ascii1 'a' _ (by decide) (by decide)) one zero (holds_slice 74 (by decide +kernel))
    · refine .cons 0 83 94 94 _ _ ?_ (.nil _)
      exact .byRef 83 3#8 ['b'] (.dir 94 10 [(['c'], .image 105 1)]) 94 10 46 0 [0xFF#8, 0xC8#8] [10#8] [0#8] (.dir _ _ _)
        ⟨by decide +kernel, 1, [1#8], by decide, holds_slice 94 (by decide +kernel), .short (by decide) (by decide)⟩ (by decide) (by decide)
        (ascii1 'b' _ (by decide) (by decide)) ten zero (holds_slice 106 (by decide +kernel))
        (holds_slice 83 (by decide +kernel))
  · intro name o kids hm; simp at hm
  · intro name o s kids hm
    simp at hm
    obtain ⟨_, _, _, rfl⟩ := hm
    simp
  · intro name o s kids hm _
    simp at hm
    obtain ⟨_, rfl, rfl, rfl⟩ := hm
    refine .mk _ _ ⟨1, [1#8], 104, by decide, one, holds_slice 94 (by decide +kernel), ?_⟩ ?_ ?_ ?_
    · refine .cons 0 95 104 104 _ _ ?_ (.nil _)
      exact .direct 95 4#8 ['c'] (.image 105 1) 105 1 0 [0xFF#8, 0xC9#8] [1#8] [0#8] (.image _ _)
        (img 105 0x23#8 (holds_slice 105 (by decide +kernel)) (.inr (.inr rfl)) (by decide +kernel)) (by decide)
        (ascii1 'c' _ (by decide) (by decide)) one zero (holds_slice 95 (by decide +kernel))
    · intro name o kids hm; simp at hm
    · intro name o s kids hm; simp at hm
    · intro name o s kids hm; simp at hm

example : ∃ N, ∀ lf fl, N ≤ lf → N ≤ fl →
    resolveDir (ctx1 .checked file1) lf fl { offset := 62, blockSize := 47, hash := 1876#64, ver := .pkg1 } =
      .ok [(['a'], .image 104 1), (['b'], .dir 94 10 [(['c'], .image 105 1)])] :=
  C19_pkg1 _ _ _ _ _ rfl (by decide) (by decide +kernel) (by decide) file1_holds

/-! ### a concrete PKG2 file -/

def hdr2 : Header := { ident := .v2, fstart := 2, dataStart := 4, hash1 := 0x12345678#64 }
def st2 (pos real : Nat) : Bytes := toLE 4 (storedOffset .pkg2V3 pos 2 77 0x12345678 real)

/-- root at 4 with stored count -9: image "a" (PKG2 name), image "b"; image data at 25 and 26 -/
def file2 : Bytes := [0#8, 0#8, 0#8, 0#8] ++ [0xF7#8] ++ [4#8, 0xFF#8, 0x61#8, 0#8, 1#8, 0#8] ++
  [4#8, 0xFF#8, 0xC8#8, 1#8, 0#8] ++ [0xF7#8] ++ st2 17 25 ++ st2 21 26 ++ [0x73#8, 0x01#8]

def ctx2 : DirCtx := { env := ⟨.checked, file2, fun _ => 0#8, fun _ => 0#8⟩, hdr := hdr2, keys2 := true }

theorem file2_holds : HoldsDir (Block2 ctx2 .pkg2V3 77#64) 4 [(['a'], .image 25 1), (['b'], .image 26 1)] := by
  have one : IsWzInt 4 ((1 : Nat) : Int) [1#8] := .short (by decide) (by decide)
  have zero : IsWzInt 4 0 [0#8] := .short (by decide) (by decide)
  have m9 : IsWzInt 4 (-9) [0xF7#8] := .short (by decide) (by decide)
  refine .mk _ _ ⟨-9, [0xF7#8], [0xF7#8], 16, m9, holds_slice 4 (by decide +kernel), by simp, ?_, m9,
    holds_slice 16 (by decide +kernel), ⟨0xF7#8, [], rfl, by decide⟩, ?_⟩ ?_ ?_ ?_
  · refine .cons true 5 16 4#8 ['a'] (.image 25 1) 25 1 0 [0xFF#8, 0x61#8, 0#8] [1#8] [0#8] _ (.image _ _)
      ⟨by decide +kernel, 0x73#8, holds_slice 25 (by decide +kernel), .inl rfl⟩ (by decide) ?_ one zero
      (holds_slice 5 (by decide +kernel)) ?_
    · exact ⟨by decide +kernel, by decide +kernel, by decide +kernel⟩
    · exact .cons false 11 16 4#8 ['b'] (.image 26 1) 26 1 0 [0xFF#8, 0xC8#8] [1#8] [0#8] _ (.image _ _)
        ⟨by decide +kernel, 0x01#8, holds_slice 26 (by decide +kernel), .inr (.inl rfl)⟩ (by decide)
        (ascii1 'b' _ (by decide) (by decide)) one zero (holds_slice 11 (by decide +kernel)) (.nil _ _)
  · exact .cons 17 _ _ (holds_slice 17 (by decide +kernel)) (.cons 21 _ _ (holds_slice 21 (by decide +kernel)) (.nil _))
  · intro name o kids hm; simp at hm
  · intro name o s kids hm; simp at hm
  · intro name o s kids hm; simp at hm

example : ∃ N, ∀ lf fl, N ≤ lf → N ≤ fl →
    resolveDir ctx2 lf fl { offset := 4, blockSize := 23, hash := 77#64, ver := .pkg2V3 } =
      .ok [(['a'], .image 25 1), (['b'], .image 26 1)] :=
  C19_pkg2 _ _ _ _ _ _ rfl (by decide) (by decide) (by decide +kernel) (by decide) file2_holds

/-! ### a concrete 64-bit PKG2 file -/

def hdr64 : Header := { ident := .v2, fstart := 2, dataStart := 4, hash1 := 0x12345678#64, flags := .random64 }
def st64 (pos real : Nat) : Bytes := toLE 4 (storedOffset .pkg2_64V1 pos 2 77 0x12345678 real)
def count64 : Bytes := 0x80#8 :: toLE 8 (storedCount 0x12345678#64 77#64 1 0xBEEF#16).toNat

/-- root at 4 (count in 9 bytes): image "a" with a 16-bit name length; image data at 24 -/
def file64 : Bytes := [0#8, 0#8, 0#8, 0#8] ++ count64 ++ [4#8, 0xFF#8, 0xFF#8, 0x61#8, 0#8, 1#8, 0#8] ++
  st64 20 24 ++ [0x73#8]

def ctx64 : DirCtx := { env := ⟨.checked, file64, fun _ => 0#8, fun _ => 0#8⟩, hdr := hdr64, keys2 := true }

theorem file64_holds : HoldsDir (Block64 ctx64 77#64) 4 [(['a'], .image 24 1)] := by
  have one : IsWzInt 4 ((1 : Nat) : Int) [1#8] := .short (by decide) (by decide)
  have zero : IsWzInt 4 0 [0#8] := .short (by decide) (by decide)
  have hc : IsWzInt 8 (storedCount 0x12345678#64 77#64 1 0xBEEF#16).toInt count64 := by
    have := IsWzInt.long (w := 8) (v := (storedCount 0x12345678#64 77#64 1 0xBEEF#16).toInt)
      (by decide +kernel) (by decide +kernel)
    have e : unsign (8 * 8) (storedCount 0x12345678#64 77#64 1 0xBEEF#16).toInt =
      (storedCount 0x12345678#64 77#64 1 0xBEEF#16).toNat := by decide +kernel
    rw [e] at this
    exact this
  refine .mk _ _ ⟨0xBEEF#16, count64, 20, by decide, hc, holds_slice 4 (by decide +kernel), ?_, ?_⟩ ?_ ?_ ?_
  · refine .cons true 13 20 4#8 ['a'] (.image 24 1) 24 1 0 [0xFF#8, 0xFF#8, 0x61#8, 0#8] [1#8] [0#8] _ (.image _ _)
      ⟨by decide +kernel, 0x73#8, holds_slice 24 (by decide +kernel), .inl rfl⟩ (by decide) ?_ one zero
      (holds_slice 13 (by decide +kernel)) (.nil _ _)
    exact ⟨by decide +kernel, by decide +kernel, by decide +kernel⟩
  · exact .cons 20 _ _ (holds_slice 20 (by decide +kernel)) (.nil _)
  · intro name o kids hm; simp at hm
  · intro name o s kids hm; simp at hm
  · intro name o s kids hm; simp at hm

example : ∃ N, ∀ lf fl, N ≤ lf → N ≤ fl →
    resolveDir ctx64 lf fl { offset := 4, blockSize := 21, hash := 77#64, ver := .pkg2_64V1 } =
      .ok [(['a'], .image 24 1)] :=
  C19_pkg2_64_partial _ _ _ _ _ rfl (by decide) (by decide) (by decide +kernel) (by decide) file64_holds

/-- C19 does not hold in full for 64-bit PKG2 files: a subdirectory is rejected when its *encrypted* entry count
happens to be negative, although the count itself is good (directory.rs 428-436 checks the sign before decryption). -/
theorem C19_pkg2_64_negative_count (x : DirCtx) (hash : BitVec 64) (en : Entry) (n : Nat) (noise : BitVec 16) (cb : Bytes)
    (h64 : x.hdr.isPkg2_64 = true) (hb : x.env.buf.length < 2 ^ 63) (hty : en.ty = .dir)
    (hin : en.offset + en.size ≤ x.env.buf.length) (hn : n ≤ 1000000)
    (hc : IsWzInt 8 (storedCount x.hdr.hash1 hash n noise).toInt cb) (hh : Holds x.env.buf en.offset cb)
    (hneg : (storedCount x.hdr.hash1 hash n noise).toInt < 0) :
    entryCount64 x.hdr hash (storedCount x.hdr.hash1 hash n noise) = .ok n ∧
    en.verify x = .error (.lib "InvalidWzVersion") := by
  refine ⟨C10_count_stored _ _ _ _ (by omega), ?_⟩
  unfold Entry.verify
  rw [addU_ok (by omega)]
  show (if ¬ (en.offset + en.size ≤ x.env.buf.length) then _ else _ : Except Err Unit) = _
  rw [if_neg (by omega), hty, h64]
  show ((Rd.readWzInt64.run x.env ⟨en.offset, 0⟩).1 >>= _) = _
  rw [Rd.Reads.fst (c := ⟨en.offset, 0⟩) (Rd.Reads.wzInt64 hc hh hb)]
  show (if _ < 0 then _ else _ : Except Err Unit) = _
  rw [if_pos hneg]
  rfl

/-- such counts exist: one entry, with a file hash whose top bit is set -/
example : (storedCount 0x8000000000000000#64 77#64 1 0#16).toInt < 0 := by decide +kernel

/-! ## C18: what is accepted lies inside the file -/

/-- `node` is somewhere in the tree below -/
inductive Below (node : DNode) : List (List Char × DNode) → Prop
  | here (name : List Char) (items : List (List Char × DNode)) : (name, node) ∈ items → Below node items
  | down (name : List Char) (o s : Nat) (kids items : List (List Char × DNode)) :
      (name, DNode.dir o s kids) ∈ items → Below node kids → Below node items

/-- C18: every node that directory parsing returns, at any depth, lies inside the file; an image starts with an
image mark, a directory with a count that is not negative.  In an unchecked build this needs the stored size not to
be negative (`C18_negative_size_outside` shows that this is needed).  A node that is neither is the empty node made
from an entry whose referenced type is again "by reference". -/
theorem C18_inside_partial (x : DirCtx) (lf fuel : Nat) (d : Dir) (items : List (List Char × DNode)) (node : DNode)
    (hf : x.hdr.fstart < 2 ^ 32) (hb : x.env.buf.length < 2 ^ 63)
    (h : resolveDir x lf fuel d = .ok items) (hn : Below node items)
    (hs : x.env.mode = .checked ∨ node.size < 2 ^ 63) : node = .none ∨ Located x node := by
  induction fuel generalizing d items with
  | zero => cases h
  | succ fuel ih =>
    by_cases hz : d.blockSize = 0
    · rw [resolveDir, if_pos hz] at h
      cases h
      cases hn with
      | here name _ hm => cases hm
      | down name o s kids _ hm _ => cases hm
    · obtain ⟨d1, d2, nodes, _, h2, h3, h4⟩ := resolveDir_ok hz h
      obtain ⟨_, _, hloc⟩ := calcVerify_ok h2
      cases hn with
      | here name _ hm =>
        obtain ⟨nd, hmem, hstep⟩ := (mapM_all2 h4).mem_right hm
        obtain ⟨en, hen, htn⟩ := (mapM_all2 h3).mem_right hmem
        obtain ⟨en0, _, hl⟩ := hloc.mem_right hen
        obtain ⟨hcalc, hver, _⟩ := locate_ok hl
        have ho : en.offset < 2 ^ 32 := by
          obtain ⟨r, hr, hlt⟩ := C10_total d1.ver x.env.mode x.hdr ⟨d1.hash, en0.encOff, en0.calcOff⟩ hf
          rw [hr] at hcalc
          cases hcalc
          exact hlt
        obtain ⟨_, hnd⟩ := toNode_ok htn
        obtain ⟨nm, n2⟩ := nd
        dsimp only at hnd
        unfold dirStep at hstep
        split at hnd
        · rename_i hty
          subst hnd
          obtain ⟨kids, _, hk⟩ := bind_ok hstep
          cases hk
          obtain ⟨v1, _, v3⟩ := verify_ok hver ho hs hb
          exact .inr ⟨v1, v3 hty⟩
        · rename_i hty
          subst hnd
          cases hstep
          obtain ⟨v1, v2, _⟩ := verify_ok hver ho hs hb
          exact .inr ⟨v1, v2 hty⟩
        · subst hnd
          cases hstep
          exact .inl rfl
      | down name o s kids _ hm hbelow =>
        obtain ⟨nd, hmem, hstep⟩ := (mapM_all2 h4).mem_right hm
        obtain ⟨nm, n2⟩ := nd
        unfold dirStep at hstep
        dsimp only at hstep
        split at hstep
        · obtain ⟨kids', hres, hk⟩ := bind_ok hstep
          cases hk
          refine ih _ kids' hres ?_
          cases hbelow with
          | here n _ hm =>
            rcases mem_childInsertAll hm with h | h
            · cases h
            · exact .here n _ h
          | down n o s k _ hm hb =>
            rcases mem_childInsertAll hm with h | h
            · cases h
            · exact .down n o s k _ h hb
        · rename_i hne
          cases hstep
          exact absurd rfl (hne _ _ _)

/-- C18 in the checked build, without conditions on sizes. -/
theorem C18_inside_checked (x : DirCtx) (lf fuel : Nat) (d : Dir) (items : List (List Char × DNode)) (node : DNode)
    (hm : x.env.mode = .checked) (hf : x.hdr.fstart < 2 ^ 32) (hb : x.env.buf.length < 2 ^ 63)
    (h : resolveDir x lf fuel d = .ok items) (hn : Below node items) : node = .none ∨ Located x node :=
  C18_inside_partial x lf fuel d items node hf hb h hn (.inl hm)

/-- the directory file above meets the hypotheses, and its inner image is a node at depth two -/
example : ∃ lf fl items, resolveDir (ctx1 .checked file1) lf fl
    { offset := 62, blockSize := 47, hash := 1876#64, ver := .pkg1 } = .ok items ∧ Below (.image 105 1) items := by
  obtain ⟨N, hN⟩ := C19_pkg1 (ctx1 .checked file1) 1876#64 62 47 _ rfl (by decide) (by decide +kernel) (by decide) file1_holds
  exact ⟨N, N, _, hN N N (Nat.le_refl _) (Nat.le_refl _), .down _ _ _ _ _ (.tail _ (.head _)) (.here _ _ (.head _))⟩

/-- image "a" whose stored size is -1 -/
def fileNeg : Bytes := List.replicate 62 0#8 ++ [1#8, 4#8, 0xFF#8, 0xCB#8, 0xFF#8, 0#8] ++ st1 68 72 ++ [0x73#8]

/-- is this the list with one image at the given place? -/
def isOneImage (o s : Nat) : Except Err (List (List Char × DNode)) → Bool
  | .ok [(_, .image o' s')] => o == o' && s == s'
  | _ => false

/-- C18 is violated in an unchecked build: a stored size of -1 becomes `2^64 - 1`, the sum with the offset wraps
around, and the image is accepted although it ends far outside the file of 73 bytes. -/
theorem C18_negative_size_outside :
    isOneImage 72 (2 ^ 64 - 1) (resolveDir (ctx1 .wrap fileNeg) 0 1 { offset := 62, blockSize := 11, hash := 1876#64 }) = true ∧
    ¬ 72 + (2 ^ 64 - 1) ≤ fileNeg.length := by
  decide +kernel

/-- C18: the number of entries is what the stored count says, less the meaningless chunks; counts below 0 or above
1000000 are rejected. -/
theorem C18_count_pkg1 (x : DirCtx) (lf : Nat) (d d' : Dir) (hv : x.hdr.ident = .v1) (hi : d.status = .init)
    (hb : x.env.buf.length < 2 ^ 63) (h : prepareEntries x lf d = .ok d') :
    ∃ (n : Nat) (bs : Bytes), n ≤ 1000000 ∧ IsWzInt 4 n bs ∧ Holds x.env.buf d.offset bs ∧ d'.entries.length ≤ n := by
  unfold prepareEntries at h
  rw [if_neg (by simp [hi])] at h
  dsimp only at h
  rw [hv] at h
  split at h
  · rename_i es hes
    cases h
    dsimp only at hes ⊢
    unfold Rd.entriesPkg1 at hes
    rw [Rd.bind_run] at hes
    cases hr : Rd.readWzInt.run x.env ⟨d.offset, 0⟩ with
    | mk r c1 =>
      rw [hr] at hes
      cases r with
      | error y => cases hes
      | ok n =>
        dsimp only at hes
        obtain ⟨bs, h1, h2, _⟩ := C01_int32_only x.env ⟨d.offset, 0⟩ c1 n hb hr
        by_cases hn : 0 ≤ n ∧ n ≤ 1000000
        · rw [if_neg (fun h => h hn)] at hes
          obtain ⟨k, rfl⟩ : ∃ k : Nat, n = k := ⟨n.toNat, by omega⟩
          refine ⟨k, bs, by omega, h1, h2, ?_⟩
          have key : ∀ (m : Nat) (acc es : List Entry) (c : Cur),
              ((Rd.pkg1Loop x.hdr.fstart m acc).run x.env c).1 = .ok es → es.length ≤ acc.length + m := by
            intro m
            induction m with
            | zero => intro acc es c h; cases h; simp
            | succ m ih =>
              intro acc es c h
              unfold Rd.pkg1Loop at h
              rw [Rd.bind_run] at h
              cases hr : (Rd.readPkg1Entry x.hdr.fstart).run x.env c with
              | mk r c1 =>
                rw [hr] at h
                cases r with
                | error y => cases h
                | ok en =>
                  dsimp only at h
                  split at h
                  · rw [Rd.bind_run] at h
                    split at h
                    · have := ih _ _ _ h; omega
                    · cases h
                  · cases h
                  · have := ih _ _ _ h
                    simp only [List.length_append, List.length_cons, List.length_nil] at this
                    omega
          have := key k [] es c1 hes
          simpa using this
        · rw [if_pos hn] at hes
          cases hes
  · cases h

example : ∃ (n : Nat) (bs : Bytes), n ≤ 1000000 ∧ IsWzInt 4 n bs ∧ Holds file1 62 bs ∧ 2 ≤ n := by
  have h : ∃ d', prepareEntries (ctx1 .checked file1) 200 { offset := 62, blockSize := 47, hash := 1876#64 } = .ok d' ∧ d'.entries.length = 2 := by
    have hk : (prepareEntries (ctx1 .checked file1) 200 { offset := 62, blockSize := 47, hash := 1876#64 }).isOk = true := by decide +kernel
    cases hd : prepareEntries (ctx1 .checked file1) 200 { offset := 62, blockSize := 47, hash := 1876#64 } with
    | ok d' => exact ⟨d', rfl, Option.some.inj ((congrArg (fun r => r.toOption.map fun d : Dir => d.entries.length) hd).symm.trans (by decide +kernel))⟩
    | error e => rw [show (prepareEntries (ctx1 .checked file1) 200 { offset := 62, blockSize := 47, hash := 1876#64 }) = .error e from hd] at hk; cases hk
  obtain ⟨d', h, hl⟩ := h
  obtain ⟨n, bs, a, b, c, e⟩ := C18_count_pkg1 (ctx1 .checked file1) 200 _ d' rfl rfl (by decide +kernel) h
  exact ⟨n, bs, a, b, c, by omega⟩

/-- C18: a stored count that is negative or above 1000000 is rejected (PKG1). -/
theorem C18_bad_count_rejected (x : DirCtx) (lf : Nat) (d : Dir) (n : Int) (bs : Bytes) (hv : x.hdr.ident = .v1)
    (hi : d.status = .init) (hb : x.env.buf.length < 2 ^ 63) (h1 : IsWzInt 4 n bs) (h2 : Holds x.env.buf d.offset bs)
    (hn : n < 0 ∨ 1000000 < n) : prepareEntries x lf d = .error (.lib "InvalidEntryCount") := by
  unfold prepareEntries
  rw [if_neg (by simp [hi])]
  dsimp only
  rw [hv]
  unfold Rd.entriesPkg1
  dsimp only
  obtain ⟨c1, hr, _⟩ := Rd.Reads.wzInt h1 h2 hb ⟨d.offset, 0⟩ rfl
  rw [Rd.bind_ok hr, if_pos (by omega)]
  rfl

example : IsWzInt 4 (-2) [0xFE#8] ∧ Holds [0xFE#8] 0 [0xFE#8] :=
  ⟨.short (by decide) (by decide), holds_slice 0 (by decide)⟩

/-! ## C20: termination -/

/-- `o` is the place of a non-empty subdirectory listed in the directory at `p` -/
def Subdir (x : DirCtx) (lf : Nat) (hash : BitVec 64) (ver : OffsetVersion) (p o : Nat) : Prop :=
  ∃ s d1 d2 en, prepareEntries x lf { offset := p, blockSize := s, hash := hash, ver := ver } = .ok d1 ∧
    calcVerify x d1 = .ok d2 ∧ en ∈ d2.entries ∧ en.ty = .dir ∧ en.size ≠ 0 ∧ en.offset = o

/-- C20, with a condition: if directories can be ranked so that a subdirectory always ranks below its parent (there
is no cycle), parsing ends: the nesting never exceeds the rank.  For 32-bit PKG2 files this also needs the checked
build, because otherwise the loop over the entries of one directory may not end (`C20_entry_loop_forever`).  What is
missing for the full property is false: see `C20_cycle_never_ends`. -/
theorem C20_ranked_partial (x : DirCtx) (lf fuel p s : Nat) (hash : BitVec 64) (ver : OffsetVersion) (rank : Nat → Nat)
    (hf : x.hdr.fstart < 2 ^ 32) (hlf : x.env.buf.length < lf)
    (hm : x.hdr.ident = .v2 → x.hdr.isPkg2_64 = false → x.env.mode = .checked)
    (hr : ∀ p o, Subdir x lf hash ver p o → rank o < rank p) (hfuel : rank p + 1 < fuel) :
    resolveDir x lf fuel { offset := p, blockSize := s, hash := hash, ver := ver } ≠ .error .fuel := by
  induction fuel generalizing p s with
  | zero => omega
  | succ fuel ih =>
    by_cases hz : s = 0
    · subst hz
      rw [resolveDir, if_pos rfl]
      nofun
    · rw [resolveDir_succ _ _ _ _ hz]
      intro h
      cases h1 : prepareEntries x lf { offset := p, blockSize := s, hash := hash, ver := ver } with
      | error y =>
        rw [h1] at h
        cases h
        exact prepareEntries_noFuel hlf hm h1
      | ok d1 =>
        rw [h1] at h
        replace h : ((calcVerify x d1).mapError _ >>= _) = Except.error Err.fuel := h
        cases h2 : calcVerify x d1 with
        | error y =>
          rw [h2] at h
          have hy := calcVerify_err hf errBase_noFuel h2
          replace h : Except.error (isErrTo "InvalidWzVersion" y) = Except.error Err.fuel := h
          unfold isErrTo at h
          split at h
          · cases h; exact hy rfl
          · cases h
        | ok d2 =>
          rw [h2] at h
          replace h : (d2.entries.mapM (Entry.toNode x) >>= _) = Except.error Err.fuel := h
          cases h3 : d2.entries.mapM (Entry.toNode x) with
          | error y =>
            rw [h3] at h
            cases h
            obtain ⟨en, _, h4⟩ := mapM_error h3
            unfold Entry.toNode at h4
            cases h5 : resolveMeta x.env en.name.ty en.name.offset en.name.length with
            | ok t => rw [h5] at h4; cases h4
            | error z =>
              rw [h5] at h4
              replace h4 : Except.error (if z.isPanic = true ∨ z = .fuel then z else .panicUnwrap) = Except.error Err.fuel := h4
              have hz := resolveMeta_ne_fuel h5
              split at h4
              · cases h4; exact hz rfl
              · cases h4
          | ok nodes =>
            rw [h3] at h
            replace h : nodes.mapM (dirStep x lf fuel d2.hash d2.ver) = Except.error Err.fuel := h
            obtain ⟨nd, hmem, h6⟩ := mapM_error h
            obtain ⟨en, hen, h7⟩ := (mapM_all2 h3).mem_right hmem
            obtain ⟨_, hnd⟩ := toNode_ok h7
            obtain ⟨hh, hvv, _⟩ := calcVerify_ok h2
            obtain ⟨hh', hvv'⟩ := prepareEntries_ok h1
            unfold dirStep at h6
            split at hnd
            · rename_i hty
              rw [hnd] at h6
              replace h6 : (resolveDir x lf fuel { offset := en.offset, blockSize := en.size, hash := d2.hash, ver := d2.ver } >>= _)
                = Except.error Err.fuel := h6
              cases h8 : resolveDir x lf fuel { offset := en.offset, blockSize := en.size, hash := d2.hash, ver := d2.ver } with
              | ok k => rw [h8] at h6; cases h6
              | error y =>
                rw [h8] at h6
                cases h6
                rw [hh, hvv, hh', hvv'] at h8
                by_cases hsz : en.size = 0
                · rw [hsz] at h8
                  obtain ⟨k, rfl⟩ : ∃ k, fuel = k + 1 := ⟨fuel - 1, by omega⟩
                  rw [resolveDir, if_pos rfl] at h8
                  cases h8
                · have := hr p en.offset ⟨s, d1, d2, en, h1, h2, hen, hty, hsz, rfl⟩
                  exact ih en.offset en.size (by omega) h8
            · rw [hnd] at h6; cases h6
            · rw [hnd] at h6; cases h6

/-- C20 for files where every subdirectory is stored after its parent: parsing ends, and the nesting is at most the
size of the file. -/
theorem C20_forward_partial (x : DirCtx) (lf p s : Nat) (hash : BitVec 64) (ver : OffsetVersion)
    (hf : x.hdr.fstart < 2 ^ 32) (hlf : x.env.buf.length < lf)
    (hm : x.hdr.ident = .v2 → x.hdr.isPkg2_64 = false → x.env.mode = .checked)
    (hr : ∀ p o, Subdir x lf hash ver p o → p < o ∧ o ≤ x.env.buf.length) :
    resolveDir x lf (x.env.buf.length + 2) { offset := p, blockSize := s, hash := hash, ver := ver } ≠ .error .fuel := by
  refine C20_ranked_partial x lf _ p s hash ver (fun q => x.env.buf.length - q) hf hlf hm ?_ (by omega)
  intro p o h
  have := hr p o h
  omega

/-- the file of the round trip example has one subdirectory, stored after its parent -/
example : (match prepareEntries (ctx1 .checked file1) 200 { offset := 62, blockSize := 47, hash := 1876#64 } with
    | .ok d => (match calcVerify (ctx1 .checked file1) d with
      | .ok d => d.entries.map fun en => (en.ty, en.offset, en.size)
      | .error _ => [])
    | .error _ => []) = [(DirType.image, 104, 1), (DirType.dir, 94, 10)] := by
  decide +kernel

/-- a directory whose only entry is a subdirectory "a" at the place of the directory itself -/
def fileCycle : Bytes := List.replicate 62 0#8 ++ [1#8, 3#8, 0xFF#8, 0xCB#8, 10#8, 0#8] ++ st1 68 62

/-- C20 is violated: a directory that contains itself is never finished, whatever the nesting allowed (the program
recurses until its stack is used up). -/
theorem C20_cycle_never_ends (m : Mode) (lf fuel : Nat) :
    resolveDir (ctx1 m fileCycle) lf fuel { offset := 62, blockSize := 10, hash := 1876#64 } = .error .fuel := by
  have hprep : ∃ d1 d2, prepareEntries (ctx1 m fileCycle) lf { offset := 62, blockSize := 10, hash := 1876#64 } = .ok d1 ∧
      calcVerify (ctx1 m fileCycle) d1 = .ok d2 ∧
      d2.entries.mapM (Entry.toNode (ctx1 m fileCycle)) = .ok [(['a'], .dir 62 10 [])] ∧ d2.hash = 1876#64 ∧ d2.ver = .pkg1 := by
    cases m
    · exact ⟨_, _, rfl, rfl, rfl, rfl, rfl⟩
    · exact ⟨_, _, rfl, rfl, rfl, rfl, rfl⟩
  induction fuel with
  | zero => rfl
  | succ fuel ih =>
    obtain ⟨d1, d2, h1, h2, h3, h4, h5⟩ := hprep
    rw [resolveDir_succ _ _ _ _ (by decide), h1]
    show ((calcVerify _ d1).mapError _ >>= _) = _
    rw [h2]
    show (d2.entries.mapM (Entry.toNode (ctx1 m fileCycle)) >>= _) = _
    rw [h3, h4, h5]
    show List.mapM (dirStep (ctx1 m fileCycle) lf fuel 1876#64 .pkg1) [(['a'], .dir 62 10 [])] = _
    have : dirStep (ctx1 m fileCycle) lf fuel 1876#64 .pkg1 (['a'], .dir 62 10 []) = .error .fuel := by
      unfold dirStep
      show (resolveDir _ lf fuel { offset := 62, blockSize := 10, hash := 1876#64 } >>= _) = _
      rw [ih]
      rfl
    rw [List.mapM_cons, this]
    rfl

/-- a 32-bit PKG2 directory at 1 whose first entry has a name of length -8 -/
def fileBack : Bytes := [0#8, 5#8, 3#8, 0x80#8, 0xF8#8, 0xFF#8, 0xFF#8, 0xFF#8]

/-- C20 is violated for one PKG2 directory in an unchecked build: a name with a negative length moves the position
back to the start of the entry, which is then read again, for ever. -/
theorem C20_entry_loop_forever (fuel : Nat) (acc : List Entry) :
    ((Rd.pkg2Loop false 5 fuel acc).run ⟨.wrap, fileBack, fun _ => 0#8, fun _ => 0#8⟩ ⟨2, 0⟩).1 = .error .fuel := by
  induction fuel generalizing acc with
  | zero => rfl
  | succ fuel ih =>
    unfold Rd.pkg2Loop
    have h : ∀ f, (Rd.readPkg2Entry false false 5 f).run ⟨.wrap, fileBack, fun _ => 0#8, fun _ => 0#8⟩ ⟨2, 0⟩ =
        (.ok { name := ⟨8, 2 ^ 32 - 8, .ascii⟩, ty := .dir, size := 0, checksum := 5 }, ⟨2, 0⟩) := by
      decide +kernel
    rw [Rd.bind_ok (h acc.isEmpty)]
    exact ih _

/-- ... and this is what the parser runs into -/
theorem C20_entry_loop_reached (fuel : Nat) (hdr : Header) (h1 : hdr.ident = .v2)
    (h2 : hdr.isPkg2_64 = false) (ver : OffsetVersion) (hash : BitVec 64) :
    prepareEntries ⟨⟨.wrap, fileBack, fun _ => 0#8, fun _ => 0#8⟩, hdr, false⟩ fuel { offset := 1, blockSize := 7, hash := hash, ver := ver } =
      .error .fuel := by
  unfold prepareEntries
  rw [if_neg (by simp)]
  dsimp only
  rw [h1, h2]
  dsimp only
  simp only [Bool.false_eq_true, if_false]
  unfold Rd.entriesPkg2
  have h : Rd.readWzInt.run ⟨.wrap, fileBack, fun _ => 0#8, fun _ => 0#8⟩ ⟨1, 0⟩ = (.ok 5, ⟨2, 0⟩) := rfl
  have hl := C20_entry_loop_forever fuel []
  rw [Rd.bind_ok h, Rd.bind_run]
  cases hr : (Rd.pkg2Loop false 5 fuel []).run ⟨.wrap, fileBack, fun _ => 0#8, fun _ => 0#8⟩ ⟨2, 0⟩ with
  | mk r c =>
    rw [hr] at hl
    dsimp only at hl
    subst hl
    rfl

/-! ## C50: malformed directories -/

/-- the name of image "…" is stored at the very end of the file and runs past it -/
def fileName : Bytes := List.replicate 62 0#8 ++ [1#8, 2#8, 15#8, 0#8, 0#8, 0#8, 1#8, 0#8] ++ st1 70 74 ++ [0x73#8, 4#8, 0xFF#8]

/-- is this a panic? -/
def panics {α : Type} : Except Err α → Bool
  | .error e => e.isPanic
  | .ok _ => false

/-- C50 is violated, in both builds: an entry whose name (stored elsewhere in the file) runs past the end of the
file passes every check and then makes the program panic. -/
theorem C50_name_past_end_panics :
    panics (resolveDir (ctx1 .wrap fileName) 0 1 { offset := 62, blockSize := 15, hash := 1876#64 }) = true ∧
    panics (resolveDir (ctx1 .checked fileName) 0 1 { offset := 62, blockSize := 15, hash := 1876#64 }) = true := by
  decide +kernel

/-- C50 is violated in the checked build: a name reference before the start of the file overflows. -/
theorem C50_negative_reference_panics :
    panics (prepareEntries (ctx1 .checked [1#8, 2#8, 0xFF#8, 0xFF#8, 0xFF#8, 0xFF#8]) 0 { offset := 0, blockSize := 6 }) = true := by
  decide +kernel

/-- C50, the part that holds: in an unchecked (release) build, reading the entries of a directory and locating
them never panics, whatever the bytes are.  Missing: the resolution of names, which does panic. -/
theorem C50_entries_no_panic_partial (x : DirCtx) (lf : Nat) (d : Dir) (y : Err) (hw : x.env.mode = .wrap)
    (hf : x.hdr.fstart < 2 ^ 32) (hv : x.hdr.isPkg2_64 = true → d.ver = .pkg2_64V1)
    (h : (prepareEntries x lf d >>= calcVerify x) = .error y) : y.isPanic = false := by
  cases h1 : prepareEntries x lf d with
  | error z =>
    rw [h1] at h
    cases h
    exact prepareEntries_noPanic hw hv h1
  | ok d1 =>
    rw [h1] at h
    exact calcVerify_err hf errBase_noPanic h hw

example : (prepareEntries (ctx1 .wrap [1#8, 9#8]) 0 { offset := 0, blockSize := 2 } >>= calcVerify (ctx1 .wrap [1#8, 9#8])).isOk = false := by
  decide +kernel

/-- C50, the 64-bit format: asked to read a 64-bit PKG2 directory with the offset scheme of another format, the
parser panics (`unreachable!`).  Profiles never ask for that, see C44. -/
theorem C50_wrong_scheme_panics (x : DirCtx) (lf : Nat) (d : Dir) (hi : d.status = .init) (hv : x.hdr.ident = .v2)
    (h64 : x.hdr.isPkg2_64 = true) (hver : d.ver ≠ .pkg2_64V1) : prepareEntries x lf d = .error .panicUnwrap := by
  unfold prepareEntries
  rw [if_neg (by simp [hi])]
  dsimp only
  rw [hv, h64]
  simp [Rd.entriesPkg2_64, hver]

end Wz.Props
