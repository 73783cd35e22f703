import Verif.Directory.FoundLemmas
import Verif.Directory.Props
/-!
# C71: what is shown of a directory is stored in the file
-/

set_option autoImplicit false

namespace Wz.Props

open Spec

/-- C71 for PKG1, in a build with overflow checks: whatever directory is shown, at any depth, its names, kinds, offsets
and sizes are stored in the file, entry by entry and in this order. -/
theorem C71_pkg1 (x : DirCtx) (hash : BitVec 64) (lf fuel p size : Nat) (items : List (List Char × DNode))
    (hm : x.env.mode = .checked) (hv : x.hdr.ident = .v1) (hf : x.hdr.fstart < 2 ^ 32) (hb : x.env.buf.length < 2 ^ 63)
    (hs : size ≠ 0)
    (h : resolveDir x lf fuel { offset := p, blockSize := size, hash := hash, ver := .pkg1 } = .ok items) :
    FoundDir (FoundBlock1 x hash) p items := by
  refine foundDir_of ?_ fuel p size items hs h
  intro fuel p s d1 items hs h1 A
  obtain ⟨c', hr⟩ := prepareEntries_run rfl h1
  unfold rdFor at hr
  rw [hv] at hr
  exact entriesPkg1_found hm hb hf hr A

/-- C71 for the 32-bit PKG2 formats; a directory without entries is never shown. -/
theorem C71_pkg2 (x : DirCtx) (hash : BitVec 64) (ver : OffsetVersion) (lf fuel p size : Nat) (items : List (List Char × DNode))
    (hm : x.env.mode = .checked) (hv : x.hdr.ident = .v2) (h64 : x.hdr.isPkg2_64 = false) (hf : x.hdr.fstart < 2 ^ 32)
    (hb : x.env.buf.length < 2 ^ 63) (hs : size ≠ 0)
    (h : resolveDir x lf fuel { offset := p, blockSize := size, hash := hash, ver := ver } = .ok items) :
    FoundDir (FoundBlock2 x ver hash) p items := by
  refine foundDir_of ?_ fuel p size items hs h
  intro fuel p s d1 items hs h1 A
  obtain ⟨c', hr⟩ := prepareEntries_run rfl h1
  unfold rdFor at hr
  rw [hv, h64] at hr
  simp only [Bool.false_eq_true, if_false] at hr
  exact entriesPkg2_found hm hb hf h64 hr A

/-- C71 for the 64-bit PKG2 format, which has one offset scheme only. -/
theorem C71_pkg2_64 (x : DirCtx) (hash : BitVec 64) (ver : OffsetVersion) (lf fuel p size : Nat) (items : List (List Char × DNode))
    (hm : x.env.mode = .checked) (hv : x.hdr.ident = .v2) (h64 : x.hdr.isPkg2_64 = true) (hf : x.hdr.fstart < 2 ^ 32)
    (hb : x.env.buf.length < 2 ^ 63) (hs : size ≠ 0)
    (h : resolveDir x lf fuel { offset := p, blockSize := size, hash := hash, ver := ver } = .ok items) :
    ver = .pkg2_64V1 ∧ FoundDir (FoundBlock64 x hash) p items := by
  have key : ∀ fuel p s d1 items, s ≠ 0 → prepareEntries x lf { offset := p, blockSize := s, hash := hash, ver := ver } = .ok d1 →
      All2 (Becomes x lf fuel hash ver) d1.entries items → ver = .pkg2_64V1 ∧ FoundBlock64 x hash p items := by
    intro fuel p s d1 items hs h1 A
    obtain ⟨c', hr⟩ := prepareEntries_run rfl h1
    unfold rdFor at hr
    rw [hv, h64] at hr
    simp only [if_true] at hr
    exact entriesPkg2_64_found hm hb hf h64 hr A
  refine ⟨?_, foundDir_of (fun f p s d1 its hs h1 A => (key f p s d1 its hs h1 A).2) fuel p size items hs h⟩
  cases fuel with
  | zero => cases h
  | succ fuel =>
    obtain ⟨d1, h1, A⟩ := resolveDir_becomes hs h
    exact (key fuel p size d1 items hs h1 A).1

/-! ### cases that meet the hypotheses -/

/-- names, kinds (3 directory, 4 image, 0 neither), offsets and sizes of the nodes of a directory, with what is below -/
def outline : List (List Char × DNode) → List (List Char × Nat × Nat × Nat × Nat)
  | [] => []
  | (n, .image o s) :: r => (n, 4, o, s, 0) :: outline r
  | (n, .dir o s k) :: r => (n, 3, o, s, k.length) :: outline r
  | (n, .none) :: r => (n, 0, 0, 0, 0) :: outline r

/-- the file of C19, with a chunk to pass over and a name stored elsewhere -/
example : (resolveDir (ctx1 .checked file1) 5 5 { offset := 62, blockSize := 1, hash := 1876#64 }).map outline =
    .ok [(['a'], 4, 104, 1, 0), (['b'], 3, 94, 10, 1)] := by decide +kernel

/-- A directory no tool writes: an image whose name is the byte FF, twice, and an entry whose real type is 2.  It is
shown, with a replacement character. -/
def fileOdd : Bytes := List.replicate 62 0#8 ++ [3#8] ++
  ([4#8, 0xFF#8, 0x55#8, 1#8, 0#8] ++ st1 68 98) ++
  ([4#8, 0xFF#8, 0x55#8, 1#8, 0#8] ++ st1 77 99) ++
  ([2#8] ++ toLE 4 40 ++ [1#8, 0#8] ++ st1 88 0) ++ List.replicate 6 0#8 ++ [0x73#8, 0x73#8, 2#8, 0xFF#8, 0xCB#8]

example : (resolveDir (ctx1 .checked fileOdd) 5 5 { offset := 62, blockSize := 1, hash := 1876#64 }).map outline =
    .ok [([Char.ofNat 0xFFFD], 4, 98, 1, 0), ([Char.ofNat 0xFFFD], 4, 99, 1, 0), (['a'], 0, 0, 0, 0)] := by decide +kernel

example : (resolveDir ctx2 9 5 { offset := 4, blockSize := 1, hash := 77#64, ver := .pkg2V3 }).map outline =
    .ok [(['a'], 4, 25, 1, 0), (['b'], 4, 26, 1, 0)] := by decide +kernel

example : (resolveDir ctx64 9 5 { offset := 4, blockSize := 1, hash := 77#64, ver := .pkg2_64V1 }).map outline =
    .ok [(['a'], 4, 24, 1, 0)] := by decide +kernel

/-! ### builds without overflow checks -/

theorem found1_inside {x : DirCtx} {hash : BitVec 64} {n p q : Nat} {items : List (List Char × DNode)}
    (h : Found1 x hash n p items q) : ∀ it ∈ items, it.2 = .none ∨ Located x it.2 := by
  induction h with
  | nil => intro it hm; cases hm
  | skip n p q items _ _ ih => exact ih
  | direct n p r t name node o s sum nm sz sm items _ hl _ _ _ _ _ _ ih =>
    intro it hm
    rcases List.mem_cons.mp hm with rfl | hm
    · exact .inr hl
    · exact ih it hm
  | byRef n p r t name node o s so sum nm sz sm items _ hl _ _ _ _ _ _ _ _ ih =>
    intro it hm
    rcases List.mem_cons.mp hm with rfl | hm
    · exact .inr hl
    · exact ih it hm
  | nothing n p r name o s so sum nm sz sm items _ _ _ _ _ _ _ _ _ ih =>
    intro it hm
    rcases List.mem_cons.mp hm with rfl | hm
    · exact .inl rfl
    · exact ih it hm
  | skipRef n p r so size sum sz sm off items _ _ _ _ _ _ _ ih => exact ih

/-- Without overflow checks C71 is violated: the image of `fileNeg`, whose stored size is -1, is shown with the size
2^64 - 1. -/
theorem C71_unchecked_counterexample :
    ∃ items, resolveDir (ctx1 .wrap fileNeg) 0 1 { offset := 62, blockSize := 11, hash := 1876#64 } = .ok items ∧
      ¬ FoundDir (FoundBlock1 (ctx1 .wrap fileNeg) 1876#64) 62 items := by
  obtain ⟨h1, h2⟩ := C18_negative_size_outside
  cases hr : resolveDir (ctx1 .wrap fileNeg) 0 1 { offset := 62, blockSize := 11, hash := 1876#64 } with
  | error e => rw [hr] at h1; cases h1
  | ok items =>
    refine ⟨items, rfl, fun hd => ?_⟩
    rw [hr] at h1
    unfold isOneImage at h1
    split at h1
    · rename_i o s heq
      cases heq
      simp only [Bool.and_eq_true, beq_iff_eq] at h1
      obtain ⟨rfl, rfl⟩ := h1
      cases hd with
      | mk _ _ _ hB =>
        obtain ⟨n, cb, q, -, -, -, F⟩ := hB
        rcases found1_inside F _ (List.mem_cons_self ..) with h | h
        · cases h
        · exact h2 h.1
    · cases h1

end Wz.Props
