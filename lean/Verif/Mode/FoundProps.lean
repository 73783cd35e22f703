import Verif.Directory.FoundProps
import Verif.Mode.Directory
/-!
# C71 in builds without overflow checks
-/

set_option autoImplicit false

namespace Wz.Props

open Spec

/-- what a build without overflow checks shows, the build with checks shows as well, or it stops at an overflow -/
theorem shown_checked {x : DirCtx} {lf fuel : Nat} {d : Dir} {items : List (List Char × DNode)} (hm : x.env.mode = .checked)
    (h : resolveDir { x with env := { x.env with mode := .wrap } } lf fuel d = .ok items) :
    resolveDir x lf fuel d = .error .panicOverflow ∨ resolveDir x lf fuel d = .ok items := by
  have key := resolveDir_ag x lf fuel d
  have hx : x.inMode .checked = x := by
    obtain ⟨⟨m, b, k, k2⟩, hdr, keys2⟩ := x
    cases hm
    rfl
  rw [hx] at key
  exact key.imp_right fun e => e.trans h

/-- C71 in builds without overflow checks: what they show of a directory is stored in the file, unless the other builds
stop at an overflow.  Missing, and not so (`C71_unchecked_counterexample`): that it is stored in any case. -/
theorem C71_unchecked_partial (x : DirCtx) (hash : BitVec 64) (ver : OffsetVersion) (lf fuel p size : Nat) (items : List (List Char × DNode))
    (hm : x.env.mode = .checked) (hf : x.hdr.fstart < 2 ^ 32) (hb : x.env.buf.length < 2 ^ 63) (hs : size ≠ 0)
    (h : resolveDir { x with env := { x.env with mode := .wrap } } lf fuel { offset := p, blockSize := size, hash := hash, ver := ver } = .ok items) :
    resolveDir x lf fuel { offset := p, blockSize := size, hash := hash, ver := ver } = .error .panicOverflow ∨
      (x.hdr.ident = .v1 → ver = .pkg1 → FoundDir (FoundBlock1 x hash) p items) ∧
      (x.hdr.ident = .v2 → x.hdr.isPkg2_64 = false → FoundDir (FoundBlock2 x ver hash) p items) ∧
      (x.hdr.ident = .v2 → x.hdr.isPkg2_64 = true → ver = .pkg2_64V1 ∧ FoundDir (FoundBlock64 x hash) p items) :=
  (shown_checked hm h).imp_right fun h =>
    ⟨fun hv he => C71_pkg1 x hash lf fuel p size items hm hv hf hb hs (by rw [← he]; exact h),
     fun hv h64 => C71_pkg2 x hash ver lf fuel p size items hm hv h64 hf hb hs h,
     fun hv h64 => C71_pkg2_64 x hash ver lf fuel p size items hm hv h64 hf hb hs h⟩

/-- the file of C19 meets the hypotheses, and the other build does not stop -/
example : (resolveDir (ctx1 .wrap file1) 5 5 { offset := 62, blockSize := 1, hash := 1876#64 }).map outline =
    .ok [(['a'], 4, 104, 1, 0), (['b'], 3, 94, 10, 1)] := by decide +kernel
example : (resolveDir (ctx1 .checked file1) 5 5 { offset := 62, blockSize := 1, hash := 1876#64 }).map outline ≠ .error .panicOverflow := by
  decide +kernel
example : (ctx1 .wrap file1) = { ctx1 .checked file1 with env := { (ctx1 .checked file1).env with mode := .wrap } } := rfl

end Wz.Props
