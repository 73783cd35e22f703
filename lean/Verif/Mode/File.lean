import Verif.Mode.Directory
import Verif.File.GuessModel
import Verif.File.IvModel
import Verif.Whole.Model
/-!
# Files with and without overflow checks
-/

set_option autoImplicit false

namespace Wz

theorem addU32_ag (a b : Nat) : AgE (addU32 .checked a b) (addU32 .wrap a b) := by
  unfold addU32; split
  · exact .same _
  · exact .inl rfl
macro_rules | `(tactic| ag_step) => `(tactic| with_reducible exact addU32_ag _ _)

theorem addI32_ag (a b : Int) : AgE (addI32 .checked a b) (addI32 .wrap a b) := by
  unfold addI32; split
  · exact .same _
  · exact .inl rfl
macro_rules | `(tactic| ag_step) => `(tactic| with_reducible exact addI32_ag _ _)

theorem versionHash_ag (v : Int) : AgE (Pkg1.versionHash .checked v) (Pkg1.versionHash .wrap v) := by
  unfold Pkg1.versionHash
  refine .foldlM (fun h c => ?_) _
  unfold Pkg1.hashStep
  ag
macro_rules | `(tactic| ag_step) => `(tactic| with_reducible exact versionHash_ag _)

theorem checkHash_ag (g : Pkg1.Gen) : AgE (g.checkHash .checked) (g.checkHash .wrap) := by
  unfold Pkg1.Gen.checkHash
  exact .bind (versionHash_ag _) fun _ => .same _
macro_rules | `(tactic| ag_step) => `(tactic| with_reducible exact checkHash_ag _)

theorem next_ag (g : Pkg1.Gen) : AgE (g.next .checked) (g.next .wrap) := by
  unfold Pkg1.Gen.next
  ag

/-- the same file, with or without overflow checks -/
def WFile.inMode (f : WFile) (m : Mode) : WFile := { f with env := { f.env with mode := m } }

/-- the first result is the panic of an overflow, or both are equal and so are the files, but for the overflow checks -/
def AgW {α σ : Type} (x y : Except Err α × WFile × σ) : Prop :=
  x.1 = .error .panicOverflow ∨ (y.1 = x.1 ∧ y.2.1 = x.2.1.inMode .wrap ∧ x.2.1.env.mode = .checked ∧ y.2.2 = x.2.2)

theorem AgW.mk {α σ : Type} (r : Except Err α) (f : WFile) (s : σ) : AgW (r, f.inMode .checked, s) (r, f.inMode .wrap, s) :=
  .inr ⟨rfl, rfl, rfl, rfl⟩

/-- a file with checks is the same file with checks -/
theorem inMode_checked {f : WFile} (h : f.env.mode = .checked) : f.inMode .checked = f := by
  obtain ⟨⟨m, b, k, k2⟩, _, _, _, _, _, _, _, _⟩ := f
  cases h
  rfl

theorem AgW.cases {α σ : Type} {x y : Except Err α × WFile × σ} (h : AgW x y) :
    (∃ (f : WFile) (s : σ), x = (.error .panicOverflow, f, s)) ∨ ∃ (r : Except Err α) (f : WFile) (s : σ), x = (r, f.inMode .checked, s) ∧ y = (r, f.inMode .wrap, s) := by
  obtain ⟨r, f, s⟩ := x
  obtain ⟨r', f', s'⟩ := y
  rcases h with h | ⟨h1, h2, h3, h4⟩
  · cases h; exact .inl ⟨f, s, rfl⟩
  · dsimp only at h1 h2 h3 h4
    subst h1 h2 h4
    exact .inr ⟨r', f, s', by rw [inMode_checked h3], rfl⟩

variable (F : Fuel)

theorem pkg1Versions_ag (f : WFile) (withEnc : Bool) (n : Nat) (g : Pkg1.Gen) (d : Dir) :
    AgE (pkg1Versions F (f.inMode .checked) withEnc n g d) (pkg1Versions F (f.inMode .wrap) withEnc n g d) := by
  induction n generalizing g d with
  | zero => exact .same _
  | succ n ih =>
    rw [pkg1Versions, pkg1Versions]
    show AgE (match g.next .checked with | .error e => _ | .ok (none, _) => _ | .ok (some (v, h), g') => _)
      (match g.next .wrap with | .error e => _ | .ok (none, _) => _ | .ok (some (v, h), g') => _)
    rcases next_ag g with h | h
    · rw [h]; exact .inl rfl
    rw [h]
    rcases g.next .wrap with e | ⟨o, g'⟩
    · exact .same _
    rcases o with _ | ⟨v, hash⟩
    · exact .same _
    dsimp only
    rcases tryDecode_ag f.ctx F.loop F.nest withEnc v { d with hash := BitVec.ofNat 64 hash } with h | h
    · rcases hc : tryDecode (f.inMode .checked).ctx F.loop F.nest withEnc v { d with hash := BitVec.ofNat 64 hash } with ⟨r, d2⟩
      have hr : r = .error .panicOverflow := by
        rw [show tryDecode (f.ctx.inMode .checked) F.loop F.nest withEnc v { d with hash := BitVec.ofNat 64 hash } = _ from hc] at h
        exact h
      subst hr
      exact .inl rfl
    rw [show tryDecode (f.inMode .checked).ctx F.loop F.nest withEnc v { d with hash := BitVec.ofNat 64 hash } =
      tryDecode (f.inMode .wrap).ctx F.loop F.nest withEnc v { d with hash := BitVec.ofNat 64 hash } from h]
    rcases tryDecode (f.inMode .wrap).ctx F.loop F.nest withEnc v { d with hash := BitVec.ofNat 64 hash } with ⟨r, d2⟩
    cases r with
    | ok ns => exact .same _
    | error e => exact .ite (fun _ => .same _) fun _ => ih _ _

theorem tryDecode_cases (f : WFile) (withEnc : Bool) (v : Int) (d : Dir) :
    (∃ d', tryDecode (f.inMode .checked).ctx F.loop F.nest withEnc v d = (.error .panicOverflow, d')) ∨
      tryDecode (f.inMode .checked).ctx F.loop F.nest withEnc v d = tryDecode (f.inMode .wrap).ctx F.loop F.nest withEnc v d := by
  rcases tryDecode_ag f.ctx F.loop F.nest withEnc v d with h | h
  · rcases hc : tryDecode (f.inMode .checked).ctx F.loop F.nest withEnc v d with ⟨r, d2⟩
    have hr : r = .error .panicOverflow := by
      rw [show tryDecode (f.ctx.inMode .checked) F.loop F.nest withEnc v d = _ from hc] at h
      exact h
    exact .inl ⟨d2, by rw [hr]⟩
  · exact .inr h

/-- files after an attempt -/
def AgF {α : Type} (x y : Except Err α × WFile) : Prop := AgW (x.1, x.2, ()) (y.1, y.2, ())

/-- a file whose patch version is given -/
def patched (f : WFile) (vh pv : Int) : Except Err (List (List Char × DNode)) × WFile :=
  match (Pkg1.Gen.new vh pv 2000).checkHash f.env.mode with
  | .error e => (.error e, f)
  | .ok h =>
    match tryDecode f.ctx F.loop F.nest f.hdr.encVer.isSome vh { f.root with hash := BitVec.ofNat 64 h } with
    | (.error e, _) => (.error e, f)
    | (.ok ns, _) =>
      (.ok ns, { f with patch := pv, verHeader := vh, withEnc := f.hdr.encVer.isSome, hash := BitVec.ofNat 64 h, parsed := true })

theorem patched_ag (f : WFile) (vh pv : Int) : AgF (patched F (f.inMode .checked) vh pv) (patched F (f.inMode .wrap) vh pv) := by
  unfold patched
  show AgF (match (Pkg1.Gen.new vh pv 2000).checkHash .checked with | .error e => _ | .ok h => _)
    (match (Pkg1.Gen.new vh pv 2000).checkHash .wrap with | .error e => _ | .ok h => _)
  rcases checkHash_ag (Pkg1.Gen.new vh pv 2000) with h | h
  · rw [h]; exact .inl rfl
  rw [h]
  cases (Pkg1.Gen.new vh pv 2000).checkHash .wrap with
  | error e => exact AgW.mk _ f _
  | ok hash =>
    dsimp only
    rcases tryDecode_cases F f f.hdr.encVer.isSome vh { f.root with hash := BitVec.ofNat 64 hash } with ⟨d', h⟩ | h
    · rw [show tryDecode (f.inMode .checked).ctx F.loop F.nest (f.inMode .checked).hdr.encVer.isSome vh { (f.inMode .checked).root with hash := BitVec.ofNat 64 hash } = _ from h]
      exact .inl rfl
    rw [show tryDecode (f.inMode .checked).ctx F.loop F.nest (f.inMode .checked).hdr.encVer.isSome vh { (f.inMode .checked).root with hash := BitVec.ofNat 64 hash } =
      tryDecode (f.inMode .wrap).ctx F.loop F.nest (f.inMode .wrap).hdr.encVer.isSome vh { (f.inMode .wrap).root with hash := BitVec.ofNat 64 hash } from h]
    rcases tryDecode (f.inMode .wrap).ctx F.loop F.nest (f.inMode .wrap).hdr.encVer.isSome vh { (f.inMode .wrap).root with hash := BitVec.ofNat 64 hash } with ⟨r, d⟩
    cases r with
    | error e => exact AgW.mk _ f _
    | ok ns =>
      exact AgW.mk _ { f with patch := pv, verHeader := vh, withEnc := f.hdr.encVer.isSome, hash := BitVec.ofNat 64 hash, parsed := true } _

theorem parsePkg1_ag (n : Nat) (f : WFile) (patch : Option Int) :
    AgF ((f.inMode .checked).parsePkg1 F n patch) ((f.inMode .wrap).parsePkg1 F n patch) := by
  unfold WFile.parsePkg1
  dsimp only
  by_cases hp : patch.getD f.patch = -1
  · rw [if_pos (show patch.getD (f.inMode .checked).patch = -1 from hp), if_pos (show patch.getD (f.inMode .wrap).patch = -1 from hp)]
    rcases pkg1Versions_ag F f f.hdr.encVer.isSome n (Pkg1.parseGen f.hdr.encVer) f.root with h | h
    · rw [show pkg1Versions F (f.inMode .checked) (f.inMode .checked).hdr.encVer.isSome n (Pkg1.parseGen (f.inMode .checked).hdr.encVer)
        (f.inMode .checked).root = _ from h]
      exact .inl rfl
    rw [show pkg1Versions F (f.inMode .checked) (f.inMode .checked).hdr.encVer.isSome n (Pkg1.parseGen (f.inMode .checked).hdr.encVer)
        (f.inMode .checked).root = pkg1Versions F (f.inMode .wrap) (f.inMode .wrap).hdr.encVer.isSome n (Pkg1.parseGen (f.inMode .wrap).hdr.encVer)
        (f.inMode .wrap).root from h]
    rcases pkg1Versions F (f.inMode .wrap) (f.inMode .wrap).hdr.encVer.isSome n (Pkg1.parseGen (f.inMode .wrap).hdr.encVer)
        (f.inMode .wrap).root with e | o
    · exact AgW.mk _ f _
    rcases o with _ | ⟨v, hash, ns⟩
    · exact AgW.mk _ f _
    · exact AgW.mk _ { f with patch := v, verHeader := v, withEnc := f.hdr.encVer.isSome, hash := BitVec.ofNat 64 hash, parsed := true } _
  · rw [if_neg (show ¬patch.getD (f.inMode .checked).patch = -1 from hp), if_neg (show ¬patch.getD (f.inMode .wrap).patch = -1 from hp)]
    exact patched_ag F f (match f.hdr.encVer with | some v => (v : Int) | none => 770) (patch.getD f.patch)

theorem tryProfile_ag (f : WFile) (p : Profile) (hash : BitVec 64) (d : Dir) :
    AgW (tryProfile F (f.inMode .checked) p hash d) (tryProfile F (f.inMode .wrap) p hash d) := by
  unfold tryProfile
  cases hv : f.verified with
  | true =>
    rw [if_pos (show (f.inMode .checked).verified = true from hv), if_pos (show (f.inMode .wrap).verified = true from hv)]
    rcases tryDecode_cases F f false 0 d with ⟨d', h⟩ | h
    · rw [h]; exact .inl rfl
    · rw [h]; exact AgW.mk _ f _
  | false =>
    rw [if_neg (show ¬(f.inMode .checked).verified = true by show ¬f.verified = true; simp [hv]),
      if_neg (show ¬(f.inMode .wrap).verified = true by show ¬f.verified = true; simp [hv])]
    dsimp only
    show AgW (match prepareEntries ((f.updateKeys p hash).ctx.inMode .checked) F.loop d with | .error e => _ | .ok d1 => _)
      (match prepareEntries ((f.updateKeys p hash).ctx.inMode .wrap) F.loop d with | .error e => _ | .ok d1 => _)
    rcases prepareEntries_ag (f.updateKeys p hash).ctx F.loop d with h | h
    · rw [h]; exact .inl rfl
    rw [h]
    cases prepareEntries ((f.updateKeys p hash).ctx.inMode .wrap) F.loop d with
    | error e => exact AgW.mk _ (f.updateKeys p hash) _
    | ok d1 =>
      dsimp only
      show AgW (match verifyStringDecryptor ((f.updateKeys p hash).ctx.inMode .checked) d1 with | .error e => _ | .ok false => _ | .ok true => _)
        (match verifyStringDecryptor ((f.updateKeys p hash).ctx.inMode .wrap) d1 with | .error e => _ | .ok false => _ | .ok true => _)
      rcases verifyStringDecryptor_ag (f.updateKeys p hash).ctx d1 with h | h
      · rw [h]; exact .inl rfl
      rw [h]
      rcases verifyStringDecryptor ((f.updateKeys p hash).ctx.inMode .wrap) d1 with e | _ | _
      · exact AgW.mk _ (f.updateKeys p hash) _
      · exact AgW.mk _ (f.updateKeys p hash) _
      · dsimp only
        rcases tryDecode_cases F (f.updateKeys p hash) false 0 d1 with ⟨d', h⟩ | h
        · rw [show tryDecode ((f.inMode .checked).updateKeys p hash).ctx F.loop F.nest false 0 d1 = _ from h]; exact .inl rfl
        · rw [show tryDecode ((f.inMode .checked).updateKeys p hash).ctx F.loop F.nest false 0 d1 = _ from h]
          exact AgW.mk _ (f.updateKeys p hash) _

theorem cachedLoop_ag (f : WFile) (cs : List Cached) (d : Dir) :
    AgW (cachedLoop F (f.inMode .checked) cs d) (cachedLoop F (f.inMode .wrap) cs d) := by
  induction cs generalizing f d with
  | nil => exact AgW.mk _ f _
  | cons c cs ih =>
    rw [cachedLoop, cachedLoop]
    by_cases h64 : c.profile.is64 ≠ f.hdr.isPkg2_64
    · rw [if_pos (show c.profile.is64 ≠ (f.inMode .checked).hdr.isPkg2_64 from h64), if_pos (show c.profile.is64 ≠ (f.inMode .wrap).hdr.isPkg2_64 from h64)]
      exact ih f d
    rw [if_neg (show ¬c.profile.is64 ≠ (f.inMode .checked).hdr.isPkg2_64 from h64), if_neg (show ¬c.profile.is64 ≠ (f.inMode .wrap).hdr.isPkg2_64 from h64)]
    show AgW (match c.verifyHash f.hdr.hash1 f.hdr.hash2 with | .error e => _ | .ok false => _ | .ok true => _)
      (match c.verifyHash f.hdr.hash1 f.hdr.hash2 with | .error e => _ | .ok false => _ | .ok true => _)
    rcases c.verifyHash f.hdr.hash1 f.hdr.hash2 with e | _ | _
    · exact AgW.mk _ f _
    · exact ih f d
    · dsimp only
      rcases (tryProfile_ag F f c.profile c.hash (setUp c.profile c.hash d)).cases with ⟨g, s, h⟩ | ⟨r, g, s, h, h'⟩
      · rw [h]; exact .inl rfl
      rw [h, h']
      cases r with
      | ok ns => exact AgW.mk _ g _
      | error e =>
        dsimp only
        split
        · exact AgW.mk _ g _
        · exact ih g s

theorem hashLoop_ag (p : Profile) (f : WFile) (hs : List (BitVec 64)) (d : Dir) :
    AgW (hashLoop F p (f.inMode .checked) hs d) (hashLoop F p (f.inMode .wrap) hs d) := by
  induction hs generalizing f d with
  | nil => exact AgW.mk _ f _
  | cons x hs ih =>
    rw [hashLoop, hashLoop]
    rcases (tryProfile_ag F f p x (setUp p x d)).cases with ⟨g, s, h⟩ | ⟨r, g, s, h, h'⟩
    · rw [h]; exact .inl rfl
    rw [h, h']
    cases r with
    | ok ns => exact AgW.mk _ g _
    | error e =>
      dsimp only
      split
      · exact AgW.mk _ g _
      · exact ih g s

theorem profileLoop_ag (f : WFile) (ps : List Profile) (d : Dir) :
    AgW (profileLoop F (f.inMode .checked) ps d) (profileLoop F (f.inMode .wrap) ps d) := by
  induction ps generalizing f d with
  | nil => exact AgW.mk _ f _
  | cons p ps ih =>
    rw [profileLoop, profileLoop]
    by_cases h64 : p.is64 ≠ f.hdr.isPkg2_64
    · rw [if_pos (show p.is64 ≠ (f.inMode .checked).hdr.isPkg2_64 from h64), if_pos (show p.is64 ≠ (f.inMode .wrap).hdr.isPkg2_64 from h64)]
      exact ih f d
    rw [if_neg (show ¬p.is64 ≠ (f.inMode .checked).hdr.isPkg2_64 from h64), if_neg (show ¬p.is64 ≠ (f.inMode .wrap).hdr.isPkg2_64 from h64)]
    show AgW (match p.hashes f.hdr.hash1 f.hdr.hash2 with | .error e => _ | .ok hs => _) (match p.hashes f.hdr.hash1 f.hdr.hash2 with | .error e => _ | .ok hs => _)
    rcases p.hashes f.hdr.hash1 f.hdr.hash2 with e | hs
    · exact AgW.mk _ f _
    · dsimp only
      rcases (hashLoop_ag F p f hs { d with ver := p.ver }).cases with ⟨g, s, h⟩ | ⟨r, g, s, h, h'⟩
      · rw [h]; exact .inl rfl
      rw [h, h']
      rcases r with e | _ | r
      · exact AgW.mk _ g _
      · exact ih g s
      · exact AgW.mk _ g _

theorem parsePkg2_ag (f : WFile) (cache : List Cached) :
    AgW ((f.inMode .checked).parsePkg2 F cache) ((f.inMode .wrap).parsePkg2 F cache) := by
  unfold WFile.parsePkg2
  dsimp only
  have h0 : AgE (if (f.inMode .checked).hdr.isPkg2_64 then .ok (f.inMode .checked).root else prepareEntries (f.inMode .checked).ctx F.loop (f.inMode .checked).root)
      (if (f.inMode .wrap).hdr.isPkg2_64 then .ok (f.inMode .wrap).root else prepareEntries (f.inMode .wrap).ctx F.loop (f.inMode .wrap).root) := by
    show AgE (if f.hdr.isPkg2_64 then .ok f.root else prepareEntries (f.ctx.inMode .checked) F.loop f.root)
      (if f.hdr.isPkg2_64 then .ok f.root else prepareEntries (f.ctx.inMode .wrap) F.loop f.root)
    exact .ite (fun _ => .same _) fun _ => prepareEntries_ag _ _ _
  revert h0
  generalize (if (f.inMode .checked).hdr.isPkg2_64 then .ok (f.inMode .checked).root else prepareEntries (f.inMode .checked).ctx F.loop (f.inMode .checked).root : Except Err Dir) = d0
  generalize (if (f.inMode .wrap).hdr.isPkg2_64 then .ok (f.inMode .wrap).root else prepareEntries (f.inMode .wrap).ctx F.loop (f.inMode .wrap).root : Except Err Dir) = d0'
  intro h0
  rcases h0 with h | h <;> subst h
  · exact .inl rfl
  cases d0 with
  | error e => exact AgW.mk _ f _
  | ok d =>
    dsimp only
    rcases (cachedLoop_ag F f cache d).cases with ⟨g, s, h⟩ | ⟨r, g, s, h, h'⟩
    · rw [h]; exact .inl rfl
    rw [h, h']
    rcases r with e | _ | ⟨c, ns⟩
    · exact AgW.mk _ g _
    · dsimp only
      rcases (profileLoop_ag F g allProfiles s).cases with ⟨g, s, h⟩ | ⟨r, g, s, h, h'⟩
      · rw [h]; exact .inl rfl
      rw [h, h']
      rcases r with e | _ | ⟨c, ns⟩
      · exact AgW.mk _ g _
      · exact AgW.mk _ g _
      · exact AgW.mk _ (g.opened c.hash) _
    · exact AgW.mk _ (g.opened c.hash) _

theorem parseTop_ag (n : Nat) (f : WFile) (patch : Option Int) (cache : List Cached) :
    AgW ((f.inMode .checked).parseTop F n patch cache) ((f.inMode .wrap).parseTop F n patch cache) := by
  unfold WFile.parseTop
  show AgW (match f.hdr.ident with | .v1 => _ | .v2 => _ | .unknown => _) (match f.hdr.ident with | .v1 => _ | .v2 => _ | .unknown => _)
  cases f.hdr.ident with
  | v1 =>
    dsimp only
    rcases (parsePkg1_ag F n f patch).cases with ⟨g, s, h⟩ | ⟨r, g, s, h, h'⟩
    · exact .inl (congrArg Prod.fst h)
    · rcases h1 : (f.inMode .checked).parsePkg1 F n patch with ⟨r1, f1⟩
      rcases h2 : (f.inMode .wrap).parsePkg1 F n patch with ⟨r2, f2⟩
      rw [h1] at h; rw [h2] at h'
      cases h; cases h'
      exact AgW.mk _ g _
  | v2 =>
    dsimp only
    rcases (parsePkg2_ag F f cache).cases with ⟨g, s, h⟩ | ⟨r, g, s, h, h'⟩
    · rw [h]; exact .inl rfl
    · rw [h, h']
      rcases r with e | ⟨c, ns⟩
      · exact AgW.mk _ g _
      · exact AgW.mk _ g _
  | unknown => exact AgW.mk _ f _

theorem parse_ag (n : Nat) (f : WFile) (cache : List Cached) :
    AgF ((f.inMode .checked).parse F n cache) ((f.inMode .wrap).parse F n cache) := by
  unfold WFile.parse
  show AgF (match f.hdr.ident with | .v1 => _ | .v2 => _ | _ => _) (match f.hdr.ident with | .v1 => _ | .v2 => _ | _ => _)
  cases f.hdr.ident with
  | v1 => exact parsePkg1_ag F n f none
  | v2 =>
    dsimp only
    rcases (parsePkg2_ag F f cache).cases with ⟨g, s, h⟩ | ⟨r, g, s, h, h'⟩
    · rw [h]; exact .inl rfl
    · rw [h, h']
      rcases r with e | ⟨c, ns⟩
      · exact AgW.mk _ g _
      · exact AgW.mk _ g _
  | unknown => exact AgW.mk _ f _

section
variable {b : Bytes} {k k2 : Nat → Byte}

theorem firstCount_ag (h : Header) (n : Int) : AgR b k k2 (Rd.firstCount h n) (Rd.firstCount h n) := by
  unfold Rd.firstCount
  cases h.ident <;> dsimp only <;> ag
macro_rules | `(tactic| ag_step) => `(tactic| with_reducible exact firstCount_ag _ _)

theorem firstNameTail_ag (h : Header) : AgR b k k2 (Rd.firstNameTail h) (Rd.firstNameTail h) := by unfold Rd.firstNameTail; ag
macro_rules | `(tactic| ag_step) => `(tactic| with_reducible exact firstNameTail_ag _)

theorem firstName_ag (h : Header) : AgR b k k2 (Rd.firstName h) (Rd.firstName h) := by unfold Rd.firstName; ag

theorem firstName2_ag (h : Header) : AgR b k k2 (Rd.firstName2 h) (Rd.firstName2 h) := by unfold Rd.firstName2; ag

theorem verifyMeta_ag (key : SKey) (sm : StrMeta) : AgE (verifyMeta .checked b key sm) (verifyMeta .wrap b key sm) := by
  unfold verifyMeta
  rcases tryResolveMeta_ag (b := b) (k := if key.pkg2 then noKeys else key.ks) (k2 := key.ks) sm.ty sm.offset sm.length with h | h
  · rw [show tryResolveMeta (key.env .checked b) sm.ty sm.offset sm.length = _ from h]; exact .inl rfl
  · rw [show tryResolveMeta (key.env .checked b) sm.ty sm.offset sm.length = _ from h]; exact .same _

theorem orNone_ag {x y : Except Err StrMeta} (h : AgE x y) : AgE (orNone x) (orNone y) := by
  rcases h with h | h <;> subst h
  · exact .inl rfl
  · exact .same _

theorem verifyKey_ag (key : SKey) : AgE (verifyKey .checked b key) (verifyKey .wrap b key) := by
  unfold verifyKey
  rcases (firstName_ag (b := b) (k := noKeys) (k2 := noKeys) (headerOf b) ⟨0, 0⟩).fst with h | h
  · rw [show ((Rd.firstName (headerOf b)).run (plainEnv .checked b) ⟨0, 0⟩).1 = _ from h]; exact .inl rfl
  · rw [show ((Rd.firstName (headerOf b)).run (plainEnv .checked b) ⟨0, 0⟩).1 = ((Rd.firstName (headerOf b)).run (plainEnv .wrap b) ⟨0, 0⟩).1 from h]
    cases ((Rd.firstName (headerOf b)).run (plainEnv .wrap b) ⟨0, 0⟩).1 with
    | error e => exact .same _
    | ok sm => exact verifyMeta_ag _ _

theorem guessLoop_ag (st : Bytes → Nat → Byte) (sm : StrMeta) (vs : List MapleVersion) :
    AgE (guessLoop .checked st b sm vs) (guessLoop .wrap st b sm vs) := by
  induction vs with
  | nil => exact .same _
  | cons v vs ih =>
    rw [guessLoop, guessLoop]
    rcases verifyMeta_ag (b := b) (versionKey st v) sm with h | h
    · rw [h]; exact .inl rfl
    rw [h]
    rcases verifyMeta .wrap b (versionKey st v) sm with e | _ | _
    · exact .same _
    · exact ih
    · exact .same _

theorem guessAmong_ag (st : Bytes → Nat → Byte) (sm : StrMeta) (vs : List MapleVersion) :
    AgE (guessAmong .checked st b sm vs) (guessAmong .wrap st b sm vs) := by
  unfold guessAmong
  exact .ite (fun _ => .same _) fun _ => guessLoop_ag _ _ _

theorem guessKey_ag (st : Bytes → Nat → Byte) : AgE (guessKey .checked st b) (guessKey .wrap st b) := by
  unfold guessKey
  rcases orNone_ag (firstName_ag (b := b) (k := noKeys) (k2 := noKeys) (headerOf b) ⟨0, 0⟩).fst with h | h
  · rw [show orNone ((Rd.firstName (headerOf b)).run (plainEnv .checked b) ⟨0, 0⟩).1 = _ from h]; exact .inl rfl
  rw [show orNone ((Rd.firstName (headerOf b)).run (plainEnv .checked b) ⟨0, 0⟩).1 = orNone ((Rd.firstName (headerOf b)).run (plainEnv .wrap b) ⟨0, 0⟩).1 from h]
  cases orNone ((Rd.firstName (headerOf b)).run (plainEnv .wrap b) ⟨0, 0⟩).1 with
  | error e => exact .same _
  | ok sm =>
    dsimp only
    rcases guessAmong_ag (b := b) st sm [.bms, .gms, .ems] with h | h
    · rw [h]; exact .inl rfl
    rw [h]
    rcases guessAmong .wrap st b sm [.bms, .gms, .ems] with e | _ | v
    · exact .same _
    · dsimp only
      rcases orNone_ag (firstName2_ag (b := b) (k := noKeys) (k2 := noKeys) (headerOf b) ⟨0, 0⟩).fst with h | h
      · rw [show orNone ((Rd.firstName2 (headerOf b)).run (plainEnv .checked b) ⟨0, 0⟩).1 = _ from h]; exact .inl rfl
      rw [show orNone ((Rd.firstName2 (headerOf b)).run (plainEnv .checked b) ⟨0, 0⟩).1 = orNone ((Rd.firstName2 (headerOf b)).run (plainEnv .wrap b) ⟨0, 0⟩).1 from h]
      cases orNone ((Rd.firstName2 (headerOf b)).run (plainEnv .wrap b) ⟨0, 0⟩).1 with
      | error e => exact .same _
      | ok sm => exact guessAmong_ag _ _ _
    · exact .same _

theorem openKey_ag (st : Bytes → Nat → Byte) (given : Option SKey) : AgE (openKey .checked st b given) (openKey .wrap st b given) := by
  have hg : AgE (match guessKey .checked st b with | .error x => .error x | .ok r => .ok (r.map (versionKey st)) : Except Err (Option SKey))
      (match guessKey .wrap st b with | .error x => .error x | .ok r => .ok (r.map (versionKey st))) := by
    rcases guessKey_ag (b := b) st with h | h
    · rw [h]; exact .inl rfl
    · rw [h]; exact .same _
  unfold openKey
  dsimp only
  cases given with
  | none => exact hg
  | some key =>
    dsimp only
    rcases verifyKey_ag (b := b) key with h | h
    · rw [h]; exact .inl rfl
    rw [h]
    rcases verifyKey .wrap b key with e | _ | _
    · exact .same _
    · exact hg
    · exact .same _

theorem verifyFileIv_ag (st : Bytes → Nat → Byte) (iv : Bytes) : AgE (verifyFileIv .checked st b iv) (verifyFileIv .wrap st b iv) := by
  unfold verifyFileIv
  dsimp only
  rcases (firstName_ag (b := b) (k := (fileIvKey st iv).ks) (k2 := (fileIvKey st iv).ks) (headerOf b) ⟨0, 0⟩).fst with h | h
  · rw [show ((Rd.firstName (headerOf b)).run ((fileIvKey st iv).env .checked b) ⟨0, 0⟩).1 = _ from h]; exact .inl rfl
  rw [show ((Rd.firstName (headerOf b)).run ((fileIvKey st iv).env .checked b) ⟨0, 0⟩).1 =
    ((Rd.firstName (headerOf b)).run ((fileIvKey st iv).env .wrap b) ⟨0, 0⟩).1 from h]
  cases ((Rd.firstName (headerOf b)).run ((fileIvKey st iv).env .wrap b) ⟨0, 0⟩).1 with
  | error e => exact .same _
  | ok sm =>
    dsimp only
    rcases tryResolveMeta_ag (b := b) (k := (fileIvKey st iv).ks) (k2 := (fileIvKey st iv).ks) sm.ty sm.offset sm.length with h | h
    · rw [show tryResolveMeta ((fileIvKey st iv).env .checked b) sm.ty sm.offset sm.length = _ from h]; exact .inl rfl
    · rw [show tryResolveMeta ((fileIvKey st iv).env .checked b) sm.ty sm.offset sm.length = tryResolveMeta ((fileIvKey st iv).env .wrap b) sm.ty sm.offset sm.length from h]
      exact .same _

theorem guessFileIv_ag (st : Bytes → Nat → Byte) : AgE (guessFileIv .checked st b) (guessFileIv .wrap st b) := by
  unfold guessFileIv
  generalize [MapleVersion.bms, .gms, .ems] = vs
  induction vs with
  | nil => exact .same _
  | cons v vs ih =>
    rw [guessFileIvLoop, guessFileIvLoop]
    rcases verifyFileIv_ag (b := b) st (ivOfVersion v) with h | h
    · rw [h]; exact .inl rfl
    rw [h]
    rcases verifyFileIv .wrap st b (ivOfVersion v) with e | _ | _
    · exact .same _
    · exact ih
    · exact .same _

end

end Wz
