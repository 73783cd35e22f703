import Verif.Mode.Image
import Verif.Directory.Model
import Verif.Version.Pkg1Model
import Verif.File.Model
/-!
# Directories with and without overflow checks
-/

set_option autoImplicit false

namespace Wz
variable {b : Bytes} {k k2 : Nat → Byte}

theorem readU8At_ag (p : Nat) : AgR b k k2 (Rd.readU8At p) (Rd.readU8At p) := by
  unfold Rd.readU8At
  exact .getEnv (.lift (.same _))
macro_rules | `(tactic| ag_step) => `(tactic| with_reducible exact readU8At_ag _)

theorem pkg1Tail_ag (name : StrMeta) (ty : DirType) : AgR b k k2 (Rd.pkg1Tail name ty) (Rd.pkg1Tail name ty) := by unfold Rd.pkg1Tail; ag
macro_rules | `(tactic| ag_step) => `(tactic| with_reducible exact pkg1Tail_ag _ _)

theorem readPkg1Entry_ag (s : Nat) : AgR b k k2 (Rd.readPkg1Entry s) (Rd.readPkg1Entry s) := by unfold Rd.readPkg1Entry; ag
macro_rules | `(tactic| ag_step) => `(tactic| with_reducible exact readPkg1Entry_ag _)

theorem pkg1Loop_ag (s n : Nat) (acc : List Entry) : AgR b k k2 (Rd.pkg1Loop s n acc) (Rd.pkg1Loop s n acc) := by
  induction n generalizing acc with
  | zero => exact .pure _
  | succ n ih =>
    rw [Rd.pkg1Loop]
    refine .bind (by ag) fun en => ?_
    split
    · exact .bind (by ag) fun _ => ih _
    · exact .fail _
    · exact ih _
macro_rules | `(tactic| ag_step) => `(tactic| with_reducible exact pkg1Loop_ag _ _ _)

theorem entriesPkg1_ag (s : Nat) : AgR b k k2 (Rd.entriesPkg1 s) (Rd.entriesPkg1 s) := by unfold Rd.entriesPkg1; ag
macro_rules | `(tactic| ag_step) => `(tactic| with_reducible exact entriesPkg1_ag _)

theorem readName2_ag (x y z : Bool) : AgR b k k2 (Rd.readName2 x y z) (Rd.readName2 x y z) := by unfold Rd.readName2; ag
macro_rules | `(tactic| ag_step) => `(tactic| with_reducible exact readName2_ag _ _ _)

theorem readPkg2Entry_ag (x y : Bool) (n : Int) (z : Bool) : AgR b k k2 (Rd.readPkg2Entry x y n z) (Rd.readPkg2Entry x y n z) := by
  unfold Rd.readPkg2Entry
  refine .bind (by ag) fun ty => ?_
  dsimp only
  ag
macro_rules | `(tactic| ag_step) => `(tactic| with_reducible exact readPkg2Entry_ag _ _ _ _)

theorem pkg2Loop_ag (x : Bool) (n : Int) (fuel : Nat) (acc : List Entry) : AgR b k k2 (Rd.pkg2Loop x n fuel acc) (Rd.pkg2Loop x n fuel acc) := by
  induction fuel generalizing acc with
  | zero => exact .fail _
  | succ fuel ih =>
    rw [Rd.pkg2Loop]
    refine .bind (by ag) fun en => ?_
    split
    · exact .pure _
    · exact .fail _
    · exact ih _
macro_rules | `(tactic| ag_step) => `(tactic| with_reducible exact pkg2Loop_ag _ _ _ _)

theorem readOffsets_ag (es : List Entry) : AgR b k k2 (Rd.readOffsets es) (Rd.readOffsets es) := by
  induction es with
  | nil => exact .pure _
  | cons e es ih =>
    rw [Rd.readOffsets]
    ag
macro_rules | `(tactic| ag_step) => `(tactic| with_reducible exact readOffsets_ag _)

theorem entriesPkg2_ag (x : Bool) (fuel : Nat) : AgR b k k2 (Rd.entriesPkg2 x fuel) (Rd.entriesPkg2 x fuel) := by unfold Rd.entriesPkg2; ag
macro_rules | `(tactic| ag_step) => `(tactic| with_reducible exact entriesPkg2_ag _ _)

theorem pkg2Loop64_ag (x : Bool) (m : Int) (n i : Nat) (acc : List Entry) : AgR b k k2 (Rd.pkg2Loop64 x m n i acc) (Rd.pkg2Loop64 x m n i acc) := by
  induction n generalizing i acc with
  | zero => exact .pure _
  | succ n ih =>
    rw [Rd.pkg2Loop64]
    refine .bind (by ag) fun en => ?_
    split
    · exact ih _ _
    · exact ih _ _
    · exact .fail _
    · exact .fail _
macro_rules | `(tactic| ag_step) => `(tactic| with_reducible exact pkg2Loop64_ag _ _ _ _ _)

theorem entriesPkg2_64_ag (v : OffsetVersion) (h : Header) (hash : BitVec 64) (x : Bool) :
    AgR b k k2 (Rd.entriesPkg2_64 v h hash x) (Rd.entriesPkg2_64 v h hash x) := by unfold Rd.entriesPkg2_64; ag
macro_rules | `(tactic| ag_step) => `(tactic| with_reducible exact entriesPkg2_64_ag _ _ _ _)

theorem calc_ag (v : OffsetVersion) (h : Header) (om : OffsetMeta) : AgE (v.calc .checked h om) (v.calc .wrap h om) := by
  cases v <;> unfold OffsetVersion.calc <;> try exact .same _
  unfold readWzOffset
  dsimp only
  by_cases hc : 2 ^ 64 ≤ h.fstart * 2
  · rw [if_pos ⟨rfl, hc⟩]; exact .inl rfl
  · rw [if_neg (fun h => hc h.2), if_neg (fun h => hc h.2)]; exact .inr rfl
macro_rules | `(tactic| ag_step) => `(tactic| with_reducible exact calc_ag _ _ _)

/-- the same reader, header and keys, with or without overflow checks -/
def DirCtx.inMode (x : DirCtx) (m : Mode) : DirCtx := { x with env := { x.env with mode := m } }

variable (x : DirCtx)

theorem prepareEntries_ag (fuel : Nat) (d : Dir) : AgE (prepareEntries (x.inMode .checked) fuel d) (prepareEntries (x.inMode .wrap) fuel d) := by
  unfold prepareEntries
  refine .ite (fun _ => .same _) fun _ => ?_
  have key : ∀ rd : Rd (List Entry), AgR x.env.buf x.env.ks x.env.ks2 rd rd →
      AgE (match (rd.run (x.inMode .checked).env { pos := d.offset, saved := 0 }).1 with
        | .ok es => .ok { d with entries := es, status := .created }
        | .error e => .error e : Except Err Dir)
      (match (rd.run (x.inMode .wrap).env { pos := d.offset, saved := 0 }).1 with
        | .ok es => .ok { d with entries := es, status := .created }
        | .error e => .error e) := by
    intro rd h
    rcases (h { pos := d.offset, saved := 0 }).fst with h | h
    · rw [show (rd.run (x.inMode .checked).env { pos := d.offset, saved := 0 }).1 = _ from h]; exact .inl rfl
    · rw [show (rd.run (x.inMode .checked).env { pos := d.offset, saved := 0 }).1 = _ from h]; exact .inr rfl
  refine key _ ?_
  show AgR _ _ _ (match x.hdr.ident with
      | .v1 => Rd.entriesPkg1 x.hdr.fstart
      | .v2 => if x.hdr.isPkg2_64 then Rd.entriesPkg2_64 d.ver x.hdr d.hash x.keys2 else Rd.entriesPkg2 x.keys2 fuel
      | .unknown => Rd.fail (.lib "UnknownPkgVersion")) (match x.hdr.ident with
      | .v1 => Rd.entriesPkg1 x.hdr.fstart
      | .v2 => if x.hdr.isPkg2_64 then Rd.entriesPkg2_64 d.ver x.hdr d.hash x.keys2 else Rd.entriesPkg2 x.keys2 fuel
      | .unknown => Rd.fail (.lib "UnknownPkgVersion"))
  cases x.hdr.ident <;> dsimp only <;> ag

theorem verify_ag (en : Entry) : AgE (en.verify (x.inMode .checked)) (en.verify (x.inMode .wrap)) := by
  unfold Entry.verify
  refine .bind (addU_ag _ _) fun stop => ?_
  have h : ∀ rd : Rd Int, AgR x.env.buf x.env.ks x.env.ks2 rd rd →
    AgE (rd.run (x.inMode .checked).env { pos := en.offset, saved := 0 }).1 (rd.run (x.inMode .wrap).env { pos := en.offset, saved := 0 }).1 :=
    fun rd h => (h _).fst
  dsimp only
  refine .ite (fun _ => .same _) fun _ => ?_
  all_goals
    cases en.ty <;> dsimp only
    case image => exact .bind (.same _) fun _ => .same _
    case dir =>
      refine .bind (h _ ?_) fun _ => .same _
      exact .ite (fun _ => readWzInt64_ag) fun _ => readWzInt_ag
    all_goals exact .same _

theorem locate_ag (hash : BitVec 64) (ver : OffsetVersion) (en : Entry) :
    AgE (en.locate (x.inMode .checked) hash ver) (en.locate (x.inMode .wrap) hash ver) := by
  unfold Entry.locate
  refine .bind (calc_ag _ _ _) fun off => ?_
  dsimp only
  rcases verify_ag x { en with offset := off } with h | h
  · rw [h]; exact .inl rfl
  · rw [h]; exact .same _

theorem calcVerify_ag (d : Dir) : AgE (calcVerify (x.inMode .checked) d) (calcVerify (x.inMode .wrap) d) := by
  unfold calcVerify
  exact .bind (.mapM (locate_ag x _ _)) fun _ => .same _

theorem AgE.mapError {α : Type} {y z : Except Err α} {f : Err → Err} (h : AgE y z) (hf : f .panicOverflow = .panicOverflow) :
    AgE (y.mapError f) (z.mapError f) := by
  rcases h with h | h <;> subst h
  · exact .inl (congrArg Except.error hf)
  · exact .inr rfl

theorem AgE.unwrapR {α : Type} {y z : Except Err α} (h : AgE y z) : AgE (Wz.unwrapR y) (Wz.unwrapR z) := by
  rcases h with h | h <;> subst h
  · exact .inl rfl
  · exact .inr rfl

theorem toNode_ag (en : Entry) : AgE (en.toNode (x.inMode .checked)) (en.toNode (x.inMode .wrap)) := by
  unfold Entry.toNode
  exact .bind (.unwrapR (resolveMeta_ag _ _ _)) fun _ => .same _

theorem resolveDir_ag (loopFuel fuel : Nat) (d : Dir) :
    AgE (resolveDir (x.inMode .checked) loopFuel fuel d) (resolveDir (x.inMode .wrap) loopFuel fuel d) := by
  induction fuel generalizing d with
  | zero => exact .same _
  | succ fuel ih =>
    rw [resolveDir, resolveDir]
    refine .ite (fun _ => .same _) fun _ => .bind (prepareEntries_ag x _ _) fun d1 => .bind (.mapError (calcVerify_ag x _) rfl) fun d2 =>
      .bind (.mapM (toNode_ag x)) fun nodes => .mapM fun p => ?_
    obtain ⟨n, v⟩ := p
    cases v with
    | dir off size kids => exact .bind (ih _) fun _ => .same _
    | image off size => exact .same _
    | none => exact .same _

theorem locateSt_ag (hash : BitVec 64) (ver : OffsetVersion) (es : List Entry) :
    AgP (locateSt (x.inMode .checked) hash ver es) (locateSt (x.inMode .wrap) hash ver es) := by
  induction es with
  | nil => exact .same _
  | cons en es ih =>
    rw [locateSt, locateSt]
    rcases calc_ag ver x.hdr { hash := hash, encrypted := en.encOff, offset := en.calcOff } with h | h
    · rw [show ver.calc (x.inMode .checked).env.mode (x.inMode .checked).hdr _ = _ from h]; exact .inl rfl
    · rw [show ver.calc (x.inMode .checked).env.mode (x.inMode .checked).hdr { hash := hash, encrypted := en.encOff, offset := en.calcOff } =
        ver.calc (x.inMode .wrap).env.mode (x.inMode .wrap).hdr { hash := hash, encrypted := en.encOff, offset := en.calcOff } from h]
      cases ver.calc (x.inMode .wrap).env.mode (x.inMode .wrap).hdr { hash := hash, encrypted := en.encOff, offset := en.calcOff } with
      | error e => exact .same _
      | ok off =>
        dsimp only
        rcases verify_ag x { en with offset := off } with h | h
        · rw [h]; exact .inl rfl
        · rw [h]
          cases Entry.verify (x.inMode .wrap) { en with offset := off } with
          | error e => exact .same _
          | ok _ =>
            dsimp only
            rcases ih with ih | ih
            · exact .inl ih
            · rw [ih]; exact .same _

theorem calcVerifySt_ag (d : Dir) : AgP (calcVerifySt (x.inMode .checked) d) (calcVerifySt (x.inMode .wrap) d) := by
  unfold calcVerifySt
  rcases locateSt_ag x d.hash d.ver d.entries with h | h
  · exact .inl h
  · rw [h]; exact .same _

/-- what follows a step that agrees, if it hands on the panic of an overflow -/
theorem AgP.step {α β σ τ : Type} {y z : Except Err α × σ} {f g : Except Err α × σ → Except Err β × τ} (h : AgP y z)
    (hf : ∀ s, (f (.error .panicOverflow, s)).1 = .error .panicOverflow) (hg : ∀ r, AgP (f r) (g r)) : AgP (f y) (g z) := by
  rcases h with h | h
  · obtain ⟨r, s⟩ := y
    cases h
    exact .inl (hf s)
  · subst h
    exact hg y

theorem AgE.step {α β σ : Type} {y z : Except Err α} {f g : Except Err α → Except Err β × σ} (h : AgE y z)
    (hf : (f (.error .panicOverflow)).1 = .error .panicOverflow) (hg : ∀ r, AgP (f r) (g r)) : AgP (f y) (g z) := by
  rcases h with h | h <;> subst h
  · exact .inl hf
  · exact hg y

theorem resolveChildrenSt_ag (loopFuel fuel : Nat) (d : Dir) :
    AgP (resolveChildrenSt (x.inMode .checked) loopFuel fuel d) (resolveChildrenSt (x.inMode .wrap) loopFuel fuel d) := by
  unfold resolveChildrenSt
  refine .ite (fun _ => .same _) fun _ => ?_
  rcases prepareEntries_ag x loopFuel d with h | h
  · rw [h]; exact .inl rfl
  rw [h]
  cases prepareEntries (x.inMode .wrap) loopFuel d with
  | error e => exact .same _
  | ok d1 =>
    dsimp only
    rcases calcVerifySt_ag x d1 with h | h
    · rcases hc : calcVerifySt (x.inMode .checked) d1 with ⟨r, d2⟩
      rw [hc] at h
      cases h
      exact .inl rfl
    rw [h]
    rcases calcVerifySt (x.inMode .wrap) d1 with ⟨r, d2⟩
    cases r with
    | error e => exact .same _
    | ok _ =>
      dsimp only
      rcases resolveDir_ag x loopFuel fuel d2 with h | h
      · rw [h]; exact .inl rfl
      · rw [h]; exact .same _

theorem tryDecode_ag (loopFuel fuel : Nat) (withEnc : Bool) (v : Int) (d : Dir) :
    AgP (tryDecode (x.inMode .checked) loopFuel fuel withEnc v d) (tryDecode (x.inMode .wrap) loopFuel fuel withEnc v d) := by
  unfold tryDecode
  refine .ite (fun _ => .same _) fun _ => ?_
  rcases calcVerifySt_ag x d with h | h
  · rcases hc : calcVerifySt (x.inMode .checked) d with ⟨r, d2⟩
    rw [hc] at h
    cases h
    exact .inl rfl
  rw [h]
  rcases calcVerifySt (x.inMode .wrap) d with ⟨r, d2⟩
  cases r with
  | error e => exact .same _
  | ok _ =>
    dsimp only
    rcases resolveChildrenSt_ag x loopFuel fuel d2 with h | h
    · rcases hc : resolveChildrenSt (x.inMode .checked) loopFuel fuel d2 with ⟨r, d3⟩
      rw [hc] at h
      cases h
      exact .inl rfl
    rw [h]
    rcases resolveChildrenSt (x.inMode .wrap) loopFuel fuel d2 with ⟨r, d3⟩
    cases r with
    | error e => exact .same _
    | ok ns => exact .same _

theorem verifyStringDecryptor_ag (d : Dir) : AgE (verifyStringDecryptor (x.inMode .checked) d) (verifyStringDecryptor (x.inMode .wrap) d) := by
  unfold verifyStringDecryptor
  refine .ite (fun _ => .same _) fun _ => ?_
  cases d.entries with
  | nil => exact .same _
  | cons en es =>
    dsimp only
    rcases resolveMeta_ag (b := x.env.buf) (k := x.env.ks) (k2 := x.env.ks2) en.name.ty en.name.offset en.name.length with h | h
    · rw [show resolveMeta (x.inMode .checked).env en.name.ty en.name.offset en.name.length = _ from h]; exact .inl rfl
    · rw [show resolveMeta (x.inMode .checked).env en.name.ty en.name.offset en.name.length = _ from h]; exact .same _

end Wz
