import Verif.File.Model
import Verif.Directory.Errs
/-!
# Reading the entries of a directory does not look at the directory key
-/

set_option autoImplicit false
variable {α β γ : Type}

namespace Wz

/-- the same reader with another directory key -/
def Env.key (e : Env) (k : Nat → Byte) : Env := { e with ks2 := k }

/-- the operation does not look at the directory key -/
def Rd.Blind (m : Rd α) : Prop := ∀ (e : Env) (k : Nat → Byte) (c : Cur), m.run (e.key k) c = m.run e c

theorem Rd.Blind.bind {m : Rd α} {f : α → Rd β} (hm : m.Blind) (hf : ∀ a, (f a).Blind) : (m >>= f).Blind := by
  intro e k c
  rw [Rd.bind_run, Rd.bind_run, hm]
  split
  · exact hf _ e k _
  · rfl

theorem Rd.Blind.env {f : Env → Rd β} (h1 : ∀ e k, f (Env.key e k) = f e) (h2 : ∀ e, (f e).Blind) :
    (Rd.getEnv >>= f).Blind := by
  intro e k c
  rw [Rd.bind_ok (Rd.getEnv_run _ c), Rd.bind_ok (Rd.getEnv_run _ c), h1]
  exact h2 e e k c

theorem Rd.Blind.pure (a : α) : (Pure.pure a : Rd α).Blind := fun _ _ _ => rfl
theorem Rd.Blind.lift (x : Except Err α) : (Rd.lift x).Blind := fun _ _ _ => rfl
theorem Rd.Blind.fail (x : Err) : (Rd.fail x : Rd α).Blind := fun _ _ _ => rfl
theorem Rd.Blind.getPos : Rd.getPos.Blind := fun _ _ _ => rfl
theorem Rd.Blind.seek (p : Nat) : (Rd.seek p).Blind := fun _ _ _ => rfl
theorem Rd.Blind.skip (p : Nat) : (Rd.skip p).Blind := fun _ _ _ => rfl
theorem Rd.Blind.readLE (w : Nat) : (Rd.readLE w).Blind := fun _ _ _ => rfl
theorem Rd.Blind.readInt (w : Nat) : (Rd.readInt w).Blind := .bind (.readLE w) fun _ => .pure _

theorem Rd.Blind.readWzInt : Rd.readWzInt.Blind := by
  refine .bind (.readInt 1) fun a => ?_
  split
  · exact .readInt 4
  · exact .pure _

theorem Rd.Blind.readWzInt64 : Rd.readWzInt64.Blind := by
  refine .bind (.readInt 1) fun a => ?_
  split
  · exact .readInt 8
  · exact .pure _

theorem Rd.Blind.readWzStringMeta : Rd.readWzStringMeta.Blind := by
  refine .bind (.readInt 1) fun a => ?_
  split
  · exact .pure _
  · split
    · exact .bind (.readInt 4) fun _ => .env (fun _ _ => rfl) fun _ => .bind (.lift _) fun _ => .bind .getPos fun _ =>
        .bind (.skip _) fun _ => .pure _
    · exact .env (fun _ _ => rfl) fun _ => .bind (.lift _) fun _ => .bind .getPos fun _ =>
        .bind (.skip _) fun _ => .pure _
  · split
    · exact .bind (.readInt 4) fun _ => .bind .getPos fun _ => .bind (.skip _) fun _ => .pure _
    · exact .bind .getPos fun _ => .bind (.skip _) fun _ => .pure _
  · exact .fail _

theorem Rd.Blind.readWzStringMetaAt (p : Nat) : (Rd.readWzStringMetaAt p).Blind := by
  intro e k c
  unfold Rd.readWzStringMetaAt
  dsimp only
  rw [Rd.Blind.readWzStringMeta]

theorem Rd.Blind.pkg2Len (b : Nat) (l : Int) : (Rd.pkg2Len b l).Blind := by
  refine .env (fun _ _ => rfl) fun e => .bind (.lift _) fun n => ?_
  split
  · exact .pure _
  · split
    · exact .fail _
    · exact .pure _

theorem Rd.Blind.readPkg2DirMeta (w : Nat) : (Rd.readPkg2DirMeta w).Blind := by
  refine .bind (.readInt w) fun l => ?_
  split
  · exact .pure _
  · exact .bind (.pkg2Len _ _) fun _ => .bind .getPos fun _ => .bind (.skip _) fun _ => .pure _

theorem Rd.Blind.readU8At (p : Nat) : (Rd.readU8At p).Blind := .env (fun _ _ => rfl) fun _ => .lift _

theorem Rd.Blind.pkg1Tail (m : StrMeta) (ty : DirType) : (Rd.pkg1Tail m ty).Blind :=
  .bind .readWzInt fun _ => .bind .readWzInt fun _ => .bind .getPos fun _ => .bind (.readLE 4) fun _ => .pure _

theorem Rd.Blind.readPkg1Entry (f : Nat) : (Rd.readPkg1Entry f).Blind := by
  refine .bind (.readLE 1) fun b => ?_
  split
  · exact .pure _
  · exact .pure _
  · exact .bind (.readInt 4) fun so => .env (fun _ _ => rfl) fun e => .bind (.lift _) fun off => .bind (.readU8At _) fun b2 =>
      .bind (.lift _) fun p => .bind (.readWzStringMetaAt p) fun m => .pkg1Tail m _
  · exact .bind .readWzStringMeta fun m => .pkg1Tail m _

theorem Rd.Blind.pkg1Loop (f n : Nat) (acc : List Entry) : (Rd.pkg1Loop f n acc).Blind := by
  induction n generalizing acc with
  | zero => exact .pure _
  | succ n ih =>
    refine .bind (.readPkg1Entry f) fun en => ?_
    split
    · exact .bind (.skip 10) fun _ => ih acc
    · exact .fail _
    · exact ih _

theorem Rd.Blind.entriesPkg1 (f : Nat) : (Rd.entriesPkg1 f).Blind := by
  refine .bind .readWzInt fun c => ?_
  split
  · exact .fail _
  · exact .pkg1Loop f _ _

theorem Rd.Blind.readName2 (k i f : Bool) : (Rd.readName2 k i f).Blind := by
  unfold Rd.readName2
  split
  · split
    · exact .readPkg2DirMeta 2
    · exact .readPkg2DirMeta 1
  · exact .readWzStringMeta

theorem Rd.Blind.readPkg2Entry (k i : Bool) (c : Int) (f : Bool) : (Rd.readPkg2Entry k i c f).Blind := by
  refine .bind (.readLE 1) fun b => ?_
  dsimp only
  split
  · exact .bind (.readName2 k i f) fun _ => .bind .readWzInt fun _ => .bind .readWzInt fun _ => .pure _
  · exact .bind (.readName2 k i f) fun _ => .bind .readWzInt fun _ => .bind .readWzInt fun _ => .pure _
  · refine .bind .getPos fun _ => .bind (.seek _) fun _ => .bind .readWzInt fun t => ?_
    split
    · exact .bind (.seek _) fun _ => .pure _
    · exact .pure _
  · exact .fail _

theorem Rd.Blind.pkg2Loop (k : Bool) (c : Int) (n : Nat) (acc : List Entry) : (Rd.pkg2Loop k c n acc).Blind := by
  induction n generalizing acc with
  | zero => exact .fail _
  | succ n ih =>
    refine .bind (.readPkg2Entry k false c _) fun en => ?_
    split
    · exact .pure _
    · exact .fail _
    · exact ih _

theorem Rd.Blind.readOffsets (es : List Entry) : (Rd.readOffsets es).Blind := by
  induction es with
  | nil => exact .pure _
  | cons en es ih => exact .bind .getPos fun _ => .bind (.readLE 4) fun _ => .bind ih fun _ => .pure _

theorem Rd.Blind.entriesPkg2 (k : Bool) (n : Nat) : (Rd.entriesPkg2 k n).Blind := by
  refine .bind .readWzInt fun c => .bind (.pkg2Loop k c n []) fun es => .bind .readWzInt fun o => ?_
  split
  · exact .fail _
  · exact .readOffsets es

theorem Rd.Blind.pkg2Loop64 (k : Bool) (c : Int) (n i : Nat) (acc : List Entry) : (Rd.pkg2Loop64 k c n i acc).Blind := by
  induction n generalizing i acc with
  | zero => exact .pure _
  | succ n ih =>
    refine .bind (.readPkg2Entry k true c _) fun en => ?_
    split
    · exact ih _ _
    · exact ih _ _
    · exact .fail _
    · exact .fail _

theorem Rd.Blind.entriesPkg2_64 (v : OffsetVersion) (h : Header) (hash : BitVec 64) (k : Bool) :
    (Rd.entriesPkg2_64 v h hash k).Blind := by
  unfold Rd.entriesPkg2_64
  split
  · exact .fail _
  · refine .bind .readWzInt64 fun e => .bind (.lift _) fun n => ?_
    split
    · exact .fail _
    · exact .bind (.pkg2Loop64 k _ n 0 []) fun es => .readOffsets es

/-- the same context with another directory key -/
def DirCtx.key (x : DirCtx) (k : Nat → Byte) : DirCtx := { x with env := x.env.key k }

/-- how `prepareEntries` reads -/
def entriesRd (h : Header) (keys2 : Bool) (lf : Nat) (v : OffsetVersion) (hash : BitVec 64) : Rd (List Entry) :=
  match h.ident with
  | .v1 => Rd.entriesPkg1 h.fstart
  | .v2 => if h.isPkg2_64 then Rd.entriesPkg2_64 v h hash keys2 else Rd.entriesPkg2 keys2 lf
  | .unknown => Rd.fail (.lib "UnknownPkgVersion")

theorem entriesRd_blind (h : Header) (keys2 : Bool) (lf : Nat) (v : OffsetVersion) (hash : BitVec 64) :
    (entriesRd h keys2 lf v hash).Blind := by
  unfold entriesRd
  split
  · exact .entriesPkg1 _
  · split
    · exact .entriesPkg2_64 _ _ _ _
    · exact .entriesPkg2 _ _
  · exact .fail _

theorem prepareEntries_init (x : DirCtx) (lf : Nat) (d : Dir) (hd : d.status = .init) :
    prepareEntries x lf d = ((entriesRd x.hdr x.keys2 lf d.ver d.hash).run x.env ⟨d.offset, 0⟩).1.map
      fun es => { d with entries := es, status := .created } := by
  unfold prepareEntries
  rw [if_neg (by rw [hd]; decide)]
  change (match ((entriesRd x.hdr x.keys2 lf d.ver d.hash).run x.env ⟨d.offset, 0⟩).1 with
    | .ok es => Except.ok { d with entries := es, status := .created }
    | .error e => .error e) = _
  cases ((entriesRd x.hdr x.keys2 lf d.ver d.hash).run x.env ⟨d.offset, 0⟩).1 <;> rfl

theorem prepareEntries_key (x : DirCtx) (k : Nat → Byte) (lf : Nat) (d : Dir) :
    prepareEntries (x.key k) lf d = prepareEntries x lf d := by
  by_cases hd : d.status = .init
  · rw [prepareEntries_init _ _ _ hd, prepareEntries_init _ _ _ hd]
    have := entriesRd_blind x.hdr x.keys2 lf d.ver d.hash x.env k ⟨d.offset, 0⟩
    change Except.map _ ((entriesRd x.hdr x.keys2 lf d.ver d.hash).run (x.env.key k) ⟨d.offset, 0⟩).1 = _
    rw [this]
  · unfold prepareEntries
    rw [if_pos hd, if_pos hd]

/-! ## and neither does the check of the first name -/

theorem units_len {as bs : Bytes} (h : as.length = bs.length) :
    (units as).map (fun _ => ()) = (units bs).map (fun _ => ()) := by
  induction as using units.induct generalizing bs with
  | case1 => cases bs with
    | nil => rfl
    | cons b bs => cases h
  | case2 a => cases bs with
    | nil => cases h
    | cons b bs => cases bs with
      | nil => rfl
      | cons b' bs => simp at h
  | case3 a b r ih => cases bs with
    | nil => cases h
    | cons c bs => cases bs with
      | nil => simp at h
      | cons c' bs =>
        have := ih (bs := bs) (by simpa using h)
        unfold units
        cases h1 : units r <;> cases h2 : units bs <;> rw [h1, h2] at this <;> simp_all [bind, Except.bind, pure, Except.pure, Except.map]

theorem decryptSlice_key (m : Mode) (buf : Bytes) (k k' : Nat → Byte) (p n : Nat) :
    (decryptSlice m buf k p n).map List.length = (decryptSlice m buf k' p n).map List.length := by
  unfold decryptSlice
  cases addU m p n with
  | error e => rfl
  | ok s =>
    simp only [bind, Except.bind]
    cases sliceOrError buf p s with
    | error e => rfl
    | ok s => simp [Except.map, pure, Except.pure, decryptWith]

theorem resolveMeta_key (e : Env) (k : Nat → Byte) (ty : StrType) (p n : Nat) :
    (resolveMeta (e.key k) ty p n).map (fun _ => ()) = (resolveMeta e ty p n).map (fun _ => ()) := by
  cases ty with
  | empty => rfl
  | unicode => rfl
  | ascii => rfl
  | pkg2Dir =>
    have h := decryptSlice_key e.mode e.buf k e.ks2 p n
    simp only [resolveMeta, resolvePkg2DirRaw, Env.key, bind, Except.bind]
    cases h1 : decryptSlice e.mode e.buf k p n with
    | error x =>
      cases h2 : decryptSlice e.mode e.buf e.ks2 p n with
      | error y => rw [h1, h2] at h; simp [Except.map] at h; rw [h]
      | ok b => rw [h1, h2] at h; cases h
    | ok a =>
      cases h2 : decryptSlice e.mode e.buf e.ks2 p n with
      | error y => rw [h1, h2] at h; cases h
      | ok b =>
        rw [h1, h2] at h
        have h := units_len (as := a) (bs := b) (by simpa [Except.map] using h)
        dsimp only
        cases h3 : units a <;> cases h4 : units b <;> rw [h3, h4] at h <;> simp_all [Except.map, pure, Except.pure]

theorem verifyStringDecryptor_key (x : DirCtx) (k : Nat → Byte) (d : Dir) :
    verifyStringDecryptor (x.key k) d = verifyStringDecryptor x d := by
  unfold verifyStringDecryptor
  split
  · rfl
  · split
    · rfl
    · rename_i en es _
      have h := resolveMeta_key x.env k en.name.ty en.name.offset en.name.length
      dsimp only [DirCtx.key]
      cases h3 : resolveMeta (x.env.key k) en.name.ty en.name.offset en.name.length <;>
        cases h4 : resolveMeta x.env en.name.ty en.name.offset en.name.length <;> rw [h3, h4] at h <;>
        simp_all [Except.map]

end Wz
