import Verif.File.ShareSpec
import Verif.Keys.Props
import Verif.Pixel.Lemmas

/-!
# Lemmas for C62
-/

set_option autoImplicit false

namespace Wz

open Spec

/-! ### one decryptor -/

def GoodDec (aes : Aes) : Dec → Prop
  | .ecb d => d.Good aes
  | .pkg2 d => d.keys.length = 8

theorem fromIv_ok (iv : Bytes) : Ecb.fromIv iv = .ok (Ecb.new iv gameKey) := Props.C07_default_key iv

theorem good_pkg2 {aes : Aes} (d : Pkg2Dec) (k : BitVec 64) (t : DecType) : GoodDec aes (.pkg2 (d.setIv k t)) := rfl

theorem good_default {aes : Aes} : GoodDec aes (.pkg2 Pkg2Dec.default) := rfl

theorem good_ecb {aes : Aes} (iv : Bytes) (h : iv.length = 4) : GoodDec aes (.ecb (Ecb.new iv gameKey)) := Ecb.good_new aes iv _ h

theorem keyByte_ecb {aes : Aes} (ha : aes.Sized) {d : Ecb} (hd : d.Good aes) (i : Nat) :
    (Dec.ecb d).keyByte aes i = Spec.keyByte aes d.aesKey d.iv i := by
  obtain ⟨d', h0, hg, h1, h2, h3, h4, h5⟩ := Ecb.grow_run ha hd (i + 1)
  unfold Dec.keyByte
  dsimp only
  rw [h0]
  dsimp only
  split
  · rename_i hw
    have hz := hg.zero
    rw [hw] at hz
    unfold Spec.keyByte
    rw [if_pos (h1 ▸ of_decide_eq_true hz.symm)]
  · rw [Ecb.tryAt_getD hg h5, h1, h2]

theorem ivStream_zero {aes : Aes} (i : Nat) : ivStream aes [0#8, 0#8, 0#8, 0#8] i = 0#8 := by
  unfold ivStream Spec.keyByte
  exact if_pos rfl

theorem keyByte_new {aes : Aes} (ha : aes.Sized) {iv : Bytes} (h : iv.length = 4) :
    (Dec.ecb (Ecb.new iv gameKey)).keyByte aes = ivStream aes iv := by
  funext i
  exact keyByte_ecb ha (good_ecb iv h) i

theorem dec_grow {aes : Aes} (ha : aes.Sized) {d : Dec} (hd : GoodDec aes d) (n : Nat) :
    ∃ d', d.grow aes n = .ok d' ∧ GoodDec aes d' ∧ d'.isPkg2 = d.isPkg2 ∧ d'.keyByte aes = d.keyByte aes ∧
      ∀ data : Bytes, data.length = n → d'.decrypt data = .ok (xorStream (d.keyByte aes) data) := by
  cases d with
  | ecb d =>
    obtain ⟨d', h0, hg, h1, h2, h3, h4, h5⟩ := Ecb.grow_run ha hd n
    refine ⟨.ecb d', by show (d.grow aes n).map Dec.ecb = _; rw [h0]; rfl, hg, rfl, ?_, fun data hl => ?_⟩
    · funext i
      rw [keyByte_ecb ha hg, keyByte_ecb ha hd, h1, h2]
    · show d'.decrypt data = _
      rw [Ecb.decrypt_run hg data (hl ▸ h5), h1, h2]
      congr 2
      funext i
      exact (keyByte_ecb ha hd i).symm
  | pkg2 d =>
    refine ⟨.pkg2 d, rfl, hd, rfl, rfl, fun data _ => ?_⟩
    show d.decrypt data = _
    unfold Pkg2Dec.decrypt
    rw [mapM_okay (g := fun p => p.2 ^^^ (Dec.pkg2 d).keyByte aes p.1)]
    · congr 1
      apply List.ext_getElem
      · simp [xorStream]
      · intro i h1 h2; simp [xorStream]
    · rintro ⟨i, b⟩ _
      have hl : i % 8 < d.keys.length := by
        have : d.keys.length = 8 := hd
        omega
      show (match d.keys[i % 8]? with | some k => Except.ok (b ^^^ k) | none => .error Err.panicIndex) = .ok (b ^^^ (d.keys[i % 8]?).getD 0#8)
      rw [List.getElem?_eq_getElem hl]
      rfl

/-! ### the memory -/

theorem decryptsWith_keyByte {aes : Aes} (ha : aes.Sized) {mem : DMem} {k : Nat} {d : Dec} (hk : mem[k]? = some d) (hd : GoodDec aes d) :
    DecryptsWith aes mem k (d.keyByte aes) := by
  intro data
  obtain ⟨d', h0, _, _, _, h5⟩ := dec_grow ha hd data.length
  unfold DMem.decryptAt
  rw [hk]
  dsimp only
  rw [h0]
  exact h5 data rfl

theorem xorStream_inj {ks ks' : Nat → Byte} (h : ∀ data, xorStream ks data = xorStream ks' data) : ks = ks' := by
  funext i
  have := congrArg (fun l : Bytes => l[i]?) (h (List.replicate (i + 1) 0#8))
  simpa [xorStream] using this

theorem decryptsWith_unique {aes : Aes} {mem : DMem} {k : Nat} {ks ks' : Nat → Byte} (h : DecryptsWith aes mem k ks)
    (h' : DecryptsWith aes mem k ks') : ks = ks' :=
  xorStream_inj fun data => Except.ok.inj ((h data).symm.trans (h' data))

theorem skey_of {aes : Aes} {mem : DMem} {k : Nat} {d : Dec} (hk : mem[k]? = some d) : mem.skey aes k = ⟨d.isPkg2, d.keyByte aes⟩ := by
  unfold DMem.skey
  rw [hk]

theorem skey_append {aes : Aes} {mem : DMem} {k : Nat} (d : Dec) (hk : k < mem.length) : DMem.skey aes (mem ++ [d]) k = mem.skey aes k := by
  unfold DMem.skey
  rw [List.getElem?_append_left hk]

theorem skey_new {aes : Aes} {mem : DMem} (d : Dec) : DMem.skey aes (mem ++ [d]) mem.length = ⟨d.isPkg2, d.keyByte aes⟩ :=
  skey_of (by simp)

/-! ### what never changes -/

structure ShareInv (aes : Aes) (w : SWorld) : Prop where
  good : ∀ d ∈ w.mem, GoodDec aes d
  long : 4 ≤ w.mem.length
  gms : w.mem.skey aes 0 = ⟨false, ivStream aes [0x4D#8, 0x23#8, 0xC7#8, 0x2B#8]⟩
  kms : w.mem.skey aes 1 = ⟨false, ivStream aes [0xB9#8, 0x7D#8, 0x63#8, 0xE9#8]⟩
  general : w.mem.skey aes 2 = ⟨false, noKeys⟩
  kmst1198 : w.mem.skey aes 3 = ⟨true, kmst1198Stream⟩
  keysAt : ∀ f ∈ w.files, f.keys < w.mem.length ∧ f.pkg2 < w.mem.length ∧ (w.mem.skey aes f.keys).pkg2 = false
  own : ∀ f ∈ w.files, f.body.verified = false → 4 ≤ f.pkg2 ∧ (w.mem.skey aes f.pkg2).pkg2 = true
  apart : ∀ (i j : Nat) (f g : SFile), w.files[i]? = some f → w.files[j]? = some g → i ≠ j → f.body.verified = false → g.pkg2 ≠ f.pkg2

/-- memory that differs only in what no one else uses: at `x` -/
structure MemStep (aes : Aes) (x : Option Nat) (mem mem' : DMem) : Prop where
  good : (∀ d ∈ mem, GoodDec aes d) → ∀ d ∈ mem', GoodDec aes d
  long : mem.length ≤ mem'.length
  same : ∀ k, k < mem.length → some k ≠ x → mem'.skey aes k = mem.skey aes k
  kind : ∀ k, k < mem.length → (mem'.skey aes k).pkg2 = (mem.skey aes k).pkg2

theorem MemStep.refl {aes : Aes} {x : Option Nat} (mem : DMem) : MemStep aes x mem mem :=
  ⟨id, Nat.le_refl _, fun _ _ _ => rfl, fun _ _ => rfl⟩

theorem MemStep.alloc {aes : Aes} {mem : DMem} {d : Dec} (hd : GoodDec aes d) : MemStep aes none mem (mem ++ [d]) where
  good h e he := by
    rcases List.mem_append.1 he with he | he
    · exact h e he
    · rw [List.mem_singleton.1 he]; exact hd
  long := by simp
  same k hk _ := skey_append d hk
  kind k hk := by rw [skey_append d hk]

theorem MemStep.trans {aes : Aes} {mem mem' mem'' : DMem} (h : MemStep aes none mem mem') (h' : MemStep aes none mem' mem'') :
    MemStep aes none mem mem'' where
  good := h'.good ∘ h.good
  long := Nat.le_trans h.long h'.long
  same k hk hx := (h'.same k (Nat.lt_of_lt_of_le hk h.long) hx).trans (h.same k hk hx)
  kind k hk := (h'.kind k (Nat.lt_of_lt_of_le hk h.long)).trans (h.kind k hk)

theorem skey_set_ne {aes : Aes} {mem : DMem} {k j : Nat} (d : Dec) (h : j ≠ k) : DMem.skey aes (mem.set j d) k = mem.skey aes k := by
  unfold DMem.skey
  rw [List.getElem?_set_ne h]

theorem skey_set {aes : Aes} {mem : DMem} {k : Nat} (d : Dec) (h : k < mem.length) :
    DMem.skey aes (mem.set k d) k = ⟨d.isPkg2, d.keyByte aes⟩ := skey_of (by simp [h])

theorem MemStep.set {aes : Aes} {mem : DMem} {k : Nat} {d d' : Dec} (hk : mem[k]? = some d) (hd : GoodDec aes d')
    (hi : d'.isPkg2 = d.isPkg2) : MemStep aes (some k) mem (mem.set k d') where
  good h e he := by
    rcases List.mem_or_eq_of_mem_set he with he | he
    · exact h e he
    · rw [he]; exact hd
  long := by simp
  same j _ hx := skey_set_ne _ fun h => hx (by rw [h])
  kind j hj := by
    by_cases h : k = j
    · subst h
      rw [skey_set _ hj, skey_of hk]
      exact hi
    · rw [skey_set_ne _ h]

theorem growAt_step {aes : Aes} (ha : aes.Sized) {mem : DMem} (hg : ∀ d ∈ mem, GoodDec aes d) (k n : Nat) :
    MemStep aes none mem (mem.growAt aes k n) := by
  unfold DMem.growAt
  cases hk : mem[k]? with
  | none => exact MemStep.refl _
  | some d =>
    dsimp only
    obtain ⟨d', h0, h1, h2, h3, _⟩ := dec_grow ha (hg d (List.mem_of_getElem? hk)) n
    rw [h0]
    dsimp only
    have hs := MemStep.set hk h1 h2
    refine ⟨hs.good, hs.long, fun j hj _ => ?_, hs.kind⟩
    by_cases h : k = j
    · subst h
      rw [skey_set _ hj, skey_of hk, h2, h3]
    · rw [skey_set_ne _ h]

theorem byType_step {aes : Aes} {mem mem' : DMem} {t : DecType} {k : Nat} (h : mem.byType t = .ok (k, mem')) : MemStep aes none mem mem' := by
  cases t <;> simp only [DMem.byType, DMem.alloc, Except.ok.injEq, Prod.mk.injEq, reduceCtorEq] at h <;> obtain ⟨-, rfl⟩ := h <;>
    first | exact MemStep.refl _ | exact MemStep.alloc good_default

theorem byVersion_step {aes : Aes} {mem : DMem} (v : MapleVersion) : MemStep aes none mem (mem.byVersion v).2 := by
  cases v <;> first | exact MemStep.refl _ | exact MemStep.alloc good_default

theorem byIv_step {aes : Aes} {mem mem' : DMem} {iv : Bytes} {k : Nat} (hl : iv.length = 4) (h : mem.byIv iv = .ok (k, mem')) :
    MemStep aes none mem mem' := by
  unfold DMem.byIv at h
  rw [fromIv_ok] at h
  split at h
  · cases h; exact MemStep.refl _
  · split at h
    · cases h; exact MemStep.refl _
    · split at h
      · cases h; exact MemStep.refl _
      · cases h; exact MemStep.alloc (good_ecb iv hl)

/-- the rest stays true when memory changes at what one file has for itself -/
theorem ShareInv.mem {aes : Aes} {w : SWorld} (h : ShareInv aes w) {x : Option Nat} {mem' : DMem} (hs : MemStep aes x w.mem mem')
    (hx : ∀ k, x = some k → 4 ≤ k) : ShareInv aes ⟨mem', w.files⟩ := by
  have h4 : ∀ k, k < 4 → mem'.skey aes k = w.mem.skey aes k := fun k hk =>
    hs.same k (Nat.lt_of_lt_of_le hk h.long) fun e => by have := hx k e.symm; omega
  refine ⟨hs.good h.good, Nat.le_trans h.long hs.long, (h4 0 (by omega)).trans h.gms, (h4 1 (by omega)).trans h.kms,
    (h4 2 (by omega)).trans h.general, (h4 3 (by omega)).trans h.kmst1198, fun f hf => ?_, fun f hf hv => ?_, h.apart⟩
  · obtain ⟨h1, h2, h3⟩ := h.keysAt f hf
    exact ⟨Nat.lt_of_lt_of_le h1 hs.long, Nat.lt_of_lt_of_le h2 hs.long, (hs.kind _ h1).trans h3⟩
  · obtain ⟨h1, h2⟩ := h.own f hf hv
    exact ⟨h1, (hs.kind _ (h.keysAt f hf).2.1).trans h2⟩

/-! ### opening -/

theorem byVersion_skey {aes : Aes} {w : SWorld} (h : ShareInv aes w) {v : MapleVersion} (hv : v ∈ [MapleVersion.bms, .gms, .ems, .kmst1198]) :
    w.mem.skey aes (w.mem.byVersion v).1 = versionKey (ivStream aes) v ∧ (w.mem.byVersion v).1 < 4 := by
  simp only [List.mem_cons, List.not_mem_nil, or_false] at hv
  rcases hv with rfl | rfl | rfl | rfl
  · exact ⟨h.general, by show 2 < 4; decide⟩
  · exact ⟨h.gms, by show 0 < 4; decide⟩
  · exact ⟨h.kms, by show 1 < 4; decide⟩
  · exact ⟨h.kmst1198, by show 3 < 4; decide⟩

/-- a guess in memory against a guess by version -/
def SameGuess (mem : DMem) : Except Err (Option Nat) → Except Err (Option MapleVersion) → Prop
  | .error x, .error y => x = y
  | .ok none, .ok none => True
  | .ok (some k), .ok (some v) => v ∈ [MapleVersion.bms, .gms, .ems, .kmst1198] ∧ k = (mem.byVersion v).1
  | _, _ => False

theorem guessLoop_same {aes : Aes} {w : SWorld} (h : ShareInv aes w) (m : Mode) (buf : Bytes) (sm : StrMeta) :
    ∀ vs : List MapleVersion, (∀ v ∈ vs, v ∈ [MapleVersion.bms, .gms, .ems, .kmst1198]) →
      SameGuess w.mem (w.mem.guessLoop aes m buf sm vs) (guessLoop m (ivStream aes) buf sm vs)
  | [], _ => trivial
  | v :: vs, hv => by
    have ih := guessLoop_same h m buf sm vs fun u hu => hv u (by simp [hu])
    have hv := hv v (by simp)
    unfold DMem.guessLoop guessLoop
    rw [(byVersion_skey h hv).1]
    cases verifyMeta m buf (versionKey (ivStream aes) v) sm with
    | error x => rfl
    | ok b => cases b with
      | true => exact ⟨hv, rfl⟩
      | false => exact ih

theorem guessAmong_same {aes : Aes} {w : SWorld} (h : ShareInv aes w) (m : Mode) (buf : Bytes) (sm : StrMeta) (vs : List MapleVersion)
    (hv : ∀ v ∈ vs, v ∈ [MapleVersion.bms, .gms, .ems, .kmst1198]) :
    SameGuess w.mem (w.mem.guessAmong aes m buf sm vs) (guessAmong m (ivStream aes) buf sm vs) := by
  unfold DMem.guessAmong guessAmong
  split
  · trivial
  · exact guessLoop_same h m buf sm vs hv

theorem guess_same {aes : Aes} {w : SWorld} (h : ShareInv aes w) (m : Mode) (buf : Bytes) :
    SameGuess w.mem (w.mem.guess aes m buf) (guessKey m (ivStream aes) buf) := by
  unfold DMem.guess guessKey
  cases orNone ((Rd.firstName (headerOf buf)).run (plainEnv m buf) ⟨0, 0⟩).1 with
  | error x => rfl
  | ok sm =>
    dsimp only
    have h1 := guessAmong_same h m buf sm [.bms, .gms, .ems] (by simp)
    generalize w.mem.guessAmong aes m buf sm [.bms, .gms, .ems] = r at *
    generalize guessAmong m (ivStream aes) buf sm [.bms, .gms, .ems] = r' at *
    match r, r', h1 with
    | .error _, .error _, h1 => exact h1
    | .ok (some _), .ok (some _), h1 => exact h1
    | .ok none, .ok none, _ =>
      dsimp only
      cases orNone ((Rd.firstName2 (headerOf buf)).run (plainEnv m buf) ⟨0, 0⟩).1 with
      | error x => rfl
      | ok sm2 => exact guessAmong_same h m buf sm2 [.kmst1198] (by simp)

/-- a decryptor that may be used by a new file -/
def Usable (w : SWorld) (k : Nat) : Prop := k < w.mem.length ∧ ∀ f ∈ w.files, f.body.verified = false → f.pkg2 ≠ k

theorem given_same {aes : Aes} (ha : aes.Sized) {w : SWorld} (h : ShareInv aes w) {existing : Option Nat} {iv : Option Bytes}
    (hiv : ∀ b, iv = some b → b.length = 4) (hk : ∀ k, existing = some k → Usable w k) :
    ∃ k mem, w.mem.given existing iv = .ok (k, mem) ∧ MemStep aes none w.mem mem ∧
      k.map (mem.skey aes) = givenKey (ivStream aes) (existing.map (w.mem.skey aes)) iv ∧ ∀ j, k = some j → Usable ⟨mem, w.files⟩ j := by
  cases existing with
  | some k => exact ⟨some k, w.mem, rfl, MemStep.refl _, rfl, fun j hj => hk j hj⟩
  | none =>
    cases iv with
    | none => exact ⟨none, w.mem, rfl, MemStep.refl _, rfl, fun j hj => by cases hj⟩
    | some iv =>
      have hl := hiv iv rfl
      refine ⟨some w.mem.length, w.mem ++ [.ecb (Ecb.new iv gameKey)], ?_, MemStep.alloc (good_ecb iv hl), ?_, fun j hj => ?_⟩
      · unfold DMem.given
        dsimp only
        rw [fromIv_ok]
        rfl
      · show some (DMem.skey aes _ _) = some _
        rw [skey_new, keyByte_new ha hl]
        congr 2
        split
        · rename_i h0
          subst h0
          funext i
          exact ivStream_zero i
        · rfl
      · cases hj
        refine ⟨by simp, fun f hf _ => ?_⟩
        have := (h.keysAt f hf).2.1
        omega

theorem chosen_same {aes : Aes} {w : SWorld} (h : ShareInv aes w) (m : Mode) (buf : Bytes) {k : Option Nat} (hk : ∀ j, k = some j → Usable w j) :
    (∃ r, w.mem.chosen aes m buf k = .ok r ∧ openKey m (ivStream aes) buf (k.map (w.mem.skey aes)) = .ok (r.map (w.mem.skey aes)) ∧
      ∀ j, r = some j → Usable w j) ∨
    (∃ x, w.mem.chosen aes m buf k = .error x ∧ openKey m (ivStream aes) buf (k.map (w.mem.skey aes)) = .error x) := by
  have hg : (∃ r, w.mem.guess aes m buf = .ok r ∧ (match guessKey m (ivStream aes) buf with
        | .error x => .error x
        | .ok r => .ok (r.map (versionKey (ivStream aes))) : Except Err (Option SKey)) = .ok (r.map (w.mem.skey aes)) ∧ ∀ j, r = some j → Usable w j) ∨
      (∃ x, w.mem.guess aes m buf = .error x ∧ (match guessKey m (ivStream aes) buf with
        | .error x => .error x
        | .ok r => .ok (r.map (versionKey (ivStream aes))) : Except Err (Option SKey)) = .error x) := by
    have h1 := guess_same h m buf
    generalize w.mem.guess aes m buf = r at *
    generalize guessKey m (ivStream aes) buf = r' at *
    match r, r', h1 with
    | .error x, .error y, h1 => exact .inr ⟨x, rfl, by rw [show x = y from h1]⟩
    | .ok (some k), .ok (some v), h1 =>
      obtain ⟨hv, rfl⟩ := h1
      obtain ⟨h2, h3⟩ := byVersion_skey h hv
      refine .inl ⟨_, rfl, ?_, fun j hj => ?_⟩
      · show Except.ok (some _) = .ok (some _)
        rw [h2]
      · cases hj
        exact ⟨Nat.lt_of_lt_of_le h3 h.long, fun f hf hu => by have := (h.own f hf hu).1; omega⟩
    | .ok none, .ok none, _ => exact .inl ⟨none, rfl, rfl, fun j hj => by cases hj⟩
  cases k with
  | none => exact hg
  | some k =>
    unfold DMem.chosen openKey
    dsimp only [Option.map_some]
    cases verifyKey m buf (w.mem.skey aes k) with
    | error x => exact .inr ⟨x, rfl, rfl⟩
    | ok b => cases b with
      | true => exact .inl ⟨some k, rfl, rfl, hk⟩
      | false => exact hg

theorem default_stream {aes : Aes} : (Dec.pkg2 Pkg2Dec.default).keyByte aes = noKeys := by
  funext i
  show ((List.replicate 8 0#8)[i % 8]?).getD 0#8 = 0#8
  rw [List.getElem?_replicate]
  split <;> rfl

theorem ShareInv.add {aes : Aes} {w : SWorld} (h : ShareInv aes w) {f : SFile}
    (h1 : f.keys < w.mem.length ∧ f.pkg2 < w.mem.length ∧ (w.mem.skey aes f.keys).pkg2 = false)
    (h2 : ∀ g ∈ w.files, g.body.verified = false → g.pkg2 ≠ f.pkg2)
    (h3 : f.body.verified = false → 4 ≤ f.pkg2 ∧ (w.mem.skey aes f.pkg2).pkg2 = true ∧ ∀ g ∈ w.files, g.pkg2 ≠ f.pkg2) :
    ShareInv aes ⟨w.mem, w.files ++ [f]⟩ := by
  refine ⟨h.good, h.long, h.gms, h.kms, h.general, h.kmst1198, fun g hg => ?_, fun g hg hu => ?_, fun i j a b hi hj hij hu => ?_⟩
  · rcases List.mem_append.1 hg with hg | hg
    · exact h.keysAt g hg
    · rw [List.mem_singleton.1 hg]; exact h1
  · rcases List.mem_append.1 hg with hg | hg
    · exact h.own g hg hu
    · rw [List.mem_singleton.1 hg] at hu ⊢; exact ⟨(h3 hu).1, (h3 hu).2.1⟩
  · dsimp only at hi hj
    rw [List.getElem?_append] at hi hj
    split at hi <;> split at hj
    · exact h.apart i j a b hi hj hij hu
    · have : b = f := by
        rcases List.getElem?_eq_some_iff.1 hj with ⟨hlt, he⟩
        simpa using he.symm
      subst this
      exact (h2 a (List.mem_of_getElem? hi) hu).symm
    · have : a = f := by
        rcases List.getElem?_eq_some_iff.1 hi with ⟨hlt, he⟩
        simpa using he.symm
      subst this
      exact (h3 hu).2.2 b (List.mem_of_getElem? hj)
    · rcases List.getElem?_eq_some_iff.1 hi with ⟨hlt, _⟩
      rcases List.getElem?_eq_some_iff.1 hj with ⟨hlt', _⟩
      simp at hlt hlt'
      omega

/-- opening a file among others is opening it alone -/
theorem open_same {aes : Aes} (ha : aes.Sized) (m : Mode) {w : SWorld} (h : ShareInv aes w) {buf : Bytes} {existing : Option Nat}
    {iv : Option Bytes} {patch : Option Int} (hiv : ∀ b, iv = some b → b.length = 4) (hk : ∀ k, existing = some k → Usable w k) :
    (∃ w' f, w.openFile aes m buf existing iv patch = .ok w' ∧ w'.files = w.files ++ [f] ∧
      WFile.fromBuf m (ivStream aes) buf (existing.map (w.mem.skey aes)) iv patch = .ok (f.view aes w'.mem) ∧
      MemStep aes none w.mem w'.mem ∧ ShareInv aes w') ∨
    (∃ x, w.openFile aes m buf existing iv patch = .error x ∧
      WFile.fromBuf m (ivStream aes) buf (existing.map (w.mem.skey aes)) iv patch = .error x) := by
  obtain ⟨k, mem, g1, g2, g3, g4⟩ := given_same ha h hiv hk
  have h1 : ShareInv aes ⟨mem, w.files⟩ := h.mem g2 fun k hk => by cases hk
  unfold SWorld.openFile WFile.fromBuf
  rw [g1, ← g3]
  dsimp only
  rcases chosen_same h1 m buf g4 with ⟨r, c1, c2, c3⟩ | ⟨x, c1, c2⟩
  · left
    dsimp only at c1 c2
    rw [c1, c2]
    dsimp only
    cases r with
    | none =>
      have h2 : MemStep aes none mem (mem ++ [.pkg2 Pkg2Dec.default]) := MemStep.alloc good_default
      have h3 : ShareInv aes ⟨mem ++ [.pkg2 Pkg2Dec.default], w.files⟩ := h1.mem h2 fun k hk => by cases hk
      have hn : DMem.skey aes (mem ++ [.pkg2 Pkg2Dec.default]) mem.length = ⟨true, noKeys⟩ := by
        rw [skey_new, default_stream]; rfl
      have hge := h3.general
      have hlo := h1.long
      dsimp only at hge hlo
      refine ⟨_, _, rfl, rfl, ?_, g2.trans h2, h3.add ⟨?_, ?_, ?_⟩ ?_ fun _ => ⟨?_, ?_, ?_⟩⟩
      · show Except.ok _ = Except.ok ({ WFile.made m buf patch none with
            env := { (WFile.made m buf patch none).env with
              ks := (DMem.skey aes (mem ++ [.pkg2 Pkg2Dec.default]) 2).ks,
              ks2 := (DMem.skey aes (mem ++ [.pkg2 Pkg2Dec.default]) mem.length).ks },
            keys2 := (DMem.skey aes (mem ++ [.pkg2 Pkg2Dec.default]) mem.length).pkg2 } : WFile)
        rw [hge, hn]
        rfl
      · show 2 < (mem ++ [_]).length
        simp; omega
      · show mem.length < (mem ++ [_]).length
        simp
      · exact congrArg SKey.pkg2 hge
      · intro g hg _
        have := (h1.keysAt g hg).2.1
        exact Nat.ne_of_lt this
      · exact hlo
      · exact congrArg SKey.pkg2 hn
      · intro g hg
        exact Nat.ne_of_lt (h1.keysAt g hg).2.1
    | some k =>
      have hu := c3 k rfl
      have hge := h1.general
      have hlo := h1.long
      dsimp only at hge hlo
      have hd : ∃ d, mem[k]? = some d := ⟨_, List.getElem?_eq_getElem hu.1⟩
      obtain ⟨d, hd⟩ := hd
      have hs := skey_of (aes := aes) hd
      have hread : mem.reader (some k) = ((if d.isPkg2 = true then 2 else k, k), mem) := by
        unfold DMem.reader
        dsimp only
        rw [hd]
        simp [generalAt]
      rw [hread]
      have hkeys : mem.skey aes (if d.isPkg2 = true then 2 else k) = ⟨false, if d.isPkg2 = true then noKeys else d.keyByte aes⟩ := by
        split
        · exact hge
        · rw [hs]
          congr
          simpa using ‹¬ d.isPkg2 = true›
      refine ⟨_, _, rfl, rfl, ?_, g2, h1.add ⟨?_, hu.1, ?_⟩ hu.2 fun hv => by cases hv⟩
      · show Except.ok (WFile.made m buf patch (some (mem.skey aes k))) = Except.ok ({ WFile.made m buf patch (some (mem.skey aes k)) with
            env := { (WFile.made m buf patch (some (mem.skey aes k))).env with
              ks := (mem.skey aes (if d.isPkg2 = true then 2 else k)).ks,
              ks2 := (mem.skey aes k).ks },
            keys2 := (mem.skey aes k).pkg2 } : WFile)
        rw [hkeys, hs]
        rfl
      · dsimp only
        split
        · omega
        · exact hu.1
      · exact congrArg SKey.pkg2 hkeys
  · right
    dsimp only at c1 c2
    rw [c1, c2]
    exact ⟨x, rfl, rfl⟩

/-! ### histories -/

/-- the decryptor a step may set: that of the file that tries a profile -/
def ShareOp.sets (w : SWorld) : ShareOp → Option Nat
  | .attempt i _ _ => match w.files[i]? with
    | some f => if f.body.verified then none else some f.pkg2
    | none => none
  | _ => none

theorem setIv_good {aes : Aes} {d : Dec} (h : d.isPkg2 = true) (k : BitVec 64) (t : DecType) :
    GoodDec aes (d.setIv k t) ∧ (d.setIv k t).isPkg2 = d.isPkg2 ∧
      (d.setIv k t).keyByte aes = fun i => ((Pkg2Dec.default.setIv k t).keyAt i).getD 0#8 := by
  cases d with
  | ecb d => cases h
  | pkg2 d => exact ⟨rfl, rfl, rfl⟩

theorem attempt_run {aes : Aes} {w : SWorld} (h : ShareInv aes w) {i : Nat} {f : SFile} (hf : w.files[i]? = some f)
    (hv : f.body.verified = false) (p : Profile) (hash : BitVec 64) :
    ∃ mem, w.attempt i p hash = ⟨mem, w.files⟩ ∧ MemStep aes (some f.pkg2) w.mem mem ∧
      mem.skey aes f.pkg2 = ⟨true, profileKeys p f.body.hdr.hash1 hash⟩ := by
  have hm := List.mem_of_getElem? hf
  have hlt := (h.keysAt f hm).2.1
  have hd : w.mem[f.pkg2]? = some w.mem[f.pkg2] := List.getElem?_eq_getElem hlt
  generalize w.mem[f.pkg2] = d at hd
  have hk := (h.own f hm hv).2
  rw [skey_of hd] at hk
  unfold SWorld.attempt
  rw [hf]
  dsimp only
  rw [hv]
  simp only [Bool.false_eq_true, if_false]
  rw [hd]
  dsimp only
  have hg := fun k t => setIv_good (aes := aes) hk k t
  refine ⟨_, rfl, MemStep.set hd (hg _ _).1 (hg _ _).2.1, ?_⟩
  rw [skey_set _ hlt, (hg _ _).2.1, (hg _ _).2.2, show d.isPkg2 = true from hk]
  rfl

theorem attempt_verified {w : SWorld} {i : Nat} (h : ∀ f, w.files[i]? = some f → f.body.verified = true) (p : Profile) (hash : BitVec 64) :
    w.attempt i p hash = w := by
  unfold SWorld.attempt
  cases hf : w.files[i]? with
  | none => rfl
  | some f =>
    dsimp only
    rw [if_pos (h f hf)]

theorem step_run {aes : Aes} (ha : aes.Sized) (m : Mode) {w : SWorld} (h : ShareInv aes w) {op : ShareOp} (hop : AllowedShare w op) :
    MemStep aes (op.sets w) w.mem (w.step aes m op).mem ∧ ShareInv aes (w.step aes m op) ∧ w.files <+: (w.step aes m op).files := by
  have key : ∀ {w' : SWorld}, MemStep aes none w.mem w'.mem → w'.files = w.files →
      MemStep aes none w.mem w'.mem ∧ ShareInv aes w' ∧ w.files <+: w'.files := fun {w'} hs hf =>
    ⟨hs, by
      have := h.mem hs fun k hk => by cases hk
      rw [← hf] at this
      exact this, by rw [hf]; exact List.prefix_refl _⟩
  cases op with
  | openFile buf existing iv patch =>
    rcases open_same (buf := buf) (existing := existing) (iv := iv) (patch := patch) ha m h hop.1 hop.2 with
      ⟨w', f, h1, h2, _, h3, h4⟩ | ⟨x, h1, _⟩
    · unfold SWorld.step
      dsimp only
      rw [h1]
      exact ⟨h3, h4, h2 ▸ List.prefix_append _ _⟩
    · unfold SWorld.step
      dsimp only
      rw [h1]
      exact ⟨MemStep.refl _, h, List.prefix_refl _⟩
  | attempt i p hash =>
    show MemStep aes _ _ (w.attempt i p hash).mem ∧ ShareInv aes (w.attempt i p hash) ∧ w.files <+: (w.attempt i p hash).files
    by_cases hv : ∀ f, w.files[i]? = some f → f.body.verified = true
    · rw [attempt_verified hv]
      exact ⟨MemStep.refl _, h, List.prefix_refl _⟩
    · obtain ⟨f, hf⟩ := Classical.not_forall.1 hv
      obtain ⟨hf, hv⟩ := Classical.not_imp.1 hf
      have hv : f.body.verified = false := by simpa using hv
      obtain ⟨mem, h1, h2, h3⟩ := attempt_run h hf hv p hash
      have hs : (ShareOp.attempt i p hash).sets w = some f.pkg2 := by
        unfold ShareOp.sets
        dsimp only
        rw [hf]
        dsimp only
        rw [hv]
        rfl
      rw [hs, h1]
      exact ⟨h2, h.mem h2 fun k hk => by cases hk; exact (h.own f (List.mem_of_getElem? hf) hv).1, List.prefix_refl _⟩
  | grow k n => exact key (growAt_step ha h.good k n) rfl
  | byType t =>
    show MemStep aes none _ _ ∧ _
    unfold SWorld.step
    dsimp only
    cases ht : w.mem.byType t with
    | error x => exact key (MemStep.refl _) rfl
    | ok r => exact key (byType_step (k := r.1) (mem' := r.2) ht) rfl
  | byVersion v => exact key (byVersion_step v) rfl
  | byIv iv =>
    show MemStep aes none _ _ ∧ _
    unfold SWorld.step
    dsimp only
    cases ht : w.mem.byIv iv with
    | error x => exact key (MemStep.refl _) rfl
    | ok r => exact key (byIv_step (k := r.1) (mem' := r.2) hop ht) rfl
  | make iv =>
    show MemStep aes none _ _ ∧ _
    unfold SWorld.step
    dsimp only
    rw [fromIv_ok]
    exact key (MemStep.alloc (good_ecb iv hop)) rfl

theorem start_run : DMem.start = .ok [.ecb (Ecb.new [0x4D#8, 0x23#8, 0xC7#8, 0x2B#8] gameKey), .ecb (Ecb.new [0xB9#8, 0x7D#8, 0x63#8, 0xE9#8] gameKey),
    .ecb (Ecb.new [0#8, 0#8, 0#8, 0#8] gameKey), .pkg2 (Pkg2Dec.newWithKey 0xDEADBEEF#64 .kmst1198)] := by
  unfold DMem.start
  rw [fromIv_ok, fromIv_ok, fromIv_ok]
  rfl

theorem start_inv {aes : Aes} (ha : aes.Sized) {mem : DMem} (h : DMem.start = .ok mem) : ShareInv aes ⟨mem, []⟩ := by
  rw [start_run] at h
  cases h
  refine ⟨?_, Nat.le_refl _, ?_, ?_, ?_, ?_, ?_, ?_, ?_⟩
  · intro d hd
    simp only [List.mem_cons, List.not_mem_nil, or_false] at hd
    rcases hd with rfl | rfl | rfl | rfl
    · exact good_ecb _ rfl
    · exact good_ecb _ rfl
    · exact good_ecb _ rfl
    · rfl
  · rw [skey_of rfl, keyByte_new ha rfl]; rfl
  · rw [skey_of rfl, keyByte_new ha rfl]; rfl
  · rw [skey_of (d := .ecb (Ecb.new [0#8, 0#8, 0#8, 0#8] gameKey)) rfl, keyByte_new ha rfl]
    show SKey.mk false _ = SKey.mk false _
    congr 1
  · rw [skey_of (d := .pkg2 _) rfl]; rfl
  · intro f hf; cases hf
  · intro f hf; cases hf
  · intro i j f g hf; cases hf

theorem run_inv {aes : Aes} (ha : aes.Sized) {m : Mode} {w w' : SWorld} {ops : List ShareOp} (hr : SharedRun aes m w ops w')
    (h : ShareInv aes w) : ShareInv aes w' := by
  induction hr with
  | nil w => exact h
  | cons w w' op ops hop _ ih => exact ih (step_run ha m h hop).2.1

theorem world_inv {aes : Aes} (ha : aes.Sized) {m : Mode} {w : SWorld} (h : SharedWorld aes m w) : ShareInv aes w := by
  obtain ⟨mem, ops, h1, h2⟩ := h
  exact run_inv ha h2 (start_inv ha h1)

theorem run_files {aes : Aes} (ha : aes.Sized) {m : Mode} {w w' : SWorld} {ops : List ShareOp} (hr : SharedRun aes m w ops w')
    (h : ShareInv aes w) {i : Nat} {f : SFile} (hf : w.files[i]? = some f) : w'.files[i]? = some f := by
  induction hr with
  | nil w => exact hf
  | cons w w' op ops hop _ ih =>
    obtain ⟨_, h2, h3⟩ := step_run ha m h hop
    refine ih h2 ?_
    obtain ⟨t, ht⟩ := h3
    rw [← ht, List.getElem?_append_left (List.getElem?_eq_some_iff.1 hf).1]
    exact hf

/-- a decryptor that no step sets stays -/
theorem run_skey {aes : Aes} (ha : aes.Sized) {m : Mode} {w w' : SWorld} {ops : List ShareOp} (hr : SharedRun aes m w ops w')
    (h : ShareInv aes w) {k : Nat} (hk : k < w.mem.length)
    (hx : ∀ (v : SWorld) (op : ShareOp), ShareInv aes v → op ∈ ops → w.files <+: v.files → v.mem.skey aes k = w.mem.skey aes k → op.sets v ≠ some k) :
    w'.mem.skey aes k = w.mem.skey aes k ∧ k < w'.mem.length := by
  induction hr with
  | nil w => exact ⟨rfl, hk⟩
  | cons w w' op ops hop _ ih =>
    obtain ⟨h1, h2, h3⟩ := step_run ha m h hop
    have hs := h1.same k hk fun e => hx w op h (by simp) (List.prefix_refl _) rfl e.symm
    obtain ⟨h4, h5⟩ := ih h2 (Nat.lt_of_lt_of_le hk h1.long) fun v o hv ho hp he =>
      hx v o hv (by simp [ho]) (h3.trans hp) (he.trans hs)
    exact ⟨h4.trans hs, h5⟩

theorem handle_of {aes : Aes} (ha : aes.Sized) {w : SWorld} (h : ShareInv aes w) {k : Nat} (hk : k < w.mem.length) :
    HandleOf aes w.mem k (w.mem.skey aes k) := by
  have hd : w.mem[k]? = some w.mem[k] := List.getElem?_eq_getElem hk
  rw [skey_of hd]
  exact ⟨decryptsWith_keyByte ha hd (h.good _ (List.getElem_mem hk)), _, hd, rfl⟩

theorem handle_eq {aes : Aes} (ha : aes.Sized) {w : SWorld} (h : ShareInv aes w) {k : Nat} {key : SKey} (hk : HandleOf aes w.mem k key) :
    k < w.mem.length ∧ key = w.mem.skey aes k := by
  obtain ⟨h1, d, h2, h3⟩ := hk
  have hlt : k < w.mem.length := (List.getElem?_eq_some_iff.1 h2).1
  refine ⟨hlt, ?_⟩
  have := decryptsWith_unique h1 (handle_of ha h hlt).stream
  rw [skey_of h2] at this ⊢
  cases key
  dsimp only at *
  rw [this, h3]

end Wz
