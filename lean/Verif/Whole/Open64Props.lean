import Verif.Whole.OpenProps
import Verif.Reader.FreeLemmas
import Verif.File.GuessEdgeProps

/-!
# C66: which key is found for a 64-bit PKG2 file opened by its path

The entry count of such a file has a marker and eight bytes.  The key of the names is looked for as if the count had four: its fifth
byte is taken for the type of the first entry and its sixth for the length of its name.
-/

set_option autoImplicit false

namespace Wz

open Spec

theorem Rd.Fails.bind {α β : Type} {m : Rd α} {f : α → Rd β} {e : Env} {p q : Nat} {a : α} {x : Err} (hm : m.Reads e p a q)
    (hf : (f a).Fails e q x) : (m >>= f).Fails e p x := .next hm hf

/-- any four bytes after the marker are a number -/
theorem wzInt_any (c0 c1 c2 c3 : Byte) : ∃ v : Int, IsWzInt 4 v [0x80#8, c0, c1, c2, c3] := by
  refine ⟨signed 32 (leNat [c0, c1, c2, c3]), ?_⟩
  have h := signed_range (bits := 32) (v := leNat [c0, c1, c2, c3]) (by decide)
  have h2 := leNat_lt [c0, c1, c2, c3]
  have h3 := IsWzInt.long (w := 4) (v := signed 32 (leNat [c0, c1, c2, c3])) h.1 h.2
  have h4 : unsign (8 * 4) (signed 32 (leNat [c0, c1, c2, c3])) = leNat [c0, c1, c2, c3] :=
    unsign_signed32 (by
      rw [show [c0, c1, c2, c3].length = 4 from rfl] at h2
      omega)
  rw [h4] at h3
  have h5 := toLE_leNat [c0, c1, c2, c3]
  have h6 : toLE 4 (leNat [c0, c1, c2, c3]) = [c0, c1, c2, c3] := h5
  rw [h6] at h3
  exact h3

theorem ofByte_other {t : Byte} (h : ¬PlainType t) : DirType.ofByte t.toNat ≠ .dir ∧ DirType.ofByte t.toNat ≠ .image := by
  have h3 : t.toNat ≠ 3 := fun hh => h (.inl (BitVec.eq_of_toNat_eq hh))
  have h4 : t.toNat ≠ 4 := fun hh => h (.inr (BitVec.eq_of_toNat_eq hh))
  unfold DirType.ofByte
  constructor <;> split <;> (try split) <;> (try split) <;> (try split) <;> simp_all

theorem firstName_other {h : Header} {e : Env} {count : Int} {cb : Bytes} {t : Byte} (hb : e.buf.length < 2 ^ 63) (hi : h.ident = .v2)
    (h1 : IsWzInt 4 count cb) (h2 : Holds e.buf h.dataStart (cb ++ [t])) (ht : ¬PlainType t) :
    ((Rd.firstName h).run e ⟨0, 0⟩).1 = .error (.lib "DecryptError") := by
  have hf : (Rd.firstName h).Fails e 0 (.lib "DecryptError") := by
    refine .bind .seek (.bind (.wzInt h1 h2.left hb) (.first ?_))
    unfold Rd.firstCount
    rw [hi]
    dsimp only
    refine .bind .getPos (.bind (a := t.toNat) (q := h.dataStart + cb.length) ?_ ?_)
    · exact .bind .getEnv (.lift (by
        have := readAt_holds h2.right (w := 1) rfl
        rw [this]
        simp [leNat]))
    · have := ofByte_other ht
      revert this
      generalize DirType.ofByte t.toNat = d
      intro hd
      cases d with
      | dir => exact absurd rfl hd.1
      | image => exact absurd rfl hd.2
      | metaAt => exact .fail
      | unknown => exact .fail
      | other _ => exact .fail
  exact hf ⟨0, 0⟩ rfl

theorem firstName2_marker {h : Header} {e : Env} {count again : Int} {cb cb2 : Bytes} (hb : e.buf.length < 2 ^ 63) (hi : h.ident = .v2)
    (h1 : IsWzInt 4 count cb) (h2 : Holds e.buf h.dataStart (cb ++ [128#8])) (h3 : IsWzInt 4 again cb2)
    (h4 : Holds e.buf (h.dataStart + cb.length) cb2) :
    orNone ((Rd.firstName2 h).run e ⟨0, 0⟩).1 = .ok StrMeta.none := by
  unfold Rd.firstName2
  rw [if_neg (by rw [hi]; decide)]
  by_cases hc : again = count
  · refine (congrArg orNone (Rd.Reads.fst (a := StrMeta.none) (q := h.dataStart + cb.length + cb2.length)
      (.bind .seek (.bind (.wzInt h1 h2.left hb) (.bind (.readU8 h2.right hb) ?_))))).trans rfl
    rw [if_pos (by rfl)]
    refine .bind .getPos (.bind .seek (.bind (a := again) (q := h.dataStart + cb.length + cb2.length) (.wzInt h3 h4 hb) ?_))
    rw [if_pos hc]
    exact .pure _
  · have hf : (do
        Rd.seek h.dataStart
        let count ← Rd.readWzInt
        let b ← Rd.readU8
        if b = 128 then do
          let p ← Rd.getPos
          Rd.seek (p - 1)
          let again ← Rd.readWzInt
          if again = count then return StrMeta.none else Rd.fail (.lib "DecryptError")
        else Rd.readPkg2DirMeta 1 : Rd StrMeta).Fails e 0 (.lib "DecryptError") := by
      refine .bind .seek (.bind (.wzInt h1 h2.left hb) (.bind (.readU8 h2.right hb) ?_))
      rw [if_pos (by rfl)]
      refine .bind .getPos (.bind .seek (.bind (a := again) (q := h.dataStart + cb.length + cb2.length) (.wzInt h3 h4 hb) ?_))
      rw [if_neg hc]
      exact .fail
    rw [hf ⟨0, 0⟩ rfl]
    rfl

theorem dirMeta_panics {e : Env} {p : Nat} (hm : e.mode = .checked) (h : Holds e.buf p [128#8]) (hb : e.buf.length < 2 ^ 63) :
    (Rd.readPkg2DirMeta 1).Fails e p .panicOverflow := by
  have h' : Holds e.buf p [byteOf (-128)] := h
  refine .bind (.readI8 (by decide) (by decide) h' hb) ?_
  rw [if_neg (by decide)]
  refine .first ?_
  unfold Rd.pkg2Len
  refine .bind .getEnv (.first ?_)
  intro c _
  unfold negI
  rw [hm]
  rfl

end Wz

namespace Wz.Spec

/-- The bytes `t` and `l` of the count, taken for the type of an entry and the length of its name, and the bytes at `p` after them pass
for a name under the key of KMST1198. -/
def PassesFor1198 (buf : Bytes) (t l : Byte) (p : Nat) : Prop :=
  t ≠ 128#8 ∧ ∃ n : Nat, 1 ≤ n ∧ n ≤ 127 ∧ l = byteOf (-n) ∧ NameAt buf p n .dir key1198

end Wz.Spec

namespace Wz.Props

open Spec

/-- C66: the key found for a 64-bit PKG2 file whose count has a fifth byte that is not a type of entries.  The count has nothing to do with the
names, but it decides whether the key of KMST1198 is taken. -/
theorem C66_pkg2_64_guess (m : Mode) (st : Bytes → Nat → Byte) (buf : Bytes) (h : Header) (c0 c1 c2 c3 t l c6 c7 x : Byte)
    (hb : buf.length < 2 ^ 63) (hh : Pkg2Head buf h) (hc : Holds buf h.dataStart [0x80#8, c0, c1, c2, c3, t, l, c6, c7, x])
    (ht : ¬PlainType t) (hl : l ≠ 128#8 ∨ t = 128#8) :
    (PassesFor1198 buf t l (h.dataStart + 7) → guessKey m st buf = .ok (some .kmst1198)) ∧
      (¬PassesFor1198 buf t l (h.dataStart + 7) → guessKey m st buf = .ok none) := by
  obtain ⟨⟨k, hk⟩, hi, -, -⟩ := pkg2_head hh
  obtain ⟨v, hv⟩ := wzInt_any c0 c1 c2 c3
  have g1 : Holds buf h.dataStart ([0x80#8, c0, c1, c2, c3] ++ [t]) := hc.left (a := [0x80#8, c0, c1, c2, c3, t]) (b := [l, c6, c7, x])
  have f1 := firstName_other (e := plainEnv m buf) hb hi hv g1 ht
  have e1 : orNone ((Rd.firstName (headerOf buf)).run (plainEnv m buf) ⟨0, 0⟩).1 = .ok StrMeta.none := by
    rw [headerOf_ok hk, f1]; rfl
  have g2 : Holds buf (h.dataStart + 6) [l] := (hc.right (a := [0x80#8, c0, c1, c2, c3, t]) (b := [l, c6, c7, x])).left (a := [l]) (b := [c6, c7, x])
  have skip : guessAmong m st buf StrMeta.none [.bms, .gms, .ems] = .ok none := rfl
  have skip2 : guessAmong m st buf StrMeta.none [.kmst1198] = .ok none := rfl
  by_cases h128 : t = 128#8
  · subst h128
    obtain ⟨v2, hv2⟩ := wzInt_any l c6 c7 x
    have g3 : Holds buf (h.dataStart + [0x80#8, c0, c1, c2, c3].length) [0x80#8, l, c6, c7, x] :=
      hc.right (a := [0x80#8, c0, c1, c2, c3]) (b := [0x80#8, l, c6, c7, x])
    have f2 := firstName2_marker (e := plainEnv m buf) hb hi hv g1 hv2 g3
    rw [← headerOf_ok hk] at f2
    have : guessKey m st buf = .ok none := by rw [guessKey_of e1 f2, skip]; exact skip2
    exact ⟨fun hp => absurd rfl hp.1, fun _ => this⟩
  · have hl : l ≠ 128#8 := hl.resolve_right h128
    by_cases hn : l.toNat < 128
    · have g4 : Holds buf (h.dataStart + 6) [byteOf (l.toNat : Int)] := by
        have : byteOf (l.toNat : Int) = l := by
          unfold byteOf; apply BitVec.eq_of_toNat_eq; simp
        rw [this]; exact g2
      have f2 := firstName2_meta (m := m) hb hi hv g1 h128 (Rd.Reads.dirMeta_none (e := plainEnv m buf) (by omega) (by omega) g4 hb)
      rw [← headerOf_ok hk] at f2
      have : guessKey m st buf = .ok none := by
        rw [guessKey_of (sm2 := StrMeta.none) e1 (by rw [f2]; rfl), skip]; exact skip2
      refine ⟨fun hp => ?_, fun _ => this⟩
      obtain ⟨-, n, n1, n2, n3, -⟩ := hp
      exfalso
      rw [n3] at hn
      unfold byteOf at hn
      rw [BitVec.toNat_ofInt] at hn
      omega
    · have hlt := l.isLt
      have h8 : l.toNat ≠ 128 := fun hh => hl (BitVec.eq_of_toNat_eq hh)
      have e2 : l = byteOf (-((256 - l.toNat : Nat) : Int)) := by
        unfold byteOf; apply BitVec.eq_of_toNat_eq; rw [BitVec.toNat_ofInt]; omega
      generalize hN : 256 - l.toNat = n at e2
      have g4 : Holds (plainEnv m buf).buf (h.dataStart + 6) [byteOf (-n)] := by rw [← e2]; exact g2
      have hle : h.dataStart + 7 ≤ buf.length := by have := g2.le; simp at this; omega
      have f2 := firstName2_meta (m := m) hb hi hv g1 h128 (Rd.Reads.dirMeta (by omega) (by omega) g4 hb)
      have e3 : orNone ((Rd.firstName2 (headerOf buf)).run (plainEnv m buf) ⟨0, 0⟩).1 =
          .ok ⟨h.dataStart + 7, NameForm.size n .dir, NameForm.ty .dir⟩ := by rw [headerOf_ok hk, f2]; rfl
      obtain ⟨r, h6, h7⟩ := guessAmong_first (m := m) (st := st) (form := .dir) (P := fun _ => NameAt buf (h.dataStart + 7) n .dir key1198) hb hle
        (by omega : n < 2 ^ 32) [.kmst1198] (fun v hv => by
          have : v = .kmst1198 := by simpa using hv
          subst this
          show NameAt _ _ _ _ _ ↔ NameAt _ _ _ _ kmst1198Stream
          rw [key1198_stream])
      have hg : guessKey m st buf = .ok r := by
        rw [guessKey_of e1 e3, skip]; exact h6
      rw [hg]
      refine ⟨fun hp => ?_, fun hp => ?_⟩
      · obtain ⟨-, n', n1, n2, n3, n4⟩ := hp
        have : n' = n := by
          have : l.toNat = (byteOf (-(n' : Int))).toNat := by rw [← n3]
          unfold byteOf at this
          rw [BitVec.toNat_ofInt] at this
          omega
        subst this
        cases h7 with
        | hit => rfl
        | miss _ _ _ hno => exact absurd n4 hno
      · cases h7 with
        | hit _ _ hyes => exact absurd ⟨h128, n, by omega, by omega, e2, hyes⟩ hp
        | miss _ _ _ _ h8 => cases h8; rfl

/-- C66: a 64-bit PKG2 file of which only the path is given is read with the key made from its header, unless the bytes of its
count pass for a name under the key of KMST1198.  The fifth byte of the count must not be a type of entries. -/
theorem C66_pkg2_64 (m : Mode) (st : Bytes → Nat → Byte) (file stem : List Char) (buf : Bytes) (h : Header) (c0 c1 c2 c3 u l c6 c7 x : Byte)
    (t : BitVec 64) (items : List (List Char × DNode)) (arch : List (List Char × ATree))
    (parent : Option Nat) (hs : StemOf file stem) (hd : file ≠ ['.', '.']) (hb : buf.length < 2 ^ 63) (hh : Pkg2Head buf h)
    (h64 : h.flags.bits = 4#8) (hc : Holds buf h.dataStart [0x80#8, c0, c1, c2, c3, u, l, c6, c7, x]) (hu : ¬PlainType u)
    (hl : l ≠ 128#8 ∨ u = 128#8) (hp : ¬PassesFor1198 buf u l (h.dataStart + 7)) (ht : Solves6 h.hash1 h.hash2 t) (h0 : t ≠ 0)
    (hdir : HoldsDir (Block64 ⟨⟨m, buf, fun _ => 0#8, dirKey (kmst1202Key h.hash1 t)⟩, h, true⟩ t) h.dataStart items)
    (ha : HoldsArchive ⟨m, buf, fun _ => 0#8, dirKey (kmst1202Key h.hash1 t)⟩ items arch) :
    ∃ N, ∀ F : Fuel, N ≤ F.loop → N ≤ F.nest → ∀ k fuel, N ≤ fuel → ∀ cache : List Cached,
      (∀ c ∈ cache, c.profile ∈ rows true ∨ c.profile ∈ rows false) →
      OpensAs (openWzPlain m st (some file) buf parent) stem parent (arcContent F k fuel cache)
        ⟨m, buf, fun _ => 0#8, dirKey (kmst1202Key h.hash1 t)⟩ arch :=
  C66_pkg2_64_partial m st file stem buf h none t items arch parent hs hd hb hh h64
    ((C66_pkg2_64_guess m st buf h c0 c1 c2 c3 u l c6 c7 x hb hh hc hu hl).2 hp) ht h0 hdir ha

/-- C66 does not hold for counts with 128 as their sixth byte: in a build with overflow checks opening such a file panics, whatever is in it. -/
theorem C66_pkg2_64_panics (st : Bytes → Nat → Byte) (file : List Char) (buf : Bytes) (h : Header) (c0 c1 c2 c3 u c6 c7 : Byte)
    (parent : Option Nat) (hb : buf.length < 2 ^ 63) (hh : Pkg2Head buf h)
    (hc : Holds buf h.dataStart [0x80#8, c0, c1, c2, c3, u, 128#8, c6, c7]) (hu : ¬PlainType u) (h8 : u ≠ 128#8) :
    (openWzPlain .checked st (some file) buf parent) = .error .panicOverflow := by
  obtain ⟨⟨k, hk⟩, hi, -, -⟩ := pkg2_head hh
  obtain ⟨v, hv⟩ := wzInt_any c0 c1 c2 c3
  have g1 : Holds buf h.dataStart ([0x80#8, c0, c1, c2, c3] ++ [u]) := hc.left (a := [0x80#8, c0, c1, c2, c3, u]) (b := [128#8, c6, c7])
  have f1 := firstName_other (e := plainEnv .checked buf) hb hi hv g1 hu
  have g2 : Holds buf (h.dataStart + [0x80#8, c0, c1, c2, c3].length + 1) [128#8] :=
    (hc.right (a := [0x80#8, c0, c1, c2, c3, u]) (b := [128#8, c6, c7])).left (a := [128#8]) (b := [c6, c7])
  have f2 : (Rd.firstName2 h).Fails (plainEnv .checked buf) 0 .panicOverflow := by
    unfold Rd.firstName2
    rw [if_neg (by rw [hi]; decide)]
    refine .bind .seek (.bind (.wzInt hv g1.left hb) (.bind (.readU8 g1.right hb) ?_))
    rw [if_neg (fun hh : u.toNat = 128 => h8 (BitVec.eq_of_toNat_eq hh))]
    exact dirMeta_panics rfl g2 hb
  have hg : guessKey .checked st buf = .error .panicOverflow := by
    unfold guessKey
    rw [headerOf_ok hk, f1, f2 ⟨0, 0⟩ rfl]
    rfl
  unfold openWzPlain openWz WFile.fromBuf openKey
  rw [hg]
  rfl

end Wz.Props
