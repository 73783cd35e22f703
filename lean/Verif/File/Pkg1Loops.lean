import Verif.File.Pkg1Spec
import Verif.File.State
import Verif.File.Loops
/-!
# The loop over the versions of a PKG1 file
-/

set_option autoImplicit false

namespace Wz
open Spec Props

/-- what is true of the directory between attempts -/
def Halfway (F : Fuel) (f : WFile) (d : Dir) : Prop :=
  (∃ h, d = { f.root with hash := h }) ∨
  (d.status = .created ∧ ∃ d0, prepareEntries f.ctx F.loop f.root = .ok d0 ∧ Like { d with hash := 0#64 } d0)

theorem Halfway.start (F : Fuel) (f : WFile) : Halfway F f f.root := .inl ⟨0#64, rfl⟩

theorem Halfway.hash {F : Fuel} {f : WFile} {d : Dir} (h : Halfway F f d) (w : BitVec 64) : Halfway F f { d with hash := w } := by
  rcases h with ⟨h, rfl⟩ | ⟨hc, d0, h0, hl⟩
  · exact .inl ⟨w, rfl⟩
  · exact .inr ⟨hc, d0, h0, hl⟩

theorem root_prepared {F : Fuel} {f : WFile} (hi : f.hdr.ident = .v1) (w : BitVec 64) :
    prepareEntries f.ctx F.loop { f.root with hash := w } =
      (prepareEntries f.ctx F.loop f.root).map fun d => { d with hash := w } := by
  have := prepare_narrow f.ctx F.loop f.root w .pkg1 rfl (fun h => by rw [show f.ctx.hdr.ident = .v1 from hi] at h; cases h)
  refine Eq.trans this ?_
  cases h0 : prepareEntries f.ctx F.loop f.root with
  | error e => rfl
  | ok d0 =>
    obtain ⟨-, -, -, -, hv⟩ := prepare_status (fun h => by cases h) h0
    show Except.ok _ = Except.ok _
    have : d0.ver = .pkg1 := hv
    rw [← this]

/-- one attempt from a state between attempts is an attempt with nothing tried before -/
theorem decode1 {F : Fuel} {f : WFile} {d : Dir} {v : Nat} {we : Bool} {vh : Int} (hn : F.nest ≠ 0) (hbuf : f.env.buf ≠ [])
    (hi : f.hdr.ident = .v1) (hv : v < 10 ^ 6) (h : Halfway F f d) (hd : d.hash = BitVec.ofNat 64 (verHash v))
    (h113 : ¬(we = false ∧ vh = 113)) :
    (∀ kids, attempt1 F f v = .ok kids → (tryDecode f.ctx F.loop F.nest we vh d).1 = .ok kids) ∧
    (∀ e, attempt1 F f v = .error e → ∃ e', (tryDecode f.ctx F.loop F.nest we vh d).1 = .error e' ∧ e'.ends = e.ends ∧
      Halfway F f (tryDecode f.ctx F.loop F.nest we vh d).2) := by
  obtain ⟨n, hnn⟩ : ∃ n, F.nest = n + 1 := ⟨F.nest - 1, by omega⟩
  have hlen : f.env.buf.length ≠ 0 := by simpa using hbuf
  obtain ⟨-, hp, hlt⟩ := C11_hash .wrap v hv
  have hz : d.hash ≠ 0#64 := by
    rw [hd]
    intro h0
    have := congrArg BitVec.toNat h0
    rw [BitVec.toNat_ofNat, Nat.mod_eq_of_lt (by omega)] at this
    simp at this
    omega
  have hsize : d.blockSize ≠ 0 := by
    rcases h with ⟨w, rfl⟩ | ⟨-, d0, h0, hl⟩
    · exact hlen
    · have := hl.size
      obtain ⟨-, -, s, -⟩ := prepare_status (fun h => by cases h) h0
      rw [s] at this
      rw [show d.blockSize = f.env.buf.length from this]
      exact hlen
  have hst : d.status = .created ∨ d.status = .init ∧ d.entries = [] := by
    rcases h with ⟨w, rfl⟩ | ⟨hc, _⟩
    · exact .inr ⟨rfl, rfl⟩
    · exact .inl hc
  have hatt : attempt1 F f v = resolveDir f.ctx F.loop (n + 1) d := by
    unfold attempt1
    rw [hnn]
    rcases h with ⟨w, rfl⟩ | ⟨hc, d0, h0, hl⟩
    · have : w = BitVec.ofNat 64 (verHash v) := hd
      rw [this]; rfl
    · have e := root_prepared (F := F) (f := f) hi (BitVec.ofNat 64 (verHash v))
      rw [h0] at e
      rw [resolveDir_rest _ _ _ _ hsize, resolveDir_rest _ _ _ _ (by exact hlen), prepare_created (d := d) (by rw [hc]; decide)]
      refine Eq.trans (congrArg (· >>= resolveRest f.ctx F.loop n) e) ?_
      show resolveRest f.ctx F.loop n _ = resolveRest f.ctx F.loop n d
      refine resolveRest_like (Like.symm ?_)
      exact ⟨hl.offset, hl.size, hd, hl.ver, hl.status, hl.entries⟩
  have key := tryDecode_spec f.ctx F.loop n we vh d hst hsize hz h113
  rw [← hnn] at key hatt
  rw [← hatt] at key
  refine ⟨key.1, fun e he => ?_⟩
  obtain ⟨e', h1, h2, h3⟩ := key.2 e he
  refine ⟨e', h1, h2, ?_⟩
  rcases h3 with h3 | ⟨d1, h3, h4⟩
  · rw [h3]; exact h
  · rcases h with ⟨w, rfl⟩ | ⟨hc, d0, h0, hl⟩
    · rw [root_prepared hi] at h3
      cases h0 : prepareEntries f.ctx F.loop f.root with
      | error e => rw [h0] at h3; cases h3
      | ok d0 =>
        rw [h0] at h3
        cases h3
        obtain ⟨s1, -, -, s4, -⟩ := prepare_status (fun h => by cases h) h0
        exact .inr ⟨h4.status.trans s1, d0, h0, h4.offset, h4.size, s4.symm, h4.ver, h4.status, h4.entries⟩
    · rw [prepare_created (by rw [hc]; decide)] at h3
      cases h3
      exact .inr ⟨h4.status.trans hc, d0, h0, h4.offset.trans hl.offset, h4.size.trans hl.size, hl.hash, h4.ver.trans hl.ver,
        h4.status.trans hl.status, h4.entries.trans hl.entries⟩

/-- the loop from version `lo` on -/
theorem versions_loop {F : Fuel} {f : WFile} {we : Bool} {ev : Int} (hn : F.nest ≠ 0) (hbuf : f.env.buf ≠ [])
    (hi : f.hdr.ident = .v1) (hw : we = false → ev = 770) (h0 : 0 ≤ ev) (h1 : ev < 2 ^ 16) (cnt : Nat) :
    ∀ (lo n : Nat) (mx : Int) (d : Dir), lo + cnt ≤ 10 ^ 6 → (lo : Int) + cnt - 1 = mx → cnt < n → (we = false → lo = 770 ∨ 770 < lo) →
    Halfway F f d →
    (∀ v kids, lo ≤ v → v < lo + cnt → VersionFits ev v → attempt1 F f v = .ok kids →
      (∀ u, lo ≤ u → u < v → VersionFits ev u → Refused1 F f u) →
      pkg1Versions F f we n ⟨ev, mx, lo⟩ d = .ok (some ((v : Int), verHash v, kids))) ∧
    (∀ v h kids, pkg1Versions F f we n ⟨ev, mx, lo⟩ d = .ok (some (v, h, kids)) →
      ∃ w : Nat, v = w ∧ h = verHash w ∧ lo ≤ w ∧ w < lo + cnt ∧ VersionFits ev w ∧ attempt1 F f w = .ok kids ∧
        ∀ u, lo ≤ u → u < w → VersionFits ev u → Refused1 F f u) ∧
    ((∀ v, lo ≤ v → v < lo + cnt → VersionFits ev v → Refused1 F f v) → pkg1Versions F f we n ⟨ev, mx, lo⟩ d = .ok none) := by
  induction cnt with
  | zero =>
    intro lo n mx d hb hm hcn _ _
    obtain ⟨n, rfl⟩ : ∃ k, n = k + 1 := ⟨n - 1, by omega⟩
    have : pkg1Versions F f we (n + 1) ⟨ev, mx, lo⟩ d = .ok none := by
      rw [pkg1Versions, next_none f.env.mode ev mx lo (by omega)]
    rw [this]
    exact ⟨fun v _ a b => by omega, fun _ _ _ h => by (cases h), fun _ => rfl⟩
  | succ cnt ih =>
    intro lo n mx d hb hm hcn hlo hd
    obtain ⟨n, rfl⟩ : ∃ k, n = k + 1 := ⟨n - 1, by omega⟩
    have hnext := next_some f.env.mode ev mx lo (by omega) (by omega) (by omega) (by omega)
    by_cases hfit : VersionFits ev lo
    · rw [if_pos hfit] at hnext
      have h113 : ¬(we = false ∧ (lo : Int) = 113) := fun ⟨a, b⟩ => by have := hlo a; omega
      have key := decode1 (v := lo) (we := we) (vh := lo) hn hbuf hi (by omega) (hd.hash (BitVec.ofNat 64 (verHash lo))) rfl h113
      cases ha : attempt1 F f lo with
      | ok kids =>
        have e := key.1 kids ha
        have hp : pkg1Versions F f we (n + 1) ⟨ev, mx, lo⟩ d = .ok (some ((lo : Int), verHash lo, kids)) := by
          rw [pkg1Versions, hnext]
          dsimp only
          split
          · rename_i ns _ heq
            rw [heq] at e
            cases e
            rfl
          · rename_i heq
            rw [heq] at e
            cases e
        rw [hp]
        refine ⟨fun v kids' a b hv hk hu => ?_, fun v h kids' he => ?_, fun hall => ?_⟩
        · rcases Nat.lt_or_ge lo v with hlt | hge
          · obtain ⟨e, he, -⟩ := hu lo (Nat.le_refl _) hlt hfit
            rw [ha] at he; cases he
          · have : v = lo := by omega
            subst this
            rw [ha] at hk
            cases hk
            rfl
        · cases he
          exact ⟨lo, rfl, rfl, Nat.le_refl _, by omega, hfit, ha, fun u a b => by omega⟩
        · obtain ⟨e, he, -⟩ := hall lo (Nat.le_refl _) (by omega) hfit
          rw [ha] at he; cases he
      | error e =>
        obtain ⟨e', h1', h2', h3'⟩ := key.2 e ha
        cases hends : e.ends with
        | true =>
          have hp : pkg1Versions F f we (n + 1) ⟨ev, mx, lo⟩ d = .error e' := by
            rw [pkg1Versions, hnext]
            dsimp only
            split
            · rename_i heq
              rw [heq] at h1'; cases h1'
            · rename_i heq
              rw [heq] at h1'
              cases h1'
              rw [if_pos (by rw [h2', hends])]
          have hnr : ¬Refused1 F f lo := by
            rintro ⟨e2, h, h'⟩
            rw [ha] at h
            cases h
            rw [hends] at h'; cases h'
          rw [hp]
          refine ⟨fun v kids' a b hv hk hu => ?_, fun v h kids' he => by (cases he), fun hall => ?_⟩
          · rcases Nat.lt_or_ge lo v with hlt | hge
            · exact absurd (hu lo (Nat.le_refl _) hlt hfit) hnr
            · have : v = lo := by omega
              subst this
              rw [ha] at hk; cases hk
          · exact absurd (hall lo (Nat.le_refl _) (by omega) hfit) hnr
        | false =>
          have hp : pkg1Versions F f we (n + 1) ⟨ev, mx, lo⟩ d =
              pkg1Versions F f we n ⟨ev, mx, ((lo + 1 : Nat) : Int)⟩ (tryDecode f.ctx F.loop F.nest we lo { d with hash := BitVec.ofNat 64 (verHash lo) }).2 := by
            rw [pkg1Versions, hnext]
            dsimp only
            split
            · rename_i heq
              rw [heq] at h1'; cases h1'
            · rename_i heq
              rw [heq] at h1'
              cases h1'
              rw [if_neg (by rw [h2', hends]; decide), heq]
          obtain ⟨i1, i2, i3⟩ := ih (lo + 1) n mx _ (by omega) (by omega) (by omega) (fun a => by have := hlo a; omega) h3'
          have hr : Refused1 F f lo := ⟨e, ha, hends⟩
          rw [hp]
          refine ⟨fun v kids' a b hv hk hu => ?_, fun v h kids' he => ?_, fun hall => ?_⟩
          · rcases Nat.lt_or_ge lo v with hlt | hge
            · exact i1 v kids' hlt (by omega) hv hk (fun u a => hu u (by omega))
            · have : v = lo := by omega
              subst this
              rw [ha] at hk; cases hk
          · obtain ⟨w, rfl, rfl, a, b, c, d, e⟩ := i2 v h kids' he
            refine ⟨w, rfl, rfl, by omega, by omega, c, d, fun u a' b' hu => ?_⟩
            rcases Nat.lt_or_ge lo u with hlt | hge
            · exact e u hlt b' hu
            · have : u = lo := by omega
              subst this
              exact hr
          · exact i3 fun v a b => hall v (by omega) (by omega)
    · rw [if_neg hfit] at hnext
      have hp : pkg1Versions F f we (n + 1) ⟨ev, mx, lo⟩ d =
          pkg1Versions F f we n ⟨ev, mx, ((lo + 1 : Nat) : Int)⟩ { d with hash := 0#64 } := by
        rw [pkg1Versions, hnext]
        dsimp only
        rw [tryDecode_zero _ _ _ _ _ _ rfl]
        rfl
      obtain ⟨i1, i2, i3⟩ := ih (lo + 1) n mx { d with hash := 0#64 } (by omega) (by omega) (by omega) (fun a => by have := hlo a; omega) (hd.hash _)
      rw [hp]
      refine ⟨fun v kids' a b hv hk hu => ?_, fun v h kids' he => ?_, fun hall => ?_⟩
      · rcases Nat.lt_or_ge lo v with hlt | hge
        · exact i1 v kids' hlt (by omega) hv hk (fun u a => hu u (by omega))
        · have : v = lo := by omega
          subst this
          exact absurd hv hfit
      · obtain ⟨w, rfl, rfl, a, b, c, d, e⟩ := i2 v h kids' he
        refine ⟨w, rfl, rfl, by omega, by omega, c, d, fun u a' b' hu => ?_⟩
        rcases Nat.lt_or_ge lo u with hlt | hge
        · exact e u hlt b' hu
        · have : u = lo := by omega
          subst this
          exact absurd hu hfit
      · exact i3 fun v a b => hall v (by omega) (by omega)

end Wz
