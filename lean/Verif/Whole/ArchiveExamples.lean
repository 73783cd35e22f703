import Verif.Thread.CrashProps
import Verif.Whole.WalkExamples
import Verif.Whole.MediaLinkProps
import Verif.Whole.MediaProps
import Verif.Whole.LinkProps

/-!
# Concrete archives that meet the hypotheses of the theorems about whole archives

The PKG1 archive `wfile58`, the PKG2 archive `wfile58b` and the 64-bit PKG2 archive `wfile58w` of C58.
-/

set_option autoImplicit false

namespace Wz.Props

open Wz Wz.Spec

/-- the PKG1 archive can be opened, and holds what it should -/
theorem wfile58_opened : ∃ (F : Fuel) (n : Nat), (wfile58.parse F n []).1 = .ok items58 ∧
    (wfile58.parse F n []).2.env.buf.length < 2 ^ 63 ∧ HoldsArchive (wfile58.parse F n []).2.env items58 arch58 := by
  have h83 : verHash 83 = 1876 := by simp [verHash]
  obtain ⟨N, hN⟩ := C54_opens wfile58 83 items58 rfl (by decide) (by decide +kernel) (by decide +kernel)
    (by intro ev h; cases h; decide) rfl ⟨by omega, by omega, .inr (by rw [h83]; decide)⟩ (by rw [h83]; exact file58_holds)
  obtain ⟨p1, p2⟩ := hN ⟨N, N⟩ (Nat.le_refl _) (Nat.le_refl _) 2001 (by omega) fun u h hu => absurd hu (no_earlier u h)
  have hpar : wfile58.parse ⟨N, N⟩ 2001 [] = wfile58.parsePkg1 ⟨N, N⟩ 2001 none := rfl
  have henv : (wfile58.parse ⟨N, N⟩ 2001 []).2.env = wfile58.env := by rw [hpar]; exact p2.2.2.2.1
  refine ⟨⟨N, N⟩, 2001, by rw [hpar]; exact p1, ?_, ?_⟩
  · rw [henv]; decide +kernel
  · rw [henv]; exact arch58_stored

/-- `C58_archive` -/
example : ∃ (F : Fuel) (n fuel : Nat) (e : Env), ReadsBack (arcContent F n fuel [] wfile58) e arch58 := by
  obtain ⟨F, n, h1, h2, h3⟩ := wfile58_opened
  obtain ⟨N, hN⟩ := C58_archive F n [] wfile58 items58 arch58 h1 h2 h3
  exact ⟨F, n, N, _, hN N (Nat.le_refl _)⟩

/-- `C68_archive` -/
example : ∃ (F : Fuel) (n fuel : Nat) (e : Env), WalksThrough (arcContent F n fuel [] wfile58) unreadFile
    fun vs => Visits e vs (arcList arch58) := by
  obtain ⟨F, n, h1, h2, h3⟩ := wfile58_opened
  obtain ⟨N, hN⟩ := C68_archive F n [] wfile58 items58 arch58 h1 h2 h3 arch58_tidy
  exact ⟨F, n, N, _, hN N (Nat.le_refl _)⟩

/-- `C69_archive` and `C69_links_archive` -/
example (inflate : Inflate) (bc7 : Bc7) (aes : Aes) : ∃ (F : Fuel) (n fuel : Nat) (e : Env),
    PayloadsBack (arcContent F n fuel [] wfile58) inflate bc7 aes e arch58 ∧
    SeenBack (arcContent F n fuel [] wfile58) inflate bc7 aes e arch58 := by
  obtain ⟨F, n, h1, h2, h3⟩ := wfile58_opened
  obtain ⟨N, hN⟩ := C69_archive inflate bc7 aes F n [] wfile58 items58 arch58 h1 h2 h3
  obtain ⟨M, hM⟩ := C69_links_archive inflate bc7 aes F n [] wfile58 items58 arch58 h1 h2 h3
  exact ⟨F, n, N + M, _, hN _ (by omega), hM _ (by omega)⟩

/-- `C70_archive`, `C77_archive` and `C82_archive` -/
example : ∃ (F : Fuel) (n fuel : Nat) (e : Env), ReadsThroughLinks (arcContent F n fuel [] wfile58) e arch58 ∧
    SharedReads (arcContent F n fuel [] wfile58) e arch58 ∧ SurvivesPanics (arcContent F n fuel [] wfile58) e arch58 := by
  obtain ⟨F, n, h1, h2, h3⟩ := wfile58_opened
  obtain ⟨N, hN⟩ := C70_archive F n [] wfile58 items58 arch58 h1 h2 h3
  obtain ⟨M, hM⟩ := C77_archive F n [] wfile58 items58 arch58 h1 h2 h3
  obtain ⟨K, hK⟩ := C82_archive F n [] wfile58 items58 arch58 h1 h2 h3
  exact ⟨F, n, N + M + K, _, hN _ (by omega), hM _ (by omega), hK _ (by omega)⟩

/-- the PKG2 archive holds what it should -/
theorem arch58b_stored : HoldsArchive (reading wfile58b ⟨row1201, 77#64⟩).env items58b arch58b := by
  refine .image _ _ _ _ _ _ (by decide) (propImg_stored rfl (fun h => absurd (endsWith_iff.mpr h) (by decide)) (holds_slice 29 (by decide +kernel))) ?_
  exact .image _ _ _ _ _ _ (by decide) (.script [2#8] _ ⟨['b'], rfl⟩ (.short (by decide) (by decide)) (holds_slice 47 (by decide +kernel))) .nil

/-- what the theorems about PKG2 say of it, with its profile in the cache -/
theorem take58b {S : Content → Env → List (List Char × ATree) → Prop}
    (H : ∃ N, ∀ F : Fuel, N ≤ F.loop → N ≤ F.nest → ∀ n fuel, N ≤ fuel → ∀ cache : List Cached,
      (∀ c ∈ cache, c.profile ∈ rows true ∨ c.profile ∈ rows false) →
      ∃ cands, Candidates wfile58b.hdr cache cands ∧ ∀ before after, cands = before ++ ⟨row1201, 77#64⟩ :: after →
        (∀ b ∈ before, Refused F wfile58b b) →
        S (arcContent F n fuel cache wfile58b) (reading wfile58b ⟨row1201, 77#64⟩).env arch58b) :
    ∃ (F : Fuel) (n fuel : Nat), S (arcContent F n fuel [⟨row1201, 77#64⟩] wfile58b) wfile58b.env arch58b := by
  obtain ⟨N, hN⟩ := H
  obtain ⟨cands, ⟨lists, h1, h2⟩, h3⟩ := hN ⟨N, N⟩ (Nat.le_refl _) (Nat.le_refl _) 0 N (Nat.le_refl _) [⟨row1201, 77#64⟩] (by
    intro c hc
    rw [List.mem_singleton] at hc
    subst hc
    exact .inr (by decide))
  have hfit : Fits wfile58b.hdr ⟨row1201, 77#64⟩ := by
    refine ⟨by decide, ?_⟩
    show Equation .v4 wfile58b.hdr.hash1 wfile58b.hdr.hash2 77#64
    unfold Equation Solves4 lo32 wfile58b hdr2 word4 mixed mixKmst1199
    decide +kernel
  rw [List.filter_cons, if_pos (by simpa using hfit), List.filter_nil, List.singleton_append] at h2
  exact ⟨⟨N, N⟩, 0, N, h3 [] _ h2 (by simp)⟩

/-- `C69_pkg2` -/
example (inflate : Inflate) (bc7 : Bc7) (aes : Aes) : ∃ (F : Fuel) (n fuel : Nat),
    PayloadsBack (arcContent F n fuel [⟨row1201, 77#64⟩] wfile58b) inflate bc7 aes wfile58b.env arch58b :=
  take58b (S := fun c e a => PayloadsBack c inflate bc7 aes e a) (C69_pkg2 inflate bc7 aes wfile58b ⟨row1201, 77#64⟩ items58b arch58b rfl
    (by decide) (by decide) (by decide +kernel) (by decide +kernel) (by decide) file58b_holds arch58b_stored)

/-- `C69_links_pkg2` -/
example (inflate : Inflate) (bc7 : Bc7) (aes : Aes) : ∃ (F : Fuel) (n fuel : Nat),
    SeenBack (arcContent F n fuel [⟨row1201, 77#64⟩] wfile58b) inflate bc7 aes wfile58b.env arch58b :=
  take58b (S := fun c e a => SeenBack c inflate bc7 aes e a) (C69_links_pkg2 inflate bc7 aes wfile58b ⟨row1201, 77#64⟩ items58b arch58b rfl
    (by decide) (by decide) (by decide +kernel) (by decide +kernel) (by decide) file58b_holds arch58b_stored)

/-- `C70_pkg2` -/
example : ∃ (F : Fuel) (n fuel : Nat), ReadsThroughLinks (arcContent F n fuel [⟨row1201, 77#64⟩] wfile58b) wfile58b.env arch58b :=
  take58b (C70_pkg2 wfile58b ⟨row1201, 77#64⟩ items58b arch58b rfl
    (by decide) (by decide) (by decide +kernel) (by decide +kernel) (by decide) file58b_holds arch58b_stored)

/-- `C77_pkg2` -/
example : ∃ (F : Fuel) (n fuel : Nat), SharedReads (arcContent F n fuel [⟨row1201, 77#64⟩] wfile58b) wfile58b.env arch58b :=
  take58b (C77_pkg2 wfile58b ⟨row1201, 77#64⟩ items58b arch58b rfl
    (by decide) (by decide) (by decide +kernel) (by decide +kernel) (by decide) file58b_holds arch58b_stored)

/-- `C82_pkg2` -/
example : ∃ (F : Fuel) (n fuel : Nat), SurvivesPanics (arcContent F n fuel [⟨row1201, 77#64⟩] wfile58b) wfile58b.env arch58b :=
  take58b (C82_pkg2 wfile58b ⟨row1201, 77#64⟩ items58b arch58b rfl
    (by decide) (by decide) (by decide +kernel) (by decide +kernel) (by decide) file58b_holds arch58b_stored)

/-- the 64-bit archive holds what it should -/
theorem arch58w_stored : HoldsArchive (reading wfile58w ⟨row1202, 77#64⟩).env [(['a'], .image 24 1)]
    [(['a'], .image [(['n'], .node (.int 5) [])])] :=
  .image _ _ _ _ _ _ (by decide) (propImg_stored rfl (fun h => absurd (endsWith_iff.mpr h) (by decide)) (holds_slice 24 (by decide +kernel))) .nil

/-- `C69_pkg2_64_partial` and `C69_links_pkg2_64_partial` -/
example (inflate : Inflate) (bc7 : Bc7) (aes : Aes) : ∃ (F : Fuel) (n fuel : Nat),
    PayloadsBack (arcContent F n fuel [] wfile58w) inflate bc7 aes wfile58w.env [(['a'], .image [(['n'], .node (.int 5) [])])] ∧
    SeenBack (arcContent F n fuel [] wfile58w) inflate bc7 aes wfile58w.env [(['a'], .image [(['n'], .node (.int 5) [])])] := by
  obtain ⟨N, hN⟩ := C69_pkg2_64_partial inflate bc7 aes wfile58w 77#64 _ _ rfl (by decide) (by decide) (by decide +kernel)
    (by decide +kernel) (by unfold Solves6; decide +kernel) (by decide) wfile58w_holds arch58w_stored
  obtain ⟨M, hM⟩ := C69_links_pkg2_64_partial inflate bc7 aes wfile58w 77#64 _ _ rfl (by decide) (by decide) (by decide +kernel)
    (by decide +kernel) (by unfold Solves6; decide +kernel) (by decide) wfile58w_holds arch58w_stored
  have h1 : N ≤ N + M := by omega
  have h2 : M ≤ N + M := by omega
  exact ⟨⟨N + M, N + M⟩, 0, N + M, hN ⟨N + M, N + M⟩ h1 h1 0 (N + M) h1 [] (by simp), hM ⟨N + M, N + M⟩ h2 h2 0 (N + M) h2 [] (by simp)⟩

/-- `C70_pkg2_64_partial` -/
example : ∃ (F : Fuel) (n fuel : Nat), ReadsThroughLinks (arcContent F n fuel [] wfile58w) wfile58w.env
    [(['a'], .image [(['n'], .node (.int 5) [])])] := by
  obtain ⟨N, hN⟩ := C70_pkg2_64_partial wfile58w 77#64 _ _ rfl (by decide) (by decide) (by decide +kernel)
    (by decide +kernel) (by unfold Solves6; decide +kernel) (by decide) wfile58w_holds arch58w_stored
  exact ⟨⟨N, N⟩, 0, N, hN ⟨N, N⟩ (Nat.le_refl _) (Nat.le_refl _) 0 N (Nat.le_refl _) [] (by simp)⟩

/-! ### the hypotheses of `C82` about threads -/

/-- `C82_every_schedule_ends`, `C82_exclusive`: a thread has panicked, the other one is in the middle of a call -/
example (queue : Bool) : ∃ evs C, (CrashPool.start tree76 looks82).run queue evs = some C ∧ C.gone = [0] ∧ C.bad = [] ∧ EndsAnyway queue C ∧
    Exclusive C.pool ∧ ¬ AllDone C.pool := by
  have h : ∃ C, (CrashPool.start tree76 looks82).run queue [.go 0, .go 0, .crash 0, .go 0, .go 1, .go 1, .go 1] = some C ∧
      C.gone = [0] ∧ C.bad = [] ∧ (C.pool.threads.any fun th => !isDone76 th) = true := by
    cases queue <;> exact ⟨_, rfl, by decide +kernel, by decide +kernel, by decide +kernel⟩
  obtain ⟨C, h1, h2, h3, h4⟩ := h
  refine ⟨_, C, h1, h2, h3, C82_every_schedule_ends h1, C82_exclusive h1, fun ha => ?_⟩
  obtain ⟨th, h5, h6⟩ := List.any_eq_true.1 h4
  obtain ⟨a, h7⟩ := ha th h5
  unfold isDone76 at h6
  unfold Answer at h7
  rw [h7] at h6
  cases h6

/-- `C82_trees_partial`: threads that look up, read, forget and walk -/
example (queue : Bool) (evs : List Event) (C : CrashPool (List Nat)) (hr : (CrashPool.start tree76 work76).run queue evs = some C) :
    ¬ Stuck queue C ∧ ∃ more D, NoCrash more ∧ C.run queue more = some D ∧ AllDone D.pool :=
  C82_trees_partial content76_noLink tree76_made work76_down hr

/-- such events: the first thread panics while it walks, the second one goes on -/
example : ((CrashPool.start tree76 work76).run true [.go 0, .go 0, .go 0, .go 1, .crash 0, .go 1, .go 1]).isSome = true := by decide +kernel

/-- `C82_poisoned`: the second thread comes to the lock that the first one left poisoned -/
example (queue : Bool) : ∃ C D, (CrashPool.start tree76 looks82).run queue [.go 0, .go 0, .go 0, .crash 0, .go 0, .go 0, .go 1, .go 1] = some C ∧
    C.next queue (.go 1) = some D ∧ 1 ∉ C.gone ∧ 1 ∈ D.gone := by
  have h : ∃ C D th m k, (CrashPool.start tree76 looks82).run queue [.go 0, .go 0, .go 0, .crash 0, .go 0, .go 0, .go 1, .go 1] = some C ∧
      C.pool.threads[1]? = some th ∧ th.prog = .acquire m 1 k ∧ C.bad = [1] ∧ C.next queue (.go 1) = some D ∧ C.gone = [0] := by
    cases queue <;> exact ⟨_, _, _, _, _, rfl, rfl, rfl, rfl, rfl, rfl⟩
  obtain ⟨C, D, th, m, k, h1, h2, h3, h4, h5, h6⟩ := h
  exact ⟨C, D, h1, h5, by rw [h6]; decide, C82_poisoned h2 h3 (by rw [h4]; decide) h5⟩

end Wz.Props
