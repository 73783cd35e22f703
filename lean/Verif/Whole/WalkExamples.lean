import Verif.Whole.WalkProps

/-!
# Concrete walks for C68
-/

set_option autoImplicit false

namespace Wz.Props

open Wz Wz.Spec Wz.Spec.Snow Wz.Spec.Ms

theorem propImg_tidy : TidyProps [(['n'], .node (.int 5) [])] := .cons _ _ _ _ (by simp) (by simp) .nil .nil

theorem arch58_tidy : Tidy arch58 :=
  .image _ _ _ (by simp) propImg_tidy (.dir _ _ _ (by simp) (.text _ _ _ (by simp) .nil) .nil)

/-- what there is to see -/
theorem arch58_list : arcList arch58 = [(['a'], .image), (['n'], .prop (.int 5)), (['b'], .dir), ("c.txt".toList, .image),
    ("text.txt".toList, .prop (.raw [0x73#8, 0x61#8, 0x79#8]))] := by
  simp [arch58, arcList, arcListOne, arcListTree, propList, propListOne, propListTree]

/-- All hypotheses of `C68_pkg1` are met: the walk over the archive of C58 visits its five things, each once. -/
example : ∃ (F : Fuel) (n fuel N : Nat) (vs : List (Nat × Option NCell)) (g : NHeap) (c : NCell),
    (∀ w, N ≤ w → heap58.walkForce (arcContent F n fuel [] wfile58) w [] 0 = .ok ((0, some c) :: vs, g)) ∧
    Visits wfile58.env vs [(['a'], .image), (['n'], .prop (.int 5)), (['b'], .dir), ("c.txt".toList, .image),
      ("text.txt".toList, .prop (.raw [0x73#8, 0x61#8, 0x79#8]))] := by
  have h83 : verHash 83 = 1876 := by simp [verHash]
  obtain ⟨N, hN⟩ := C68_pkg1 wfile58 83 items58 arch58 [] rfl (by decide) (by decide +kernel) (by decide +kernel)
    (by intro ev h; cases h; decide) rfl ⟨by omega, by omega, .inr (by rw [h83]; decide)⟩ (by rw [h83]; exact file58_holds)
    arch58_stored arch58_tidy
  have W := hN ⟨N, N⟩ (Nat.le_refl _) (Nat.le_refl _) 2001 N (by omega) (Nat.le_refl _) fun u h hu => absurd hu (no_earlier u h)
  obtain ⟨M, vs, g, c, h1, _, h3, _⟩ := W heap58 0 _ rfl rfl rfl
  rw [arch58_list] at h3
  exact ⟨⟨N, N⟩, 2001, N, M, vs, g, c, h1, h3⟩

/-- all hypotheses of `C68_pkg2` are met -/
example : ∃ (F : Fuel) (n fuel : Nat), WalksThrough (arcContent F n fuel [⟨row1201, 77#64⟩] wfile58b) unreadFile
    fun vs => Visits wfile58b.env vs (arcList arch58b) := by
  have ha : HoldsArchive (reading wfile58b ⟨row1201, 77#64⟩).env items58b arch58b := by
    refine .image _ _ _ _ _ _ (by decide) (propImg_stored rfl (fun h => absurd (endsWith_iff.mpr h) (by decide)) (holds_slice 29 (by decide +kernel))) ?_
    exact .image _ _ _ _ _ _ (by decide) (.script [2#8] _ ⟨['b'], rfl⟩ (.short (by decide) (by decide)) (holds_slice 47 (by decide +kernel))) .nil
  obtain ⟨N, hN⟩ := C68_pkg2 wfile58b ⟨row1201, 77#64⟩ items58b arch58b rfl (by decide) (by decide) (by decide +kernel)
    (by decide +kernel) (by decide) file58b_holds ha (.image _ _ _ (by simp) propImg_tidy (.script _ _ _ (by simp) .nil))
  obtain ⟨cands, ⟨lists, h1, h2⟩, h3⟩ := hN ⟨N, N⟩ (Nat.le_refl _) (Nat.le_refl _) 0 N (Nat.le_refl _) [⟨row1201, 77#64⟩] (by
    intro c hc
    rw [List.mem_singleton] at hc
    subst hc
    exact .inr (by decide))
  have hfit : Fits wfile58b.hdr ⟨row1201, 77#64⟩ := by
    refine ⟨by decide, ?_⟩
    show Equation .v4 wfile58b.hdr.hash1 wfile58b.hdr.hash2 77#64
    unfold Equation Solves4 lo32 wfile58b hdr2 word4 mixed mixKmst1199
    decide +kernel
  rw [List.filter_cons, if_pos (by simpa using hfit), List.filter_nil, List.singleton_append] at h2
  exact ⟨⟨N, N⟩, 0, N, h3 [] _ h2 (by simp)⟩

/-- all hypotheses of `C68_pkg2_64_partial` are met -/
example : ∃ (F : Fuel) (n fuel : Nat), WalksThrough (arcContent F n fuel [] wfile58w) unreadFile
    fun vs => Visits wfile58w.env vs (arcList [(['a'], .image [(['n'], .node (.int 5) [])])]) := by
  obtain ⟨N, hN⟩ := C68_pkg2_64_partial wfile58w 77#64 _ _ rfl (by decide) (by decide) (by decide +kernel) (by decide +kernel)
    (by unfold Solves6; decide +kernel) (by decide) wfile58w_holds
    (.image _ _ _ _ _ _ (by decide) (propImg_stored rfl (fun h => absurd (endsWith_iff.mpr h) (by decide)) (holds_slice 24 (by decide +kernel))) .nil)
    (.image _ _ _ (by simp) propImg_tidy .nil)
  exact ⟨⟨N, N⟩, 0, N, hN ⟨N, N⟩ (Nat.le_refl _) (Nat.le_refl _) 0 N (Nat.le_refl _) [] (by simp)⟩

/-- all hypotheses of `C68_image` are met -/
example : ∃ fuel N vs g c, (∀ w, N ≤ w → heap58i.walkForce (imgContent ⟨.checked, propImg58, fun _ => 0#8, fun _ => 0#8⟩ fuel) w [] 0 =
      .ok ((0, some c) :: vs, g)) ∧
    Visits ⟨.checked, propImg58, fun _ => 0#8, fun _ => 0#8⟩ vs [(['n'], .prop (.int 5))] := by
  obtain ⟨N, hN⟩ := C68_image ⟨.checked, propImg58, fun _ => 0#8, fun _ => 0#8⟩ "a.img".toList 0 18 _ (by decide +kernel) (by decide)
    (propImg_stored rfl (fun h => absurd (endsWith_iff.mpr h) (by decide)) (holds_slice 0 (by decide +kernel)))
    (by intro ps h; cases h; exact propImg_tidy)
  obtain ⟨M, vs, g, c, h1, _, h3, _⟩ := hN N (Nat.le_refl _) heap58i 0 _ rfl rfl rfl
  refine ⟨N, M, vs, g, c, h1, ?_⟩
  simpa [arcListTree, propList, propListOne, propListTree] using h3

/-- all hypotheses of `C68_ms_v1`, and so of `C68_ms`, are met -/
example : ∃ M : Maps, ∀ (C : ChaCha) (ks2 : Nat → Byte), ∃ f, msOpen .wrap C (msBytes M) ['h', 'h', 'h'] = .ok f ∧
    ∃ fuel, WalksThrough (msContent .wrap C ks2 fuel f) (.msFile false 0) fun vs => MsVisits .wrap ks2 vs msFiles := by
  obtain ⟨M, _, hM⟩ := C68_ms_v1
  refine ⟨M, fun C ks2 => ?_⟩
  obtain ⟨f, h1, N, hN⟩ := hM C ks2 msHead ['h', 'h', 'h'] _ msEntries msGap [] (msRest M) msFiles msHead_ok (by decide) msHead_result (by decide)
    (by decide +kernel) msEntries_ok (by rw [List.append_nil, msTable_length]; decide) (msBytes M) rfl (msBytes_length M) (msFiles_written M)
    (msFiles_stored _ _) (.image _ _ _ (by simp) propImg_tidy (.text _ _ _ (by simp) .nil))
  exact ⟨f, h1, N, hN N (Nat.le_refl _)⟩

/-- all hypotheses of `C68_ms_v2_partial` are met -/
example (ks2 : Nat → Byte) : ∃ f fuel, msOpen .wrap noCipher msHead2.bytes ['h', 'h', 'h'] = .ok f ∧
    WalksThrough (msContent .wrap noCipher ks2 fuel f) (.msFile false 0) fun vs => MsVisits .wrap ks2 vs msFiles2 := by
  obtain ⟨f, h1, N, hN⟩ := C68_ms_v2_partial noCipher noCipher_blocks ks2 msHead2 ['h', 'h', 'h'] [msEntry2] (msHead2.bytes.take 199) (msHead2.bytes.drop 265)
    msFiles2 (by decide) msHead2_opens (by decide +kernel) (by decide +kernel)
    (by intro e he; rw [List.mem_singleton.mp he]; exact ⟨⟨by decide, by decide, by decide⟩, by decide, by decide, .inl (by decide)⟩)
    (by decide +kernel) (by decide +kernel) (by decide +kernel)
    (.cons ⟨rfl, by decide, by decide, msHead2.bytes.take 1024, [], [], by decide +kernel, by decide +kernel, by decide⟩ .nil)
    (msFiles2_stored .wrap ks2) (.text _ _ _ (by simp) .nil)
  exact ⟨f, N, h1, hN N (Nat.le_refl _)⟩

/-! ## names that occur twice -/

/-- an image in which a name occurs twice -/
def twiceContent : Content := fun _ => .ok (.node ['n'] (.other 1) .nil (.node ['n'] (.other 2) .nil .nil))

/-- Why no name may occur twice in one place: of two properties with one name the walk shows only the last. -/
theorem C68_twice_counterexample :
    (NHeap.walkForce twiceContent 9 [some ⟨['a'], .image false 0, none, []⟩] [] 0).map
      (fun r => r.1.map fun v => v.2.map fun c => (c.name, c.kind)) =
    .ok [some (['a'], .image true 0), some (['n'], .other 2)] := by decide +kernel

end Wz.Props
