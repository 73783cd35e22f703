import Verif.Mode.Props
import Verif.Whole.Examples
/-!
# Cases of C67
-/

set_option autoImplicit false

namespace Wz.Props

open Wz.Spec

/-- the archive of the examples of C58: it is read in both builds, and everything that is done with its nodes is the same -/
example : ∃ (F : Fuel) (n fuel : Nat), ((fileIn .checked wfile58).parse F n []).1 ≠ .error .panicOverflow ∧
    (∃ g, heap58.parse (arcContent F n fuel [] (fileIn .checked wfile58)) 0 = (.ok (), g) ∧
      heap58.parse (arcContent F n fuel [] (fileIn .wrap wfile58)) 0 = (.ok (), g)) ∧
    ∀ s, SameUnlessOverflow (fun m => arcContent F n fuel [] (fileIn m wfile58) s) := by
  obtain ⟨N, hN⟩ := wfile58_reads
  have R := hN ⟨N, N⟩ (Nat.le_refl _) (Nat.le_refl _) 2001 N (by omega) (Nat.le_refl _)
  obtain ⟨g, hg, _⟩ := R heap58 0 ⟨_, rfl, rfl, rfl⟩
  have hp : ((fileIn .checked wfile58).parse ⟨N, N⟩ 2001 []).1 ≠ .error .panicOverflow := by
    intro h
    rw [show fileIn .checked wfile58 = wfile58 from rfl] at h
    have : (heap58.parse (arcContent ⟨N, N⟩ 2001 N [] wfile58) 0).1 = .error .panicOverflow := by
      have hc : arcContent ⟨N, N⟩ 2001 N [] wfile58 (Encodable.encode Src58.file) = .error .panicOverflow := by
        unfold arcContent
        rw [Encodable.encodek]
        dsimp only
        rw [h]
        rfl
      unfold NHeap.parse
      show (match (NKind.file false (Encodable.encode Src58.file)).plan (arcContent ⟨N, N⟩ 2001 N [] wfile58) with
        | none => (Except.ok (), heap58) | some (.error e) => (.error e, heap58) | some (.ok (f, k)) => _).1 = _
      rw [show (NKind.file false (Encodable.encode Src58.file)).plan (arcContent ⟨N, N⟩ 2001 N [] wfile58) =
        some ((arcContent ⟨N, N⟩ 2001 N [] wfile58 (Encodable.encode Src58.file)).map fun f => (f, .file true (Encodable.encode Src58.file))) from rfl, hc]
      rfl
    rw [hg] at this
    cases this
  have hs := C67_archive ⟨N, N⟩ 2001 N [] wfile58 (by decide +kernel) hp
  refine ⟨⟨N, N⟩, 2001, N, hp, ⟨g, hg, ?_⟩, hs⟩
  have := (C67_nodes (fun m => arcContent ⟨N, N⟩ 2001 N [] (fileIn m wfile58)) hs heap58 0 [] 0 (fun _ => false) (fun _ => none)).1
  rcases this with h | h
  · have h' := (congrArg Prod.fst hg).symm.trans h
    cases h'
  · exact h.trans hg

/-- the other way round: a sound whose header claims too much is a panic in one build and has a wrong length in the other -/
example : addU32 .checked 0xFFFFFFFF 36 = .error .panicOverflow ∧ addU32 .wrap 0xFFFFFFFF 36 = .ok 35 := by decide

end Wz.Props
