import Verif.Thread.JsonModel
import Verif.Thread.Lemmas

/-!
# Lemmas about the JSON export as a program of a thread
-/

set_option autoImplicit false

namespace Wz

open Wz.Spec

theorem exportKids_reads {rec : Nat → Prog (Option (Except Err Json))} (hr : ∀ c, OnlyReads (rec c)) :
    ∀ (ks : List (List Char × Nat)) (m : List (List Char × Json)), OnlyReads (exportKids rec ks m)
  | [], m => .done _
  | (n, c) :: ks, m => by
    unfold exportKids
    refine onlyReads_bind (hr c) fun r => ?_
    rcases r with _ | _ | v
    · exact .done _
    · exact .done _
    · exact exportKids_reads hr ks _

theorem export_reads (e : Env) : ∀ fuel i, OnlyReads (exportProg e fuel i)
  | 0, i => .done _
  | fuel + 1, i => by
    unfold exportProg
    refine .acquire i _ (.look _ fun h => onlyReads_bind ?_ fun r => .release _ _ _ (.done _))
    unfold exportInside
    split
    · exact .done _
    · exact onlyReads_bind (exportKids_reads (fun c => export_reads e fuel c) _ _) fun _ => .done _

theorem exportKids_alone {h : NHeap} {rec : Nat → Prog (Option (Except Err Json))} {rec' : Nat → Option (Except Err Json)}
    (hr : ∀ c, OnlyReads (rec c)) (he : ∀ c, (runAlone h (rec c)).1 = rec' c) : ∀ (ks : List (List Char × Nat)) (m : List (List Char × Json)),
    (runAlone h (exportKids rec ks m)).1 = NHeap.jsonLoop rec' ks m
  | [], m => rfl
  | (n, c) :: ks, m => by
    rw [exportKids, NHeap.jsonLoop, runAlone_bind, onlyReads_heap (hr c), he c]
    rcases rec' c with _ | _ | v
    · rfl
    · rfl
    · exact exportKids_alone hr he ks _

theorem export_alone (e : Env) (h : NHeap) : ∀ fuel i, (runAlone h (exportProg e fuel i)).1 = h.exportJson e fuel i
  | 0, i => rfl
  | fuel + 1, i => by
    have ih := fun c => export_alone e h fuel c
    unfold NHeap.exportJson at ih ⊢
    rw [NHeap.json, exportProg]
    show (runAlone h (Prog.bind _ _)).1 = _
    rw [runAlone_bind]
    unfold lookObject
    rcases hc : h.cell i with _ | c
    · rfl
    · dsimp only
      rcases hk : c.kids with _ | ⟨k, ks⟩
      · rfl
      · dsimp only
        rw [exportInside, ← exportKids_alone (fun c => export_reads e fuel c) ih, runAlone_bind]
        show wrapObject _ = _
        rcases (runAlone h (exportKids (exportProg e fuel) (k :: ks) (kindObject e c.kind).ownEntries)).1 with _ | _ | v <;> rfl

theorem locked_exportKids {held : List (LMode × Nat)} {rec : Nat → Prog (Option (Except Err Json))} (hr : ∀ c, WritesLocked held held (rec c)) :
    ∀ (ks : List (List Char × Nat)) (m : List (List Char × Json)), WritesLocked held held (exportKids rec ks m)
  | [], m => .done _
  | (n, c) :: ks, m => by
    unfold exportKids
    refine writesLocked_bind (hr c) fun r => ?_
    rcases r with _ | _ | v
    · exact .done _
    · exact .done _
    · exact locked_exportKids hr ks _

theorem locked_export (e : Env) : ∀ fuel held i, WritesLocked held held (exportProg e fuel i)
  | 0, _, i => .done _
  | fuel + 1, held, i => by
    unfold exportProg
    refine .acquire _ _ _ _ (writesLocked_look fun h => writesLocked_bind (mid := (.read, i) :: held) ?_ fun r => writesLocked_give (.done _))
    unfold exportInside
    split
    · exact .done _
    · exact writesLocked_bind (locked_exportKids (fun c => locked_export e fuel _ c) _ _) fun _ => .done _

theorem down_exportKids {rec : Nat → Prog (Option (Except Err Json))} {held : List (LMode × Nat)} {i : Nat}
    (hrec : ∀ (g : NHeap) (c : Nat), MadeBefore g → i < c → Safe Down id (fun _ _ => True) held g held (rec c)) :
    ∀ (ks : List (List Char × Nat)) (m : List (List Char × Json)) (h : NHeap), MadeBefore h → (∀ n c, (n, c) ∈ ks → i < c) →
    Safe Down id (fun _ _ => True) held h held (exportKids rec ks m)
  | [], m, h, _, _ => .done _ _ fun _ _ => trivial
  | (n, c) :: ks, m, h, H, hk => by
    unfold exportKids
    refine (hrec h c H (hk n c (List.mem_cons_self ..))).bind down_rely fun g r K _ => ?_
    rcases r with _ | _ | v
    · exact .done _ _ fun _ _ => trivial
    · exact .done _ _ fun _ _ => trivial
    · exact down_exportKids hrec ks _ g (K H) fun n c hc => hk n c (List.mem_cons_of_mem _ hc)

theorem down_export (e : Env) : ∀ (fuel : Nat) (held : List (LMode × Nat)) (h : NHeap) (i : Nat), MadeBefore h →
    (∀ x : LMode × Nat, x ∈ held → x.2 < i) → Safe Down id (fun _ _ => True) held h held (exportProg e fuel i)
  | 0, _, _, _, _, _ => .done _ _ fun _ _ => trivial
  | fuel + 1, held, h, i, H, hh => by
    unfold exportProg
    refine .acquire _ _ .read i _ hh (.look down_rely fun g K => ?_)
    have G := K H
    refine Safe.bind down_rely (mid := (.read, i) :: held) (Q := fun _ _ => True) ?_ fun g4 vs K4 _ => down_release (.done _ _ fun _ _ => trivial)
    unfold exportInside
    split
    · exact .done _ _ fun _ _ => trivial
    · rename_i k ks hk
      refine (down_exportKids (i := i) (fun g c G hc => down_export e fuel _ g c G fun x hx => ?_) _ _ g G fun n c hc => ?_).bind down_rely
        fun _ _ _ _ => .done _ _ fun _ _ => trivial
      · rcases List.mem_cons.1 hx with rfl | hx
        · exact hc
        · exact Nat.lt_trans (hh x hx) hc
      · rw [← hk] at hc
        unfold lookObject at hc
        cases hcell : g.cell i with
        | none => rw [hcell] at hc; cases hc
        | some d =>
          rw [hcell] at hc
          exact G i d n c hcell hc

end Wz
