import Verif.Resolve.Props

/-!
# Concrete cases of the theorems about folders of archives (C45)
-/

set_option autoImplicit false

namespace Wz.Props

open Wz Wz.Spec

/-- a folder with an archive and its second part -/
def partsDisk : Disk where
  entries := fun p => if p = ["Mob".toList] then some [⟨"Mob.wz".toList, .file⟩, ⟨"Mob_001.wz".toList, .file⟩] else none
  tryExists := fun _ => some false

def partsOpen (p : FPath) : Opening :=
  if p = ["Mob".toList, "Mob.wz".toList] then .parsed ["a.img".toList]
  else if p = ["Mob".toList, "Mob_001.wz".toList] then .parsed ["b.img".toList]
  else .refused

theorem parts_file {x : FEntry} (hx : x ∈ [(⟨"Mob.wz".toList, .file⟩ : FEntry), ⟨"Mob_001.wz".toList, .file⟩])
    (hp : PartName x.name) : x = ⟨"Mob_001.wz".toList, .file⟩ := by
  simp only [List.mem_cons, List.not_mem_nil, or_false] at hx
  rcases hx with rfl | rfl
  · exact absurd ((isPart_iff _).2 hp) (by decide)
  · rfl

example : ∃ ks, resolveRoot partsDisk partsOpen 2 ["Mob".toList, "Mob.wz".toList] =
      .ok (.pack ["Mob".toList, "Mob.wz".toList] ks) ∧
    ∀ key m, (key, m) ∈ ks ↔ (key ∈ ["a.img".toList] ∧ m = .child ["Mob".toList, "Mob.wz".toList] key) ∨
      ∃ e ∈ [(⟨"Mob.wz".toList, .file⟩ : FEntry), ⟨"Mob_001.wz".toList, .file⟩], e.kind = .file ∧ PartName e.name ∧
        ∃ more, partsOpen (["Mob".toList] ++ [e.name]) = .parsed more ∧ key ∈ more ∧
          m = .child (["Mob".toList] ++ [e.name]) key := by
  refine ⟨_, rfl, C45_disjoint partsDisk partsOpen 1 ["Mob".toList, "Mob.wz".toList] ["a.img".toList] _ _ rfl rfl rfl ?_ ?_ ?_⟩
  · intro e he hk
    simp only [List.mem_cons, List.not_mem_nil, or_false] at he
    rcases he with rfl | rfl <;> cases hk
  · intro x hx more _ hp ho key hkey
    cases parts_file hx hp
    cases ho
    rw [List.mem_singleton.1 hkey]
    decide
  · intro x hx y hy _ _ _ _ hp hq _ _ _
    rw [parts_file hx hp, parts_file hy hq]

/-- the same folder with a second part that is no archive -/
def strayOpen (p : FPath) : Opening :=
  if p = ["Mob".toList, "Mob.wz".toList] then .parsed ["a.img".toList] else .refused

example (n : RNode) (fuel : Nat) : resolveRoot partsDisk strayOpen fuel ["Mob".toList, "Mob.wz".toList] ≠ .ok n :=
  C45_stray_file partsDisk strayOpen fuel _ _ ⟨"Mob_001.wz".toList, .file⟩ rfl (by simp) rfl
    ((isPart_iff _).1 (by decide)) rfl n

/-- a folder `Obj` without archive, and a directory of that name in the archive -/
def emptyDisk : Disk where
  entries := fun p => if p = ["Map".toList] then some [⟨"Map.wz".toList, .file⟩, ⟨"Obj".toList, .folder⟩] else
    if p = ["Map".toList, "Obj".toList] then some [] else none
  tryExists := fun _ => some false

def emptyOpen (p : FPath) : Opening :=
  if p = ["Map".toList, "Map.wz".toList] then .parsed ["Obj".toList] else .refused

example (n : RNode) (fuel : Nat) : resolveRoot emptyDisk emptyOpen fuel ["Map".toList, "Map.wz".toList] ≠ .ok n :=
  C45_empty_subfolder emptyDisk emptyOpen fuel _ ["Obj".toList] _ ⟨"Obj".toList, .folder⟩ rfl rfl (by simp) rfl (by simp)
    rfl rfl n

example : resolveRoot partsDisk partsOpen 3 ["Mob".toList, "Mob.wz".toList] ≠ .error .fuel :=
  C45_ends partsDisk partsOpen 1 (fun p hp => if_neg fun h => by rw [h] at hp; simp at hp) 3 _ (by decide) (by decide)

example := C45_not_base flatDisk flatOpen flatOpen 3 ["game".toList, "Map.wz".toList] (by decide)

/-- `./Base.wz` -/
def dotDisk : Disk where
  entries := fun p => if p = [".".toList] then some [⟨"Base.wz".toList, .file⟩] else none
  tryExists := fun _ => some false

def dotOpen (p : FPath) : Opening :=
  if p = [".".toList, "Base.wz".toList] then .parsed ["Map".toList] else .refused

example : resolveBase dotDisk dotOpen dotOpen 2 [".".toList, "Base.wz".toList] = .error .panicUnwrap :=
  C45_relative_path dotDisk dotOpen dotOpen 2 ".".toList _ (.inl rfl) rfl

/-- a folder of archives where `Map` is a symbolic link to a folder -/
def linkDisk : Disk where
  entries := fun p => if p = ["game".toList] then some [⟨"Base.wz".toList, .file⟩, ⟨"Map".toList, .link true⟩] else none
  tryExists := fun _ => some false

def linkOpen (p : FPath) : Opening :=
  if p = ["game".toList, "Base.wz".toList] then .parsed ["Map".toList] else .refused

example (n : RNode) (fuel : Nat) : resolveBase linkDisk linkOpen linkOpen fuel ["game".toList, "Base.wz".toList] ≠ .ok n :=
  C45_linked_folder linkDisk linkOpen linkOpen fuel "game".toList n ⟨"Map".toList, .link true⟩ _ ["Map".toList]
    (by decide) rfl (by simp) rfl rfl (by decide) rfl

end Wz.Props
