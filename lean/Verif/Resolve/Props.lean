import Verif.Resolve.Lemmas
/-!
# Property theorems about folders of archives: C45
-/

set_option autoImplicit false

namespace Wz.Props
open Spec

/-! ## The naming rule -/

/-- C45: a file is taken for a numbered part exactly when its name without the extension ends in an underscore and a
number of at most 16 bits, maybe with a plus sign. -/
theorem C45_rule (name : FName) : isPart name = true ↔ PartName name := isPart_iff name

/-- C45, the part that holds: the numbered parts of an archive are recognised up to number 65535.
Missing: larger numbers (`C45_large_number`), and the other direction (`C45_any_base`, `C45_any_extension`). -/
theorem C45_parts_found_partial (base name num : FName) (h1 : num ≠ []) (h2 : ∀ c ∈ num, '0' ≤ c ∧ c ≤ '9')
    (h3 : digitsValue num < 65536) (h : name = base ++ '_' :: num ++ ".wz".toList) : isPart name = true := by
  have e : ".wz".toList = '.' :: ['w', 'z'] := by decide
  rw [isPart_iff]
  refine ⟨base ++ '_' :: num, base, num, ?_, rfl, num, .inl rfl, h1, h2, h3⟩
  rw [h, e]
  exact .dotted _ _ (by simp) (by decide)

example : isPart "Map_001.wz".toList = true ∧ isPart "Map_65535.wz".toList = true ∧ isPart "Map.wz".toList = false ∧
    isPart "Map_.wz".toList = false ∧ isPart "Map_x.wz".toList = false ∧ isPart "Map_1_2.wz".toList = true := by decide +kernel

/-- **Violation of C45**: a part number of 65536 or more is not recognised, and the file is left out without an error. -/
theorem C45_large_number (base name num : FName) (h2 : ∀ c ∈ num, '0' ≤ c ∧ c ≤ '9')
    (h3 : 65536 ≤ digitsValue num) (h : name = base ++ '_' :: num ++ ".wz".toList) : isPart name = false := by
  have e : ".wz".toList = '.' :: ['w', 'z'] := by decide
  rw [Bool.eq_false_iff]
  intro hp
  obtain ⟨stem, b, n, hs, h4, hn⟩ := (isPart_iff name).mp hp
  have hb : '_' ∉ num := fun hm => absurd (h2 _ hm) (by decide)
  have : StemOf name (base ++ '_' :: num) := by
    rw [h, e]; exact .dotted _ _ (by simp) (by decide)
  have := (stemOf_eq this).trans (stemOf_eq hs).symm
  rw [h4] at this
  have h5 := congrArg (fun s => (splitBar s).getLast?) this
  simp only [splitBar_append, splitBar_plain hb, splitBar_plain (number_no_bar hn)] at h5
  have h5 : num = n := by simpa using h5
  subst h5
  obtain ⟨ds, h6 | h6, -, h7, h8⟩ := hn
  · subst h6; omega
  · subst h6
    exact absurd (h2 '+' List.mem_cons_self) (by decide)

example : isPart "Map_65536.wz".toList = false := by decide +kernel

/-- **Violation of C45**: the base name is not compared: a numbered file counts for every archive of its folder. -/
theorem C45_any_base (base base' num : FName) (h1 : num ≠ []) (h2 : ∀ c ∈ num, '0' ≤ c ∧ c ≤ '9')
    (h3 : digitsValue num < 65536) :
    isPart (base ++ '_' :: num ++ ".wz".toList) = isPart (base' ++ '_' :: num ++ ".wz".toList) := by
  rw [C45_parts_found_partial base _ num h1 h2 h3 rfl, C45_parts_found_partial base' _ num h1 h2 h3 rfl]

/-- **Violation of C45**: nor is the extension: `notes_2.txt` counts as a part, and so does a file without extension. -/
theorem C45_any_extension (base num ext : FName) (h1 : num ≠ []) (h2 : ∀ c ∈ num, '0' ≤ c ∧ c ≤ '9')
    (h3 : digitsValue num < 65536) (he : '.' ∉ ext) : isPart (base ++ '_' :: num ++ '.' :: ext) = true :=
  (isPart_iff _).mpr ⟨_, base, num, .dotted _ _ (by simp) he, rfl, num, .inl rfl, h1, h2, h3⟩

example : isPart "notes_2.txt".toList = true ∧ isPart "notes_2".toList = true ∧ isPart "Map_+7.wz".toList = true := by decide +kernel

/-! ## Merging -/

/-- a call that succeeds, taken apart -/
theorem resolveRoot_ok {k : Disk} {op : FPath → Opening} {fuel : Nat} {file : FPath} {n : RNode}
    (h : resolveRoot k op (fuel + 1) file = .ok n) :
    ∃ names es ks, op file = .parsed names ∧ k.entries file.dropLast = some es ∧ n = .pack file ks ∧
      partsLoop k op (resolveRoot k op fuel) file.dropLast es (kidsOf file names) = .ok ks := by
  rw [resolveRoot] at h
  split at h
  · cases h
  · cases h
  · rename_i names hop
    split at h
    · cases h
    · rename_i es hes
      split at h
      · cases h
      · rename_i ks hks
        cases h
        exact ⟨names, es, ks, hop, hes, rfl, hks⟩

/-- C45: the children of the result are exactly those of the archive, of the parts in its folder and of its subfolders
merged: under each name the node of the entry that was read last. -/
theorem C45_merge (k : Disk) (op : FPath → Opening) (fuel : Nat) (file : FPath) (n : RNode)
    (h : resolveRoot k op (fuel + 1) file = .ok n) :
    ∃ names es ks, op file = .parsed names ∧ k.entries file.dropLast = some es ∧ n = .pack file ks ∧
      ∀ key m, (key, m) ∈ ks ↔ Merged ⟨k, op, resolveRoot k op fuel, file.dropLast⟩ (kidsOf file names) es key m := by
  obtain ⟨names, es, ks, h1, h2, h3, h4⟩ := resolveRoot_ok h
  exact ⟨names, es, ks, h1, h2, h3,
    partsLoop_merged (s := ⟨k, op, resolveRoot k op fuel, file.dropLast⟩) es h4⟩

/-- C45: no name is lost and none is made up: the names of the result are those of the archive and of the parts. -/
theorem C45_names (k : Disk) (op : FPath → Opening) (fuel : Nat) (file : FPath) (n : RNode)
    (h : resolveRoot k op (fuel + 1) file = .ok n) :
    ∃ names es ks, op file = .parsed names ∧ k.entries file.dropLast = some es ∧ n = .pack file ks ∧
      ∀ key, (∃ m, (key, m) ∈ ks) ↔ key ∈ names ∨
        ∃ e ∈ es, e.kind = .file ∧ PartName e.name ∧ ∃ more, op (file.dropLast ++ [e.name]) = .parsed more ∧ key ∈ more := by
  obtain ⟨names, es, ks, h1, h2, h3, h4⟩ := resolveRoot_ok h
  refine ⟨names, es, ks, h1, h2, h3, fun key => ?_⟩
  rw [partsLoop_has (s := ⟨k, op, resolveRoot k op fuel, file.dropLast⟩) es h4 key]
  refine or_congr ⟨fun ⟨m, hm⟩ => (mem_kidsOf.mp hm).1, fun hk => ⟨_, mem_kidsOf.mpr ⟨hk, rfl⟩⟩⟩ ?_
  constructor
  · rintro ⟨e, he, m, a, b, more, c, d, -⟩
    exact ⟨e, he, a, b, more, c, d⟩
  · rintro ⟨e, he, a, b, more, c, d⟩
    exact ⟨e, he, _, a, b, more, c, d, rfl⟩

/-- C45: if no two of the archive, its parts and its subfolders have a child of the same name, every child of the
archive and of every part is in the result as itself, whatever the order in which the folder is read. -/
theorem C45_disjoint (k : Disk) (op : FPath → Opening) (fuel : Nat) (file : FPath) (names : List FName) (es : List FEntry)
    (ks : RKids) (hop : op file = .parsed names) (hes : k.entries file.dropLast = some es)
    (h : resolveRoot k op (fuel + 1) file = .ok (.pack file ks))
    (hfold : ∀ e ∈ es, e.kind = .folder → e.name ∉ names ∧
      ∀ x ∈ es, ∀ more, x.kind = .file → PartName x.name → op (file.dropLast ++ [x.name]) = .parsed more → e.name ∉ more)
    (hown : ∀ x ∈ es, ∀ more, x.kind = .file → PartName x.name → op (file.dropLast ++ [x.name]) = .parsed more →
      ∀ key ∈ more, key ∉ names)
    (hparts : ∀ x ∈ es, ∀ y ∈ es, ∀ a b, x.kind = .file → y.kind = .file → PartName x.name → PartName y.name →
      op (file.dropLast ++ [x.name]) = .parsed a → op (file.dropLast ++ [y.name]) = .parsed b → (∃ key ∈ a, key ∈ b) → x.name = y.name) :
    ∀ key m, (key, m) ∈ ks ↔ (key ∈ names ∧ m = .child file key) ∨
      ∃ e ∈ es, e.kind = .file ∧ PartName e.name ∧ ∃ more, op (file.dropLast ++ [e.name]) = .parsed more ∧ key ∈ more ∧
        m = .child (file.dropLast ++ [e.name]) key := by
  obtain ⟨names', es', ks', h1, h2, h3, h4⟩ := C45_merge k op fuel file _ h
  rw [hop] at h1
  cases h1
  rw [hes] at h2
  cases h2
  cases h3
  intro key m
  rw [h4]
  unfold Merged
  constructor
  · rintro (⟨pre, e, post, hs, h5, -⟩ | ⟨h5, -⟩)
    · have he : e ∈ es := by rw [hs]; simp
      rcases h5 with ⟨a, b, more, c, d, hm⟩ | ⟨⟨a, b, -⟩, hp⟩
      · exact .inr ⟨e, he, a, b, more, c, d, hm⟩
      · exfalso
        obtain ⟨q1, q2⟩ := hfold e he a
        rcases hp with ⟨m', hm'⟩ | ⟨x, hx, m', a', b', more, c, d, -⟩
        · exact q1 (b ▸ (mem_kidsOf.mp hm').1)
        · exact q2 x (by rw [hs]; simp [hx]) more a' b' c (b ▸ d)
    · exact .inl (mem_kidsOf.mp h5)
  · rintro (⟨h5, rfl⟩ | ⟨e, he, a, b, more, c, d, rfl⟩)
    · refine .inr ⟨mem_kidsOf.mpr ⟨h5, rfl⟩, fun x hx m => ⟨?_, ?_⟩⟩
      · rintro ⟨a, b, more, c, d, -⟩
        exact hown x hx more a b c key d h5
      · rintro ⟨a, b, -⟩
        exact (hfold x hx a).1 (b ▸ h5)
    · obtain ⟨pre, post, hs, hlast⟩ : ∃ pre post, es = pre ++ e :: post ∧ e ∉ post := by
        clear h4 hfold hown hparts hes
        induction es with
        | nil => cases he
        | cons y es ih =>
          by_cases hy : e ∈ es
          · obtain ⟨pre, post, h1, h2⟩ := ih hy
            exact ⟨y :: pre, post, by rw [h1]; rfl, h2⟩
          · cases he with
            | head => exact ⟨[], es, rfl, hy⟩
            | tail _ he => exact absurd he hy
      refine .inl ⟨pre, e, post, hs, .inl ⟨a, b, more, c, d, rfl⟩, fun x hx m => ⟨?_, ?_⟩⟩
      · rintro ⟨a', b', more', c', d', -⟩
        have hxe : x ∈ es := by rw [hs]; simp [hx]
        have hn := hparts e he x hxe more more' a a' b b' c c' ⟨key, d, d'⟩
        have : x = e := by
          cases x; cases e
          dsimp only at *
          rw [hn, a, a']
        exact hlast (this ▸ hx)
      · rintro ⟨a', b', -⟩
        have hxe : x ∈ es := by rw [hs]; simp [hx]
        exact (hfold x hxe a').2 e he more a b c (b' ▸ d)

/-! ## Calls that cannot succeed -/

theorem partsLoop_refused {s : Setting} (es : List FEntry) : ∀ {ks r : RKids},
    partsLoop s.disk s.op s.again s.dir es ks = .ok r → ∀ e ∈ es, e.kind = .file → PartName e.name →
      s.op (s.dir ++ [e.name]) ≠ .refused := by
  induction es with
  | nil => intro ks r _ e he; cases he
  | cons x es ih =>
    intro ks r h e he hk hp
    cases he with
    | tail _ he =>
      obtain ⟨ks', -, h'⟩ := partsLoop_cons h
      exact ih h' e he hk hp
    | head =>
      intro hr
      rw [partsLoop, if_neg (by rw [hk]; rintro ⟨h, -⟩; cases h), if_pos hk, if_pos ((isPart_iff _).mpr hp), hr] at h
      cases h

/-- C45: a file whose name looks like that of a part and that is not an archive, as `notes_2.txt`, makes the whole call
fail. -/
theorem C45_stray_file (k : Disk) (op : FPath → Opening) (fuel : Nat) (file : FPath) (es : List FEntry) (e : FEntry)
    (hes : k.entries file.dropLast = some es) (he : e ∈ es) (hk : e.kind = .file) (hp : PartName e.name)
    (hr : op (file.dropLast ++ [e.name]) = .refused) (n : RNode) : resolveRoot k op fuel file ≠ .ok n := by
  intro h
  cases fuel with
  | zero => cases h
  | succ fuel =>
    obtain ⟨names, es', ks, -, h2, -, h4⟩ := resolveRoot_ok h
    rw [hes] at h2
    cases h2
    exact partsLoop_refused (s := ⟨k, op, resolveRoot k op fuel, file.dropLast⟩) es h4 e he hk hp hr

theorem partsLoop_folder {s : Setting} (es : List FEntry) : ∀ {ks r : RKids},
    partsLoop s.disk s.op s.again s.dir es ks = .ok r → ∀ e ∈ es, e.kind = .folder → (∃ m, (e.name, m) ∈ ks) →
      s.disk.tryExists (s.dir ++ [e.name, e.name ++ ".wz".toList]) ≠ none →
      ∃ n, s.again (s.dir ++ [e.name, e.name ++ ".wz".toList]) = .ok n := by
  induction es with
  | nil => intro ks r _ e he; cases he
  | cons x es ih =>
    intro ks r h e he hk hp ht
    cases he with
    | tail _ he =>
      obtain ⟨ks', heff, h'⟩ := partsLoop_cons h
      exact ih h' e he hk ((heff.has _).mpr (.inl hp)) ht
    | head =>
      obtain ⟨m, hm⟩ := hp
      rw [partsLoop, if_pos ⟨hk, by rw [List.any_eq_true]; exact ⟨_, hm, by simp⟩⟩, rootFile_eq, if_pos ht] at h
      dsimp only at h
      cases ha : s.again (s.dir ++ [x.name, x.name ++ ".wz".toList]) with
      | ok n => exact ⟨n, rfl⟩
      | error x => rw [ha] at h; cases h

/-- C45: a subfolder with the name of a child must hold the archive of that name: if it is missing, the whole call
fails, because the test for its existence only looks for errors. -/
theorem C45_empty_subfolder (k : Disk) (op : FPath → Opening) (fuel : Nat) (file : FPath) (names : List FName)
    (es : List FEntry) (e : FEntry) (hop : op file = .parsed names) (hes : k.entries file.dropLast = some es) (he : e ∈ es)
    (hk : e.kind = .folder) (hm : e.name ∈ names)
    (ht : k.tryExists (file.dropLast ++ [e.name, e.name ++ ".wz".toList]) = some false)
    (hr : op (file.dropLast ++ [e.name, e.name ++ ".wz".toList]) = .refused) (n : RNode) :
    resolveRoot k op fuel file ≠ .ok n := by
  intro h
  cases fuel with
  | zero => cases h
  | succ fuel =>
    obtain ⟨names', es', ks, h1, h2, -, h4⟩ := resolveRoot_ok h
    rw [hes] at h2
    cases h2
    rw [hop] at h1
    cases h1
    obtain ⟨n, hn⟩ := partsLoop_folder (s := ⟨k, op, resolveRoot k op fuel, file.dropLast⟩) es h4 e he hk
      ⟨_, mem_kidsOf.mpr ⟨hm, rfl⟩⟩ (by rw [ht]; simp)
    dsimp only at hn
    cases fuel with
    | zero => cases hn
    | succ fuel =>
      rw [resolveRoot, hr] at hn
      cases hn

/-! ## It ends -/

theorem partsLoop_fuel {k : Disk} {op : FPath → Opening} {again : FPath → Except Err RNode} {dir : FPath}
    (ha : ∀ name, again (dir ++ [name, name ++ ".wz".toList]) ≠ .error .fuel) (es : List FEntry) :
    ∀ ks, partsLoop k op again dir es ks ≠ .error .fuel := by
  induction es with
  | nil => intro ks h; cases h
  | cons e es ih =>
    intro ks h
    rw [partsLoop] at h
    split at h
    · rw [rootFile_eq] at h
      split at h
      · rename_i p hp
        split at hp
        · injection hp with hp
          subst hp
          split at h
          · rename_i x hx
            injection h with h
            subst h
            exact ha _ hx
          · exact ih _ h
        · cases hp
      · exact ih _ h
    · split at h
      · split at h
        · split at h
          · cases h
          · exact ih _ h
          · exact ih _ h
        · exact ih _ h
      · exact ih _ h

/-- C45: on a disk whose folders are nested at most `depth` deep the call ends. -/
theorem C45_ends (k : Disk) (op : FPath → Opening) (depth : Nat) (hd : ∀ p, depth < p.length → k.entries p = none)
    (fuel : Nat) (file : FPath) (hf : depth + 2 ≤ fuel + file.dropLast.length) (h0 : fuel ≠ 0) :
    resolveRoot k op fuel file ≠ .error .fuel := by
  induction fuel generalizing file with
  | zero => exact absurd rfl h0
  | succ fuel ih =>
    intro h
    rw [resolveRoot] at h
    split at h
    · cases h
    · cases h
    · split at h
      · cases h
      · rename_i es hes
        split at h
        · rename_i e he
          injection h with h
          subst h
          have hlen : file.dropLast.length ≤ depth := Decidable.byContradiction fun hn => by
            rw [hd _ (by omega)] at hes; cases hes
          refine partsLoop_fuel (fun name => ?_) es _ he
          refine ih _ ?_ (by omega)
          rw [show file.dropLast ++ [name, name ++ ".wz".toList] = (file.dropLast ++ [name]) ++ [name ++ ".wz".toList] by simp,
            List.dropLast_concat, List.length_append]
          simp only [List.length_singleton]
          omega
        · cases h

/-! ## A shared folder -/

/-- a game's folder with the archives side by side, as in old clients -/
def flatDisk : Disk where
  entries := fun p => if p = ["game".toList] then
      some (["Base.wz", "Map.wz", "Mob.wz", "Mob_001.wz"].map fun s => ⟨s.toList, .file⟩) else none
  tryExists := fun _ => some true

def flatOpen (p : FPath) : Opening :=
  if p = ["game".toList, "Base.wz".toList] then .parsed ["Map".toList, "Mob".toList]
  else if p = ["game".toList, "Map.wz".toList] then .parsed ["a.img".toList]
  else if p = ["game".toList, "Mob.wz".toList] then .parsed ["b.img".toList]
  else if p = ["game".toList, "Mob_001.wz".toList] then .parsed ["c.img".toList]
  else .refused

/-- **Violation of C45**: in a folder that several archives share, the second part of `Mob` also becomes part of `Map`
and of `Base`. -/
theorem C45_shared_folder_counterexample :
    ∃ mapKids mobKids, resolveBase flatDisk flatOpen flatOpen 3 ["game".toList, "Base.wz".toList] =
      .ok (.pack ["game".toList, "Base.wz".toList]
        [("c.img".toList, .child ["game".toList, "Mob_001.wz".toList] "c.img".toList),
         ("Map".toList, .pack ["game".toList, "Map.wz".toList] mapKids),
         ("Mob".toList, .pack ["game".toList, "Mob.wz".toList] mobKids)]) ∧
      ("c.img".toList, .child ["game".toList, "Mob_001.wz".toList] "c.img".toList) ∈ mapKids :=
  ⟨[("a.img".toList, .child ["game".toList, "Map.wz".toList] "a.img".toList),
    ("c.img".toList, .child ["game".toList, "Mob_001.wz".toList] "c.img".toList)],
   [("b.img".toList, .child ["game".toList, "Mob.wz".toList] "b.img".toList),
    ("c.img".toList, .child ["game".toList, "Mob_001.wz".toList] "c.img".toList)], by rfl, by simp⟩

/-- a folder with an archive, a part, a subfolder and a stray file that is no part -/
def nestedDisk (order : List FEntry) : Disk where
  entries := fun p => if p = ["Map".toList] then some order
    else if p = ["Map".toList, "Obj".toList] then some [⟨"Obj.wz".toList, .file⟩] else none
  tryExists := fun _ => some true

def nestedOpen (p : FPath) : Opening :=
  if p = ["Map".toList, "Map.wz".toList] then .parsed ["Obj".toList, "a.img".toList]
  else if p = ["Map".toList, "Map_000.wz".toList] then .parsed ["b.img".toList, "Obj".toList]
  else if p = ["Map".toList, "Obj".toList, "Obj.wz".toList] then .parsed ["c.img".toList]
  else .refused

/-- **Violation of C45**: the result depends on the order in which the system lists the folder: if the part is read
after the subfolder and has an entry of its name, the content of the subfolder is lost. -/
theorem C45_order_counterexample :
    resolveRoot (nestedDisk [⟨"Map.ini".toList, .file⟩, ⟨"Map_000.wz".toList, .file⟩, ⟨"Obj".toList, .folder⟩]) nestedOpen 3
        ["Map".toList, "Map.wz".toList] =
      .ok (.pack ["Map".toList, "Map.wz".toList]
        [("a.img".toList, .child ["Map".toList, "Map.wz".toList] "a.img".toList),
         ("b.img".toList, .child ["Map".toList, "Map_000.wz".toList] "b.img".toList),
         ("Obj".toList, .pack ["Map".toList, "Obj".toList, "Obj.wz".toList]
           [("c.img".toList, .child ["Map".toList, "Obj".toList, "Obj.wz".toList] "c.img".toList)])]) ∧
    resolveRoot (nestedDisk [⟨"Map.ini".toList, .file⟩, ⟨"Obj".toList, .folder⟩, ⟨"Map_000.wz".toList, .file⟩]) nestedOpen 3
        ["Map".toList, "Map.wz".toList] =
      .ok (.pack ["Map".toList, "Map.wz".toList]
        [("a.img".toList, .child ["Map".toList, "Map.wz".toList] "a.img".toList),
         ("b.img".toList, .child ["Map".toList, "Map_000.wz".toList] "b.img".toList),
         ("Obj".toList, .child ["Map".toList, "Map_000.wz".toList] "Obj".toList)]) := ⟨by rfl, by rfl⟩

/-! ## From the base -/

theorem baseLoop_names {k : Disk} {again : FPath → Except Err RNode} {dir : FPath} (es : List FEntry) : ∀ {ks r : RKids},
    baseLoop k again dir es ks = .ok r → ∀ key, (∃ m, (key, m) ∈ r) ↔ ∃ m, (key, m) ∈ ks := by
  induction es with
  | nil => intro ks r h key; cases h; exact Iff.rfl
  | cons e es ih =>
    intro ks r h key
    rw [baseLoop] at h
    dsimp only at h
    split at h
    · rename_i hv
      have hstep : ∀ n, baseLoop k again dir es (ks.put (fileStem e.name) n) = .ok r →
          ((∃ m, (key, m) ∈ r) ↔ ∃ m, (key, m) ∈ ks) := by
        intro n hn
        rw [ih hn]
        constructor
        · rintro ⟨m, hm⟩
          rcases mem_put.mp hm with ⟨rfl, -⟩ | ⟨-, hm⟩
          · have := hv.1
            rw [List.any_eq_true] at this
            obtain ⟨⟨q1, q2⟩, hq, he⟩ := this
            simp only [decide_eq_true_eq] at he
            exact ⟨q2, he ▸ hq⟩
          · exact ⟨m, hm⟩
        · rintro ⟨m, hm⟩
          by_cases hk : key = fileStem e.name
          · exact ⟨n, mem_put.mpr (.inl ⟨hk, rfl⟩)⟩
          · exact ⟨m, mem_put.mpr (.inr ⟨hk, hm⟩)⟩
      split at h
      · exact ih h key
      · split at h
        · cases h
        · exact hstep _ h
    · exact ih h key

theorem resolveBase_ok {k : Disk} {op op2 : FPath → Opening} {fuel : Nat} {file : FPath} {n : RNode}
    (h : resolveBase k op op2 fuel file = .ok n) :
    file.getLast? = some "Base.wz".toList ∧ ∃ ks ks' dir es, resolveRoot k op fuel file = .ok (.pack file ks) ∧ n = .pack file ks' ∧
      k.entries dir = some es ∧ (dir = file.dropLast ∨ dir = file.dropLast.dropLast) ∧
      baseLoop k (resolveRoot k op2 fuel) dir es ks = .ok ks' := by
  unfold resolveBase at h
  split at h
  · cases h
  · rename_i hl
    refine ⟨?_, ?_⟩
    · rw [Decidable.not_not] at hl
      rw [hl]; rfl
    · cases fuel with
      | zero => cases h
      | succ fuel =>
        cases hr : resolveRoot k op (fuel + 1) file with
        | error e => rw [hr] at h; cases h
        | ok m =>
          obtain ⟨names, es0, ks, -, -, rfl, -⟩ := resolveRoot_ok hr
          rw [hr] at h
          dsimp only at h
          split at h
          · cases h
          · split at h
            · cases h
            · split at h
              · cases h
              · rename_i es hes
                split at h
                · cases h
                · rename_i ks' hks
                  injection h with h
                  refine ⟨ks, ks', _, es, rfl, h.symm, hes, ?_, hks⟩
                  split
                  · exact .inr rfl
                  · exact .inl rfl

/-- C45: resolving from the base only fills in what the base and its parts list: the names stay the same. -/
theorem C45_base_names (k : Disk) (op op2 : FPath → Opening) (fuel : Nat) (file : FPath) (n : RNode)
    (h : resolveBase k op op2 fuel file = .ok n) :
    ∃ ks ks', resolveRoot k op fuel file = .ok (.pack file ks) ∧ n = .pack file ks' ∧
      ∀ key, (∃ m, (key, m) ∈ ks') ↔ ∃ m, (key, m) ∈ ks := by
  obtain ⟨-, ks, ks', dir, es, h1, h2, -, -, h3⟩ := resolveBase_ok h
  exact ⟨ks, ks', h1, h2, baseLoop_names es h3⟩

/-- C45: a path that does not end in `Base.wz` is refused. -/
theorem C45_not_base (k : Disk) (op op2 : FPath → Opening) (fuel : Nat) (file : FPath)
    (h : file.getLast? ≠ some "Base.wz".toList) : resolveBase k op op2 fuel file = .error (.lib "Io") := by
  unfold resolveBase
  rw [if_pos]
  intro hc
  exact h (hc.trans rfl)

/-- C45: `./Base.wz` and `../Base.wz` crash, although the archive can be read. -/
theorem C45_relative_path (k : Disk) (op op2 : FPath → Opening) (fuel : Nat) (folder : FName) (n : RNode)
    (hf : folder = ".".toList ∨ folder = "..".toList)
    (h : resolveRoot k op fuel [folder, "Base.wz".toList] = .ok n) :
    resolveBase k op op2 fuel [folder, "Base.wz".toList] = .error .panicUnwrap := by
  unfold resolveBase
  rw [if_neg (by simp), h]
  cases fuel with
  | zero => cases h
  | succ fuel =>
    obtain ⟨names, es0, ks, -, -, rfl, -⟩ := resolveRoot_ok h
    have e : (([folder, "Base.wz".toList] : FPath).dropLast.getLast?) = some folder := rfl
    dsimp only
    rw [e]
    dsimp only
    rw [if_pos (by exact hf)]

theorem baseLoop_link {k : Disk} {again : FPath → Except Err RNode} {dir : FPath} (es : List FEntry) : ∀ {ks r : RKids},
    baseLoop k again dir es ks = .ok r → ∀ e ∈ es, e.kind = .link true → (∃ m, (fileStem e.name, m) ∈ ks) →
      ∃ n, again (dir ++ [e.name]) = .ok n := by
  induction es with
  | nil => intro ks r _ e he; cases he
  | cons x es ih =>
    intro ks r h e he hk hp
    cases he with
    | tail _ he =>
      rw [baseLoop] at h
      dsimp only at h
      have hstep : ∀ n, baseLoop k again dir es (ks.put (fileStem x.name) n) = .ok r → ∃ n, again (dir ++ [e.name]) = .ok n := by
        intro n hn
        refine ih hn e he hk ?_
        obtain ⟨m, hm⟩ := hp
        by_cases hke : fileStem e.name = fileStem x.name
        · exact ⟨n, mem_put.mpr (.inl ⟨hke, rfl⟩)⟩
        · exact ⟨m, mem_put.mpr (.inr ⟨hke, hm⟩)⟩
      split at h
      · split at h
        · exact ih h e he hk hp
        · split at h
          · cases h
          · exact hstep _ h
      · exact ih h e he hk hp
    | head =>
      obtain ⟨m, hm⟩ := hp
      rw [baseLoop] at h
      dsimp only at h
      rw [if_pos ⟨by rw [List.any_eq_true]; exact ⟨_, hm, by simp⟩, by rw [hk]; simp⟩,
        if_neg (by rw [hk]; intro hc; cases hc)] at h
      dsimp only at h
      cases ha : again (dir ++ [x.name]) with
      | ok n => exact ⟨n, rfl⟩
      | error e => rw [ha] at h; cases h

/-- C45: a symbolic link to the folder of a package that the base lists is opened as if it were the archive; as a folder
cannot be opened so, the whole call fails. -/
theorem C45_linked_folder (k : Disk) (op op2 : FPath → Opening) (fuel : Nat) (folder : FName) (n : RNode) (e : FEntry)
    (es : List FEntry) (names : List FName) (hfolder : fileStem folder ≠ "Base".toList)
    (hes : k.entries [folder] = some es) (he : e ∈ es) (hk : e.kind = .link true)
    (hop : op [folder, "Base.wz".toList] = .parsed names) (hm : fileStem e.name ∈ names)
    (hr : op2 [folder, e.name] = .refused) :
    resolveBase k op op2 fuel [folder, "Base.wz".toList] ≠ .ok n := by
  intro h
  have h0 := h
  obtain ⟨-, ks, ks', -, -, h1, -⟩ := resolveBase_ok h
  cases fuel with
  | zero => cases h1
  | succ fuel =>
    obtain ⟨names', es', ks'', g1, g2, g3, g4⟩ := resolveRoot_ok h1
    rw [hop] at g1
    cases g1
    cases g3
    have hhas : ∃ m, (fileStem e.name, m) ∈ ks :=
      (partsLoop_has (s := ⟨k, op, resolveRoot k op fuel, [folder]⟩) es' g4 _).mpr (.inl ⟨_, mem_kidsOf.mpr ⟨hm, rfl⟩⟩)
    unfold resolveBase at h0
    rw [if_neg (by simp), h1] at h0
    have e1 : (([folder, "Base.wz".toList] : FPath).dropLast.getLast?) = some folder := rfl
    dsimp only at h0
    rw [e1] at h0
    dsimp only at h0
    split at h0
    · cases h0
    · rw [if_neg (by exact hfolder)] at h0
      rw [show ([folder, "Base.wz".toList] : FPath).dropLast = [folder] from rfl, hes] at h0
      dsimp only at h0
      split at h0
      · cases h0
      · rename_i kx hkx
        obtain ⟨m, hm'⟩ := baseLoop_link es hkx e he hk hhas
        rw [resolveRoot, show ([folder] ++ [e.name] : FPath) = [folder, e.name] from rfl, hr] at hm'
        cases hm'

/-- the folder of the base is left for its parent if its name without extension is `Base`: also for `Base.old` -/
example : fileStem "Base".toList = "Base".toList ∧ fileStem "Base.old".toList = "Base".toList := by decide +kernel

end Wz.Props
