import Verif.Node.Spec

set_option autoImplicit false

namespace Wz

open Spec

theorem up_eq_some {h : NHeap} {i p : Nat} : h.up i = some p ↔ ParentOf h i p := by
  unfold NHeap.up ParentOf
  constructor
  · intro h1
    split at h1
    · cases h1
    · rename_i c hc
      split at h1
      · cases h1
      · rename_i q hq
        split at h1
        · cases h1
        · rename_i d hd
          cases h1
          exact ⟨c, d, hc, hq, hd⟩
  · rintro ⟨c, d, h1, h2, h3⟩
    simp only [h1, h2, h3]

theorem up_eq_none {h : NHeap} {i : Nat} : h.up i = none ↔ ∀ p, ¬ ParentOf h i p := by
  constructor
  · intro h1 p hp
    rw [up_eq_some.2 hp] at h1; cases h1
  · intro h1
    cases hu : h.up i with
    | none => rfl
    | some p => exact absurd (up_eq_some.1 hu) (h1 p)

theorem nameOf_eq {h : NHeap} {i : Nat} {n : List Char} (hn : Called h i n) : h.nameOf i = n := by
  obtain ⟨c, hc, rfl⟩ := hn
  simp [NHeap.nameOf, hc]

theorem kidAt_some {ks : List (List Char × Nat)} {n : List Char} {j : Nat} (hd : (ks.map Prod.fst).Nodup) :
    kidAt ks n = some j ↔ (n, j) ∈ ks := by
  induction ks with
  | nil => simp [kidAt]
  | cons x xs ih =>
    obtain ⟨m, k⟩ := x
    simp only [List.map_cons, List.nodup_cons] at hd
    have ih := ih hd.2
    unfold kidAt at ih ⊢
    by_cases hm : m = n
    · subst hm
      simp only [List.find?_cons, beq_self_eq_true, Option.map_some, List.mem_cons]
      constructor
      · intro h1; cases h1; exact .inl rfl
      · rintro (h1 | h1)
        · cases h1; rfl
        · exact absurd (List.mem_map.2 ⟨_, h1, rfl⟩) hd.1
    · have : (m == n) = false := by simpa using hm
      simp only [List.find?_cons, this, List.mem_cons]
      rw [ih]
      constructor
      · exact .inr
      · rintro (h1 | h1)
        · cases h1; exact absurd rfl hm
        · exact h1

theorem at_eq {h : NHeap} (hm : MapsOk h) {i j : Nat} {n : List Char} :
    h.at i n = some j ↔ ChildOf h i n j := by
  unfold NHeap.at ChildOf
  cases hc : h.cell i with
  | none => simp
  | some c =>
    dsimp only
    rw [kidAt_some (hm i c hc)]
    constructor
    · intro h1; exact ⟨c, rfl, h1⟩
    · rintro ⟨c', h1, h2⟩; cases h1; exact h2

theorem foldPath_at {h : NHeap} (hm : MapsOk h) : ∀ (ns : List (List Char)) (i k : Nat),
    foldPath h.at i ns = some k ↔ Steps h i ns k
  | [], i, k => by
    simp only [foldPath]
    constructor
    · intro h1; cases h1; exact .here i
    · intro h1; cases h1; rfl
  | n :: ns, i, k => by
    simp only [foldPath]
    cases ha : h.at i n with
    | none =>
      dsimp only
      constructor
      · intro h1; cases h1
      · intro h1
        cases h1 with
        | step _ j _ _ _ hc _ => rw [(at_eq hm).2 hc] at ha; cases ha
    | some j =>
      dsimp only
      rw [foldPath_at hm ns j k]
      constructor
      · intro h1; exact .step i j k n ns ((at_eq hm).1 ha) h1
      · intro h1
        cases h1 with
        | step _ j' _ _ _ hc hs => rw [(at_eq hm).2 hc] at ha; cases ha; exact hs

theorem dots_eq : "..".toList = ['.', '.'] := by decide

theorem atRel_dots {h : NHeap} {i : Nat} : h.atRel i ['.', '.'] = h.up i := by
  simp [NHeap.atRel]

theorem foldPath_rel {h : NHeap} (hm : MapsOk h) : ∀ (ns : List (List Char)) (i k : Nat),
    foldPath h.atRel i ns = some k ↔ RelSteps h i ns k
  | [], i, k => by
    simp only [foldPath]
    constructor
    · intro h1; cases h1; exact .here i
    · intro h1; cases h1; rfl
  | n :: ns, i, k => by
    simp only [foldPath]
    by_cases hn : n = ['.', '.']
    · subst hn
      rw [atRel_dots]
      cases ha : h.up i with
      | none =>
        dsimp only
        constructor
        · intro h1; cases h1
        · intro h1
          cases h1 with
          | down _ _ _ _ _ hd _ _ => exact absurd dots_eq.symm hd
          | up _ p _ _ hp _ => exact absurd hp (up_eq_none.1 ha p)
      | some j =>
        dsimp only
        rw [foldPath_rel hm ns j k]
        constructor
        · intro h1
          have := RelSteps.up i j k ns (up_eq_some.1 ha) h1
          rwa [dots_eq] at this
        · intro h1
          cases h1 with
          | down _ _ _ _ _ hd _ _ => exact absurd dots_eq.symm hd
          | up _ p _ _ hp hs =>
            rw [up_eq_some.2 hp] at ha; cases ha; exact hs
    · have hr : h.atRel i n = h.at i n := by simp [NHeap.atRel, hn]
      rw [hr]
      cases ha : h.at i n with
      | none =>
        dsimp only
        constructor
        · intro h1; cases h1
        · intro h1
          cases h1 with
          | down _ j _ _ _ _ hc _ => rw [(at_eq hm).2 hc] at ha; cases ha
          | up => exact absurd dots_eq hn
      | some j =>
        dsimp only
        rw [foldPath_rel hm ns j k]
        constructor
        · intro h1; exact .down i j k n ns (by rw [dots_eq]; exact hn) ((at_eq hm).1 ha) h1
        · intro h1
          cases h1 with
          | down _ j' _ _ _ _ hc hs => rw [(at_eq hm).2 hc] at ha; cases ha; exact hs
          | up => exact absurd dots_eq hn

/-! ## splitting -/

theorem slashed_cons (x : List Char) (y : List Char) (r : List (List Char)) :
    slashed (x :: y :: r) = x ++ '/' :: slashed (y :: r) := by
  simp [slashed, List.intercalate]

theorem slashed_one (x : List Char) : slashed [x] = x := by simp [slashed, List.intercalate]

theorem splitSlash_ne : ∀ s, splitSlash s ≠ []
  | [] => by simp [splitSlash]
  | c :: s => by
    simp only [splitSlash]
    split
    · simp
    · split <;> simp

theorem splitSlash_clean : ∀ s, ∀ n ∈ splitSlash s, '/' ∉ n
  | [] => by simp [splitSlash]
  | c :: s => by
    intro n hn
    simp only [splitSlash] at hn
    split at hn
    · rcases List.mem_cons.1 hn with rfl | hn
      · simp
      · exact splitSlash_clean s n hn
    · rename_i hc
      cases hs : splitSlash s with
      | nil => exact absurd hs (splitSlash_ne s)
      | cons x xs =>
        rw [hs] at hn
        dsimp only at hn
        have ih := splitSlash_clean s
        rw [hs] at ih
        rcases List.mem_cons.1 hn with rfl | hn
        · intro hm
          rcases List.mem_cons.1 hm with hm | hm
          · exact hc hm.symm
          · exact ih x List.mem_cons_self hm
        · exact ih n (List.mem_cons_of_mem _ hn)

theorem splitSlash_text : ∀ s, slashed (splitSlash s) = s
  | [] => rfl
  | c :: s => by
    have ih := splitSlash_text s
    simp only [splitSlash]
    cases hs : splitSlash s with
    | nil => exact absurd hs (splitSlash_ne s)
    | cons x xs =>
      rw [hs] at ih
      split
      · rename_i hc
        rw [slashed_cons, ih, hc]; rfl
      · dsimp only
        cases xs with
        | nil => rw [slashed_one] at ih ⊢; rw [ih]
        | cons y ys => rw [slashed_cons] at ih ⊢; rw [List.cons_append, ih]

theorem splitSlash_app : ∀ (n : List Char) (s : List Char), '/' ∉ n →
    splitSlash (n ++ '/' :: s) = n :: splitSlash s
  | [], s, _ => by simp [splitSlash]
  | c :: n, s, hn => by
    have hc : c ≠ '/' := fun h => hn (by rw [h]; exact List.mem_cons_self)
    have ih := splitSlash_app n s (fun h => hn (List.mem_cons_of_mem _ h))
    simp only [List.cons_append, splitSlash, if_neg hc, ih]

theorem splitSlash_one : ∀ (n : List Char), '/' ∉ n → splitSlash n = [n]
  | [], _ => rfl
  | c :: n, hn => by
    have hc : c ≠ '/' := fun h => hn (by rw [h]; exact List.mem_cons_self)
    have ih := splitSlash_one n (fun h => hn (List.mem_cons_of_mem _ h))
    simp only [splitSlash, if_neg hc, ih]

theorem splitSlash_slashed : ∀ (ns : List (List Char)), ns ≠ [] → (∀ n ∈ ns, '/' ∉ n) →
    splitSlash (slashed ns) = ns
  | [], h, _ => absurd rfl h
  | [x], _, hc => by rw [slashed_one, splitSlash_one x (hc x List.mem_cons_self)]
  | x :: y :: r, _, hc => by
    rw [slashed_cons, splitSlash_app _ _ (hc x List.mem_cons_self),
      splitSlash_slashed (y :: r) (by simp) (fun n hn => hc n (List.mem_cons_of_mem _ hn))]

theorem pieces_iff {path : List Char} {ns : List (List Char)} : Pieces path ns ↔ splitSlash path = ns := by
  constructor
  · rintro ⟨h1, h2, rfl⟩; exact splitSlash_slashed ns h1 h2
  · rintro rfl; exact ⟨splitSlash_ne _, splitSlash_clean _, (splitSlash_text _).symm⟩

theorem atPath_fold (h : NHeap) (i : Nat) (path : List Char) :
    h.atPath i path = foldPath h.at i (splitSlash path) := by
  unfold NHeap.atPath
  cases hs : splitSlash path with
  | nil => exact absurd hs (splitSlash_ne path)
  | cons x xs => rfl

theorem atPathRel_fold (h : NHeap) (i : Nat) (path : List Char) :
    h.atPathRel i path = foldPath h.atRel i (splitSlash path) := by
  unfold NHeap.atPathRel
  cases hs : splitSlash path with
  | nil => exact absurd hs (splitSlash_ne path)
  | cons x xs => rfl

theorem joinPieces_eq : ∀ ns, joinPieces ns = slashed ns
  | [] => rfl
  | [x] => by rw [slashed_one]; rfl
  | x :: y :: r => by rw [slashed_cons, ← joinPieces_eq (y :: r)]; rfl

/-! ## the loops over the ancestors -/

theorem slashed_append (a : List (List Char)) (x : List Char) (b : List (List Char)) (ha : a ≠ []) :
    slashed (a ++ x :: b) = slashed a ++ '/' :: slashed (x :: b) := by
  induction a with
  | nil => exact absurd rfl ha
  | cons y r ih =>
    cases r with
    | nil => simp [slashed_cons, slashed_one]
    | cons z r =>
      have := ih (by simp)
      simp only [List.cons_append] at this ⊢
      rw [slashed_cons, this, slashed_cons]
      simp

theorem Spec.Chain.ne {h : NHeap} {i : Nat} {l : List Nat} (hc : Chain h i l) : l ≠ [] := by
  cases hc <;> simp

theorem chain_head {h : NHeap} {i : Nat} {l : List Nat} (hc : Chain h i l) : ∃ r, l = i :: r := by
  cases hc with
  | root _ => exact ⟨[], rfl⟩
  | up p r => exact ⟨_, rfl⟩

/-- the loop of `get_full_path`, from the node above -/
theorem fullLoop_chain {h : NHeap} : ∀ (l : List Nat) (i : Nat) (ns : List (List Char)) (fuel : Nat) (path : List Char),
    Chain h i l → NamesOf h l ns → l.length ≤ fuel →
    h.fullLoop fuel (some i) path = some (slashed ns.reverse ++ '/' :: path) := by
  intro l
  induction l with
  | nil => intro i ns fuel path hc; exact absurd rfl hc.ne
  | cons a l ih =>
    intro i ns fuel path hc hn hf
    cases fuel with
    | zero => simp at hf
    | succ fuel =>
      cases hn with
      | cons _ n _ ns' hca hn' =>
      cases hc with
      | root _ hno =>
        cases hn'
        rw [NHeap.fullLoop, up_eq_none.2 hno, nameOf_eq hca]
        simp [NHeap.fullLoop, slashed_one]
      | up _ p _ hp hc' =>
        rw [NHeap.fullLoop, up_eq_some.2 hp, nameOf_eq hca,
          ih p ns' fuel _ hc' hn' (by simpa using hf), List.reverse_cons]
        have hne : ns'.reverse ≠ [] := by
          cases hn' with
          | nil => exact absurd rfl hc'.ne
          | cons => simp
        rw [slashed_append _ _ _ hne, slashed_one]
        simp

theorem fullPath_chain {h : NHeap} {l : List Nat} {i : Nat} {ns : List (List Char)} {fuel : Nat}
    (hc : Chain h i l) (hn : NamesOf h l ns) (hf : l.length ≤ fuel + 1) :
    h.fullPath fuel i = some (slashed ns.reverse) := by
  unfold NHeap.fullPath
  cases hn with
  | nil => exact absurd rfl hc.ne
  | cons _ n l' ns' hca hn' =>
    cases hc with
    | root _ hno =>
      cases hn'
      rw [up_eq_none.2 hno, nameOf_eq hca]
      cases fuel <;> simp [NHeap.fullLoop, slashed_one]
    | up _ p _ hp hc' =>
      rw [up_eq_some.2 hp, nameOf_eq hca, fullLoop_chain l' p ns' fuel n hc' hn' (by simpa using hf),
        List.reverse_cons]
      have hne : ns'.reverse ≠ [] := by
        cases hn' with
        | nil => exact absurd rfl hc'.ne
        | cons => simp
      rw [slashed_append _ _ _ hne, slashed_one]

/-- slashes between the names of the nodes below the root -/
theorem rootLoop_chain {h : NHeap} : ∀ (l : List Nat) (i : Nat) (ns : List (List Char)) (fuel : Nat) (path : List Char),
    Chain h i l → NamesOf h l ns → l.length ≤ fuel →
    h.rootLoop fuel (some i) path = some (slashed (ns.reverse.tail ++ [path])) := by
  intro l
  induction l with
  | nil => intro i ns fuel path hc; exact absurd rfl hc.ne
  | cons a l ih =>
    intro i ns fuel path hc hn hf
    cases fuel with
    | zero => simp at hf
    | succ fuel =>
      cases hn with
      | cons _ n _ ns' hca hn' =>
      cases hc with
      | root _ hno =>
        cases hn'
        rw [NHeap.rootLoop, up_eq_none.2 hno]
        cases fuel <;> simp [NHeap.rootLoop, slashed_one]
      | up _ p _ hp hc' =>
        rw [NHeap.rootLoop, up_eq_some.2 hp, nameOf_eq hca]
        dsimp only
        rw [ih p ns' fuel _ hc' hn' (by simpa using hf), List.reverse_cons]
        have hne : ns'.reverse ≠ [] := by
          cases hn' with
          | nil => exact absurd rfl hc'.ne
          | cons => simp
        rw [List.tail_append_of_ne_nil hne, List.append_assoc]
        cases ht : ns'.reverse.tail with
        | nil =>
          simp only [List.nil_append, List.singleton_append]
          rw [slashed_cons, slashed_one, slashed_one]
        | cons y r =>
          rw [slashed_append _ _ _ (by simp), List.singleton_append, slashed_append _ _ _ (by simp), slashed_one,
            slashed_cons, slashed_one]

theorem rootPath_chain {h : NHeap} {l : List Nat} {i : Nat} {ns : List (List Char)} {fuel : Nat}
    (hc : Chain h i l) (hn : NamesOf h l ns) (hf : l.length ≤ fuel + 1) :
    h.rootPath fuel i = some (slashed ns.reverse.tail) := by
  unfold NHeap.rootPath
  cases hn with
  | nil => exact absurd rfl hc.ne
  | cons _ n l' ns' hca hn' =>
    cases hc with
    | root _ hno =>
      cases hn'
      rw [up_eq_none.2 hno]
      simp [slashed, List.intercalate]
    | up _ p _ hp hc' =>
      rw [up_eq_some.2 hp]
      dsimp only
      rw [nameOf_eq hca, rootLoop_chain l' p ns' fuel n hc' hn' (by simpa using hf), List.reverse_cons]
      have hne : ns'.reverse ≠ [] := by
        cases hn' with
        | nil => exact absurd rfl hc'.ne
        | cons => simp
      rw [List.tail_append_of_ne_nil hne]

theorem isImage_iff {h : NHeap} {i : Nat} : h.isImage i = true ↔ Image h i := by
  unfold NHeap.isImage Image
  constructor
  · intro h1
    split at h1
    · rename_i n a b p k hc; exact ⟨_, a, b, hc, rfl⟩
    · cases h1
  · rintro ⟨⟨n, k, p, ks⟩, a, b, hc, hk⟩
    dsimp only at hk; subst hk
    rw [hc]

theorem imageLoop_chain {h : NHeap} : ∀ (l : List Nat) (i q : Nat) (up : List Nat) (ns : List (List Char)) (fuel : Nat)
    (path : List Char),
    Chain h i (l ++ q :: up) → NamesOf h l ns → (∀ j ∈ l, ¬ Image h j) → Image h q → l.length < fuel →
    h.imageLoop fuel (some i) path = some (slashed (ns.reverse ++ [path])) := by
  intro l
  induction l with
  | nil =>
    intro i q up ns fuel path hc hn hl hq hf
    cases fuel with
    | zero => simp at hf
    | succ fuel =>
      cases hn
      obtain ⟨r, hr⟩ := chain_head hc
      cases hr
      rw [NHeap.imageLoop, if_pos (isImage_iff.2 hq)]
      simp [slashed_one]
  | cons a l ih =>
    intro i q up ns fuel path hc hn hl hq hf
    cases fuel with
    | zero => simp at hf
    | succ fuel =>
      cases hn with
      | cons _ n _ ns' hca hn' =>
      obtain ⟨r, hr⟩ := chain_head hc
      have hai : a = i := (List.cons.inj hr).1
      subst hai
      have hni : h.isImage a ≠ true := fun hh => hl a List.mem_cons_self (isImage_iff.1 hh)
      rw [NHeap.imageLoop, if_neg hni]
      generalize hL : l ++ q :: up = L at hc
      have hL' : (a :: l) ++ q :: up = a :: L := by rw [← hL]; rfl
      rw [hL'] at hc
      cases hc with
      | root => simp at hL
      | up _ p _ hp hc' =>
        rw [up_eq_some.2 hp]
        dsimp only
        rw [← hL] at hc'
        rw [ih p q up ns' fuel _ hc' hn' (fun j hj => hl j (List.mem_cons_of_mem _ hj)) hq (by simpa using hf),
          nameOf_eq hca, List.reverse_cons]
        cases ht : ns'.reverse with
        | nil =>
          simp only [List.nil_append, List.singleton_append]
          rw [slashed_cons, slashed_one, slashed_one]
        | cons y r =>
          rw [slashed_append _ _ _ (by simp), List.append_assoc, List.singleton_append,
            slashed_append _ _ _ (by simp), slashed_one, slashed_cons, slashed_one]

theorem imageLoop_none {h : NHeap} : ∀ (l : List Nat) (i : Nat) (fuel : Nat) (path : List Char),
    Chain h i l → (∀ j ∈ l, ¬ Image h j) → l.length ≤ fuel → h.imageLoop fuel (some i) path = some [] := by
  intro l
  induction l with
  | nil => intro i fuel path hc; exact absurd rfl hc.ne
  | cons a l ih =>
    intro i fuel path hc hl hf
    cases fuel with
    | zero => simp at hf
    | succ fuel =>
      obtain ⟨r, hr⟩ := chain_head hc
      have hai : a = i := (List.cons.inj hr).1
      subst hai
      have hni : h.isImage a ≠ true := fun hh => hl a List.mem_cons_self (isImage_iff.1 hh)
      rw [NHeap.imageLoop, if_neg hni]
      cases hc with
      | root _ hno => rw [up_eq_none.2 hno]
      | up _ p _ hp hc' =>
        rw [up_eq_some.2 hp]
        exact ih p fuel _ hc' (fun j hj => hl j (List.mem_cons_of_mem _ hj)) (by simpa using hf)

/-! ## the way down -/

theorem Spec.Steps.append {h : NHeap} {i j k : Nat} {a b : List (List Char)} (h1 : Steps h i a j) (h2 : Steps h j b k) :
    Steps h i (a ++ b) k := by
  induction h1 with
  | here => exact h2
  | step i j' k' n ns hc _ ih => exact .step i j' k n _ hc (ih h2)

/-- from any node of the way down to its start -/
theorem heldAlong_steps {h : NHeap} : ∀ (l : List Nat) (i q : Nat) (ns : List (List Char)),
    HeldAlong h (i :: l ++ [q]) → NamesOf h (i :: l) ns → Steps h q ns.reverse i
  | [], i, q, ns, hh, hn => by
    cases hn with
    | cons _ n _ ns' hca hn' =>
      cases hn'
      obtain ⟨⟨m, hm, hch⟩, _⟩ := hh
      have : m = n := by
        obtain ⟨c, h1, h2⟩ := hm; obtain ⟨d, h3, h4⟩ := hca
        rw [h1] at h3; cases h3; rw [← h2, ← h4]
      subst this
      exact .step q i i m [] hch (.here i)
  | p :: l, i, q, ns, hh, hn => by
    cases hn with
    | cons _ n _ ns' hca hn' =>
      obtain ⟨⟨m, hm, hch⟩, hh'⟩ := hh
      have : m = n := by
        obtain ⟨c, h1, h2⟩ := hm; obtain ⟨d, h3, h4⟩ := hca
        rw [h1] at h3; cases h3; rw [← h2, ← h4]
      subst this
      rw [List.reverse_cons]
      exact (heldAlong_steps l p q ns' hh' hn').append (.step p i i m [] hch (.here i))

theorem namesOf_split {h : NHeap} : ∀ (a b : List Nat) (ns : List (List Char)), NamesOf h (a ++ b) ns →
    ∃ x y, ns = x ++ y ∧ NamesOf h a x ∧ NamesOf h b y
  | [], b, ns, hn => ⟨[], ns, rfl, .nil, hn⟩
  | i :: a, b, ns, hn => by
    cases hn with
    | cons _ n _ ns' hca hn' =>
      obtain ⟨x, y, rfl, hx, hy⟩ := namesOf_split a b ns' hn'
      exact ⟨n :: x, y, rfl, .cons i n a x hca hx, hy⟩

theorem heldAlong_prefix {h : NHeap} : ∀ (a b : List Nat), HeldAlong h (a ++ b) → HeldAlong h a
  | [], _, _ => trivial
  | [_], _, _ => trivial
  | i :: p :: a, b, hh => ⟨hh.1, heldAlong_prefix (p :: a) b hh.2⟩

/-! ## nearest ancestor -/

theorem filterLoop_nearest {h : NHeap} {cb : NCell → Bool} {P : Nat → Prop}
    (hP : ∀ i c, h.cell i = some c → (cb c = true ↔ P i)) {i q : Nat} (hn : NearestUp h P i q) :
    ∃ N, ∀ fuel, N ≤ fuel → h.filterParent cb fuel i = some (some q) := by
  induction hn with
  | here i p hp hpp =>
    refine ⟨1, fun fuel hf => ?_⟩
    obtain ⟨c, d, h1, h2, h3⟩ := hp
    cases fuel with
    | zero => omega
    | succ fuel =>
      rw [NHeap.filterParent, up_eq_some.2 ⟨c, d, h1, h2, h3⟩, NHeap.filterLoop, h3]
      simp [(hP p d h3).2 hpp]
  | above i p q hp hpp _ ih =>
    obtain ⟨N, ih⟩ := ih
    refine ⟨N + 1, fun fuel hf => ?_⟩
    obtain ⟨c, d, h1, h2, h3⟩ := hp
    cases fuel with
    | zero => omega
    | succ fuel =>
      rw [NHeap.filterParent, up_eq_some.2 ⟨c, d, h1, h2, h3⟩, NHeap.filterLoop, h3]
      have : cb d ≠ true := fun hh => hpp ((hP p d h3).1 hh)
      simp only [this]
      exact ih fuel (by omega)

theorem filterLoop_none {h : NHeap} {cb : NCell → Bool} {P : Nat → Prop}
    (hP : ∀ i c, h.cell i = some c → (cb c = true ↔ P i)) : ∀ (l : List Nat) (i : Nat), Chain h i l →
    (∀ j ∈ l.tail, ¬ P j) → ∀ fuel, l.length ≤ fuel + 1 → h.filterParent cb fuel i = some none := by
  intro l
  induction l with
  | nil => intro i hc; exact absurd rfl hc.ne
  | cons a l ih =>
    intro i hc hl fuel hf
    cases hc with
    | root _ hno =>
      rw [NHeap.filterParent, up_eq_none.2 hno]
      cases fuel <;> rfl
    | up _ p _ hp hc' =>
      obtain ⟨c, d, h1, h2, h3⟩ := hp
      obtain ⟨r, rfl⟩ := chain_head hc'
      cases fuel with
      | zero => simp at hf
      | succ fuel =>
        rw [NHeap.filterParent, up_eq_some.2 ⟨c, d, h1, h2, h3⟩, NHeap.filterLoop, h3]
        have hpp : ¬ P p := hl p (by simp)
        have : cb d ≠ true := fun hh => hpp ((hP p d h3).1 hh)
        simp only [this]
        exact ih p hc' (fun j hj => hl j (by simpa using Or.inr hj)) fuel (by simpa using hf)

end Wz
