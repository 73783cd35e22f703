import Verif.Resolve.Spec
/-!
# Lemmas about names and merging
-/

set_option autoImplicit false

namespace Wz
open Spec

theorem dropWhile_skip {a b : FName} (h : '.' ∉ a) : (a ++ b).dropWhile (· ≠ '.') = b.dropWhile (· ≠ '.') := by
  induction a with
  | nil => rfl
  | cons c cs ih =>
    rw [List.cons_append, List.dropWhile_cons, if_pos]
    · exact ih fun hm => h (List.mem_cons_of_mem _ hm)
    · simp only [decide_eq_true_eq]
      intro hc
      exact h (hc ▸ List.mem_cons_self)

theorem dot_split (name : FName) : '.' ∉ name ∨ ∃ a e, name = a ++ '.' :: e ∧ '.' ∉ e := by
  induction name with
  | nil => exact .inl (by simp)
  | cons c cs ih =>
    rcases ih with h | ⟨a, e, h1, h2⟩
    · by_cases hc : c = '.'
      · exact .inr ⟨[], cs, by rw [hc]; rfl, h⟩
      · left
        intro hm
        cases hm with
        | head => exact hc rfl
        | tail _ hm => exact h hm
    · exact .inr ⟨c :: a, e, by rw [h1]; rfl, h2⟩

theorem drop_dotted {a e : FName} (h : '.' ∉ e) : (a ++ '.' :: e).reverse.dropWhile (· ≠ '.') = '.' :: a.reverse := by
  rw [List.reverse_append, List.reverse_cons, List.append_assoc, dropWhile_skip (by simpa using h)]
  rfl

theorem drop_plain {a : FName} (h : '.' ∉ a) : a.reverse.dropWhile (· ≠ '.') = [] := by
  have := dropWhile_skip (a := a.reverse) (b := []) (by simpa using h)
  rw [List.append_nil] at this
  exact this

theorem stemOf_eq {name stem : FName} (h : StemOf name stem) : stem = fileStem name := by
  unfold fileStem
  cases h with
  | dotted a e ha he =>
    rw [drop_dotted he]
    dsimp only
    rw [if_neg (by simpa using ha), List.reverse_reverse]
  | plain a ha => rw [drop_plain ha]
  | hidden a ha =>
    have := drop_dotted (a := []) ha
    rw [List.nil_append] at this
    rw [this]
    rfl

theorem stemOf_exists (name : FName) : StemOf name (fileStem name) := by
  rcases dot_split name with h | ⟨a, e, rfl, he⟩
  · rw [← stemOf_eq (.plain name h)]; exact .plain name h
  · by_cases ha : a = []
    · subst ha
      rw [List.nil_append, ← stemOf_eq (.hidden e he)]; exact .hidden e he
    · rw [← stemOf_eq (.dotted a e ha he)]; exact .dotted a e ha he

theorem splitBar_bar (cs : FName) : splitBar ('_' :: cs) = [] :: splitBar cs := if_pos rfl

theorem splitBar_other {c : Char} (h : c ≠ '_') (cs : FName) :
    splitBar (c :: cs) = match splitBar cs with
      | [] => [[c]]
      | p :: ps => (c :: p) :: ps := by
  rw [splitBar, if_neg h]
  cases splitBar cs <;> rfl

theorem splitBar_ne (s : FName) : splitBar s ≠ [] := by
  cases s with
  | nil => simp [splitBar]
  | cons c cs =>
    rw [splitBar]
    split
    · simp
    · split <;> simp

theorem splitBar_plain {s : FName} (h : '_' ∉ s) : splitBar s = [s] := by
  induction s with
  | nil => rfl
  | cons c cs ih =>
    rw [splitBar_other (fun hc => h (by rw [hc]; exact List.mem_cons_self)), ih fun hm => h (List.mem_cons_of_mem _ hm)]

theorem splitBar_append (a b : FName) : splitBar (a ++ '_' :: b) = splitBar a ++ splitBar b := by
  induction a with
  | nil => rw [List.nil_append, splitBar_bar]; rfl
  | cons c cs ih =>
    rw [List.cons_append]
    by_cases hc : c = '_'
    · rw [hc, splitBar_bar, splitBar_bar, ih]; rfl
    · rw [splitBar_other hc, splitBar_other hc, ih]
      cases h : splitBar cs with
      | nil => exact absurd h (splitBar_ne cs)
      | cons p ps => rfl

theorem bar_split (s : FName) : '_' ∉ s ∨ ∃ a b, s = a ++ '_' :: b ∧ '_' ∉ b := by
  induction s with
  | nil => exact .inl (by simp)
  | cons c cs ih =>
    rcases ih with h | ⟨a, e, h1, h2⟩
    · by_cases hc : c = '_'
      · exact .inr ⟨[], cs, by rw [hc]; rfl, h⟩
      · left
        intro hm
        cases hm with
        | head => exact hc rfl
        | tail _ hm => exact h hm
    · exact .inr ⟨c :: a, e, by rw [h1]; rfl, h2⟩

theorem digitsValue_nonneg_append (acc : Nat) (c : Char) (cs : FName) :
    (acc * 10 + (c.toNat - 48)) * 10 ^ cs.length + digitsValue cs = acc * 10 ^ (c :: cs).length + digitsValue (c :: cs) := by
  rw [digitsValue, List.length_cons, Nat.pow_succ, Nat.add_mul]
  rw [Nat.mul_assoc acc 10, Nat.mul_comm 10]
  omega

theorem fold_digits (ds : FName) : ∀ acc n, acc < 65536 →
    (ds.foldlM pushDigit acc = some n ↔
      (∀ c ∈ ds, '0' ≤ c ∧ c ≤ '9') ∧ acc * 10 ^ ds.length + digitsValue ds < 65536 ∧ n = acc * 10 ^ ds.length + digitsValue ds) := by
  induction ds with
  | nil =>
    intro acc n ha
    rw [List.foldlM_nil]
    simp only [List.length_nil, Nat.pow_zero, Nat.mul_one, digitsValue, Nat.add_zero]
    constructor
    · intro h
      injection h with h
      exact ⟨fun c hc => by (cases hc), ha, h.symm⟩
    · rintro ⟨-, -, rfl⟩; rfl
  | cons c cs ih =>
    intro acc n ha
    rw [List.foldlM_cons, ← digitsValue_nonneg_append]
    unfold pushDigit
    by_cases hc : '0' ≤ c ∧ c ≤ '9'
    · rw [if_pos hc]
      dsimp only
      by_cases hb : acc * 10 + (c.toNat - 48) < 65536
      · rw [if_pos hb]
        show List.foldlM pushDigit _ cs = some n ↔ _
        rw [ih _ _ hb]
        constructor
        · rintro ⟨h1, h2⟩
          refine ⟨fun d hd => ?_, h2⟩
          cases hd with
          | head => exact hc
          | tail _ hd => exact h1 d hd
        · rintro ⟨h1, h2⟩
          exact ⟨fun d hd => h1 d (List.mem_cons_of_mem _ hd), h2⟩
      · rw [if_neg hb]
        constructor
        · intro h; cases h
        · rintro ⟨-, h2, -⟩
          exfalso
          have : 1 ≤ 10 ^ cs.length := Nat.one_le_pow _ _ (by omega)
          have := Nat.mul_le_mul_left (acc * 10 + (c.toNat - 48)) this
          omega
    · rw [if_neg hc]
      constructor
      · intro h; cases h
      · rintro ⟨h1, -⟩
        exact absurd (h1 c List.mem_cons_self) hc

theorem not_digit_plus : ¬('0' ≤ '+' ∧ '+' ≤ '9') := by decide

theorem fold_some (ds : FName) :
    (ds.foldlM pushDigit 0).isSome = true ↔ (∀ c ∈ ds, '0' ≤ c ∧ c ≤ '9') ∧ digitsValue ds < 65536 := by
  rw [Option.isSome_iff_exists]
  constructor
  · rintro ⟨n, h⟩
    have := (fold_digits ds 0 n (by omega)).mp h
    refine ⟨this.1, ?_⟩
    have := this.2.1
    omega
  · rintro ⟨h1, h2⟩
    exact ⟨_, (fold_digits ds 0 _ (by omega)).mpr ⟨h1, by omega, rfl⟩⟩

theorem parseU16_iff (s : FName) : (parseU16 s).isSome = true ↔ SmallNumber s := by
  unfold SmallNumber
  unfold parseU16
  split
  · constructor
    · intro h; cases h
    · rintro ⟨ds, h | h, h2, -⟩
      · exact absurd h.symm h2
      · cases h
  · constructor
    · intro h; cases h
    · rintro ⟨ds, h | h, h2, h3, -⟩
      · subst h
        exact absurd (h3 '+' List.mem_cons_self) not_digit_plus
      · injection h with _ h
        exact absurd h.symm h2
  · rename_i ds hne
    rw [fold_some]
    constructor
    · rintro ⟨h1, h2⟩
      refine ⟨ds, .inr rfl, ?_, h1, h2⟩
      intro h
      exact hne (by rw [h])
    · rintro ⟨es, h | h, h2, h3, h4⟩
      · subst h
        exact absurd (h3 '+' List.mem_cons_self) not_digit_plus
      · injection h with _ h
        subst h
        exact ⟨h3, h4⟩
  · rename_i h0 h1 h2
    rw [fold_some]
    constructor
    · rintro ⟨h3, h4⟩
      exact ⟨s, .inl rfl, h0, h3, h4⟩
    · rintro ⟨es, h | h, h3, h4, h5⟩
      · subst h
        exact ⟨h4, h5⟩
      · exact absurd h (h2 es)

theorem number_no_bar {s : FName} (h : SmallNumber s) : '_' ∉ s := by
  obtain ⟨ds, h, -, hd, -⟩ := h
  have hb : '_' ∉ ds := fun hm => absurd (hd _ hm) (by decide)
  rcases h with rfl | rfl
  · exact hb
  · intro hm
    cases hm with
    | tail _ hm => exact hb hm

theorem isPart_iff (name : FName) : isPart name = true ↔ PartName name := by
  unfold isPart PartName
  dsimp only
  constructor
  · intro h
    split at h
    · cases h
    · rename_i hlen
      rcases bar_split (fileStem name) with hb | ⟨a, b, hs, hb⟩
      · rw [splitBar_plain hb] at hlen
        exact absurd (by simp) hlen
      · refine ⟨fileStem name, a, b, stemOf_exists name, hs, (parseU16_iff b).mp ?_⟩
        rw [hs, splitBar_append, splitBar_plain hb] at h
        simpa using h
  · rintro ⟨stem, base, num, hst, hs, hn⟩
    rw [← stemOf_eq hst, hs, splitBar_append, splitBar_plain (number_no_bar hn)]
    have : splitBar base ≠ [] := splitBar_ne base
    rw [if_neg]
    · simpa using (parseU16_iff num).mpr hn
    · have := List.length_pos_iff.mpr this
      simp only [List.length_append, List.length_singleton]
      omega

/-! ## Merging -/

theorem mem_put {ks : RKids} {k key : FName} {m n : RNode} :
    (key, n) ∈ ks.put k m ↔ (key = k ∧ n = m) ∨ (key ≠ k ∧ (key, n) ∈ ks) := by
  unfold RKids.put
  rw [List.mem_append, List.mem_filter, List.mem_singleton, Prod.mk.injEq]
  simp only [decide_eq_true_eq]
  constructor
  · rintro (⟨h1, h2⟩ | h)
    · exact .inr ⟨h2, h1⟩
    · exact .inl h
  · rintro (h | ⟨h1, h2⟩)
    · exact .inr h
    · exact .inl ⟨h2, h1⟩

theorem mem_kidsOf {p : FPath} {names : List FName} {key : FName} {n : RNode} :
    (key, n) ∈ kidsOf p names ↔ key ∈ names ∧ n = .child p key := by
  unfold kidsOf
  rw [List.mem_map]
  constructor
  · rintro ⟨k, hk, h⟩
    cases h
    exact ⟨hk, rfl⟩
  · rintro ⟨h, rfl⟩
    exact ⟨key, h, rfl⟩

theorem mem_puts {p : FPath} (names : List FName) : ∀ {ks : RKids} {key : FName} {n : RNode},
    (key, n) ∈ (kidsOf p names).foldl (fun ks (q : FName × RNode) => ks.put q.1 q.2) ks ↔
      (key ∈ names ∧ n = .child p key) ∨ (key ∉ names ∧ (key, n) ∈ ks) := by
  induction names with
  | nil => intro ks key n; simp [kidsOf]
  | cons k names ih =>
    intro ks key n
    show (key, n) ∈ (kidsOf p names).foldl (fun ks (q : FName × RNode) => ks.put q.1 q.2) (ks.put k (.child p k)) ↔ _
    rw [ih, mem_put]
    by_cases hk : key = k
    · subst hk
      by_cases hm : key ∈ names <;> simp [hm]
    · by_cases hm : key ∈ names <;> simp [hm, hk]

/-- what one entry does to the children -/
structure Effect (s : Setting) (e : FEntry) (ks ks' : RKids) : Prop where
  mem : ∀ key n, (key, n) ∈ ks' ↔ Supplies s e key n ∨ (Replaces s e key n ∧ ∃ m, (key, m) ∈ ks) ∨
    ((key, n) ∈ ks ∧ ∀ m, ¬Supplies s e key m ∧ ¬Replaces s e key m)

theorem Effect.none {s : Setting} {e : FEntry} {ks : RKids} (h1 : ∀ key m, ¬Supplies s e key m)
    (h2 : ∀ key m, Replaces s e key m → ¬∃ n, (key, n) ∈ ks) : Effect s e ks ks where
  mem := by
    intro key n
    constructor
    · intro h
      exact .inr (.inr ⟨h, fun m => ⟨h1 key m, fun hr => h2 key m hr ⟨n, h⟩⟩⟩)
    · rintro (h | ⟨h, h'⟩ | ⟨h, -⟩)
      · exact absurd h (h1 key n)
      · exact absurd h' (h2 key n h)
      · exact h

theorem Effect.has {s : Setting} {e : FEntry} {ks ks' : RKids} (h : Effect s e ks ks') (key : FName) :
    (∃ m, (key, m) ∈ ks') ↔ (∃ m, (key, m) ∈ ks) ∨ ∃ m, Supplies s e key m := by
  constructor
  · rintro ⟨m, hm⟩
    rcases (h.mem key m).mp hm with h1 | ⟨-, h2⟩ | ⟨h3, -⟩
    · exact .inr ⟨m, h1⟩
    · exact .inl h2
    · exact .inl ⟨m, h3⟩
  · rintro (⟨m, hm⟩ | ⟨m, hm⟩)
    · by_cases h1 : ∃ n, Supplies s e key n
      · obtain ⟨n, hn⟩ := h1
        exact ⟨n, (h.mem key n).mpr (.inl hn)⟩
      · by_cases h2 : ∃ n, Replaces s e key n
        · obtain ⟨n, hn⟩ := h2
          exact ⟨n, (h.mem key n).mpr (.inr (.inl ⟨hn, m, hm⟩))⟩
        · exact ⟨m, (h.mem key m).mpr (.inr (.inr ⟨hm, fun n => ⟨fun a => h1 ⟨n, a⟩, fun a => h2 ⟨n, a⟩⟩⟩))⟩
    · exact ⟨m, (h.mem key m).mpr (.inl hm)⟩

theorem rootFile_eq (k : Disk) (dir : FPath) (name : FName) :
    rootFile k dir name = if k.tryExists (dir ++ [name, name ++ ".wz".toList]) ≠ none then some (dir ++ [name, name ++ ".wz".toList]) else none := by
  have e : ".wz".toList = ['.', 'w', 'z'] := by decide
  unfold rootFile
  rw [e]
  dsimp only
  cases k.tryExists (dir ++ [name, name ++ ['.', 'w', 'z']]) <;> rfl

/-- the loop, if it succeeds, goes on from the children after the first entry -/
theorem partsLoop_cons {s : Setting} {e : FEntry} {es : List FEntry} {ks r : RKids}
    (h : partsLoop s.disk s.op s.again s.dir (e :: es) ks = .ok r) :
    ∃ ks', Effect s e ks ks' ∧ partsLoop s.disk s.op s.again s.dir es ks' = .ok r := by
  rw [partsLoop] at h
  split at h
  · rename_i hf
    have hns : ∀ key m, ¬Supplies s e key m := fun key m hs => by have := hs.1; rw [hf.1] at this; cases this
    rw [rootFile_eq] at h
    split at h
    · rename_i p hp
      split at hp
      · rename_i ht
        injection hp with hp
        subst hp
        split at h
        · cases h
        · rename_i n hn
          refine ⟨_, ⟨fun key m => ?_⟩, h⟩
          rw [mem_put]
          obtain ⟨hf1, hf2⟩ := hf
          rw [List.any_eq_true] at hf2
          obtain ⟨⟨q1, q2⟩, hq, he⟩ := hf2
          simp only [decide_eq_true_eq] at he
          constructor
          · rintro (⟨rfl, rfl⟩ | ⟨h1, h2⟩)
            · exact .inr (.inl ⟨⟨hf1, rfl, ht, hn⟩, q2, he ▸ hq⟩)
            · exact .inr (.inr ⟨h2, fun m' => ⟨hns key m', fun hr => h1 hr.2.1.symm⟩⟩)
          · rintro (h1 | ⟨⟨-, h1, -, h2⟩, -⟩ | ⟨h1, h2⟩)
            · exact absurd h1 (hns _ _)
            · subst h1
              rw [hn] at h2
              injection h2 with h2
              exact .inl ⟨rfl, h2.symm⟩
            · refine .inr ⟨fun hk => (h2 n).2 ?_, h1⟩
              subst hk
              exact ⟨hf1, rfl, ht, hn⟩
      · cases hp
    · rename_i hp
      split at hp
      · cases hp
      · rename_i ht
        refine ⟨ks, .none hns fun key m hr => ?_, h⟩
        obtain ⟨-, rfl, h3, -⟩ := hr
        exact absurd h3 ht
  · rename_i hnf
    have hr : ∀ key m, Replaces s e key m → ¬∃ n, (key, n) ∈ ks := by
      rintro key m ⟨h1, rfl, -⟩ ⟨n, hn⟩
      refine hnf ⟨h1, ?_⟩
      rw [List.any_eq_true]
      exact ⟨_, hn, by simp⟩
    split at h
    · rename_i hfile
      split at h
      · rename_i hpart
        have hpart := (isPart_iff _).mp hpart
        have hnr : ∀ key m, ¬Replaces s e key m := fun key m hr => by have := hr.1; rw [hfile] at this; cases this
        split at h
        · cases h
        · rename_i hop
          refine ⟨ks, .none (fun key m hs => ?_) hr, h⟩
          obtain ⟨-, -, names, h3, -⟩ := hs
          rw [hop] at h3; cases h3
        · rename_i names hop
          refine ⟨_, ⟨fun key m => ?_⟩, h⟩
          rw [mem_puts]
          constructor
          · rintro (⟨h1, h2⟩ | ⟨h1, h2⟩)
            · exact .inl ⟨hfile, hpart, names, hop, h1, h2⟩
            · refine .inr (.inr ⟨h2, fun m' => ⟨?_, hnr key m'⟩⟩)
              rintro ⟨-, -, names', h3, h4, -⟩
              rw [hop] at h3
              cases h3
              exact h1 h4
          · rintro (⟨-, -, names', h3, h4, h5⟩ | ⟨h1, -⟩ | ⟨h1, h2⟩)
            · rw [hop] at h3
              cases h3
              exact .inl ⟨h4, h5⟩
            · exact absurd h1 (hnr key m)
            · refine .inr ⟨fun hk => (h2 _).1 ⟨hfile, hpart, names, hop, hk, rfl⟩, h1⟩
      · rename_i hpart
        refine ⟨ks, .none (fun key m hs => ?_) hr, h⟩
        exact hpart ((isPart_iff _).mpr hs.2.1)
    · rename_i hfile
      exact ⟨ks, .none (fun key m hs => hfile hs.1) hr, h⟩

theorem partsLoop_merged {s : Setting} (es : List FEntry) : ∀ {ks r : RKids},
    partsLoop s.disk s.op s.again s.dir es ks = .ok r → ∀ key n, (key, n) ∈ r ↔ Merged s ks es key n := by
  induction es with
  | nil =>
    intro ks r h key n
    cases h
    unfold Merged
    constructor
    · intro h
      exact .inr ⟨h, fun x hx => by (cases hx)⟩
    · rintro (⟨pre, e, post, h, -⟩ | ⟨h, -⟩)
      · cases pre <;> cases h
      · exact h
  | cons e es ih =>
    intro ks r h key n
    obtain ⟨ks', he, hr⟩ := partsLoop_cons h
    rw [ih hr]
    unfold Merged
    constructor
    · rintro (⟨pre, x, post, rfl, h1, h2⟩ | ⟨h1, h2⟩)
      · refine .inl ⟨e :: pre, x, post, rfl, ?_, h2⟩
        rcases h1 with h1 | ⟨h1, h3⟩
        · exact .inl h1
        · refine .inr ⟨h1, ?_⟩
          rcases h3 with h3 | ⟨y, hy, m, hm⟩
          · rcases (he.has key).mp h3 with h3 | ⟨m, hm⟩
            · exact .inl h3
            · exact .inr ⟨e, List.mem_cons_self, m, hm⟩
          · exact .inr ⟨y, List.mem_cons_of_mem _ hy, m, hm⟩
      · rcases (he.mem key n).mp h1 with h3 | ⟨h3, h4⟩ | ⟨h3, h4⟩
        · exact .inl ⟨[], e, es, rfl, .inl h3, h2⟩
        · exact .inl ⟨[], e, es, rfl, .inr ⟨h3, .inl h4⟩, h2⟩
        · refine .inr ⟨h3, fun x hx => ?_⟩
          cases hx with
          | head => exact h4
          | tail _ hx => exact h2 x hx
    · rintro (⟨pre, x, post, hs, h1, h2⟩ | ⟨h1, h2⟩)
      · cases pre with
        | nil =>
          injection hs with hs1 hs2
          subst hs1 hs2
          refine .inr ⟨(he.mem key n).mpr ?_, h2⟩
          rcases h1 with h1 | ⟨h1, h3 | ⟨y, hy, -⟩⟩
          · exact .inl h1
          · exact .inr (.inl ⟨h1, h3⟩)
          · cases hy
        | cons y pre =>
          injection hs with hs1 hs2
          subst hs1 hs2
          refine .inl ⟨pre, x, post, rfl, ?_, h2⟩
          rcases h1 with h1 | ⟨h1, h3⟩
          · exact .inl h1
          · refine .inr ⟨h1, ?_⟩
            rcases h3 with h3 | ⟨z, hz, m, hm⟩
            · exact .inl ((he.has key).mpr (.inl h3))
            · cases hz with
              | head => exact .inl ((he.has key).mpr (.inr ⟨m, hm⟩))
              | tail _ hz => exact .inr ⟨z, hz, m, hm⟩
      · exact .inr ⟨(he.mem key n).mpr (.inr (.inr ⟨h1, h2 e List.mem_cons_self⟩)), fun x hx => h2 x (List.mem_cons_of_mem _ hx)⟩

/-- every name that any entry or the archive itself has is there in the end -/
theorem partsLoop_has {s : Setting} (es : List FEntry) : ∀ {ks r : RKids},
    partsLoop s.disk s.op s.again s.dir es ks = .ok r → ∀ key,
      (∃ m, (key, m) ∈ r) ↔ (∃ m, (key, m) ∈ ks) ∨ ∃ e ∈ es, ∃ m, Supplies s e key m := by
  induction es with
  | nil =>
    intro ks r h key
    cases h
    simp
  | cons e es ih =>
    intro ks r h key
    obtain ⟨ks', he, hr⟩ := partsLoop_cons h
    rw [ih hr, he.has]
    simp only [List.mem_cons, exists_eq_or_imp]
    exact or_assoc

end Wz
