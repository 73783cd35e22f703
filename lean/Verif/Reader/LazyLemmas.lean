import Verif.Reader.StrLemmas
/-! Helper lemmas for eager/lazy agreement. -/

set_option autoImplicit false
variable {α β γ : Type}

namespace Wz
open Spec

/-- Record the metadata of the string at the cursor, then resolve it: what a caller does with
`read_wz_string_meta` followed by `WzString::from_meta(..).get_string()` on the same reader. -/
def lazyString : Rd (List Char) := do
  let m ← Rd.readWzStringMeta
  let e ← Rd.getEnv
  Rd.lift (resolveMeta e m.ty m.offset m.length)

theorem bmod32 (x : Int) : (Int.bmod x (2 ^ 32) = x % 2 ^ 32 ∧ x % 2 ^ 32 < 2 ^ 31) ∨
    (Int.bmod x (2 ^ 32) = x % 2 ^ 32 - 2 ^ 32 ∧ 2 ^ 31 ≤ x % 2 ^ 32) := by
  unfold Int.bmod
  dsimp only
  split <;> omega

theorem mulU32_ok {m : Mode} {a b r : Nat} (h : mulU32 m a b = .ok r) :
    (a * b < 2 ^ 32 ∧ r = a * b) ∨ (m = .wrap ∧ r = a * b % 2 ^ 32) := by
  unfold mulU32 at h
  split at h
  · left; rename_i h'; exact ⟨h', by simpa using h.symm⟩
  · cases m with
    | checked => cases h
    | wrap => right; exact ⟨rfl, by simpa using h.symm⟩

theorem mulI32_ok {m : Mode} {a b r : Int} (h : mulI32 m a b = .ok r) :
    (-2 ^ 31 ≤ a * b ∧ a * b < 2 ^ 31 ∧ r = a * b) ∨ (m = .wrap ∧ r = Int.bmod (a * b) (2 ^ 32)) := by
  unfold mulI32 at h
  split at h
  · left; rename_i h'; exact ⟨h'.1, h'.2, by simpa using h.symm⟩
  · cases m with
    | checked => cases h
    | wrap => right; exact ⟨rfl, by simpa using h.symm⟩

theorem mulU32_of_mulI32 {m : Mode} {l r : Int} (h : mulI32 m l 2 = .ok r) (hr : 0 ≤ r)
    (h0 : -2 ^ 31 ≤ l) (h1 : l < 2 ^ 31) : mulU32 m (asU32 l) 2 = .ok r.toNat := by
  unfold mulI32 at h
  unfold mulU32 asU32
  split at h
  · have h : l * 2 = r := by simpa using h
    subst h
    rw [if_pos (by omega)]
    congr 1; omega
  · cases m with
    | checked => cases h
    | wrap =>
      have h : Int.bmod (l * 2) (2 ^ 32) = r := by simpa using h
      have hb : r = (l * 2) % 2 ^ 32 := by
        rcases bmod32 (l * 2) with h' | h' <;> omega
      split
      · congr 1; omega
      · dsimp only; congr 1; omega

theorem mulI32_of_mulU32 {m : Mode} {l : Int} {r : Nat} (h : mulU32 m (asU32 l) 2 = .ok r)
    (hr : r < 2 ^ 31) (h0 : -2 ^ 31 ≤ l) (h1 : l < 2 ^ 31) : mulI32 m l 2 = .ok (r : Int) := by
  unfold mulU32 asU32 at h
  unfold mulI32
  split at h
  · have h : (l % 2 ^ 32).toNat * 2 = r := by simpa using h
    subst h
    rw [if_pos (by omega)]
    congr 1; omega
  · cases m with
    | checked => cases h
    | wrap =>
      have h : (l % 2 ^ 32).toNat * 2 % 2 ^ 32 = r := by simpa using h
      split
      · congr 1; omega
      · dsimp only; congr 1
        rcases bmod32 (l * 2) with h' | h' <;> omega

theorem asUsize_le {l : Int} {n : Nat} (h : asUsize l ≤ n) (hn : n < 2 ^ 63) (h0 : -2 ^ 63 ≤ l)
    (h1 : l < 2 ^ 63) : 0 ≤ l ∧ asUsize l = l.toNat := by
  unfold asUsize at *
  omega

theorem asUsize_lt (l : Int) : asUsize l < 2 ^ 64 := by
  unfold asUsize; omega

theorem asU32_lt (l : Int) : asU32 l < 2 ^ 32 := by
  unfold asU32; omega

theorem asU32_le {l : Int} {n : Nat} (h : asU32 l ≤ n) (hn : n < 2 ^ 31) (h0 : -2 ^ 31 ≤ l)
    (h1 : l < 2 ^ 31) : 0 ≤ l ∧ asU32 l = l.toNat := by
  unfold asU32 at *
  omega

theorem strType_unicode {t : Int} : strType t = .unicode ↔ 0 < t := by
  unfold strType; split
  · simp; omega
  · split <;> simp <;> omega

theorem strType_ascii {t : Int} : strType t = .ascii ↔ t < 0 := by
  unfold strType; split
  · simp; omega
  · split <;> simp <;> omega

theorem strType_empty {t : Int} : strType t = .empty ↔ t = 0 := by
  unfold strType; split
  · simp [*]
  · split <;> simp <;> omega

theorem strType_ne_pkg2 (t : Int) : strType t ≠ .pkg2Dir := by
  unfold strType; split
  · simp
  · split <;> simp

/-- tail of the eager unicode read, once the length `l` is known -/
def eagerUniTail (l : Int) : Rd (List Char) := do
  if l = 0 then return []
  let e ← Rd.getEnv
  let len2 ← Rd.lift (mulI32 e.mode l 2)
  let n := asUsize len2
  let p ← Rd.getPos
  let s ← Rd.lift (resolveMeta e .unicode p n)
  Rd.skip n
  return s

def eagerAscTail (l : Int) : Rd (List Char) := do
  let len := asUsize l
  if len = 0 then return []
  let e ← Rd.getEnv
  let p ← Rd.getPos
  let s ← Rd.lift (resolveMeta e .ascii p len)
  Rd.skip len
  return s

def lazyTail (ty : StrType) (skipN metaN : Nat) : Rd (List Char) := do
  let p ← Rd.getPos
  Rd.skip skipN
  let e ← Rd.getEnv
  Rd.lift (resolveMeta e ty p metaN)

def lazyUniTail (l : Int) : Rd (List Char) := do
  let e ← Rd.getEnv
  let length ← Rd.lift (mulU32 e.mode (asU32 l) 2)
  lazyTail .unicode length length

theorem Rd.bind_assoc (m : Rd α) (f : α → Rd β) (g : β → Rd γ) :
    (m >>= f) >>= g = m >>= fun a => f a >>= g := by
  have : ∀ e c, ((m >>= f) >>= g).run e c = (m >>= fun a => f a >>= g).run e c := by
    intro e c
    simp only [Rd.bind_run]
    cases m.run e c with
    | mk r c' => cases r <;> rfl
  cases h1 : (m >>= f) >>= g
  cases h2 : m >>= fun a => f a >>= g
  congr 1
  funext e c
  have := this e c
  rw [h1, h2] at this
  exact this

theorem Rd.pure_bind (a : α) (f : α → Rd β) : (Pure.pure a : Rd α) >>= f = f a := by
  rfl

theorem Rd.ext {m n : Rd α} (h : ∀ e c, m.run e c = n.run e c) : m = n := by
  cases m; cases n; congr 1; funext e c; exact h e c

theorem readWzString_eq : Rd.readWzString = (do
    let small ← Rd.readI8
    if small = 0 then return []
    else if small = 127 then Rd.readI32 >>= eagerUniTail
    else if 0 < small then eagerUniTail small
    else if small = -128 then Rd.readI32 >>= eagerAscTail
    else eagerAscTail (-small)) := by
  unfold Rd.readWzString
  congr 1
  funext small
  split
  · rename_i h; rw [strType_empty] at h; rw [if_pos h]
  · rename_i h; rw [strType_unicode] at h
    rw [if_neg (by omega)]
    unfold Rd.readUnicodeString Rd.readUnicodeStrLen
    by_cases h127 : small = 127
    · simp only [if_pos h127]; rfl
    · simp only [if_neg h127, if_pos h]; rfl
  · rename_i h; rw [strType_ascii] at h
    rw [if_neg (by omega), if_neg (by omega), if_neg (by omega)]
    unfold Rd.readAsciiString Rd.readAsciiStrLen
    by_cases h128 : small = -128
    · simp only [if_pos h128]; rfl
    · simp only [if_neg h128]; rfl
  · rename_i h; exact absurd h (strType_ne_pkg2 _)

theorem lazyString_eq : lazyString = (do
    let small ← Rd.readI8
    if small = 0 then return []
    else if small = 127 then Rd.readI32 >>= lazyUniTail
    else if 0 < small then lazyUniTail small
    else if small = -128 then Rd.readI32 >>= fun l => lazyTail .ascii (asUsize l) (asU32 l)
    else lazyTail .ascii (asU32 (-small)) (asU32 (-small))) := by
  unfold lazyString Rd.readWzStringMeta
  rw [Rd.bind_assoc]
  congr 1
  funext small
  split
  · rename_i h; rw [strType_empty] at h; rw [if_pos h]; rfl
  · rename_i h; rw [strType_unicode] at h
    have hz : ¬ small = 0 := by omega
    by_cases h127 : small = 127
    · simp only [if_pos h127, if_neg hz, Rd.bind_assoc, Rd.pure_bind]; rfl
    · simp only [if_neg h127, if_pos h, if_neg hz, Rd.bind_assoc, Rd.pure_bind]; rfl
  · rename_i h; rw [strType_ascii] at h
    have hz : ¬ small = 0 := by omega
    have h127 : ¬ small = 127 := by omega
    have hp : ¬ 0 < small := by omega
    by_cases h128 : small = -128
    · simp only [if_pos h128, if_neg h127, if_neg hp, if_neg hz, Rd.bind_assoc, Rd.pure_bind]; rfl
    · simp only [if_neg h128, if_neg h127, if_neg hp, if_neg hz, Rd.bind_assoc, Rd.pure_bind]; rfl
  · rename_i h; exact absurd h (strType_ne_pkg2 _)

/-- if the metadata resolves with `n` bytes then a lazy read does this -/
theorem lazyTail_run {e : Env} {c : Cur} {ty : StrType} {n : Nat} {s : List Char} (hty : ty ≠ .empty)
    (hb : e.buf.length < 2 ^ 63) (hn : n < 2 ^ 64)
    (h : resolveMeta e ty c.pos n = .ok s) :
    (lazyTail ty n n).run e c = (.ok s, { c with pos := c.pos + n }) := by
  have hle := resolveMeta_ok hty h hb hn
  unfold lazyTail
  rw [Rd.bind_ok (Rd.getPos_run e c), Rd.bind_ok (Rd.skip_run (by omega)), Rd.bind_ok (Rd.getEnv_run _ _)]
  simp [h]

theorem lazyTail_ok {e : Env} {c c' : Cur} {ty : StrType} {n k : Nat} {s : List Char} (hty : ty ≠ .empty)
    (hb : e.buf.length < 2 ^ 63) (hn : n < 2 ^ 64)
    (h : (lazyTail ty k n).run e c = (.ok s, c')) :
    resolveMeta e ty c.pos n = .ok s ∧ c.pos + n ≤ e.buf.length ∧
      (c.pos + k < 2 ^ 64 → c' = { c with pos := c.pos + k }) := by
  unfold lazyTail at h
  rw [Rd.bind_ok (Rd.getPos_run e c), Rd.bind_run] at h
  cases hs : (Rd.skip k).run e c with
  | mk r c1 =>
    rw [hs] at h
    cases r with
    | error x => cases h
    | ok u =>
      simp only [] at h
      rw [Rd.bind_ok (Rd.getEnv_run _ _)] at h
      simp only [Rd.lift_run, Prod.mk.injEq] at h
      refine ⟨h.1, resolveMeta_ok hty h.1 hb hn, fun hk => ?_⟩
      rw [Rd.skip_run hk] at hs
      rw [← h.2]
      simpa using (congrArg Prod.snd hs).symm

theorem eager_lazy_uni {e : Env} {c c' : Cur} {l : Int} {s : List Char} (hb : e.buf.length < 2 ^ 63)
    (hp : c.pos ≤ e.buf.length) (h0 : -2 ^ 31 ≤ l) (h1 : l < 2 ^ 31)
    (h : (eagerUniTail l).run e c = (.ok s, c')) : (lazyUniTail l).run e c = (.ok s, c') := by
  unfold eagerUniTail at h
  unfold lazyUniTail
  split at h
  · rename_i hl; subst hl
    simp only [Rd.pure_run, Prod.mk.injEq, Except.ok.injEq] at h
    rw [Rd.bind_ok (Rd.getEnv_run _ _)]
    have : mulU32 e.mode (asU32 0) 2 = .ok 0 := by cases e.mode <;> rfl
    simp only [this]
    rw [Rd.bind_ok (Rd.lift_run _ _ _), lazyTail_run (by simp) hb (by omega) (resolveMeta_zero hp hb)]
    rw [← h.1, ← h.2]; rfl
  · rw [Rd.bind_ok (Rd.getEnv_run _ _), Rd.bind_run] at h
    simp only [Rd.lift_run] at h
    cases hm : mulI32 e.mode l 2 with
    | error x => rw [hm] at h; cases h
    | ok r =>
      rw [hm] at h
      simp only [] at h
      rw [Rd.bind_ok (Rd.getPos_run _ _), Rd.bind_run] at h
      simp only [Rd.lift_run] at h
      cases hs : resolveMeta e .unicode c.pos (asUsize r) with
      | error x => rw [hs] at h; cases h
      | ok s' =>
        rw [hs] at h
        simp only [] at h
        have hle := resolveMeta_ok (by simp) hs hb (asUsize_lt _)
        rw [Rd.bind_ok (Rd.skip_run (by omega))] at h
        simp only [Rd.pure_run, Prod.mk.injEq, Except.ok.injEq] at h
        have hrange : -2 ^ 63 ≤ r ∧ r < 2 ^ 63 := by
          rcases mulI32_ok hm with h | ⟨_, h⟩
          · omega
          · rcases bmod32 (l * 2) with h' | h' <;> omega
        have hr := asUsize_le (show asUsize r ≤ e.buf.length by omega) hb hrange.1 hrange.2
        have hu := mulU32_of_mulI32 hm hr.1 h0 h1
        rw [hr.2] at hs h
        rw [Rd.bind_ok (Rd.getEnv_run _ _)]
        simp only [hu]
        rw [Rd.bind_ok (Rd.lift_run _ _ _), lazyTail_run (by simp) hb (by omega) hs]
        rw [← h.1, ← h.2]

theorem lazy_eager_uni {e : Env} {c c' : Cur} {l : Int} {s : List Char} (hb : e.buf.length < 2 ^ 31)
    (h0 : -2 ^ 31 ≤ l) (h1 : l < 2 ^ 31)
    (h : (lazyUniTail l).run e c = (.ok s, c')) : (eagerUniTail l).run e c = (.ok s, c') := by
  unfold lazyUniTail at h
  unfold eagerUniTail
  rw [Rd.bind_ok (Rd.getEnv_run _ _), Rd.bind_run] at h
  simp only [Rd.lift_run] at h
  cases hm : mulU32 e.mode (asU32 l) 2 with
  | error x => rw [hm] at h; cases h
  | ok r =>
    rw [hm] at h
    simp only [] at h
    have hr : r < 2 ^ 32 := by
      have := asU32_lt l
      rcases mulU32_ok hm with h | ⟨_, h⟩ <;> omega
    obtain ⟨hs, hle, hc⟩ := lazyTail_ok (by simp) (by omega) (by omega) h
    have hc := hc (by omega)
    split
    · rename_i hl; subst hl
      have : mulU32 e.mode (asU32 0) 2 = .ok 0 := by cases e.mode <;> rfl
      rw [this] at hm
      have : r = 0 := by simpa using hm.symm
      subst this
      rw [resolveMeta_zero (by omega) (by omega)] at hs
      simp only [Rd.pure_run]
      rw [hc]
      simpa using hs
    · have hi := mulI32_of_mulU32 hm (by omega) h0 h1
      rw [Rd.bind_ok (Rd.getEnv_run _ _)]
      simp only [hi]
      rw [Rd.bind_ok (Rd.lift_run _ _ _), Rd.bind_ok (Rd.getPos_run _ _)]
      have hu : asUsize (r : Int) = r := by unfold asUsize; omega
      simp only [hu, hs]
      rw [Rd.bind_ok (Rd.lift_run _ _ _), Rd.bind_ok (Rd.skip_run (by omega)), hc]
      rfl

theorem eager_lazy_asc {e : Env} {c c' : Cur} {l : Int} {s : List Char} (hb : e.buf.length < 2 ^ 63)
    (hp : c.pos ≤ e.buf.length) (h0 : -2 ^ 31 ≤ l) (h1 : l < 2 ^ 31)
    (h : (eagerAscTail l).run e c = (.ok s, c')) :
    (lazyTail .ascii (asUsize l) (asU32 l)).run e c = (.ok s, c') := by
  unfold eagerAscTail at h
  dsimp only at h
  split at h
  · rename_i hl
    have hl0 : l = 0 := by unfold asUsize at hl; omega
    subst hl0
    have e1 : asUsize 0 = 0 := rfl
    have e2 : asU32 0 = 0 := rfl
    rw [e1, e2, lazyTail_run (by simp) hb (by omega) (resolveMeta_zero hp hb)]
    simp only [Rd.pure_run, Prod.mk.injEq, Except.ok.injEq] at h
    rw [← h.1, ← h.2]; rfl
  · rw [Rd.bind_ok (Rd.getEnv_run _ _), Rd.bind_ok (Rd.getPos_run _ _), Rd.bind_run] at h
    simp only [Rd.lift_run] at h
    cases hs : resolveMeta e .ascii c.pos (asUsize l) with
    | error x => rw [hs] at h; cases h
    | ok s' =>
      rw [hs] at h
      simp only [] at h
      have hle := resolveMeta_ok (by simp) hs hb (asUsize_lt _)
      rw [Rd.bind_ok (Rd.skip_run (by omega))] at h
      simp only [Rd.pure_run, Prod.mk.injEq, Except.ok.injEq] at h
      have hr := asUsize_le (show asUsize l ≤ e.buf.length by omega) hb (by omega) (by omega)
      have h32 : asU32 l = asUsize l := by unfold asU32 asUsize; omega
      rw [h32, lazyTail_run (by simp) hb (asUsize_lt _) hs, ← h.1, ← h.2]

theorem lazy_eager_asc {e : Env} {c c' : Cur} {l : Int} {s : List Char} (hb : e.buf.length < 2 ^ 31)
    (h0 : -2 ^ 31 ≤ l) (h1 : l < 2 ^ 31)
    (h : (lazyTail .ascii (asUsize l) (asU32 l)).run e c = (.ok s, c')) :
    (eagerAscTail l).run e c = (.ok s, c') := by
  have hlt := asU32_lt l
  obtain ⟨hs, hle, hc⟩ := lazyTail_ok (by simp) (by omega) (by omega) h
  have hr := asU32_le (show asU32 l ≤ e.buf.length by omega) hb h0 h1
  have h32 : asUsize l = asU32 l := by unfold asU32 asUsize; omega
  rw [h32] at hc
  have hc := hc (by omega)
  unfold eagerAscTail
  dsimp only
  rw [h32]
  split
  · rename_i hl
    rw [hl] at hs hc
    rw [resolveMeta_zero (by omega) (by omega)] at hs
    simp only [Rd.pure_run]
    rw [hc]
    simpa using hs
  · rw [Rd.bind_ok (Rd.getEnv_run _ _), Rd.bind_ok (Rd.getPos_run _ _)]
    simp only [hs]
    rw [Rd.bind_ok (Rd.lift_run _ _ _), Rd.bind_ok (Rd.skip_run (by omega)), hc]
    rfl

theorem ascii_short {small : Int} (h0 : -128 < small) (h1 : small < 0) :
    lazyTail .ascii (asU32 (-small)) (asU32 (-small)) = lazyTail .ascii (asUsize (-small)) (asU32 (-small)) := by
  have : asU32 (-small) = asUsize (-small) := by unfold asU32 asUsize; omega
  rw [← this]

theorem eager_lazy {e : Env} {c c' : Cur} {s : List Char} (hb : e.buf.length < 2 ^ 63)
    (h : Rd.readWzString.run e c = (.ok s, c')) : lazyString.run e c = (.ok s, c') := by
  rw [readWzString_eq] at h
  rw [lazyString_eq]
  rw [Rd.bind_run] at h
  cases hr : Rd.readI8.run e c with
  | mk r c1 =>
    rw [hr] at h
    cases r with
    | error x => cases h
    | ok small =>
      rw [Rd.bind_ok hr]
      simp only [] at h ⊢
      obtain ⟨hp, hc1, hv⟩ := Rd.readInt_ok hr hb
      have hrange := signed_range (bits := 8) (v := leNat ((e.buf.drop c.pos).take 1)) (by omega)
      rw [show 8 * 1 = 8 from rfl] at hv
      rw [← hv] at hrange
      have hc1p : c1.pos ≤ e.buf.length := by rw [hc1]; exact hp
      split
      · rename_i hz; rw [if_pos hz] at h; exact h
      · rename_i hz; rw [if_neg hz] at h
        split
        · rename_i h127; rw [if_pos h127] at h
          rw [Rd.bind_run] at h
          cases hr4 : Rd.readI32.run e c1 with
          | mk r4 c2 =>
            rw [hr4] at h
            cases r4 with
            | error x => cases h
            | ok l =>
              rw [Rd.bind_ok hr4]
              obtain ⟨hp2, hc2, hv2⟩ := Rd.readInt_ok hr4 hb
              have hr2 := signed_range (bits := 8 * 4) (v := leNat ((e.buf.drop c1.pos).take 4)) (by omega)
              rw [← hv2] at hr2
              exact eager_lazy_uni hb (by rw [hc2]; exact hp2) (by simpa using hr2.1) (by simpa using hr2.2) h
        · rename_i h127; rw [if_neg h127] at h
          split
          · rename_i hpos; rw [if_pos hpos] at h
            exact eager_lazy_uni hb hc1p (by omega) (by omega) h
          · rename_i hpos; rw [if_neg hpos] at h
            split
            · rename_i h128; rw [if_pos h128] at h
              rw [Rd.bind_run] at h
              cases hr4 : Rd.readI32.run e c1 with
              | mk r4 c2 =>
                rw [hr4] at h
                cases r4 with
                | error x => cases h
                | ok l =>
                  rw [Rd.bind_ok hr4]
                  obtain ⟨hp2, hc2, hv2⟩ := Rd.readInt_ok hr4 hb
                  have hr2 := signed_range (bits := 8 * 4) (v := leNat ((e.buf.drop c1.pos).take 4)) (by omega)
                  rw [← hv2] at hr2
                  exact eager_lazy_asc hb (by rw [hc2]; exact hp2) (by simpa using hr2.1) (by simpa using hr2.2) h
            · rename_i h128; rw [if_neg h128] at h
              rw [ascii_short (by omega) (by omega)]
              exact eager_lazy_asc hb hc1p (by omega) (by omega) h

theorem lazy_eager {e : Env} {c c' : Cur} {s : List Char} (hb : e.buf.length < 2 ^ 31)
    (h : lazyString.run e c = (.ok s, c')) : Rd.readWzString.run e c = (.ok s, c') := by
  rw [lazyString_eq] at h
  rw [readWzString_eq]
  rw [Rd.bind_run] at h
  cases hr : Rd.readI8.run e c with
  | mk r c1 =>
    rw [hr] at h
    cases r with
    | error x => cases h
    | ok small =>
      rw [Rd.bind_ok hr]
      simp only [] at h ⊢
      obtain ⟨hp, hc1, hv⟩ := Rd.readInt_ok hr (by omega)
      have hrange := signed_range (bits := 8) (v := leNat ((e.buf.drop c.pos).take 1)) (by omega)
      rw [show 8 * 1 = 8 from rfl] at hv
      rw [← hv] at hrange
      split
      · rename_i hz; rw [if_pos hz] at h; exact h
      · rename_i hz; rw [if_neg hz] at h
        split
        · rename_i h127; rw [if_pos h127] at h
          rw [Rd.bind_run] at h
          cases hr4 : Rd.readI32.run e c1 with
          | mk r4 c2 =>
            rw [hr4] at h
            cases r4 with
            | error x => cases h
            | ok l =>
              rw [Rd.bind_ok hr4]
              obtain ⟨hp2, hc2, hv2⟩ := Rd.readInt_ok hr4 (by omega)
              have hr2 := signed_range (bits := 8 * 4) (v := leNat ((e.buf.drop c1.pos).take 4)) (by omega)
              rw [← hv2] at hr2
              exact lazy_eager_uni hb (by simpa using hr2.1) (by simpa using hr2.2) h
        · rename_i h127; rw [if_neg h127] at h
          split
          · rename_i hpos; rw [if_pos hpos] at h
            exact lazy_eager_uni hb (by omega) (by omega) h
          · rename_i hpos; rw [if_neg hpos] at h
            split
            · rename_i h128; rw [if_pos h128] at h
              rw [Rd.bind_run] at h
              cases hr4 : Rd.readI32.run e c1 with
              | mk r4 c2 =>
                rw [hr4] at h
                cases r4 with
                | error x => cases h
                | ok l =>
                  rw [Rd.bind_ok hr4]
                  obtain ⟨hp2, hc2, hv2⟩ := Rd.readInt_ok hr4 (by omega)
                  have hr2 := signed_range (bits := 8 * 4) (v := leNat ((e.buf.drop c1.pos).take 4)) (by omega)
                  rw [← hv2] at hr2
                  exact lazy_eager_asc hb (by simpa using hr2.1) (by simpa using hr2.2) h
            · rename_i h128; rw [if_neg h128] at h
              rw [ascii_short (by omega) (by omega)] at h
              exact lazy_eager_asc hb (by omega) (by omega) h

end Wz
