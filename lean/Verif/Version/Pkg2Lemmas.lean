import Verif.Version.Pkg2Model
/-!
# The backtracking search finds exactly the solutions of its bit equations
-/

set_option autoImplicit false

namespace Wz.Pkg2

/-- two words have the same lowest `n` bits -/
def Agree (t v : BitVec 32) (n : Nat) : Prop := ∀ j, j < n → t.getLsbD j = v.getLsbD j

theorem Agree.mono {t v : BitVec 32} {n m : Nat} (h : Agree t v n) (hm : m ≤ n) : Agree t v m :=
  fun j hj => h j (by omega)

theorem carry_agree {t v : BitVec 32} {n : Nat} (h : Agree t v n) :
    BitVec.carry n t verifyKey false = BitVec.carry n v verifyKey false := by
  induction n with
  | zero => simp
  | succ n ih => rw [BitVec.carry_succ, BitVec.carry_succ, ih (h.mono (by omega)), h n (by omega)]

/-- the bits of `hash1 ^ (t + VERIFY_KEY)` -/
def L (I : Info) (t : BitVec 32) (i : Nat) : Bool := (I.hash1 ^^^ (t + verifyKey)).getLsbD i

theorem L_eq (I : Info) (t : BitVec 32) {i : Nat} (hi : i < 32) :
    L I t i = (I.hash1.getLsbD i ^^ (t.getLsbD i ^^ (verifyKey.getLsbD i ^^ BitVec.carry i t verifyKey false))) := by
  unfold L
  rw [BitVec.getLsbD_xor, BitVec.getLsbD_add hi]

theorem L_agree (I : Info) {t v : BitVec 32} {i : Nat} (hi : i < 32) (h : Agree t v (i + 1)) :
    L I t i = L I v i := by
  rw [L_eq I t hi, L_eq I v hi, h i (by omega), carry_agree (h.mono (by omega))]

/-- index of the bit whose image is bit `i` -/
def prevIdx (I : Info) (i : Nat) : Nat := (i + 32 - I.s % 32) % 32
/-- index of the image of bit `i` -/
def futIdx (I : Info) (i : Nat) : Nat := (i + I.s) % 32

/-- what the search checks when it has chosen bit `i` of `t` -/
def OkBit (I : Info) (t : BitVec 32) (i : Nat) : Prop :=
  (prevIdx I i < i → (t.getLsbD i ^^ I.target.getLsbD i) = L I t (prevIdx I i)) ∧
  (futIdx I i ≤ i → L I t i = ((if futIdx I i = i then false else t.getLsbD (futIdx I i)) ^^
    I.target.getLsbD (futIdx I i))) ∧
  (i < futIdx I i → futIdx I i < I.lowBitLen →
    L I t i = (I.lowBits.getLsbD (futIdx I i) ^^ I.target.getLsbD (futIdx I i)))

/-- the bit is one of the choices -/
def LowBit (I : Info) (t : BitVec 32) (i : Nat) : Prop :=
  i < I.lowBitLen → t.getLsbD i = I.lowBits.getLsbD i

theorem OkBit_agree (I : Info) {t v : BitVec 32} {i : Nat} (hi : i < 32) (h : Agree t v (i + 1)) :
    OkBit I t i ↔ OkBit I v i := by
  unfold OkBit
  have h1 : prevIdx I i < i → L I t (prevIdx I i) = L I v (prevIdx I i) := fun hp =>
    L_agree I (by omega) (h.mono (by omega))
  have h2 : futIdx I i ≤ i → t.getLsbD (futIdx I i) = v.getLsbD (futIdx I i) := fun hf => h _ (by omega)
  rw [L_agree I hi h, h i (by omega)]
  constructor
  · rintro ⟨a, b, c⟩
    exact ⟨fun hp => by rw [← h1 hp]; exact a hp, fun hf => by rw [← h2 hf]; exact b hf, c⟩
  · rintro ⟨a, b, c⟩
    exact ⟨fun hp => by rw [h1 hp]; exact a hp, fun hf => by rw [h2 hf]; exact b hf, c⟩

theorem getLsbD_setBit (v : BitVec 32) (bit : Nat) (b : Bool) (hb : bit < 32) (hv : v.getLsbD bit = false) (j : Nat) :
    (setBit v bit b).getLsbD j = if j = bit then b else v.getLsbD j := by
  unfold setBit
  cases b with
  | false =>
    simp only [Bool.false_eq_true, if_false]
    split
    · rename_i h; rw [h, hv]
    · rfl
  | true =>
    simp only [if_true, BitVec.getLsbD_or, BitVec.getLsbD_shiftLeft, BitVec.getLsbD_one]
    by_cases h : j = bit
    · subst h; simp [hb]
    · rw [if_neg h]
      by_cases hlt : j < bit
      · simp [hlt]
      · have : j - bit ≠ 0 := by omega
        simp [this]

/-- the invariant of the search at a given bit -/
structure Inv (I : Info) (bit : Nat) (v : BitVec 32) (st : St) : Prop where
  lenL : st.lhs.length = 32
  lenC : st.carries.length = 33
  zero : ∀ j, bit ≤ j → v.getLsbD j = false
  lhs : ∀ j, j < bit → st.lhs.getD j false = L I v j
  carry : st.carries.getD bit false = BitVec.carry bit v verifyKey false

/-- the arrays below a bit are kept -/
structure Keeps (bit : Nat) (st st' : St) : Prop where
  lenL : st'.lhs.length = st.lhs.length
  lenC : st'.carries.length = st.carries.length
  lhs : ∀ j, j < bit → st'.lhs.getD j false = st.lhs.getD j false
  carry : ∀ j, j ≤ bit → st'.carries.getD j false = st.carries.getD j false

theorem Keeps.refl (bit : Nat) (st : St) : Keeps bit st st := ⟨rfl, rfl, fun _ _ => rfl, fun _ _ => rfl⟩

theorem Keeps.trans {bit : Nat} {a b c : St} (h1 : Keeps bit a b) (h2 : Keeps bit b c) : Keeps bit a c :=
  ⟨h2.lenL.trans h1.lenL, h2.lenC.trans h1.lenC, fun j hj => (h2.lhs j hj).trans (h1.lhs j hj),
    fun j hj => (h2.carry j hj).trans (h1.carry j hj)⟩

theorem Keeps.mono {bit bit' : Nat} {a b : St} (h : Keeps bit a b) (hb : bit' ≤ bit) : Keeps bit' a b :=
  ⟨h.lenL, h.lenC, fun j hj => h.lhs j (by omega), fun j hj => h.carry j (by omega)⟩

theorem Inv.keep {I : Info} {bit : Nat} {v : BitVec 32} {st st' : St} (h : Inv I bit v st) (hk : Keeps bit st st') :
    Inv I bit v st' :=
  ⟨hk.lenL.trans h.lenL, hk.lenC.trans h.lenC, h.zero, fun j hj => (hk.lhs j hj).trans (h.lhs j hj),
    (hk.carry bit (Nat.le_refl _)).trans h.carry⟩

theorem agree_setBit {v : BitVec 32} {bit : Nat} (b : Bool) (hb : bit < 32) (hv : v.getLsbD bit = false) :
    Agree (setBit v bit b) v bit := by
  intro j hj
  rw [getLsbD_setBit v bit b hb hv, if_neg (by omega)]

theorem lhsBit_eq {I : Info} {bit : Nat} {v : BitVec 32} {st : St} (h : Inv I bit v st) (hb : bit < 32) (b : Bool) :
    lhsBit I st bit b = L I (setBit v bit b) bit := by
  have hv := h.zero bit (Nat.le_refl _)
  rw [L_eq I _ hb, getLsbD_setBit v bit b hb hv, if_pos rfl, carry_agree (agree_setBit b hb hv), ← h.carry]
  unfold lhsBit bitSum
  generalize st.carries.getD bit false = c
  generalize verifyKey.getLsbD bit = k
  generalize I.hash1.getLsbD bit = x
  cases b <;> cases c <;> cases k <;> cases x <;> rfl

theorem carry_store {I : Info} {bit : Nat} {v : BitVec 32} {st : St} (h : Inv I bit v st) (hb : bit < 32) (b : Bool) :
    decide (2 ≤ bitSum st bit b) = BitVec.carry (bit + 1) (setBit v bit b) verifyKey false := by
  have hv := h.zero bit (Nat.le_refl _)
  rw [BitVec.carry_succ, getLsbD_setBit v bit b hb hv, if_pos rfl, carry_agree (agree_setBit b hb hv), ← h.carry]
  unfold bitSum
  generalize st.carries.getD bit false = c
  generalize verifyKey.getLsbD bit = k
  cases b <;> cases c <;> cases k <;> rfl

theorem getD_set {l : List Bool} {i j : Nat} {x : Bool} (hi : i < l.length) :
    (l.set i x).getD j false = if j = i then x else l.getD j false := by
  rw [List.getD_eq_getElem?_getD, List.getD_eq_getElem?_getD, List.getElem?_set]
  by_cases h : i = j
  · subst h; simp [hi]
  · simp [h, Ne.symm h]

theorem keeps_store {I : Info} {bit : Nat} {v : BitVec 32} {st : St} (h : Inv I bit v st) (hb : bit < 32) (b : Bool) :
    Keeps bit st (st.store I bit b) := by
  refine ⟨by simp [St.store], by simp [St.store], fun j hj => ?_, fun j hj => ?_⟩
  · simp only [St.store]
    rw [getD_set (by rw [h.lenL]; omega), if_neg (by omega)]
  · simp only [St.store]
    rw [getD_set (by rw [h.lenC]; omega), if_neg (by omega)]

theorem inv_store {I : Info} {bit : Nat} {v : BitVec 32} {st : St} (h : Inv I bit v st) (hb : bit < 32) (b : Bool) :
    Inv I (bit + 1) (setBit v bit b) (st.store I bit b) := by
  have hv := h.zero bit (Nat.le_refl _)
  refine ⟨by simp [St.store, h.lenL], by simp [St.store, h.lenC], fun j hj => ?_, fun j hj => ?_, ?_⟩
  · rw [getLsbD_setBit v bit b hb hv, if_neg (by omega), h.zero j (by omega)]
  · simp only [St.store]
    rw [getD_set (by rw [h.lenL]; omega)]
    split
    · rename_i he; subst he; exact lhsBit_eq h hb b
    · rw [h.lhs j (by omega)]
      exact (L_agree I (by omega) ((agree_setBit b hb hv).mono (by omega))).symm
  · simp only [St.store]
    rw [getD_set (by rw [h.lenC]; omega), if_pos rfl, carry_store h hb b]

theorem checks_iff {I : Info} {bit : Nat} {v : BitVec 32} {st : St} (h : Inv I bit v st) (hb : bit < 32) (b : Bool) :
    (prevOk I st bit b && futureOk I st bit v b) = true ↔ OkBit I (setBit v bit b) bit := by
  have hv := h.zero bit (Nat.le_refl _)
  have hg := getLsbD_setBit v bit b hb hv
  have e1 : prevOk I st bit b = true ↔ (prevIdx I bit < bit →
      ((setBit v bit b).getLsbD bit ^^ I.target.getLsbD bit) = L I (setBit v bit b) (prevIdx I bit)) := by
    unfold prevOk
    dsimp only
    show (if prevIdx I bit < bit then _ else _) = true ↔ _
    rw [hg, if_pos rfl]
    by_cases hp : prevIdx I bit < bit
    · rw [if_pos hp, beq_iff_eq]
      have := h.lhs _ hp
      rw [show (bit + 32 - I.s % 32) % 32 = prevIdx I bit from rfl, this,
        L_agree I (by omega) ((agree_setBit b hb hv).mono (by omega))]
      exact ⟨fun h _ => h, fun h => h hp⟩
    · rw [if_neg hp]
      exact ⟨fun _ h => absurd h hp, fun _ => rfl⟩
  have e2 : futureOk I st bit v b = true ↔ (futIdx I bit ≤ bit → L I (setBit v bit b) bit =
      ((if futIdx I bit = bit then false else (setBit v bit b).getLsbD (futIdx I bit)) ^^
        I.target.getLsbD (futIdx I bit))) ∧
      (bit < futIdx I bit → futIdx I bit < I.lowBitLen →
        L I (setBit v bit b) bit = (I.lowBits.getLsbD (futIdx I bit) ^^ I.target.getLsbD (futIdx I bit))) := by
    unfold futureOk
    dsimp only
    rw [show (bit + I.s) % 32 = futIdx I bit from rfl, lhsBit_eq h hb b]
    by_cases hf : futIdx I bit ≤ bit
    · rw [if_pos hf, beq_iff_eq, hg]
      have hk : v.getLsbD (futIdx I bit) = if futIdx I bit = bit then false else
          (if futIdx I bit = bit then b else v.getLsbD (futIdx I bit)) := by
        by_cases hx : futIdx I bit = bit
        · rw [if_pos hx, hx, hv]
        · rw [if_neg hx, if_neg hx]
      rw [← hk]
      exact ⟨fun h => ⟨fun _ => h, fun hc => absurd hc (by omega)⟩, fun h => h.1 hf⟩
    · rw [if_neg hf]
      by_cases hl : futIdx I bit < I.lowBitLen
      · rw [if_pos hl, beq_iff_eq]
        exact ⟨fun h => ⟨fun hc => absurd hc hf, fun _ _ => h⟩, fun h => h.2 (by omega) hl⟩
      · rw [if_neg hl]
        exact ⟨fun _ => ⟨fun hc => absurd hc hf, fun _ hc => absurd hc hl⟩, fun _ => rfl⟩
  rw [Bool.and_eq_true, e1, e2]
  rfl

/-- what a call of the search adds -/
def Adds (I : Info) (st st' : St) (P : BitVec 32 → Prop) : Prop :=
  ∃ news, st'.results = st.results ++ news ∧ news.Nodup ∧
    ∀ t, t ∈ news ↔ P t ∧ I.validator I.hash1 I.hash2 t = true

theorem agree_succ {t v : BitVec 32} {bit : Nat} {b : Bool} (hb : bit < 32) (hv : v.getLsbD bit = false) :
    Agree t (setBit v bit b) (bit + 1) ↔ Agree t v bit ∧ t.getLsbD bit = b := by
  have hg := getLsbD_setBit v bit b hb hv
  constructor
  · intro h
    refine ⟨fun j hj => ?_, ?_⟩
    · rw [h j (by omega), hg, if_neg (by omega)]
    · rw [h bit (by omega), hg, if_pos rfl]
  · rintro ⟨h1, h2⟩ j hj
    rw [hg]
    split
    · rename_i he; rw [he, h2]
    · exact h1 j (by omega)

theorem backtrack_spec (I : Info) (rem : Nat) (hr : rem ≤ 32) (v : BitVec 32) (st : St)
    (h : Inv I (32 - rem) v st) :
    Keeps (32 - rem) st (backtrack I rem v st) ∧
    Adds I st (backtrack I rem v st) (fun t => Agree t v (32 - rem) ∧
      ∀ i, 32 - rem ≤ i → i < 32 → LowBit I t i ∧ OkBit I t i) := by
  induction rem generalizing v st with
  | zero =>
    have hall : ∀ t : BitVec 32, Agree t v 32 ↔ t = v := by
      intro t
      constructor
      · intro ha
        apply BitVec.eq_of_getLsbD_eq
        intro i hi
        exact ha i hi
      · rintro rfl; exact fun _ _ => rfl
    unfold backtrack
    split
    · rename_i hv
      refine ⟨⟨rfl, rfl, fun _ _ => rfl, fun _ _ => rfl⟩, [v], rfl, by simp, fun t => ?_⟩
      rw [List.mem_singleton]
      constructor
      · rintro rfl; exact ⟨⟨fun _ _ => rfl, fun i h1 h2 => absurd h2 (by omega)⟩, hv⟩
      · rintro ⟨⟨ha, _⟩, _⟩; exact (hall t).mp ha
    · rename_i hv
      refine ⟨Keeps.refl _ _, [], by simp, by simp, fun t => ?_⟩
      constructor
      · intro hm; cases hm
      · rintro ⟨⟨ha, _⟩, hva⟩
        rw [(hall t).mp ha] at hva
        exact absurd hva hv
  | succ k ih =>
    have hb : 32 - (k + 1) < 32 := by omega
    have hk1 : 32 - k = 32 - (k + 1) + 1 := by omega
    have body : ∀ (st1 : St) (b : Bool), Inv I (32 - (k + 1)) v st1 →
        ∃ st2, (if prevOk I st1 (32 - (k + 1)) b && futureOk I st1 (32 - (k + 1)) v b then
            backtrack I k (setBit v (32 - (k + 1)) b) (st1.store I (32 - (k + 1)) b) else st1) = st2 ∧
          Keeps (32 - (k + 1)) st1 st2 ∧
          Adds I st1 st2 (fun t => (Agree t v (32 - (k + 1)) ∧ t.getLsbD (32 - (k + 1)) = b) ∧
            OkBit I t (32 - (k + 1)) ∧ ∀ i, 32 - k ≤ i → i < 32 → LowBit I t i ∧ OkBit I t i) := by
      intro st1 b hinv
      have hv := hinv.zero _ (Nat.le_refl _)
      have hc := checks_iff hinv hb b
      by_cases hok : (prevOk I st1 (32 - (k + 1)) b && futureOk I st1 (32 - (k + 1)) v b) = true
      · refine ⟨_, if_pos hok, ?_⟩
        have hs := inv_store hinv hb b
        rw [← hk1] at hs
        obtain ⟨hkeep, news, hres, hnd, hmem⟩ := ih (by omega) _ _ hs
        refine ⟨(keeps_store hinv hb b).trans (hkeep.mono (by omega)), news, hres, hnd, fun t => ?_⟩
        rw [hmem, hk1]
        dsimp only
        rw [agree_succ hb hv]
        constructor
        · rintro ⟨⟨ha, hr⟩, hval⟩
          refine ⟨⟨ha, ?_, hr⟩, hval⟩
          exact (OkBit_agree I hb ((agree_succ hb hv).mpr ha)).mpr (hc.mp hok)
        · rintro ⟨⟨ha, _, hr⟩, hval⟩
          exact ⟨⟨ha, hr⟩, hval⟩
      · refine ⟨_, if_neg hok, Keeps.refl _ _, [], by simp, by simp, fun t => ?_⟩
        constructor
        · intro hm; cases hm
        · rintro ⟨⟨ha, hokb, _⟩, _⟩
          exact absurd (hc.mpr ((OkBit_agree I hb ((agree_succ hb hv).mpr ha)).mp hokb)) hok
    have split_i : ∀ t, (∀ i, 32 - (k + 1) ≤ i → i < 32 → LowBit I t i ∧ OkBit I t i) ↔
        LowBit I t (32 - (k + 1)) ∧ OkBit I t (32 - (k + 1)) ∧
          ∀ i, 32 - k ≤ i → i < 32 → LowBit I t i ∧ OkBit I t i := by
      intro t
      constructor
      · intro hx
        have := hx (32 - (k + 1)) (Nat.le_refl _) hb
        exact ⟨this.1, this.2, fun i h1 h2 => hx i (by omega) h2⟩
      · rintro ⟨h1, h2, h3⟩ i hi hi2
        by_cases he : i = 32 - (k + 1)
        · subst he; exact ⟨h1, h2⟩
        · exact h3 i (by omega) hi2
    unfold backtrack
    dsimp only
    unfold choices
    by_cases hlow : 32 - (k + 1) < I.lowBitLen
    · rw [if_pos hlow]
      simp only [List.foldl_cons, List.foldl_nil]
      obtain ⟨st2, e2, k2, news, hres, hnd, hmem⟩ := body st (I.lowBits.getLsbD (32 - (k + 1))) h
      rw [e2]
      refine ⟨k2, news, hres, hnd, fun t => ?_⟩
      rw [hmem]
      dsimp only
      rw [split_i]
      constructor
      · rintro ⟨⟨⟨ha, hbb⟩, h1, h2⟩, hval⟩
        exact ⟨⟨ha, fun _ => hbb, h1, h2⟩, hval⟩
      · rintro ⟨⟨ha, hbb, h1, h2⟩, hval⟩
        exact ⟨⟨⟨ha, hbb hlow⟩, h1, h2⟩, hval⟩
    · rw [if_neg hlow]
      simp only [List.foldl_cons, List.foldl_nil]
      obtain ⟨st2, e2, k2, news, hres, hnd, hmem⟩ := body st false h
      rw [e2]
      obtain ⟨st3, e3, k3, news', hres', hnd', hmem'⟩ := body st2 true (h.keep k2)
      rw [e3]
      refine ⟨k2.trans k3, news ++ news', by rw [hres', hres, List.append_assoc], ?_, fun t => ?_⟩
      · rw [List.nodup_append]
        refine ⟨hnd, hnd', ?_⟩
        intro a ha b hb2 hab
        subst hab
        have := ((hmem a).mp ha).1.1.2
        have h2 := ((hmem' a).mp hb2).1.1.2
        rw [this] at h2; cases h2
      · rw [List.mem_append, hmem, hmem']
        dsimp only
        rw [split_i]
        have hl : LowBit I t (32 - (k + 1)) := fun hc => absurd hc hlow
        constructor
        · rintro (⟨⟨⟨ha, hbb⟩, h1, h2⟩, hval⟩ | ⟨⟨⟨ha, hbb⟩, h1, h2⟩, hval⟩)
          · exact ⟨⟨ha, hl, h1, h2⟩, hval⟩
          · exact ⟨⟨ha, hl, h1, h2⟩, hval⟩
        · rintro ⟨⟨ha, hbb, h1, h2⟩, hval⟩
          cases hx : t.getLsbD (32 - (k + 1)) with
          | false => exact .inl ⟨⟨⟨ha, rfl⟩, h1, h2⟩, hval⟩
          | true => exact .inr ⟨⟨⟨ha, rfl⟩, h1, h2⟩, hval⟩

theorem inv_fresh (I : Info) (res : List (BitVec 32)) : Inv I 0 0#32 (St.fresh res) := by
  refine ⟨rfl, rfl, fun j _ => by simp, fun j hj => absurd hj (by omega), ?_⟩
  rw [BitVec.carry_zero]
  rfl

/-- one run from the start -/
theorem backtrack_run (I : Info) (res : List (BitVec 32)) :
    ∃ news, (backtrack I 32 0#32 (St.fresh res)).results = res ++ news ∧ news.Nodup ∧
      ∀ t, t ∈ news ↔ (∀ i, i < 32 → LowBit I t i ∧ OkBit I t i) ∧ I.validator I.hash1 I.hash2 t = true := by
  obtain ⟨_, news, h1, h2, h3⟩ := backtrack_spec I 32 (Nat.le_refl _) 0#32 (St.fresh res) (inv_fresh I res)
  refine ⟨news, h1, h2, fun t => ?_⟩
  rw [h3]
  constructor
  · rintro ⟨⟨_, h⟩, hv⟩; exact ⟨fun i hi => h i (by omega) hi, hv⟩
  · rintro ⟨h, hv⟩; exact ⟨⟨fun j hj => absurd hj (by omega), fun i _ hi => h i hi⟩, hv⟩

/-- rotating left moves bit `i` to bit `i + r` -/
theorem rotl_bit (x : BitVec 32) (r i : Nat) (hi : i < 32) :
    (x.rotateLeft r).getLsbD ((i + r) % 32) = x.getLsbD i := by
  rw [BitVec.getLsbD_rotateLeft]
  by_cases h : (i + r) % 32 < r % 32
  · rw [decide_eq_true h, cond_true]
    congr 1; omega
  · rw [decide_eq_false h, cond_false, decide_eq_true (Nat.mod_lt _ (by omega)), Bool.true_and]
    congr 1; omega

/-- If `t` solves the rotated equation then it passes all the checks, unless the rotation is by nothing. -/
theorem ok_of_solution (I : Info) (t : BitVec 32) (hlow : ∀ i, i < 32 → LowBit I t i)
    (hlen : I.lowBitLen ≤ 32)
    (heq : (I.hash1 ^^^ (t + verifyKey)).rotateLeft I.s = t ^^^ I.target) (hs : I.s % 32 ≠ 0 ∨ t = 0#32) :
    ∀ i, i < 32 → OkBit I t i := by
  have hbit : ∀ i, i < 32 → L I t i = (t.getLsbD (futIdx I i) ^^ I.target.getLsbD (futIdx I i)) := by
    intro i hi
    unfold L
    rw [← rotl_bit _ I.s i hi, heq, BitVec.getLsbD_xor]
    rfl
  intro i hi
  refine ⟨fun hp => ?_, fun hf => ?_, fun hf hl => ?_⟩
  · have hpl : prevIdx I i < 32 := by omega
    rw [hbit _ hpl]
    have : futIdx I (prevIdx I i) = i := by
      unfold futIdx prevIdx; omega
    rw [this]
  · rw [hbit i hi]
    congr 1
    split
    · rename_i hx
      rcases hs with hs | hs
      · unfold futIdx at hx; omega
      · rw [hs]; simp
    · rfl
  · rw [hbit i hi, hlow _ (by omega) hl]

/-- When the rotation is by nothing only zero can pass. -/
theorem zero_of_ok (I : Info) (t : BitVec 32) (hok : ∀ i, i < 32 → OkBit I t i)
    (heq : (I.hash1 ^^^ (t + verifyKey)).rotateLeft I.s = t ^^^ I.target) (hs : I.s % 32 = 0) : t = 0#32 := by
  apply BitVec.eq_of_getLsbD_eq
  intro i hi
  have hf : futIdx I i = i := by unfold futIdx; omega
  have h2 := (hok i hi).2.1 (by omega)
  rw [hf, if_pos rfl] at h2
  have hbit : L I t i = (t.getLsbD i ^^ I.target.getLsbD i) := by
    unfold L
    rw [← rotl_bit _ I.s i hi, heq, BitVec.getLsbD_xor]
    congr 2
  rw [hbit] at h2
  have h3 : t.getLsbD i = false := by
    revert h2
    cases t.getLsbD i <;> cases I.target.getLsbD i <;> decide
  rw [h3]; simp

/-- folding the search over a list of rotations -/
theorem fold_runs (info : Nat → Info) (n : Nat) :
    ∃ news, (List.range n).foldl (fun res s => (backtrack (info s) 32 0#32 (St.fresh res)).results) [] = news ∧
      ((∀ s s' t, s < n → s' < n → (∀ i, i < 32 → LowBit (info s) t i) →
        (∀ i, i < 32 → LowBit (info s') t i) → s = s') → news.Nodup) ∧
      ∀ t, t ∈ news ↔ ∃ s, s < n ∧ (∀ i, i < 32 → LowBit (info s) t i ∧ OkBit (info s) t i) ∧
        (info s).validator (info s).hash1 (info s).hash2 t = true := by
  induction n with
  | zero => exact ⟨[], rfl, fun _ => List.nodup_nil, fun t => by simp⟩
  | succ n ih =>
    obtain ⟨news, hn, hnd, hm⟩ := ih
    obtain ⟨new2, e2, hnd2, hm2⟩ := backtrack_run (info n) news
    refine ⟨news ++ new2, ?_, ?_, ?_⟩
    · rw [List.range_succ, List.foldl_append, hn]
      exact e2
    · intro hinj
      rw [List.nodup_append]
      refine ⟨hnd fun s s' t h1 h2 => hinj s s' t (by omega) (by omega), hnd2, ?_⟩
      intro a ha b hb hab
      subst hab
      obtain ⟨s, hs, h1, _⟩ := (hm a).mp ha
      have := hinj s n a (by omega) (by omega) (fun i hi => (h1 i hi).1) (fun i hi => (((hm2 a).mp hb).1 i hi).1)
      omega
    · intro t
      rw [List.mem_append, hm, hm2]
      constructor
      · rintro (⟨s, h1, h2⟩ | h)
        · exact ⟨s, by omega, h2⟩
        · exact ⟨n, by omega, h⟩
      · rintro ⟨s, h1, h2⟩
        by_cases hs : s = n
        · subst hs; exact .inr h2
        · exact .inl ⟨s, by omega, h2⟩

end Wz.Pkg2
