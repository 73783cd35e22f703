import Verif.Image.Lemmas
/-!
# Whether a string can be read does not depend on the keys
-/

set_option autoImplicit false

namespace Wz
variable {α β : Type}

/-- success or the error, without the value -/
def outcome (r : Except Err α × Cur) : Except Err Unit × Cur := (r.1.map fun _ => (), r.2)

theorem outcome_ok {r r' : Except Err α × Cur} (h : outcome r = outcome r') {a : α} (ha : r.1 = .ok a) : ∃ b, r'.1 = .ok b := by
  obtain ⟨r1, c1⟩ := r
  obtain ⟨r2, c2⟩ := r'
  simp only at ha
  subst ha
  cases r2 with
  | ok b => exact ⟨b, rfl⟩
  | error x => exact absurd (congrArg Prod.fst h) nofun

theorem outcome_error {r r' : Except Err α × Cur} (h : outcome r = outcome r') {x : Err} (ha : r.1 = .error x) : r'.1 = .error x := by
  obtain ⟨r1, c1⟩ := r
  obtain ⟨r2, c2⟩ := r'
  simp only at ha
  subst ha
  cases r2 with
  | ok b => exact absurd (congrArg Prod.fst h) nofun
  | error y =>
    have := congrArg Prod.fst h
    cases this
    rfl

/-- `m` does the same whatever the keys are, up to the value -/
def Rd.KeyFree (m : Rd α) : Prop :=
  ∀ (mo : Mode) (b : Bytes) (k k2 k' k2' : Nat → Byte) (c : Cur), outcome (m.run ⟨mo, b, k, k2⟩ c) = outcome (m.run ⟨mo, b, k', k2'⟩ c)

/-- `m` does exactly the same whatever the keys are -/
def Rd.KeyEq (m : Rd α) : Prop :=
  ∀ (mo : Mode) (b : Bytes) (k k2 k' k2' : Nat → Byte) (c : Cur), m.run ⟨mo, b, k, k2⟩ c = m.run ⟨mo, b, k', k2'⟩ c

theorem Rd.KeyFree.bindEq {m : Rd α} {f : α → Rd β} (hm : m.KeyEq) (hf : ∀ a, (f a).KeyFree) : (m >>= f).KeyFree := by
  intro mo b k k2 k' k2' c
  rw [Rd.bind_run, Rd.bind_run, ← hm mo b k k2 k' k2' c]
  rcases m.run ⟨mo, b, k, k2⟩ c with ⟨r, c1⟩
  cases r with
  | ok a => exact hf a mo b k k2 k' k2' c1
  | error x => rfl

theorem Rd.KeyEq.free {m : Rd α} (hm : m.KeyEq) : m.KeyFree := fun mo b k k2 k' k2' c => congrArg outcome (hm mo b k k2 k' k2' c)

theorem units_shape {l l' : Bytes} (h : l.length = l'.length) : (units l).map (fun _ => ()) = (units l').map fun _ => () := by
  induction l using units.induct generalizing l' with
  | case1 => rw [List.eq_nil_of_length_eq_zero h.symm]
  | case2 a =>
    obtain ⟨a', rfl⟩ := List.length_eq_one_iff.mp h.symm
    rfl
  | case3 a b r ih =>
    match l', h with
    | a' :: b' :: r', h =>
      have := ih (l' := r') (by simpa using h)
      show (units r >>= _ : Except Err _).map _ = (units r' >>= _ : Except Err _).map _
      revert this
      cases units r <;> cases units r' <;> intro this <;> first | rfl | (cases this; rfl) | (cases this; done)

theorem decryptSlice_shape (m : Mode) (b : Bytes) (k k' : Nat → Byte) (p n : Nat) :
    (decryptSlice m b k p n).map List.length = (decryptSlice m b k' p n).map List.length := by
  unfold decryptSlice
  cases addU m p n with
  | error x => rfl
  | ok stop =>
    show ((sliceOrError b p stop >>= _ : Except Err _)).map _ = ((sliceOrError b p stop >>= _ : Except Err _)).map _
    cases sliceOrError b p stop with
    | error x => rfl
    | ok s =>
      show Except.ok _ = Except.ok _
      simp [decryptWith]

theorem resolveMeta_shape (mo : Mode) (b : Bytes) (k k2 k' k2' : Nat → Byte) (ty : StrType) (p n : Nat) :
    (resolveMeta ⟨mo, b, k, k2⟩ ty p n).map (fun _ => ()) = (resolveMeta ⟨mo, b, k', k2'⟩ ty p n).map fun _ => () := by
  cases ty with
  | empty => rfl
  | unicode =>
    have h := decryptSlice_shape mo b k k' p n
    unfold resolveMeta resolveUnicodeRaw
    revert h
    cases decryptSlice mo b k p n <;> cases decryptSlice mo b k' p n <;> intro h <;> first | (cases h; done) | skip
    · cases h; rfl
    · rename_i d d'
      have hu := units_shape (Except.ok.inj h)
      show ((units d >>= _ : Except Err _) >>= _ : Except Err _).map _ = ((units d' >>= _ : Except Err _) >>= _ : Except Err _).map _
      revert hu
      cases units d <;> cases units d' <;> intro hu <;> first | (cases hu; done) | rfl | skip
      · cases hu; rfl
  | ascii =>
    have h := decryptSlice_shape mo b k k' p n
    unfold resolveMeta resolveAsciiRaw
    revert h
    cases decryptSlice mo b k p n <;> cases decryptSlice mo b k' p n <;> intro h <;> first | (cases h; done) | skip
    · cases h; rfl
    · rfl
  | pkg2Dir =>
    have h := decryptSlice_shape mo b k2 k2' p n
    unfold resolveMeta resolvePkg2DirRaw
    revert h
    cases decryptSlice mo b k2 p n <;> cases decryptSlice mo b k2' p n <;> intro h <;> first | (cases h; done) | skip
    · cases h; rfl
    · rename_i d d'
      have hu := units_shape (Except.ok.inj h)
      show ((units d >>= _ : Except Err _)).map _ = ((units d' >>= _ : Except Err _)).map _
      revert hu
      cases units d <;> cases units d' <;> intro hu <;> first | (cases hu; done) | rfl | skip
      · cases hu; rfl

theorem Rd.KeyEq.readLE (w : Nat) : (Rd.readLE w).KeyEq := by
  intro mo b k k2 k' k2' c
  rw [Rd.readLE_def, Rd.readLE_def]

theorem Rd.KeyEq.readInt (w : Nat) : (Rd.readInt w).KeyEq := by
  intro mo b k k2 k' k2' c
  unfold Rd.readInt
  rw [Rd.bind_run, Rd.bind_run, Rd.KeyEq.readLE w mo b k k2 k' k2' c]
  rcases (Rd.readLE w).run ⟨mo, b, k', k2'⟩ c with ⟨r, c1⟩
  cases r <;> rfl

/-- reading a text behind its length -/
theorem eager_keyFree (ty : StrType) (n : Nat) :
    (Rd.getEnv >>= fun e => Rd.getPos >>= fun p => Rd.lift (resolveMeta e ty p n) >>= fun s => Rd.skip n >>= fun _ => (Pure.pure s : Rd (List Char))).KeyFree := by
  intro mo b k k2 k' k2' c
  rw [Rd.bind_ok (Rd.getEnv_run _ _), Rd.bind_ok (Rd.getEnv_run _ _), Rd.bind_ok (Rd.getPos_run _ _), Rd.bind_ok (Rd.getPos_run _ _),
    Rd.bind_run, Rd.bind_run, Rd.lift_run, Rd.lift_run]
  have h := resolveMeta_shape mo b k k2 k' k2' ty c.pos n
  revert h
  cases resolveMeta ⟨mo, b, k, k2⟩ ty c.pos n <;> cases resolveMeta ⟨mo, b, k', k2'⟩ ty c.pos n <;> intro h <;> first | (cases h; done) | skip
  · cases h; rfl
  · dsimp only
    rw [Rd.bind_run, Rd.bind_run]
    have : (Rd.skip n).run ⟨mo, b, k, k2⟩ c = (Rd.skip n).run ⟨mo, b, k', k2'⟩ c := by rw [Rd.skip_def, Rd.skip_def]
    rw [this]
    rcases (Rd.skip n).run ⟨mo, b, k', k2'⟩ c with ⟨r, c1⟩
    cases r <;> rfl

theorem readWzString_keyFree : Rd.readWzString.KeyFree := by
  unfold Rd.readWzString
  refine .bindEq (.readInt 1) fun small => ?_
  cases strType small with
  | empty => exact fun _ _ _ _ _ _ _ => rfl
  | unicode =>
    show (Rd.readUnicodeString small).KeyFree
    unfold Rd.readUnicodeString Rd.readUnicodeStrLen
    refine .bindEq ?_ fun len => ?_
    · split
      · exact .readInt 4
      · exact fun _ _ _ _ _ _ _ => rfl
    · split
      · exact fun _ _ _ _ _ _ _ => rfl
      · intro mo b k k2 k' k2' c
        rw [Rd.bind_ok (Rd.getEnv_run _ _), Rd.bind_ok (Rd.getEnv_run _ _), Rd.bind_run, Rd.bind_run, Rd.lift_run, Rd.lift_run]
        dsimp only
        cases mulI32 mo len 2 with
        | error x => rfl
        | ok l2 => exact eager_keyFree .unicode (asUsize l2) mo b k k2 k' k2' c
  | ascii =>
    show (Rd.readAsciiString small).KeyFree
    unfold Rd.readAsciiString Rd.readAsciiStrLen
    refine .bindEq ?_ fun len => ?_
    · split
      · exact .readInt 4
      · exact fun _ _ _ _ _ _ _ => rfl
    · dsimp only
      split
      · exact fun _ _ _ _ _ _ _ => rfl
      · exact eager_keyFree .ascii _
  | pkg2Dir => exact fun _ _ _ _ _ _ _ => rfl

end Wz
