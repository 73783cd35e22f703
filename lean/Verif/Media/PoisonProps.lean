import Verif.Media.PoisonRuns
/-!
# C79: what a panic does to later accesses
-/

set_option autoImplicit false

namespace Wz.Props

open Wz Wz.Spec

theorem access_run (inflate : Inflate) (bc7 : Bc7) {aes : Aes} (ha : aes.Sized) {key : Bytes} {m : Mode} {st : KeyStore} (hg : GlobalOk aes key st.keys)
    (a : Access) (hw : WordSized a) : ∃ x st', st.access inflate bc7 aes m a = (x, st') ∧ GlobalOk aes key st'.keys ∧
      ((∀ s, Needs inflate aes key m a s → st.bad s = false) → x = aloneGives inflate bc7 aes key m a) ∧
      (∀ s, Needs inflate aes key m a s → st.bad s = true → x = .error .panicUnwrap) ∧
      ∀ s, st'.bad s = true ↔ st.bad s = true ∨ Breaks inflate aes key m a s := by
  have same : (∀ s, ¬ Breaks inflate aes key m a s) → ∀ s, st.bad s = true ↔ st.bad s = true ∨ Breaks inflate aes key m a s :=
    fun h s => ⟨.inl, fun x => x.elim id fun y => absurd y (h s)⟩
  cases a with
  | text s data =>
    unfold KeyStore.access KeyStore.text
    dsimp only
    cases hs : st.bad s with
    | true =>
      rw [if_pos rfl]
      exact ⟨_, st, rfl, hg, fun h => (by rw [h s rfl] at hs; cases hs), fun _ _ _ => rfl, same fun _ h => h⟩
    | false =>
      rw [if_neg Bool.false_ne_true]
      obtain ⟨g1, g2, g3⟩ := hg s
      obtain ⟨d, h0, h1, h2, h3, _, _, h5⟩ := Ecb.grow_run ha g1 data.length
      rw [h0]
      dsimp only
      rw [Ecb.decrypt_run h1 data h5, h2, h3, g2, g3]
      refine ⟨_, _, rfl, put_ok hg h1 (h2.trans g2) (h3.trans g3), fun _ => rfl, fun t ht hb => ?_, same fun _ h => h⟩
      cases ht
      rw [hs] at hb
      cases hb
  | script buf o l =>
    obtain ⟨x, g, h1, h2, h3, h4⟩ := script_run (m := m) ha hw.1 hw.2.1 hw.2.2 hg
    unfold KeyStore.access
    dsimp only
    rw [h1]
    refine ⟨_, _, rfl, h2, fun h => ?_, ?_, same fun _ h => h⟩
    · rw [h3 (fun data s d1 d2 ht => h s ⟨data, d1, d2, ht⟩) _ (globalAfter_ok ha key [] [] [])]
      show _ = Except.map _ _
      cases extractLua aes m buf o l (globalAfter aes key [] [] []) <;> rfl
    · rintro s ⟨data, d1, d2, ht⟩ hb
      rw [h4 data s d1 d2 ht hb]
      rfl
  | picture s buf p =>
    obtain ⟨x, st', h1, h2, h3, h4⟩ := picture_run inflate bc7 (m := m) ha s hw.1 hw.2.1 hw.2.2 hg
    unfold KeyStore.access
    dsimp only
    rw [h1]
    refine ⟨_, st', rfl, h2, fun h => ?_, fun t ht hb => by rw [(h4 t ht hb).1]; rfl, ?_⟩
    · rw [(h3 h).1]
      show _ = Except.map _ _
      cases p.extract inflate bc7 aes m buf (Ecb.new (Slot.iv s) key) <;> rfl
    · by_cases hn : ∃ t, Needs inflate aes key m (.picture s buf p) t ∧ st.bad t = true
      · obtain ⟨t, ht, hb⟩ := hn
        rw [(h4 t ht hb).2]
        intro u
        refine ⟨.inl, fun x => x.elim id fun y => ?_⟩
        rw [y.1.1, ← ht.1]
        exact hb
      · refine (h3 fun t ht => ?_).2
        cases hs : st.bad t with
        | false => rfl
        | true => exact absurd ⟨t, ht, hs⟩ hn

theorem history_run (inflate : Inflate) (bc7 : Bc7) {aes : Aes} (ha : aes.Sized) {key : Bytes} {m : Mode} : ∀ (as : List Access) (st : KeyStore),
    GlobalOk aes key st.keys → (∀ a ∈ as, WordSized a) → ∀ (i : Nat) (a : Access), as[i]? = some a →
    ((∀ s, Needs inflate aes key m a s → st.bad s = false) →
      (∀ (j : Nat) (b : Access) s, j < i → as[j]? = some b → Breaks inflate aes key m b s → ¬ Needs inflate aes key m a s) →
      (KeyStore.history inflate bc7 aes m as st).1[i]? = some (aloneGives inflate bc7 aes key m a)) ∧
    (∀ s, Needs inflate aes key m a s → (st.bad s = true ∨ ∃ (j : Nat) (b : Access), j < i ∧ as[j]? = some b ∧ Breaks inflate aes key m b s) →
      (KeyStore.history inflate bc7 aes m as st).1[i]? = some (.error .panicUnwrap))
  | [], _, _, _, i, a, h => by simp at h
  | b :: as, st, hg, hw, i, a, h => by
    obtain ⟨x, st', h1, h2, h3, h4, h5⟩ := access_run inflate bc7 ha (m := m) hg b (hw b (List.mem_cons_self ..))
    unfold KeyStore.history
    rw [h1]
    dsimp only
    cases i with
    | zero =>
      cases h
      refine ⟨fun hn _ => ?_, fun s hn hb => ?_⟩
      · rw [List.getElem?_cons_zero, h3 hn]
      · rcases hb with hb | ⟨j, _, hj, _⟩
        · rw [List.getElem?_cons_zero, h4 s hn hb]
        · omega
    | succ i =>
      rw [List.getElem?_cons_succ] at h
      have ih := history_run (m := m) inflate bc7 ha as st' h2 (fun c hc => hw c (List.mem_cons_of_mem _ hc)) i a h
      rw [List.getElem?_cons_succ]
      refine ⟨fun hn hj => ih.1 (fun s ns => ?_) fun j c s hlt hc hb => hj (j + 1) c s (by omega) hc hb, fun s hn hb => ih.2 s hn ?_⟩
      · cases hs : st'.bad s with
        | false => rfl
        | true =>
          rcases (h5 s).1 hs with h | h
          · rw [hn s ns] at h; cases h
          · exact absurd ns (hj 0 b s (by omega) rfl h)
      · rcases hb with hb | ⟨j, c, hlt, hc, hb⟩
        · exact .inl ((h5 s).2 (.inl hb))
        · cases j with
          | zero => cases hc; exact .inl ((h5 s).2 (.inr hb))
          | succ j => exact .inr ⟨j, c, by omega, hc, hb⟩

theorem start_ok (aes : Aes) (key : Bytes) : GlobalOk aes key (KeyStore.start key).keys := by
  intro s
  cases s with
  | gms => exact ⟨Ecb.good_new aes gmsIv key rfl, rfl, rfl⟩
  | kms => exact ⟨Ecb.good_new aes mseaIv key rfl, rfl, rfl⟩
  | general => exact ⟨Ecb.good_new aes ivZero key rfl, rfl, rfl⟩

theorem length_history (inflate : Inflate) (bc7 : Bc7) (aes : Aes) (m : Mode) : ∀ (as : List Access) (st : KeyStore),
    (KeyStore.history inflate bc7 aes m as st).1.length = as.length
  | [], _ => rfl
  | a :: as, st => by
    unfold KeyStore.history
    exact congrArg (· + 1) (length_history inflate bc7 aes m as _)

/-- C79: in any history of a program that goes on after panics, an access gives what it gives alone, unless an access before it
made one of the decryptors it needs unusable.  Only damaged pictures do that. -/
theorem C79_answers_partial (inflate : Inflate) (bc7 : Bc7) (aes : Aes) (ha : aes.Sized) (key : Bytes) (m : Mode) (as : List Access)
    (hw : ∀ a ∈ as, WordSized a) (i : Nat) (a : Access) (hi : as[i]? = some a)
    (hb : ∀ (j : Nat) (b : Access) (s : Slot), j < i → as[j]? = some b → Breaks inflate aes key m b s → ¬ Needs inflate aes key m a s) :
    (KeyStore.history inflate bc7 aes m as (KeyStore.start key)).1[i]? = some (aloneGives inflate bc7 aes key m a) :=
  (history_run inflate bc7 ha as _ (start_ok aes key) hw i a hi).1 (fun _ _ => rfl) hb

/-- **A damaged picture spoils its decryptor for all files.**  Every later access that needs it panics, in whatever file. -/
theorem C79_spoiled (inflate : Inflate) (bc7 : Bc7) (aes : Aes) (ha : aes.Sized) (key : Bytes) (m : Mode) (as : List Access)
    (hw : ∀ a ∈ as, WordSized a) (i j : Nat) (a b : Access) (s : Slot) (hi : as[i]? = some a) (hj : as[j]? = some b) (hlt : j < i)
    (hb : Breaks inflate aes key m b s) (hn : Needs inflate aes key m a s) :
    (KeyStore.history inflate bc7 aes m as (KeyStore.start key)).1[i]? = some (.error .panicUnwrap) :=
  (history_run inflate bc7 ha as _ (start_ok aes key) hw i a hi).2 s hn (.inr ⟨j, b, hlt, hj, hb⟩)

/-- C79: without damaged pictures the order of accesses does not matter at all. -/
theorem C79_undamaged (inflate : Inflate) (bc7 : Bc7) (aes : Aes) (ha : aes.Sized) (key : Bytes) (m : Mode) (as : List Access)
    (hw : ∀ a ∈ as, WordSized a) (hd : ∀ s buf p, Access.picture s buf p ∈ as → ¬ Damaged buf p) :
    (KeyStore.history inflate bc7 aes m as (KeyStore.start key)).1 = as.map (aloneGives inflate bc7 aes key m) := by
  refine List.ext_getElem? fun i => ?_
  rw [List.getElem?_map]
  cases hi : as[i]? with
  | none =>
    rw [List.getElem?_eq_none_iff] at hi
    exact List.getElem?_eq_none (by rw [length_history]; exact hi)
  | some a =>
    refine C79_answers_partial inflate bc7 aes ha key m as hw i a hi fun j b s _ hj hb => ?_
    cases b with
    | text _ _ => exact hb.elim
    | script _ _ _ => exact hb.elim
    | picture s' buf p => exact absurd hb.2 (hd s' buf p (List.mem_of_getElem? hj))

/-! ### a concrete case -/

/-- a picture of one pixel whose data are one chunk that claims to be longer than the file -/
def png79 : Png := { offset := 0, size := 8, format1 := 2, format2 := 0, header := 0, pages := 0, width := 1, height := 1 }

/-- the file: the length 100, and four bytes -/
def file79 : Bytes := [100#8, 0#8, 0#8, 0#8, 1#8, 2#8, 3#8, 4#8]

/-- the same with the length that the chunk has -/
def file79b : Bytes := [4#8, 0#8, 0#8, 0#8, 1#8, 2#8, 3#8, 4#8]

theorem damaged79 : Damaged file79 png79 := by
  rintro ⟨total, _, h⟩
  cases h with
  | done _ h => exact absurd h (by decide)
  | chunk _ len _ _ h1 h2 h3 _ =>
    have e := readAt_holds h2 (length_toLE 4 len)
    rw [leNat_toLE, Nat.mod_eq_of_lt (by omega)] at e
    have e' : readAt file79 4 0 = .ok 100 := by decide
    rw [show png79.offset = 0 from rfl, e'] at e
    injection e with e
    have : file79.length = 8 := rfl
    omega

theorem undamaged79 : ¬ Damaged file79b png79 := fun h =>
  h ⟨4 + 0, by decide, .chunk 0 4 0 (by decide) (by decide) ⟨[], [1#8, 2#8, 3#8, 4#8], by decide +kernel, rfl⟩ (by decide) (.done _ (by decide))⟩

theorem needs79 (inflate : Inflate) (aes : Aes) (key : Bytes) (m : Mode) (s : Slot) (buf : Bytes) (hb : buf.length = 8) :
    Needs inflate aes key m (.picture s buf png79) s :=
  ⟨rfl, buf, 4, hb, ⟨[], [], by simp, rfl⟩, by cases m <;> rfl, fun h => absurd h (by decide)⟩

/-- **A damaged picture in one file makes the texts and scripts of all others unreadable.**  A program reads a text and a script, then the
damaged picture of another file, then the same text and script again: they panic.  With an undamaged picture they are as before. -/
theorem C79_counterexample (inflate : Inflate) (bc7 : Bc7) (aes : Aes) (ha : aes.Sized) (key : Bytes) (m : Mode) (data : Bytes) :
    (∃ x y, (KeyStore.history inflate bc7 aes m [.text .kms data, .script [0x61#8] 0 1, .picture .kms file79 png79, .text .kms data, .script [0x61#8] 0 1]
        (KeyStore.start key)).1 = [.ok (.text (xorStream (keyByte aes key [0xB9#8, 0x7D#8, 0x63#8, 0xE9#8]) data)), x, y, .error .panicUnwrap, .error .panicUnwrap] ∧
      x ≠ .error .panicUnwrap) ∧
    ∃ x y, (KeyStore.history inflate bc7 aes m [.text .kms data, .script [0x61#8] 0 1, .picture .kms file79b png79, .text .kms data, .script [0x61#8] 0 1]
        (KeyStore.start key)).1 = [.ok (.text (xorStream (keyByte aes key [0xB9#8, 0x7D#8, 0x63#8, 0xE9#8]) data)), x, y,
          .ok (.text (xorStream (keyByte aes key [0xB9#8, 0x7D#8, 0x63#8, 0xE9#8]) data)), x] := by
  have hw : ∀ buf : Bytes, buf.length = 8 → ∀ a ∈ [Access.text .kms data, .script [0x61#8] 0 1, .picture .kms buf png79, .text .kms data, .script [0x61#8] 0 1],
      WordSized a := by
    intro buf hb a h
    simp only [List.mem_cons, List.not_mem_nil, or_false] at h
    rcases h with rfl | rfl | rfl | rfl | rfl
    · trivial
    · exact ⟨by decide, by decide, by decide⟩
    · exact ⟨by rw [hb]; decide, by decide, by decide⟩
    · trivial
    · exact ⟨by decide, by decide, by decide⟩
  have five : ∀ {α : Type} {l : List α} {a b c d e : α}, l.length = 5 → l[0]? = some a → l[1]? = some b → l[2]? = some c → l[3]? = some d → l[4]? = some e →
      l = [a, b, c, d, e] := by
    intro α l a b c d e hl h0 h1 h2 h3 h4
    match l, hl with
    | [_, _, _, _, _], _ => simp at h0 h1 h2 h3 h4; subst h0 h1 h2 h3 h4; rfl
  have hscript : aloneGives inflate bc7 aes key m (.script [0x61#8] 0 1) ≠ .error .panicUnwrap := by
    show Except.map _ (extractLua aes m [0x61#8] 0 1 (globalAfter aes key [] [] [])) ≠ _
    obtain ⟨r, _, h1, h2, h3⟩ := C37_read aes ha key [] [] [] m [0x61#8] [0x61#8] 0 (by decide) ⟨[], [], rfl, rfl⟩
    cases r with
    | none => rw [show extractLua aes m [0x61#8] 0 1 (globalAfter aes key [] [] []) = _ from h1 rfl]; exact fun h => by cases h
    | some plain =>
      by_cases ht : IsText plain
      · obtain ⟨s, hs⟩ := ht
        have := h2 plain s rfl hs
        intro he
        cases hx : extractLua aes m [0x61#8] 0 1 (globalAfter aes key [] [] []) with
        | ok z => rw [hx] at he; cases he
        | error z => rw [show extractLua aes m [0x61#8] 0 [0x61#8].length (globalAfter aes key [] [] []) = _ from hx] at this; cases this
      · rw [show extractLua aes m [0x61#8] 0 1 (globalAfter aes key [] [] []) = _ from h3 plain rfl ht]; exact fun h => by cases h
  have hneed : Needs inflate aes key m (.script [0x61#8] 0 1) .kms := ⟨[0x61#8], rfl, ⟨[], [], rfl, rfl⟩, .here _ _⟩
  have hbr : Breaks inflate aes key m (.picture .kms file79 png79) .kms := ⟨needs79 inflate aes key m .kms file79 rfl, damaged79⟩
  constructor
  · have A := C79_answers_partial inflate bc7 aes ha key m _ (hw file79 rfl)
    have S := C79_spoiled inflate bc7 aes ha key m _ (hw file79 rfl)
    refine ⟨aloneGives inflate bc7 aes key m (.script [0x61#8] 0 1), aloneGives inflate bc7 aes key m (.picture .kms file79 png79), five (length_history ..)
      (A 0 _ rfl fun j _ _ h => absurd h (Nat.not_lt_zero _)) (A 1 _ rfl ?_) (A 2 _ rfl ?_) (S 3 2 _ _ .kms rfl rfl (by decide) hbr rfl)
      (S 4 2 _ _ .kms rfl rfl (by decide) hbr hneed), hscript⟩
    · intro j b s hj hb h
      match j, hj with
      | 0, _ => cases hb; exact h.elim
    · intro j b s hj hb h
      match j, hj with
      | 0, _ => cases hb; exact h.elim
      | 1, _ => cases hb; exact h.elim
  · refine ⟨aloneGives inflate bc7 aes key m (.script [0x61#8] 0 1), aloneGives inflate bc7 aes key m (.picture .kms file79b png79), ?_⟩
    refine C79_undamaged inflate bc7 aes ha key m _ (hw file79b rfl) fun s buf p h => ?_
    simp only [List.mem_cons, List.not_mem_nil, or_false, reduceCtorEq, false_or, Access.picture.injEq] at h
    obtain ⟨_, rfl, rfl⟩ := h
    exact undamaged79

end Wz.Props
