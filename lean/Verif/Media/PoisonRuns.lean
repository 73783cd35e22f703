import Verif.Media.PoisonLemmas
/-!
# What one access does
-/

set_option autoImplicit false

namespace Wz.Props

open Wz Wz.Spec

theorem bind_slice {α : Type} (m : Mode) (buf : Bytes) (o a b : Nat) (f : Bytes → Except Err α) :
    (addU m a b >>= fun last => sliceIdx buf o last >>= f) = ((addU m a b).bind (sliceIdx buf o)).bind f := by
  cases addU m a b <;> rfl

theorem slice_there {m : Mode} {buf : Bytes} {o l a b : Nat} (hab : a + b = o + l) (hb : buf.length < 2 ^ 63) (h : o + l ≤ buf.length) :
    ∃ data, data.length = l ∧ Holds buf o data ∧ (addU m a b).bind (sliceIdx buf o) = .ok data := by
  refine ⟨(buf.drop o).take l, by simp; omega, ⟨buf.take o, (buf.drop o).drop l, by
    rw [List.append_assoc, List.take_append_drop, List.take_append_drop], by simp; omega⟩, ?_⟩
  rw [show addU m a b = .ok (o + l) from (if_pos (by omega)).trans (by rw [hab])]
  show sliceIdx buf o (o + l) = _
  unfold sliceIdx
  rw [if_pos ⟨by omega, h⟩, Nat.add_sub_cancel_left]

theorem slice_missing {m : Mode} {buf : Bytes} {o l a b : Nat} (hab : a + b = o + l) (hb : buf.length < 2 ^ 63) (ho : o < 2 ^ 64) (hl : l < 2 ^ 64)
    (h : ¬ o + l ≤ buf.length) : (∀ data, data.length = l → ¬ Holds buf o data) ∧ ∃ e, (addU m a b).bind (sliceIdx buf o) = .error e := by
  refine ⟨fun data hd hh => h ?_, ?_⟩
  · have := hh.le
    omega
  · by_cases hs : a + b < 2 ^ 64
    · rw [show addU m a b = .ok (a + b) from if_pos hs]
      exact ⟨.panicIndex, if_neg fun x => by omega⟩
    · cases m with
      | checked =>
        rw [show addU .checked a b = .error .panicOverflow from if_neg hs]
        exact ⟨_, rfl⟩
      | wrap =>
        rw [show addU .wrap a b = .ok ((a + b) % 2 ^ 64) from if_neg hs]
        exact ⟨.panicIndex, if_neg fun x => by omega⟩

/-! ### scripts -/

theorem held_bad {aes : Aes} {st : KeyStore} {s : Slot} {data : Bytes} (h : st.bad s = true) : st.held aes s data = (.error .panicUnwrap, st) := if_pos h

theorem held_fine {aes : Aes} (ha : aes.Sized) {key : Bytes} {st : KeyStore} (hg : GlobalOk aes key st.keys) {s : Slot} {data : Bytes} (h : st.bad s = false) :
    ∃ g, st.held aes s data = (.ok (xorStream (keyByte aes key (Slot.iv s)) data), { st with keys := g }) ∧ GlobalOk aes key g := by
  obtain ⟨g, h1, h2⟩ := decryptAll_run ha hg s data
  refine ⟨g, ?_, h2⟩
  unfold KeyStore.held
  rw [if_neg (by rw [h]; exact Bool.false_ne_true), h1]

theorem slotOfIv_iv (s : Slot) : slotOfIv (Slot.iv s) = some s := by cases s <;> rfl

theorem scriptTry_fine {aes : Aes} (ha : aes.Sized) {key data : Bytes} : ∀ (slots : List Slot) (st : KeyStore), GlobalOk aes key st.keys →
    (∀ t, Tries (keyByte aes key) data slots t → st.bad t = false) →
    ∃ r g, KeyStore.scriptTry aes (data.take 64) (slots.map Slot.iv) st = (.ok r, { st with keys := g }) ∧ GlobalOk aes key g ∧
      (∀ s, r = some s → Tries (keyByte aes key) data slots s) ∧
      ∀ g0, GlobalOk aes key g0 → ∃ g0', luaTry aes (data.take 64) (slots.map Slot.iv) g0 = .ok (r, g0') ∧ GlobalOk aes key g0'
  | [], st, hg, _ => ⟨none, st.keys, rfl, hg, fun s h => (by cases h), fun g0 h0 => ⟨g0, rfl, h0⟩⟩
  | s :: rest, st, hg, hb => by
    obtain ⟨g, h1, h2⟩ := held_fine ha hg (data := data.take 64) (hb s (.here s rest))
    rw [List.map_cons]
    unfold KeyStore.scriptTry luaTry
    rw [slotOfIv_iv]
    dsimp only
    rw [h1]
    dsimp only
    cases hu : utf8Strict (xorStream (keyByte aes key (Slot.iv s)) (data.take 64)) with
    | ok t =>
      refine ⟨some s, g, rfl, h2, fun s' h => (by cases h; exact .here s rest), fun g0 h0 => ?_⟩
      obtain ⟨g0', e1, e2⟩ := decryptAll_run ha h0 s (data.take 64)
      rw [e1]
      dsimp only
      rw [hu]
      exact ⟨g0', rfl, e2⟩
    | error x =>
      have hn : ¬ IsText (xorStream (keyByte aes key (Slot.iv s)) (data.take 64)) := by
        intro ht
        obtain ⟨t, ht⟩ := isText_iff.1 ht
        rw [hu] at ht
        cases ht
      obtain ⟨r, g', k1, k2, k3, k4⟩ := scriptTry_fine ha rest { st with keys := g } h2 fun t ht => hb t (.there s rest t hn ht)
      refine ⟨r, g', k1, k2, fun s' h => .there s rest s' hn (k3 s' h), fun g0 h0 => ?_⟩
      obtain ⟨g0', e1, e2⟩ := decryptAll_run ha h0 s (data.take 64)
      rw [e1]
      dsimp only
      rw [hu]
      exact k4 g0' e2

theorem scriptTry_bad {aes : Aes} (ha : aes.Sized) {key data : Bytes} : ∀ (slots : List Slot) (st : KeyStore), GlobalOk aes key st.keys →
    ∀ t, Tries (keyByte aes key) data slots t → st.bad t = true →
    ∃ g, KeyStore.scriptTry aes (data.take 64) (slots.map Slot.iv) st = (.error .panicUnwrap, { st with keys := g }) ∧ GlobalOk aes key g
  | [], _, _, _, h, _ => by cases h
  | s :: rest, st, hg, t, ht, hb => by
    rw [List.map_cons]
    unfold KeyStore.scriptTry
    rw [slotOfIv_iv]
    dsimp only
    cases hs : st.bad s with
    | true =>
      rw [held_bad hs]
      exact ⟨st.keys, rfl, hg⟩
    | false =>
      obtain ⟨g, h1, h2⟩ := held_fine ha hg (data := data.take 64) hs
      cases ht with
      | here _ _ => rw [hs] at hb; cases hb
      | there _ _ _ hn ht =>
        rw [h1]
        dsimp only
        cases hu : utf8Strict (xorStream (keyByte aes key (Slot.iv s)) (data.take 64)) with
        | ok x => exact absurd (isText_iff.2 ⟨x, hu⟩) hn
        | error x => exact scriptTry_bad ha rest { st with keys := g } h2 t ht hb

theorem script_run {aes : Aes} (ha : aes.Sized) {key : Bytes} {m : Mode} {buf : Bytes} {o l : Nat} (hb : buf.length < 2 ^ 63) (ho : o < 2 ^ 64) (hl : l < 2 ^ 64)
    {st : KeyStore} (hg : GlobalOk aes key st.keys) : ∃ x g, st.script aes m buf o l = (x, { st with keys := g }) ∧ GlobalOk aes key g ∧
      ((∀ data s, data.length = l → Holds buf o data → Tries (keyByte aes key) data [.kms, .gms, .general] s → st.bad s = false) →
        ∀ g0, GlobalOk aes key g0 → x = (extractLua aes m buf o l g0).map Prod.fst) ∧
      (∀ data s, data.length = l → Holds buf o data → Tries (keyByte aes key) data [.kms, .gms, .general] s → st.bad s = true → x = .error .panicUnwrap) := by
  unfold KeyStore.script extractLua
  simp only [bind_slice]
  by_cases hin : o + l ≤ buf.length
  · obtain ⟨data, d1, d2, d3⟩ := slice_there (m := m) (a := l) (b := o) (Nat.add_comm _ _) hb hin
    obtain ⟨test, t1, t2, t3⟩ := slice_there (m := m) (a := o) (b := min 64 l) rfl hb (show o + min 64 l ≤ buf.length by omega)
    have ht : test = data.take 64 := by
      have a := t2.slice
      have b := d2.slice
      rw [t1] at a
      rw [d1] at b
      rw [← a, ← b, List.take_take]
    subst ht
    have huniq : ∀ data', data'.length = l → Holds buf o data' → data' = data := by
      intro data' h1 h2
      have a := h2.slice
      have b := d2.slice
      rw [h1] at a
      rw [d1] at b
      rw [← a, ← b]
    rw [d3, t3]
    dsimp only
    have hivs : [mseaIv, gmsIv, [0#8, 0#8, 0#8, 0#8]] = [Slot.kms, .gms, .general].map Slot.iv := rfl
    by_cases hbad : ∃ s, Tries (keyByte aes key) data [.kms, .gms, .general] s ∧ st.bad s = true
    · obtain ⟨s, h1, h2⟩ := hbad
      obtain ⟨g, e, hg'⟩ := scriptTry_bad ha _ st hg s h1 h2
      rw [hivs, e]
      exact ⟨_, g, rfl, hg', fun h => (by rw [h data s d1 d2 h1] at h2; cases h2), fun _ _ _ _ _ _ => rfl⟩
    · have hfine : ∀ t, Tries (keyByte aes key) data [.kms, .gms, .general] t → st.bad t = false := by
        intro t ht
        cases hs : st.bad t with
        | false => rfl
        | true => exact absurd ⟨t, ht, hs⟩ hbad
      obtain ⟨r, g, e, hg', hr, hlua⟩ := scriptTry_fine ha _ st hg hfine
      have hguess : ∀ g0, GlobalOk aes key g0 → ∃ g0', luaGuess aes m buf o l g0 = .ok (r, g0') ∧ GlobalOk aes key g0' := by
        intro g0 h0
        obtain ⟨g0', e1, e2⟩ := hlua g0 h0
        refine ⟨g0', ?_, e2⟩
        unfold luaGuess
        rw [bind_slice, t3]
        exact e1
      have hno : ∀ data' s, data'.length = l → Holds buf o data' → Tries (keyByte aes key) data' [.kms, .gms, .general] s → st.bad s ≠ true := by
        intro data' s h1 h2 h3
        rw [huniq data' h1 h2] at h3
        rw [hfine s h3]
        exact Bool.false_ne_true
      rw [hivs, e]
      cases r with
      | none =>
        refine ⟨_, g, rfl, hg', fun _ g0 h0 => ?_, fun data' s h1 h2 h3 h4 => absurd h4 (hno data' s h1 h2 h3)⟩
        obtain ⟨g0', e1, _⟩ := hguess g0 h0
        show _ = Except.map Prod.fst (luaGuess aes m buf o l g0 >>= luaDecode aes data)
        rw [e1]
        rfl
      | some s =>
        dsimp only
        obtain ⟨g2, k1, k2⟩ := held_fine ha (st := { st with keys := g }) hg' (data := data) (hfine s (hr s rfl))
        rw [k1]
        refine ⟨_, g2, rfl, k2, fun _ g0 h0 => ?_, fun data' s h1 h2 h3 h4 => absurd h4 (hno data' s h1 h2 h3)⟩
        obtain ⟨g0', e1, e2⟩ := hguess g0 h0
        show _ = Except.map Prod.fst (luaGuess aes m buf o l g0 >>= luaDecode aes data)
        rw [e1]
        show _ = Except.map Prod.fst (g0'.decryptAll aes s data >>= fun x => luaText x.1 >>= fun t => pure (t, x.2))
        obtain ⟨g3, q1, _⟩ := decryptAll_run ha e2 s data
        rw [q1]
        show _ = Except.map Prod.fst (luaText (xorStream (keyByte aes key (Slot.iv s)) data) >>= fun t => pure (t, g3))
        cases luaText (xorStream (keyByte aes key (Slot.iv s)) data) <;> rfl
  · obtain ⟨h1, e, h2⟩ := slice_missing (m := m) (a := l) (b := o) (Nat.add_comm _ _) hb ho hl hin
    rw [h2]
    exact ⟨_, st.keys, rfl, hg, fun _ _ _ => rfl, fun data s hd hh => absurd hh (h1 data hd)⟩

/-! ### pictures -/

theorem zlib_iff {p : Png} : p.hasZlibHeader = true ↔ p.header ∈ [0x9C78, 0xDA78, 0x0178, 0x5E78] := by
  unfold Png.hasZlibHeader
  simp only [Bool.or_eq_true, beq_iff_eq, List.mem_cons, List.not_mem_nil, or_false, or_assoc]

theorem extract_rest (inflate : Inflate) (bc7 : Bc7) (aes : Aes) (m : Mode) (buf : Bytes) (p : Png) (data : Bytes) (keys : Ecb) (capacity : Nat) (e : Err)
    (hc : p.buffSize m = .ok capacity) (hf : (if p.hasZlibHeader then inflate true data capacity else .error (.lib "UnsupportedHeader")) = .error e)
    (stop : Nat) (hs : addU m p.offset p.size = .ok stop) :
    (p.rawData inflate aes m buf data keys) = (rawChunks aes m buf stop (stop - p.offset) p.offset [] keys).bind fun x =>
      (sliceIdx x.1 2 x.1.length).bind fun z => (inflate false z capacity).bind fun r => .ok (r, x.2) := by
  unfold Png.rawData
  rw [hc]
  show (match (if p.hasZlibHeader then inflate true data capacity else .error (.lib "UnsupportedHeader")) with
    | .ok r => pure (r, keys)
    | .error _ => _) = _
  rw [hf]
  dsimp only
  rw [hs]
  rfl

theorem picture_run (inflate : Inflate) (bc7 : Bc7) {aes : Aes} (ha : aes.Sized) {key : Bytes} {m : Mode} (s : Slot) {buf : Bytes} {p : Png}
    (hb : buf.length < 2 ^ 63) (ho : p.offset < 2 ^ 64) (hl : p.size < 2 ^ 64) {st : KeyStore} (hg : GlobalOk aes key st.keys) :
    ∃ x st', st.picture inflate bc7 aes m s buf p = (x, st') ∧ GlobalOk aes key st'.keys ∧
      ((∀ t, Needs inflate aes key m (.picture s buf p) t → st.bad t = false) →
        x = (p.extract inflate bc7 aes m buf (Ecb.new (Slot.iv s) key)).map Prod.fst ∧
        ∀ t, st'.bad t = true ↔ st.bad t = true ∨ Breaks inflate aes key m (.picture s buf p) t) ∧
      (∀ t, Needs inflate aes key m (.picture s buf p) t → st.bad t = true → x = .error .panicUnwrap ∧ st'.bad = st.bad) := by
  unfold KeyStore.picture Png.extract
  rw [bind_slice]
  have same : (∀ t, ¬ Needs inflate aes key m (.picture s buf p) t) → ∀ t, st.bad t = true ↔ st.bad t = true ∨ Breaks inflate aes key m (.picture s buf p) t :=
    fun h t => ⟨.inl, fun x => x.elim id fun y => absurd y.1 (h t)⟩
  by_cases hin : p.offset + p.size ≤ buf.length
  · obtain ⟨data, d1, d2, d3⟩ := slice_there (m := m) (a := p.offset) (b := p.size) rfl hb hin
    have huniq : ∀ data', data'.length = p.size → Holds buf p.offset data' → data' = data := by
      intro data' h1 h2
      have a := h2.slice
      have b := d2.slice
      rw [h1] at a
      rw [d1] at b
      rw [← a, ← b]
    have hadd : addU m p.offset p.size = .ok (p.offset + p.size) := if_pos (by omega)
    rw [d3]
    dsimp only
    cases hc : p.buffSize m with
    | error e =>
      have hno : ∀ t, ¬ Needs inflate aes key m (.picture s buf p) t := by
        rintro t ⟨_, _, c, _, _, h, _⟩
        rw [hc] at h
        cases h
      refine ⟨_, st, rfl, hg, fun _ => ⟨?_, same hno⟩, fun t h => absurd h (hno t)⟩
      show _ = Except.map Prod.fst (p.rawData inflate aes m buf data (Ecb.new (Slot.iv s) key) >>= _)
      unfold Png.rawData
      rw [hc]
      rfl
    | ok capacity =>
      dsimp only
      cases hf : (if p.hasZlibHeader then inflate true data capacity else .error (.lib "UnsupportedHeader") : Except Err Bytes) with
      | ok px =>
        have hz : p.hasZlibHeader = true := by
          cases hz : p.hasZlibHeader with
          | true => rfl
          | false => rw [hz] at hf; cases hf
        rw [hz, if_pos rfl] at hf
        have hno : ∀ t, ¬ Needs inflate aes key m (.picture s buf p) t := by
          rintro t ⟨_, data', c, h1, h2, h3, h4⟩
          rw [hc] at h3
          cases h3
          obtain ⟨e, h4⟩ := h4 (zlib_iff.1 hz)
          rw [huniq data' h1 h2, hf] at h4
          cases h4
        refine ⟨_, st, rfl, hg, fun _ => ⟨?_, same hno⟩, fun t h => absurd h (hno t)⟩
        show _ = Except.map Prod.fst (p.rawData inflate aes m buf data (Ecb.new (Slot.iv s) key) >>= _)
        rw [C34_plain inflate aes m buf p data px _ capacity hc (zlib_iff.1 hz) hf]
        show (p.format m).bind _ = Except.map Prod.fst ((p.format m).bind fun f => (decodePixels bc7 m f px p.width p.height).bind fun img => .ok (img, _))
        cases p.format m with
        | error e => rfl
        | ok f =>
          show decodePixels bc7 m f px p.width p.height = Except.map Prod.fst ((decodePixels bc7 m f px p.width p.height).bind fun img => .ok (img, _))
          cases decodePixels bc7 m f px p.width p.height <;> rfl
      | error e0 =>
        dsimp only
        have hneed : Needs inflate aes key m (.picture s buf p) s := by
          refine ⟨rfl, data, capacity, d1, d2, hc, fun hz => ?_⟩
          rw [zlib_iff.2 hz, if_pos rfl] at hf
          exact ⟨e0, hf⟩
        have honly : ∀ t, Needs inflate aes key m (.picture s buf p) t → t = s := fun t h => h.1
        have hex : ∀ k r, rawChunks aes m buf (p.offset + p.size) (p.offset + p.size - p.offset) p.offset [] k = r →
            Except.map Prod.fst (((Except.ok data : Except Err Bytes)).bind fun data => p.rawData inflate aes m buf data k >>= fun x =>
              p.format m >>= fun f => decodePixels bc7 m f x.1 p.width p.height >>= fun img => pure (img, x.2)) =
            r.bind fun x => (sliceIdx x.1 2 x.1.length).bind fun z => (inflate false z capacity).bind (KeyStore.pixels bc7 m p) := by
          intro k r hr
          show Except.map Prod.fst (p.rawData inflate aes m buf data k >>= _) = _
          rw [extract_rest inflate bc7 aes m buf p data k capacity e0 hc hf _ hadd, hr]
          cases r with
          | error e => rfl
          | ok x =>
            show Except.map Prod.fst (Except.bind (Except.bind (sliceIdx x.1 2 x.1.length) _) _) = Except.bind (sliceIdx x.1 2 x.1.length) _
            cases sliceIdx x.1 2 x.1.length with
            | error e => rfl
            | ok z =>
              show Except.map Prod.fst (Except.bind (Except.bind (inflate false z capacity) _) _) = Except.bind (inflate false z capacity) _
              cases inflate false z capacity with
              | error e => rfl
              | ok px =>
                show Except.map Prod.fst (Except.bind (p.format m) _) = Except.bind (p.format m) _
                cases p.format m with
                | error e => rfl
                | ok f =>
                  show Except.map Prod.fst (Except.bind (decodePixels bc7 m f px p.width p.height) _) = decodePixels bc7 m f px p.width p.height
                  cases decodePixels bc7 m f px p.width p.height <;> rfl
        unfold KeyStore.chunks
        cases hbad : st.bad s with
        | true =>
          rw [if_pos rfl]
          refine ⟨_, st, rfl, hg, fun h => ?_, fun t _ _ => ⟨rfl, rfl⟩⟩
          rw [h s hneed] at hbad
          cases hbad
        | false =>
          rw [if_neg Bool.false_ne_true, hadd]
          have hpanic : ∀ (x : Except Err Img8) (bad : Slot → Bool) t, Needs inflate aes key m (.picture s buf p) t → st.bad t = true →
              x = .error .panicUnwrap ∧ bad = st.bad := by
            intro x bad t h1 h2
            rw [honly t h1, hbad] at h2
            cases h2
          have hpois : Damaged buf p → ∀ t, (st.poison s).bad t = true ↔ st.bad t = true ∨ Breaks inflate aes key m (.picture s buf p) t := by
            intro hd t
            by_cases ht : t = s
            · subst ht
              exact ⟨fun _ => .inr ⟨hneed, hd⟩, fun _ => if_pos rfl⟩
            · have : (st.poison s).bad t = st.bad t := if_neg ht
              rw [this]
              exact ⟨.inl, fun x => x.elim id fun y => absurd (honly t y.1) ht⟩
          obtain ⟨g1, g2, g3⟩ := hg s
          have hnew := Ecb.good_new aes (Slot.iv s) key (by cases s <;> rfl)
          show ∃ x st', (match rawChunks aes m buf (p.offset + p.size) (p.offset + p.size - p.offset) p.offset [] (st.keys.get s) with
            | .error e => (.error e, st.poison s)
            | .ok (plain, keys) => match sliceIdx plain 2 plain.length with
              | .error e => (.error e, st.poison s)
              | .ok z => ((inflate false z capacity).bind (KeyStore.pixels bc7 m p), { st with keys := st.keys.put s keys })) = (x, st') ∧ _
          rcases chunksPlain_run (ks := keyByte aes key (Slot.iv s)) (m := m) (stop := p.offset + p.size) hb _ p.offset [] (Nat.le_refl _) with ⟨out, c1, c2⟩ | ⟨e, c1, _, c2⟩
          · rw [List.nil_append] at c1
            rcases rawChunks_plain ha (iv := Slot.iv s) (key := key) (m := m) (buf := buf) (stop := p.offset + p.size) (p.offset + p.size - p.offset) p.offset [] (st.keys.get s) g1 g2 g3 with
              ⟨e, h1, _⟩ | ⟨out', keys', h1, h2, h3, h4, h5⟩
            · rw [c1] at h1; cases h1
            rcases rawChunks_plain ha (iv := Slot.iv s) (key := key) (m := m) (buf := buf) (stop := p.offset + p.size) (p.offset + p.size - p.offset) p.offset [] (Ecb.new (Slot.iv s) key) hnew rfl rfl with
              ⟨e, k1, _⟩ | ⟨out'', keys'', k1, k2, _⟩
            · rw [c1] at k1; cases k1
            rw [c1] at h1 k1
            cases h1
            cases k1
            rw [h2]
            dsimp only
            by_cases h2l : 2 ≤ out.length
            · rw [show sliceIdx out 2 out.length = .ok ((out.drop 2).take (out.length - 2)) from if_pos ⟨h2l, Nat.le_refl _⟩]
              refine ⟨_, _, rfl, put_ok hg h3 h4 h5, fun _ => ⟨?_, fun t => ?_⟩, hpanic _ _⟩
              · refine ((hex _ _ k2).trans ?_).symm
                show Except.bind (sliceIdx out 2 out.length) _ = _
                rw [show sliceIdx out 2 out.length = .ok ((out.drop 2).take (out.length - 2)) from if_pos ⟨h2l, Nat.le_refl _⟩]
                rfl
              · exact ⟨.inl, fun x => x.elim id fun y => absurd ⟨_, h2l, c2⟩ y.2⟩
            · rw [show sliceIdx out 2 out.length = .error .panicIndex from if_neg fun h => h2l h.1]
              refine ⟨_, _, rfl, hg, fun _ => ⟨?_, hpois ?_⟩, hpanic _ _⟩
              · refine ((hex _ _ k2).trans ?_).symm
                show Except.bind (sliceIdx out 2 out.length) _ = _
                rw [show sliceIdx out 2 out.length = .error .panicIndex from if_neg fun h => h2l h.1]
                rfl
              · rintro ⟨total, t1, t2⟩
                have := ChunkRun.unique c2 t2
                omega
          · rcases rawChunks_plain ha (iv := Slot.iv s) (key := key) (m := m) (buf := buf) (stop := p.offset + p.size) (p.offset + p.size - p.offset) p.offset [] (st.keys.get s) g1 g2 g3 with
              ⟨e', h1, h2⟩ | ⟨_, _, h1, _⟩
            · rcases rawChunks_plain ha (iv := Slot.iv s) (key := key) (m := m) (buf := buf) (stop := p.offset + p.size) (p.offset + p.size - p.offset) p.offset [] (Ecb.new (Slot.iv s) key) hnew rfl rfl with
                ⟨e'', k1, k2⟩ | ⟨_, _, k1, _⟩
              · rw [c1] at h1 k1
                cases h1
                cases k1
                rw [h2]
                exact ⟨_, _, rfl, hg, fun _ => ⟨((hex _ _ k2).trans rfl).symm, hpois fun ⟨total, _, t2⟩ => c2 total t2⟩, hpanic _ _⟩
              · rw [c1] at k1; cases k1
            · rw [c1] at h1; cases h1
  · obtain ⟨h1, e, h2⟩ := slice_missing (m := m) (a := p.offset) (b := p.size) rfl hb ho hl hin
    have hno : ∀ t, ¬ Needs inflate aes key m (.picture s buf p) t := by
      rintro t ⟨_, data, _, h3, h4, _⟩
      exact h1 data h3 h4
    rw [h2]
    exact ⟨_, st, rfl, hg, fun _ => ⟨rfl, same hno⟩, fun t h => absurd h (hno t)⟩

end Wz.Props
