import Verif.Header.Spec
import Verif.Reader.RunLemmas
/-!
# Property theorems about the file header: C16, C17
-/

set_option autoImplicit false

namespace Wz.Props
open Wz Wz.Spec Wz.Header

private theorem holds_take {buf bs : Bytes} (h : Holds buf 0 bs) : buf.take bs.length = bs := by
  obtain ⟨pre, post, rfl, hp⟩ := h
  rw [List.length_eq_zero_iff.mp hp]
  simp

private theorem plain_ident {buf : Bytes} {name : String} {fsize fstart : Nat}
    (h : PlainHeader buf name fsize fstart) (hn : (asciiBytes name).length = 4) :
    4 ≤ buf.length ∧ buf.take 4 = asciiBytes name := by
  have h1 := h.1.left.left
  exact ⟨by have := h1.le; omega, by have := holds_take h1; rw [hn] at this; exact this⟩

private theorem plain_fields {buf : Bytes} {name : String} {fsize fstart : Nat}
    (h : PlainHeader buf name fsize fstart) (hn : (asciiBytes name).length = 4) :
    getFsize buf = .ok fsize ∧ getFstart buf = .ok fstart := by
  obtain ⟨h1, h2, h3⟩ := h
  have hf := h1.left.right
  have hs := h1.right
  rw [hn] at hf
  rw [List.length_append, hn, length_toLE] at hs
  refine ⟨?_, ?_⟩
  · unfold getFsize
    rw [readAt_holds hf (length_toLE _ _), leNat_toLE, Nat.mod_eq_of_lt (by omega)]
  · unfold getFstart
    rw [readAt_holds hs (length_toLE _ _), leNat_toLE, Nat.mod_eq_of_lt (by omega)]

private theorem getEncVer_iff {buf : Bytes} {fsize fstart v : Nat} :
    getEncVer fsize fstart buf = some v ↔ VersionPresent buf fsize fstart v := by
  unfold getEncVer VersionPresent
  constructor
  · intro h
    cases hr : readAt buf 2 fstart with
    | error x => rw [hr] at h; cases h
    | ok u =>
      rw [hr] at h
      simp only [] at h
      obtain ⟨bs, hh, hl, hv⟩ := readAt_ok_iff.mp hr
      have hbs : bs = toLE 2 u := by rw [← hv, ← hl, toLE_leNat]
      split at h
      · cases h
      rename_i hc
      have key : u = v ∧ (u = 0x80 → ∃ n : Int, -2 ^ 31 ≤ n ∧ n < 2 ^ 31 ∧
          Holds buf (fstart + 2) (toLE 4 (unsign 32 n)) ∧ ¬ (0 < n ∧ n ≤ 0xffff ∧ 256 ∣ n)) := by
        split at h
        · rename_i hu
          cases hr2 : readAt buf 4 (fstart + 2) with
          | error x => rw [hr2] at h; cases h
          | ok n =>
            rw [hr2] at h
            simp only [] at h
            split at h
            · cases h
            · rename_i hn
              refine ⟨Option.some.inj h, fun _ => ⟨signed 32 n, ?_⟩⟩
              obtain ⟨bs2, hh2, hl2, hv2⟩ := readAt_ok_iff.mp hr2
              have hlt := leNat_lt bs2
              rw [hl2, hv2] at hlt
              have hrg := signed_range (bits := 32) (v := n) (by omega)
              have hun : unsign 32 (signed 32 n) = n := by
                unfold unsign signed
                rw [BitVec.toInt_eq_toNat_bmod, Int.bmod_emod, BitVec.toNat_ofNat]
                omega
              refine ⟨hrg.1, hrg.2, ?_, ?_⟩
              · rw [hun, ← hv2, ← hl2, toLE_leNat]; exact hh2
              · intro hx
                apply hn
                simp only [looksLikeCount, Bool.and_eq_true, decide_eq_true_eq]
                exact ⟨⟨hx.1, Int.emod_eq_zero_of_dvd hx.2.2⟩, hx.2.1⟩
        · rename_i hu
          exact ⟨Option.some.inj h, fun hx => absurd hx hu⟩
      obtain ⟨rfl, hk⟩ := key
      refine ⟨hbs ▸ hh, by omega, by omega, hk⟩
  · rintro ⟨hh, h2, hv, hk⟩
    rw [readAt_holds hh (length_toLE _ _), leNat_toLE, Nat.mod_eq_of_lt (by omega)]
    simp only []
    rw [if_neg (by omega)]
    split
    · rename_i hu
      obtain ⟨n, hn0, hn1, hhn, hno⟩ := hk hu
      rw [readAt_holds hhn (length_toLE _ _), leNat_toLE,
        Nat.mod_eq_of_lt (by have := unsign_lt 32 n; omega)]
      simp only []
      rw [signed_unsign (by omega) (by simpa using hn0) (by simpa using hn1)]
      rw [if_neg]
      simp only [looksLikeCount, Bool.and_eq_true, decide_eq_true_eq]
      rintro ⟨⟨a, b⟩, c⟩
      exact hno ⟨a, c, Int.dvd_of_emod_eq_zero b⟩
    · rfl

/-! ## C16 header -/

/-- C16: a PKG1 header with a version checksum is read back exactly, and the directory starts right behind
the checksum. -/
theorem C16_pkg1_version (buf : Bytes) (fsize fstart v : Nat) (h : PlainHeader buf "PKG1" fsize fstart)
    (hv : VersionPresent buf fsize fstart v) :
    readFromBuf buf = .ok (
      { ident := .v1, fsize := fsize, fstart := fstart, dataStart := fstart + 2,
        encVer := some v, hash1 := 0#64, hash2 := 0#64, flags := ⟨0#8⟩ }, fstart) := by
  obtain ⟨hl, ht⟩ := plain_ident h (by decide)
  obtain ⟨hf, hs⟩ := plain_fields h (by decide)
  have hi : getIdent buf = .ok .v1 := by
    unfold getIdent
    rw [if_pos hl, ht, if_pos (by decide)]
  unfold readFromBuf
  rw [hi]
  show readV1 buf = _
  unfold readV1
  rw [hf, hs]
  show Except.ok _ = _
  rw [getEncVer_iff.mpr hv]
  rfl

example : readFromBuf (asciiBytes "PKG1" ++ toLE 8 100 ++ toLE 4 17 ++ [0#8] ++ toLE 2 172 ++ [1#8]) =
    .ok ({ ident := .v1, fsize := 100, fstart := 17, dataStart := 19, encVer := some 172 }, 17) := by
  decide

/-- C16: without a version checksum the directory starts at the header's start field. -/
theorem C16_pkg1_no_version (buf : Bytes) (fsize fstart : Nat) (h : PlainHeader buf "PKG1" fsize fstart)
    (hv : ∀ v, ¬ VersionPresent buf fsize fstart v) :
    readFromBuf buf = .ok (
      { ident := .v1, fsize := fsize, fstart := fstart, dataStart := fstart,
        encVer := none, hash1 := 0#64, hash2 := 0#64, flags := ⟨0#8⟩ }, fstart) := by
  obtain ⟨hl, ht⟩ := plain_ident h (by decide)
  obtain ⟨hf, hs⟩ := plain_fields h (by decide)
  have hi : getIdent buf = .ok .v1 := by
    unfold getIdent
    rw [if_pos hl, ht, if_pos (by decide)]
  unfold readFromBuf
  rw [hi]
  show readV1 buf = _
  unfold readV1
  rw [hf, hs]
  show Except.ok _ = _
  have hn : getEncVer fsize fstart buf = none := by
    cases he : getEncVer fsize fstart buf with
    | none => rfl
    | some v => exact absurd (getEncVer_iff.mp he) (hv v)
  rw [hn]
  rfl

example : readFromBuf (asciiBytes "PKG1" ++ toLE 8 100 ++ toLE 4 16 ++ [5#8, 3#8, 0x41#8]) =
    .ok ({ ident := .v1, fsize := 100, fstart := 16, dataStart := 16, encVer := none }, 16) := by
  decide

/-- C16: a PKG2 header is read back exactly. -/
theorem C16_pkg2 (buf : Bytes) (fsize fstart h1 h2 : Nat) (h : PlainHeader buf "PKG2" fsize fstart)
    (hh : Holds buf fstart (toLE 4 h1 ++ toLE 4 h2)) (hb1 : h1 < 2 ^ 32) (hb2 : h2 < 2 ^ 32) :
    readFromBuf buf = .ok (
      { ident := .v2, fsize := fsize, fstart := fstart, dataStart := fstart + 8,
        encVer := none, hash1 := BitVec.ofNat 64 h1, hash2 := BitVec.ofNat 64 h2, flags := ⟨0#8⟩ }, fstart) := by
  obtain ⟨hl, ht⟩ := plain_ident h (by decide)
  obtain ⟨hf, hs⟩ := plain_fields h (by decide)
  have hi : getIdent buf = .ok .v2 := by
    unfold getIdent
    rw [if_pos hl, ht, if_neg (by decide), if_pos (by decide)]
  unfold readFromBuf
  rw [hi]
  show readV2 buf = _
  unfold readV2
  have e2 := hh.right
  rw [length_toLE] at e2
  rw [hf, hs]
  show (readAt buf 4 fstart >>= _) = _
  rw [readAt_holds hh.left (length_toLE _ _)]
  show (readAt buf 4 (fstart + 4) >>= _) = _
  rw [readAt_holds e2 (length_toLE _ _)]
  rw [leNat_toLE, leNat_toLE, Nat.mod_eq_of_lt (by omega), Nat.mod_eq_of_lt (by omega)]
  rfl

example : readFromBuf (asciiBytes "PKG2" ++ toLE 8 100 ++ toLE 4 16 ++ toLE 4 0xDEADBEEF ++ toLE 4 77) =
    .ok ({ ident := .v2, fsize := 100, fstart := 16, dataStart := 24, hash1 := 0xDEADBEEF#64,
           hash2 := 77#64 }, 16) := by
  decide

/-- C16: buffers too short for the fixed part of a plain header, or for the two hashes of PKG2, are
rejected with an error. -/
theorem C16_too_short (buf : Bytes) (name : String) (hn : name = "PKG1" ∨ name = "PKG2")
    (hp : asciiBytes name <+: buf) (hs : buf.length < 16) : readFromBuf buf = .error .read := by
  obtain ⟨r, rfl⟩ := hp
  have hlen : (asciiBytes name).length = 4 := by rcases hn with rfl | rfl <;> decide
  rw [List.length_append, hlen] at hs
  have hf : getFstart (asciiBytes name ++ r) = .error .read := by
    unfold getFstart readAt
    rw [if_neg (by rw [List.length_append, hlen]; omega)]
  have ht : (asciiBytes name ++ r).take 4 = asciiBytes name := by
    rw [List.take_append_of_le_length (by omega), ← hlen, List.take_length]
  have hfs : ∀ k : Nat → Except Err (Header × Nat), (getFsize (asciiBytes name ++ r) >>= fun fsize =>
      getFstart (asciiBytes name ++ r) >>= fun _ => k fsize) = .error .read := by
    intro k
    rw [hf]
    cases hg : getFsize (asciiBytes name ++ r) with
    | error x =>
      unfold getFsize readAt at hg
      split at hg
      · cases hg
      · cases hg; rfl
    | ok v => rfl
  unfold readFromBuf getIdent
  rw [if_pos (by rw [List.length_append, hlen]; omega), ht]
  rcases hn with rfl | rfl
  · rw [if_pos (by decide)]
    show readV1 _ = _
    unfold readV1
    rw [hf]
    cases hg : getFsize (asciiBytes "PKG1" ++ r) with
    | error x =>
      unfold getFsize readAt at hg
      split at hg
      · cases hg
      · cases hg; rfl
    | ok v => rfl
  · rw [if_neg (by decide), if_pos (by decide)]
    show readV2 _ = _
    unfold readV2
    rw [hf]
    cases hg : getFsize (asciiBytes "PKG2" ++ r) with
    | error x =>
      unfold getFsize readAt at hg
      split at hg
      · cases hg
      · cases hg; rfl
    | ok v => rfl

/-- C16: what is handed out as the header of a file is all that lies before the contents, exactly if there are so many
bytes; otherwise there is a panic. -/
theorem C16_header_slice (buf : Bytes) (name : String) (fsize fstart : Nat) (hn : name = "PKG1" ∨ name = "PKG2")
    (h : PlainHeader buf name fsize fstart) :
    (∀ s, headerSlice buf = .ok s ↔ s <+: buf ∧ s.length = fstart) ∧
      (buf.length < fstart → headerSlice buf = .error .panicIndex) := by
  have hs := (plain_fields h (by rcases hn with rfl | rfl <;> decide)).2
  unfold headerSlice
  rw [hs]
  dsimp only
  refine ⟨fun s => ⟨fun h => ?_, fun ⟨h1, h2⟩ => ?_⟩, fun hl => by rw [if_neg (by omega)]⟩
  · by_cases hl : fstart ≤ buf.length
    · rw [if_pos hl] at h
      cases h
      exact ⟨List.take_prefix _ _, by rw [List.length_take]; omega⟩
    · rw [if_neg hl] at h; cases h
  · rw [if_pos (by have := h1.length_le; omega), ← h2, ← List.prefix_iff_eq_take.mp h1]

/-- C16: and of a buffer in which not even the place of the contents is stored there is none. -/
theorem C16_header_slice_short (buf : Bytes) (h : buf.length < 16) : headerSlice buf = .error .panicUnwrap := by
  unfold headerSlice getFstart readAt
  rw [if_neg (by omega)]

/-- nothing but a header -/
example : headerSlice (asciiBytes "PKG1" ++ toLE 8 0 ++ toLE 4 16) = .ok (asciiBytes "PKG1" ++ toLE 8 0 ++ toLE 4 16) ∧
    PlainHeader (asciiBytes "PKG1" ++ toLE 8 0 ++ toLE 4 16) "PKG1" 0 16 :=
  ⟨by rfl, ⟨[], [], by simp, rfl⟩, by decide, by decide⟩

/-- C16: a PKG2 header whose two hashes are not completely inside the buffer is rejected. -/
theorem C16_pkg2_truncated (buf : Bytes) (fsize fstart : Nat) (h : PlainHeader buf "PKG2" fsize fstart)
    (hs : buf.length < fstart + 8) : readFromBuf buf = .error .read := by
  obtain ⟨hl, ht⟩ := plain_ident h (by decide)
  obtain ⟨hf, hst⟩ := plain_fields h (by decide)
  unfold readFromBuf getIdent
  rw [if_pos hl, ht, if_neg (by decide), if_pos (by decide)]
  show readV2 _ = _
  unfold readV2
  rw [hf, hst]
  show (readAt buf 4 fstart >>= fun _ => readAt buf 4 (fstart + 4) >>= _) = _
  have : readAt buf 4 (fstart + 4) = .error .read := by
    unfold readAt
    rw [if_neg (by omega)]
  rw [this]
  unfold readAt
  split <;> rfl

example : readFromBuf (asciiBytes "PKG2" ++ toLE 8 100 ++ toLE 4 16 ++ toLE 4 0xDEADBEEF ++ toLE 3 77) =
    .error .read := by
  decide

private theorem readAt_not_panic {buf : Bytes} {w p : Nat} {x : Err} (h : readAt buf w p = .error x) :
    x = .read := by
  unfold readAt at h
  split at h
  · cases h
  · cases h; rfl

private theorem byteAt_ok {buf : Bytes} {i : Nat} (h : i < buf.length) : byteAt buf i = .ok buf[i] := by
  unfold byteAt
  rw [List.getElem?_eq_getElem h]

private theorem mapM_byteAt {buf : Bytes} (ps : List Nat) (h : ∀ p ∈ ps, p < buf.length) :
    ps.mapM (byteAt buf) = .ok (ps.map fun p => buf.getD p 0#8) := by
  induction ps with
  | nil => rfl
  | cons p ps ih =>
    rw [List.mapM_cons, byteAt_ok (h p (by simp)), ih (fun q hq => h q (by simp [hq]))]
    have : buf.getD p 0#8 = buf[p]'(h p (by simp)) := by
      rw [List.getD_eq_getElem?_getD, List.getElem?_eq_getElem (h p (by simp))]
      rfl
    rw [List.map_cons, this]
    rfl

private theorem gather_in {buf : Bytes} (ps : List Nat) (h : ∀ p ∈ ps, p < buf.length) :
    gather buf ps = .ok (leNat (ps.map fun p => buf.getD p 0#8)) := by
  unfold gather
  rw [mapM_byteAt ps h]
  rfl

private theorem gather_scattered {buf : Bytes} {ps : List Nat} {bs : Bytes} (h : Scattered buf ps bs) :
    gather buf ps = .ok (leNat bs) := by
  have hlen : ps.length = bs.length := by
    have := congrArg List.length h
    simpa using this
  have hin : ∀ p ∈ ps, p < buf.length := by
    intro p hp
    have : buf[p]? ∈ ps.map (fun p => buf[p]?) := List.mem_map_of_mem hp
    rw [h] at this
    obtain ⟨b, _, hb⟩ := List.mem_map.mp this
    exact (List.getElem?_eq_some_iff.mp hb.symm).1
  rw [gather_in ps hin]
  congr 2
  have := congrArg (List.map (Option.getD · (0#8 : Byte))) h
  rw [List.map_map, List.map_map] at this
  rw [show (fun p => buf.getD p 0#8) = (fun o : Option Byte => o.getD 0#8) ∘ fun p => buf[p]? from by
    funext p; simp [List.getD_eq_getElem?_getD]]
  rw [this]
  have h2 : ((fun o : Option Byte => o.getD 0#8) ∘ some) = id := rfl
  rw [h2, List.map_id]

private theorem readScattered_in {buf : Bytes} {p1 p2 pf : List Nat} (h1 : ∀ p ∈ p1, p < buf.length)
    (h2 : ∀ p ∈ p2, p < buf.length) (h3 : ∀ p ∈ pf, p < buf.length) :
    ∃ r, readScattered p1 p2 pf buf = .ok r := by
  unfold readScattered
  rw [gather_in _ h1, gather_in _ h2, gather_in _ h3]
  exact ⟨_, rfl⟩

private theorem in64 : ∀ p ∈ t1202h1 ++ t1202h2 ++ t1202fsize, p < len64 := by decide
private theorem in32 : ∀ p ∈ t1201h1 ++ t1201h2 ++ t1201fsize, p < len32 := by decide

private theorem random_no_panic {buf : Bytes} {size : Nat} {p1 p2 pf : List Nat} {fl : HeaderFlag}
    (hin : ∀ p ∈ p1 ++ p2 ++ pf, p < size) {x : Err}
    (h : readRandom buf size (readScattered p1 p2 pf) fl = .error x) : x = .lib "header" := by
  unfold readRandom at h
  split at h
  · cases h; rfl
  · rename_i hs
    obtain ⟨r, hr⟩ := readScattered_in (buf := buf) (p1 := p1) (p2 := p2) (pf := pf)
      (fun p hp => by have := hin p (by simp [hp]); omega)
      (fun p hp => by have := hin p (by simp [hp]); omega)
      (fun p hp => by have := hin p (by simp [hp]); omega)
    rw [hr] at h
    obtain ⟨a, b, c⟩ := r
    simp only [] at h
    split at h
    · cases h; rfl
    · cases h

/-- C16: header parsing never panics, whatever the buffer: it succeeds or fails with a read error or
"not a header". -/
theorem C16_no_panic (buf : Bytes) (x : Err) (h : readFromBuf buf = .error x) :
    x = .read ∨ x = .lib "header" := by
  unfold readFromBuf at h
  cases hi : getIdent buf with
  | error y =>
    rw [hi] at h
    cases h
    unfold getIdent at hi
    split at hi <;> cases hi
    exact .inl rfl
  | ok i =>
    rw [hi] at h
    cases i with
    | unknown =>
      right
      change readUnknown buf = _ at h
      unfold readUnknown at h
      split at h
      · cases h
      · rename_i y hy
        have := random_no_panic in64 hy
        subst this
        rw [if_neg (by decide)] at h
        exact random_no_panic in32 h
    | v1 =>
      left
      change readV1 buf = _ at h
      unfold readV1 at h
      cases hf : getFsize buf with
      | error y => rw [hf] at h; cases h; exact readAt_not_panic hf
      | ok fsize =>
        cases hs : getFstart buf with
        | error y => rw [hf, hs] at h; cases h; exact readAt_not_panic hs
        | ok fstart => rw [hf, hs] at h; cases h
    | v2 =>
      left
      change readV2 buf = _ at h
      unfold readV2 at h
      cases hf : getFsize buf with
      | error y => rw [hf] at h; cases h; exact readAt_not_panic hf
      | ok fsize =>
        cases hs : getFstart buf with
        | error y => rw [hf, hs] at h; cases h; exact readAt_not_panic hs
        | ok fstart =>
          cases h1 : readAt buf 4 fstart with
          | error y =>
            rw [hf, hs] at h
            change (readAt buf 4 fstart >>= _) = _ at h
            rw [h1] at h; cases h; exact readAt_not_panic h1
          | ok a =>
            rw [hf, hs] at h
            change (readAt buf 4 fstart >>= _) = _ at h
            rw [h1] at h
            change (readAt buf 4 (fstart + 4) >>= _) = _ at h
            cases h2 : readAt buf 4 (fstart + 4) with
            | error y => rw [h2] at h; cases h; exact readAt_not_panic h2
            | ok b => rw [h2] at h; cases h

/-- C16: the directory always starts at the header's start plus the bytes of the version fields: two for
a PKG1 checksum, eight for plain PKG2, none otherwise. -/
theorem C16_data_start (buf : Bytes) (hd : Header) (n : Nat) (h : readFromBuf buf = .ok (hd, n)) :
    n = hd.fstart ∧ hd.ident ≠ .unknown ∧
    hd.dataStart = hd.fstart + (if hd.ident = .v1 then (if hd.encVer = none then 0 else 2)
      else if hd.flags = ⟨0#8⟩ then 8 else 0) := by
  unfold readFromBuf at h
  have hrand : ∀ size rd fl, fl ≠ (⟨0#8⟩ : HeaderFlag) → readRandom buf size rd fl = .ok (hd, n) →
      n = hd.fstart ∧ hd.ident ≠ .unknown ∧
      hd.dataStart = hd.fstart + (if hd.ident = .v1 then (if hd.encVer = none then 0 else 2)
      else if hd.flags = ⟨0#8⟩ then 8 else 0) := by
    intro size rd fl hfl hr
    unfold readRandom at hr
    split at hr
    · cases hr
    · split at hr
      · cases hr
      · split at hr
        · cases hr
        · cases hr
          refine ⟨rfl, by simp, ?_⟩
          simp [hfl]
  cases hi : getIdent buf with
  | error y => rw [hi] at h; cases h
  | ok i =>
    rw [hi] at h
    cases i with
    | unknown =>
      change readUnknown buf = _ at h
      unfold readUnknown at h
      split at h
      · rename_i r hr
        cases h
        exact hrand _ _ _ (by decide) hr
      · split at h
        · cases h
        · exact hrand _ _ _ (by decide) h
    | v1 =>
      change readV1 buf = _ at h
      unfold readV1 at h
      cases hf : getFsize buf with
      | error y => rw [hf] at h; cases h
      | ok fsize =>
        cases hs : getFstart buf with
        | error y => rw [hf, hs] at h; cases h
        | ok fstart =>
          rw [hf, hs] at h
          change Except.ok _ = _ at h
          injection h with h
          injection h with h1 h2
          subst h1; subst h2
          refine ⟨rfl, by simp, ?_⟩
          cases getEncVer fsize fstart buf <;> simp
    | v2 =>
      change readV2 buf = _ at h
      unfold readV2 at h
      cases hf : getFsize buf with
      | error y => rw [hf] at h; cases h
      | ok fsize =>
        cases hs : getFstart buf with
        | error y => rw [hf, hs] at h; cases h
        | ok fstart =>
          rw [hf, hs] at h
          change (readAt buf 4 fstart >>= _) = _ at h
          cases h1 : readAt buf 4 fstart with
          | error y => rw [h1] at h; cases h
          | ok a =>
            rw [h1] at h
            change (readAt buf 4 (fstart + 4) >>= _) = _ at h
            cases h2 : readAt buf 4 (fstart + 4) with
            | error y => rw [h2] at h; cases h
            | ok b =>
              rw [h2] at h
              cases h
              exact ⟨rfl, by simp, by simp⟩

example : ∃ hd n, readFromBuf (asciiBytes "PKG2" ++ toLE 8 100 ++ toLE 4 16 ++ toLE 4 0xDEADBEEF ++ toLE 4 77) = .ok (hd, n) ∧
    hd.dataStart = hd.fstart + 8 :=
  ⟨{ ident := .v2, fsize := 100, fstart := 16, dataStart := 24, hash1 := 0xDEADBEEF#64, hash2 := 77#64 }, 16, by decide, by decide⟩

/-- C16, violated: a PKG1 file *without* version field whose directory has `256 * k` entries is taken to
have the version checksum `0x80`, so its directory is read from two bytes too far.  (The guard meant to
prevent this looks at the four bytes from `fstart + 2` on, not at the stored count.) -/
theorem C16_count_256_misread (buf : Bytes) (fsize fstart : Nat) (k t : Byte) (hk : k ≠ 0#8)
    (h : PlainHeader buf "PKG1" fsize fstart) (h2 : 2 ≤ fsize)
    (hc : CountWithoutVersion buf fstart k t) :
    ∃ hd, readFromBuf buf = .ok (hd, fstart) ∧ hd.encVer = some 0x80 ∧ hd.dataStart = fstart + 2 := by
  refine ⟨_, C16_pkg1_version buf fsize fstart 0x80 h ?_, rfl, rfl⟩
  unfold CountWithoutVersion at hc
  have hkl := k.isLt
  have htl := t.isLt
  have hk0 : k.toNat ≠ 0 := fun h0 => hk (BitVec.eq_of_toNat_eq (by simpa using h0))
  have e : [0x80#8] ++ toLE 4 (256 * k.toNat) ++ [t] = toLE 2 0x80 ++ [k, 0#8, 0#8, t] := by
    have q1 : BitVec.ofNat 8 (256 * k.toNat) = 0#8 := by
      apply BitVec.eq_of_toNat_eq; rw [BitVec.toNat_ofNat]; simp
    have q2 : 256 * k.toNat / 256 = k.toNat := by omega
    have q3 : k.toNat / 256 = 0 := by omega
    simp only [toLE, q1, q2, q3, BitVec.ofNat_toNat, BitVec.setWidth_eq]
    rfl
  rw [e] at hc
  have e2 := hc.right
  rw [length_toLE] at e2
  refine ⟨hc.left, h2, by omega, fun _ => ⟨signed 32 (leNat [k, 0#8, 0#8, t]), ?_⟩⟩
  have hrg := signed_range (bits := 32) (v := leNat [k, 0#8, 0#8, t]) (by omega)
  have hlt := leNat_lt [k, 0#8, 0#8, t]
  have hun : unsign 32 (signed 32 (leNat [k, 0#8, 0#8, t])) = leNat [k, 0#8, 0#8, t] := by
    unfold unsign signed
    rw [BitVec.toInt_eq_toNat_bmod, Int.bmod_emod, BitVec.toNat_ofNat]
    simp only [List.length_cons, List.length_nil] at hlt
    omega
  refine ⟨hrg.1, hrg.2, ?_, ?_⟩
  · rw [hun]
    have := toLE_leNat [k, 0#8, 0#8, t]
    simp only [List.length_cons, List.length_nil] at this
    rw [this]; exact e2
  · rintro ⟨_, _, hd⟩
    have hd2 : (256 : Int) ∣ ((unsign 32 (signed 32 (leNat [k, 0#8, 0#8, t])) : Nat) : Int) := by
      unfold unsign
      omega
    rw [hun] at hd2
    have : leNat [k, 0#8, 0#8, t] = k.toNat + 2 ^ 24 * t.toNat := by
      simp [leNat]; omega
    rw [this] at hd2
    omega

/-- a PKG1 file of 256 entries without version field: the contents start at 16, where the count is, but
the directory is read from 18 -/
example : (readFromBuf (asciiBytes "PKG1" ++ toLE 8 5000 ++ toLE 4 16 ++ [0x80#8] ++ toLE 4 256 ++ [3#8])).toOption.map
    (fun r => r.1.dataStart) = some 18 := by
  decide

/-! ## C17 scrambled headers -/

/-- C17: a 150-byte KMST1202 header, with any filler, gives back the fields scattered over it. -/
theorem C17_random64 (buf : Bytes) (h1 h2 : BitVec 64) (hlen : 150 ≤ buf.length)
    (hsize : buf.length - 150 < 2 ^ 32) (hname : buf.take 4 ≠ asciiBytes "PKG1" ∧ buf.take 4 ≠ asciiBytes "PKG2")
    (s1 : Scattered buf pos64hash1 (toLE 8 h1.toNat)) (s2 : Scattered buf pos64hash2 (toLE 8 h2.toNat))
    (s3 : Scattered buf pos64size (toLE 4 (buf.length - 150))) :
    readFromBuf buf = .ok (
      { ident := .v2, fsize := buf.length - 150, fstart := 150, dataStart := 150,
        encVer := none, hash1 := h1, hash2 := h2, flags := .random64 }, 150) := by
  replace s1 : Scattered buf t1202h1 (toLE 8 h1.toNat) := s1
  replace s2 : Scattered buf t1202h2 (toLE 8 h2.toNat) := s2
  replace s3 : Scattered buf t1202fsize (toLE 4 (buf.length - 150)) := s3
  change len64 ≤ buf.length at hlen
  have hl : len64 = 150 := rfl
  have m1 : magic1 = asciiBytes "PKG1" := by decide
  have m2 : magic2 = asciiBytes "PKG2" := by decide
  unfold readFromBuf getIdent
  rw [m1, m2, if_pos (by omega), if_neg hname.1, if_neg hname.2]
  show readUnknown buf = _
  unfold readUnknown readRandom readScattered
  rw [gather_scattered s1, gather_scattered s2, gather_scattered s3, if_neg (by omega)]
  have l1 := h1.isLt
  have l2 := h2.isLt
  rw [leNat_toLE, leNat_toLE, leNat_toLE, Nat.mod_eq_of_lt (by omega), Nat.mod_eq_of_lt (by omega),
    Nat.mod_eq_of_lt (by omega)]
  have : ((buf.length - 150 ≠ buf.length - len64) : Bool) = false := by simp [hl]
  simp [bind, Except.bind, pure, Except.pure, hl]

/-- C17: a 68-byte KMST1201 header likewise, when its bytes do not also pass for a KMST1202 header. -/
theorem C17_random32 (buf : Bytes) (h1 h2 : BitVec 32) (hlen : 68 ≤ buf.length)
    (hsize : buf.length - 68 < 2 ^ 32) (hname : buf.take 4 ≠ asciiBytes "PKG1" ∧ buf.take 4 ≠ asciiBytes "PKG2")
    (hno : ∀ bs, Scattered buf pos64size bs → 150 ≤ buf.length → leNat bs ≠ buf.length - 150)
    (s1 : Scattered buf pos32hash1 (toLE 4 h1.toNat)) (s2 : Scattered buf pos32hash2 (toLE 4 h2.toNat))
    (s3 : Scattered buf pos32size (toLE 4 (buf.length - 68))) :
    readFromBuf buf = .ok (
      { ident := .v2, fsize := buf.length - 68, fstart := 68, dataStart := 68,
        encVer := none, hash1 := h1.setWidth 64, hash2 := h2.setWidth 64, flags := .random }, 68) := by
  replace s1 : Scattered buf t1201h1 (toLE 4 h1.toNat) := s1
  replace s2 : Scattered buf t1201h2 (toLE 4 h2.toNat) := s2
  replace s3 : Scattered buf t1201fsize (toLE 4 (buf.length - 68)) := s3
  replace hno : ∀ bs, Scattered buf t1202fsize bs → len64 ≤ buf.length → leNat bs ≠ buf.length - 150 := hno
  change len32 ≤ buf.length at hlen
  have hl : len32 = 68 := rfl
  have hl64 : len64 = 150 := rfl
  have m1 : magic1 = asciiBytes "PKG1" := by decide
  have m2 : magic2 = asciiBytes "PKG2" := by decide
  unfold readFromBuf getIdent
  rw [m1, m2, if_pos (by omega), if_neg hname.1, if_neg hname.2]
  show readUnknown buf = _
  unfold readUnknown
  have hfirst : readRandom buf len64 (readScattered t1202h1 t1202h2 t1202fsize) .random64 =
      .error (.lib "header") := by
    cases hr : readRandom buf len64 (readScattered t1202h1 t1202h2 t1202fsize) .random64 with
    | error x => rw [random_no_panic in64 hr]
    | ok r =>
      exfalso
      unfold readRandom at hr
      split at hr
      · cases hr
      rename_i hge
      have hsc : Scattered buf t1202fsize (t1202fsize.map fun p => buf.getD p 0#8) := by
        unfold Scattered
        rw [List.map_map]
        apply List.map_congr_left
        intro p hp
        have : p < len64 := in64 p (by simp [hp])
        simp [List.getD_eq_getElem?_getD, List.getElem?_eq_getElem (show p < buf.length by omega)]
      have hne := hno _ hsc (by omega)
      unfold readScattered at hr
      rw [gather_scattered hsc, gather_in t1202h1 (fun p hp => by have := in64 p (by simp [hp]); omega),
        gather_in t1202h2 (fun p hp => by have := in64 p (by simp [hp]); omega)] at hr
      change (if leNat _ ≠ buf.length - len64 then _ else _) = _ at hr
      rw [if_pos (by rw [hl64]; exact hne)] at hr
      cases hr
  rw [hfirst]
  simp only []
  rw [if_neg (by decide)]
  unfold readRandom readScattered
  rw [gather_scattered s1, gather_scattered s2, gather_scattered s3, if_neg (by omega)]
  have l1 := h1.isLt
  have l2 := h2.isLt
  rw [leNat_toLE, leNat_toLE, leNat_toLE, Nat.mod_eq_of_lt (by omega), Nat.mod_eq_of_lt (by omega),
    Nat.mod_eq_of_lt (by omega)]
  simp [bind, Except.bind, pure, Except.pure, hl, BitVec.ofNat_toNat]

/-- C17: a nameless buffer is only accepted when a scattered size field equals the number of bytes after
the header. -/
theorem C17_size_must_match (buf : Bytes) (hd : Header) (n : Nat)
    (hname : buf.take 4 ≠ asciiBytes "PKG1" ∧ buf.take 4 ≠ asciiBytes "PKG2")
    (h : readFromBuf buf = .ok (hd, n)) :
    hd.fsize + n = buf.length ∧
    ((n = 150 ∧ hd.flags = .random64 ∧ ∃ bs, Scattered buf pos64size bs ∧ leNat bs = hd.fsize) ∨
     (n = 68 ∧ hd.flags = .random ∧ ∃ bs, Scattered buf pos32size bs ∧ leNat bs = hd.fsize)) := by
  have key : ∀ size p1 p2 pf fl, (∀ p ∈ p1 ++ p2 ++ pf, p < size) →
      readRandom buf size (readScattered p1 p2 pf) fl = .ok (hd, n) →
      hd.fsize + n = buf.length ∧ n = size ∧ hd.flags = fl ∧ ∃ bs, Scattered buf pf bs ∧ leNat bs = hd.fsize := by
    intro size p1 p2 pf fl hin hr
    unfold readRandom at hr
    split at hr
    · cases hr
    rename_i hge
    have hsc : Scattered buf pf (pf.map fun p => buf.getD p 0#8) := by
      unfold Scattered
      rw [List.map_map]
      apply List.map_congr_left
      intro p hp
      have : p < size := hin p (by simp [hp])
      simp [List.getD_eq_getElem?_getD, List.getElem?_eq_getElem (show p < buf.length by omega)]
    unfold readScattered at hr
    rw [gather_scattered hsc, gather_in p1 (fun p hp => by have := hin p (by simp [hp]); omega),
        gather_in p2 (fun p hp => by have := hin p (by simp [hp]); omega)] at hr
    change (if leNat _ ≠ buf.length - size then _ else _) = _ at hr
    split at hr
    · cases hr
    · rename_i hne
      cases hr
      have hne := Classical.not_not.mp hne
      exact ⟨by simp only []; omega, rfl, rfl, _, hsc, rfl⟩
  have m1 : magic1 = asciiBytes "PKG1" := by decide
  have m2 : magic2 = asciiBytes "PKG2" := by decide
  unfold readFromBuf getIdent at h
  rw [m1, m2] at h
  split at h
  · rw [if_neg hname.1, if_neg hname.2] at h
    change readUnknown buf = _ at h
    unfold readUnknown at h
    split at h
    · rename_i r hr
      cases h
      obtain ⟨a, b, c, d⟩ := key _ _ _ _ _ in64 hr
      exact ⟨a, .inl ⟨b, c, d⟩⟩
    · split at h
      · cases h
      · obtain ⟨a, b, c, d⟩ := key _ _ _ _ _ in32 h
        exact ⟨a, .inr ⟨b, c, d⟩⟩
  · cases h

/-- C17: the table positions are distinct and lie inside the header. -/
theorem C17_tables_distinct :
    (pos64hash1 ++ pos64hash2 ++ pos64size).Nodup ∧ (∀ p ∈ pos64hash1 ++ pos64hash2 ++ pos64size, p < 150) ∧
    (pos32hash1 ++ pos32hash2 ++ pos32size).Nodup ∧ (∀ p ∈ pos32hash1 ++ pos32hash2 ++ pos32size, p < 68) := by
  decide

private theorem scatter_length (ps : List Nat) (bs buf : Bytes) : (scatter buf ps bs).length = buf.length := by
  induction ps generalizing bs buf with
  | nil => simp [scatter]
  | cons p ps ih =>
    cases bs with
    | nil => rfl
    | cons b bs => simp only [scatter]; rw [ih]; simp

private theorem scatter_other (ps : List Nat) (bs buf : Bytes) (q : Nat) (hq : q ∉ ps) :
    (scatter buf ps bs)[q]? = buf[q]? := by
  induction ps generalizing bs buf with
  | nil => simp [scatter]
  | cons p ps ih =>
    cases bs with
    | nil => rfl
    | cons b bs =>
      simp only [scatter]
      rw [ih _ _ (fun h => hq (by simp [h]))]
      rw [List.getElem?_set_ne (fun h => hq (by simp [h]))]

private theorem scatter_scattered (ps : List Nat) (bs buf : Bytes) (hn : ps.Nodup)
    (hin : ∀ p ∈ ps, p < buf.length) (hl : ps.length = bs.length) :
    Scattered (scatter buf ps bs) ps bs := by
  unfold Scattered
  induction ps generalizing bs buf with
  | nil => cases bs with
    | nil => rfl
    | cons b bs => simp at hl
  | cons p ps ih =>
    cases bs with
    | nil => simp at hl
    | cons b bs =>
      rw [List.nodup_cons] at hn
      simp only [scatter, List.map_cons]
      rw [ih bs (buf.set p b) hn.2 (fun q hq => by rw [List.length_set]; exact hin q (by simp [hq]))
        (by simpa using hl)]
      rw [scatter_other _ _ _ _ hn.1, List.getElem?_set_self (hin p (by simp))]

private theorem scattered_append {buf : Bytes} {p q : List Nat} {a b : Bytes} (hl : p.length = a.length)
    (h : Scattered buf (p ++ q) (a ++ b)) : Scattered buf p a ∧ Scattered buf q b := by
  unfold Scattered at *
  rw [List.map_append, List.map_append] at h
  exact List.append_inj h (by simpa using hl)

/-- C17: hence every pair of hashes can be stored in every file: writing the fields over any filler gives
a file that is read back with exactly these fields (as long as the filler does not spell a plain header's
name). -/
theorem C17_storable64 (filler : Bytes) (h1 h2 : BitVec 64) (hlen : 150 ≤ filler.length)
    (hsize : filler.length - 150 < 2 ^ 32)
    (buf : Bytes) (hbuf : buf = scatter filler (pos64hash1 ++ pos64hash2 ++ pos64size)
      (toLE 8 h1.toNat ++ toLE 8 h2.toNat ++ toLE 4 (filler.length - 150)))
    (hname : buf.take 4 ≠ asciiBytes "PKG1" ∧ buf.take 4 ≠ asciiBytes "PKG2") :
    ∃ hd, readFromBuf buf = .ok (hd, 150) ∧ hd.hash1 = h1 ∧ hd.hash2 = h2 ∧
      hd.fsize = filler.length - 150 ∧ hd.isPkg2_64 = true := by
  obtain ⟨d1, d2, _, _⟩ := C17_tables_distinct
  have hs := scatter_scattered (pos64hash1 ++ pos64hash2 ++ pos64size)
    (toLE 8 h1.toNat ++ toLE 8 h2.toNat ++ toLE 4 (filler.length - 150)) filler d1
    (fun p hp => by have := d2 p hp; omega)
    (by simp only [List.length_append, length_toLE]; decide)
  rw [← hbuf] at hs
  obtain ⟨s12, s3⟩ := scattered_append (by simp only [List.length_append, length_toLE]; decide) hs
  obtain ⟨s1, s2⟩ := scattered_append (by simp only [length_toLE]; decide) s12
  have hl : buf.length = filler.length := by rw [hbuf, scatter_length]
  rw [← hl] at s3 hlen hsize ⊢
  exact ⟨_, C17_random64 buf h1 h2 hlen hsize hname s1 s2 s3, rfl, rfl, rfl,
    by simp only [isPkg2_64]; decide⟩

/-- C17: the same for 32-bit scrambled headers; the filler must not also pass for the 64-bit kind. -/
theorem C17_storable32 (filler : Bytes) (h1 h2 : BitVec 32) (hlen : 68 ≤ filler.length)
    (hsize : filler.length - 68 < 2 ^ 32)
    (buf : Bytes) (hbuf : buf = scatter filler (pos32hash1 ++ pos32hash2 ++ pos32size)
      (toLE 4 h1.toNat ++ toLE 4 h2.toNat ++ toLE 4 (filler.length - 68)))
    (hname : buf.take 4 ≠ asciiBytes "PKG1" ∧ buf.take 4 ≠ asciiBytes "PKG2")
    (hno : ∀ bs, Scattered buf pos64size bs → leNat bs ≠ buf.length - 150) :
    ∃ hd, readFromBuf buf = .ok (hd, 68) ∧ hd.hash1u32 = h1 ∧ hd.hash2u32 = h2 ∧
      hd.fsize = filler.length - 68 ∧ hd.isPkg2_64 = false := by
  obtain ⟨_, _, d1, d2⟩ := C17_tables_distinct
  have hs := scatter_scattered (pos32hash1 ++ pos32hash2 ++ pos32size)
    (toLE 4 h1.toNat ++ toLE 4 h2.toNat ++ toLE 4 (filler.length - 68)) filler d1
    (fun p hp => by have := d2 p hp; omega)
    (by simp only [List.length_append, length_toLE]; decide)
  rw [← hbuf] at hs
  obtain ⟨s12, s3⟩ := scattered_append (by simp only [List.length_append, length_toLE]; decide) hs
  obtain ⟨s1, s2⟩ := scattered_append (by simp only [length_toLE]; decide) s12
  have hl : buf.length = filler.length := by rw [hbuf, scatter_length]
  rw [← hl] at s3 hlen hsize ⊢
  refine ⟨_, C17_random32 buf h1 h2 hlen hsize hname (fun bs hb _ => hno bs hb) s1 s2 s3, ?_, ?_, rfl,
    by simp only [isPkg2_64]; decide⟩
  · simp [hash1u32]
  · simp [hash2u32]

/-- a file of 160 bytes with a 64-bit scrambled header -/
example : (readFromBuf (scatter (List.replicate 160 0xEE#8) (pos64hash1 ++ pos64hash2 ++ pos64size)
    (toLE 8 0x1111222233334444 ++ toLE 8 0xABCDEF0123456789 ++ toLE 4 10))).toOption.map
      (fun r => (r.1.hash1, r.1.hash2, r.1.fsize, r.2)) =
    some (0x1111222233334444#64, 0xABCDEF0123456789#64, 10, 150) := by
  decide +kernel

/-- a file of 100 bytes with a 32-bit scrambled header -/
example : (readFromBuf (scatter (List.replicate 100 0xEE#8) (pos32hash1 ++ pos32hash2 ++ pos32size)
    (toLE 4 0x11112222 ++ toLE 4 0xABCDEF01 ++ toLE 4 32))).toOption.map
      (fun r => (r.1.hash1, r.1.hash2, r.1.fsize, r.2)) =
    some (0x11112222#64, 0xABCDEF01#64, 32, 68) := by
  decide +kernel

/-- C17: a nameless file that fits neither table is rejected. -/
theorem C17_rejected (buf : Bytes) (hname : buf.take 4 ≠ asciiBytes "PKG1" ∧ buf.take 4 ≠ asciiBytes "PKG2")
    (h64 : ∀ bs, Scattered buf pos64size bs → leNat bs + 150 ≠ buf.length)
    (h32 : ∀ bs, Scattered buf pos32size bs → leNat bs + 68 ≠ buf.length) :
    ∃ x, readFromBuf buf = .error x := by
  cases h : readFromBuf buf with
  | error x => exact ⟨x, rfl⟩
  | ok r =>
    obtain ⟨hd, n⟩ := r
    obtain ⟨hs, h | h⟩ := C17_size_must_match buf hd n hname h
    · obtain ⟨rfl, _, bs, hb, hv⟩ := h
      exact absurd (by omega) (h64 bs hb)
    · obtain ⟨rfl, _, bs, hb, hv⟩ := h
      exact absurd (by omega) (h32 bs hb)

end Wz.Props
