import Verif.Media.PoisonSpec
import Verif.Png.Props
/-!
# Lemmas on accesses with shared decryptors
-/

set_option autoImplicit false

namespace Wz.Props

open Wz Wz.Spec

/-- what the loop over the chunks gives, with a key stream in place of a decryptor -/
def chunksPlain (ks : Nat → Byte) (m : Mode) (buf : Bytes) (stop : Nat) : Nat → Nat → Bytes → Except Err Bytes
  | n, offset, acc =>
    if offset < stop then
      match n with
      | 0 => .error .fuel
      | n + 1 =>
        match readAt buf 4 offset with
        | .error _ => .error .panicUnwrap
        | .ok v =>
          match addU m (offset + 4) (asUsize (signed 32 v)) with
          | .error e => .error e
          | .ok last =>
            match sliceIdx buf (offset + 4) last with
            | .error e => .error e
            | .ok data => chunksPlain ks m buf stop n last (acc ++ xorStream ks data)
    else .ok acc

theorem ensure_decrypt {aes : Aes} (ha : aes.Sized) {keys : Ecb} (hg : keys.Good aes) (data : Bytes) :
    ∃ keys', keys.ensure aes data.length = .ok keys' ∧ keys'.decrypt data = .ok (xorStream (keyByte aes keys.aesKey keys.iv) data) ∧
      keys'.Good aes ∧ keys'.iv = keys.iv ∧ keys'.aesKey = keys.aesKey := by
  have hens := Ecb.ensure_run ha hg data.length
  obtain ⟨hg', hi', hk', hw', _, hsz⟩ := Ecb.ensure_good ha hg hens
  refine ⟨_, hens, ?_, hg', hi', hk'⟩
  generalize (if keys.withoutDecrypt = true ∨ data.length ≤ keys.keys.length then keys
      else { keys with keys := streamPrefix aes keys.aesKey keys.iv (Ecb.roundUp data.length) }) = keys1 at hens hg' hi' hk' hw' hsz
  rw [Ecb.decrypt_run hg' _ (by
    cases hw : keys1.withoutDecrypt with
    | true => exact .inl rfl
    | false => exact .inr (hsz (by rw [← hw', hw]))), hk', hi']

theorem rawChunks_plain {aes : Aes} (ha : aes.Sized) {m : Mode} {buf : Bytes} {stop : Nat} {iv key : Bytes} : ∀ (n off : Nat) (acc : Bytes) (keys : Ecb),
    keys.Good aes → keys.iv = iv → keys.aesKey = key →
    (∃ e, chunksPlain (keyByte aes key iv) m buf stop n off acc = .error e ∧ rawChunks aes m buf stop n off acc keys = .error e) ∨
    ∃ out keys', chunksPlain (keyByte aes key iv) m buf stop n off acc = .ok out ∧ rawChunks aes m buf stop n off acc keys = .ok (out, keys') ∧
      keys'.Good aes ∧ keys'.iv = iv ∧ keys'.aesKey = key := by
  intro n
  induction n with
  | zero =>
    intro off acc keys hg hi hk
    unfold chunksPlain rawChunks
    split
    · exact .inl ⟨_, rfl, rfl⟩
    · exact .inr ⟨_, _, rfl, rfl, hg, hi, hk⟩
  | succ n ih =>
    intro off acc keys hg hi hk
    unfold chunksPlain rawChunks
    split
    · dsimp only
      cases readAt buf 4 off with
      | error e => exact .inl ⟨_, rfl, rfl⟩
      | ok v =>
        dsimp only
        cases addU m (off + 4) (asUsize (signed 32 v)) with
        | error e => exact .inl ⟨_, rfl, rfl⟩
        | ok last =>
          dsimp only
          cases sliceIdx buf (off + 4) last with
          | error e => exact .inl ⟨_, rfl, rfl⟩
          | ok data =>
            dsimp only
            obtain ⟨keys', h1, h2, h3, h4, h5⟩ := ensure_decrypt ha hg data
            rw [h1]
            dsimp only
            rw [h2, hi, hk]
            dsimp only
            exact ih last _ keys' h3 (h4.trans hi) (h5.trans hk)
    · exact .inr ⟨_, _, rfl, rfl, hg, hi, hk⟩

theorem ChunkRun.unique {buf : Bytes} {stop p a : Nat} (h : ChunkRun buf stop p a) : ∀ {b : Nat}, ChunkRun buf stop p b → a = b := by
  induction h with
  | done p hp =>
    intro b h
    cases h with
    | done _ _ => rfl
    | chunk _ _ _ h1 _ _ _ _ => omega
  | chunk p len total h1 h2 h3 h4 _ ih =>
    intro b h
    cases h with
    | done _ h => omega
    | chunk _ len' total' g1 g2 g3 g4 g5 =>
      have e1 := readAt_holds h3 (length_toLE 4 len)
      have e2 := readAt_holds g3 (length_toLE 4 len')
      rw [e1] at e2
      injection e2 with e2
      rw [leNat_toLE, leNat_toLE, Nat.mod_eq_of_lt (by omega), Nat.mod_eq_of_lt (by omega)] at e2
      subst e2
      rw [ih g5]

theorem chunksPlain_run {ks : Nat → Byte} {m : Mode} {buf : Bytes} {stop : Nat} (hb : buf.length < 2 ^ 63) : ∀ (n off : Nat) (acc : Bytes),
    stop - off ≤ n →
    (∃ out, chunksPlain ks m buf stop n off acc = .ok (acc ++ out) ∧ ChunkRun buf stop off out.length) ∨
    (∃ e, chunksPlain ks m buf stop n off acc = .error e ∧ e.isPanic = true ∧ ∀ total, ¬ ChunkRun buf stop off total) := by
  intro n
  induction n with
  | zero =>
    intro off acc hn
    unfold chunksPlain
    rw [if_neg (by omega)]
    exact .inl ⟨[], by rw [List.append_nil], .done _ (by omega)⟩
  | succ n ih =>
    intro off acc hn
    unfold chunksPlain
    by_cases hlt : off < stop
    · rw [if_pos hlt]
      dsimp only
      by_cases hr : off + 4 ≤ buf.length
      · have hread : readAt buf 4 off = .ok (leNat ((buf.drop off).take 4)) := if_pos hr
        have hlen : ((buf.drop off).take 4).length = 4 := by simp; omega
        have hh : Holds buf off (toLE 4 (leNat ((buf.drop off).take 4))) := by
          have := toLE_leNat ((buf.drop off).take 4)
          rw [hlen] at this
          rw [this]
          exact ⟨buf.take off, (buf.drop off).drop 4, by rw [List.append_assoc, List.take_append_drop, List.take_append_drop], by simp; omega⟩
        have hv := leNat_lt ((buf.drop off).take 4)
        rw [hlen] at hv
        generalize leNat ((buf.drop off).take 4) = v at hread hh hv
        have inv : ∀ total, ChunkRun buf stop off total → ∃ t, v < 2 ^ 31 ∧ off + 4 + v ≤ buf.length ∧ ChunkRun buf stop (off + 4 + v) t := by
          intro total h
          cases h with
          | done _ h => omega
          | chunk _ len t g1 g2 g3 g4 g5 =>
            have e := readAt_holds g3 (length_toLE 4 len)
            rw [hread] at e
            injection e with e
            rw [leNat_toLE, Nat.mod_eq_of_lt (by omega)] at e
            subst e
            exact ⟨t, g2, g4, g5⟩
        rw [hread]
        dsimp only
        by_cases hneg : v < 2 ^ 31
        · have hs : signed 32 v = (v : Int) := by
            unfold signed
            rw [BitVec.toInt_eq_toNat_of_lt (by rw [BitVec.toNat_ofNat]; omega), BitVec.toNat_ofNat, Nat.mod_eq_of_lt (by omega)]
          have ha : asUsize (signed 32 v) = v := by
            rw [hs]
            unfold asUsize
            omega
          rw [ha, show addU m (off + 4) v = .ok (off + 4 + v) from if_pos (by omega)]
          dsimp only
          by_cases hin : off + 4 + v ≤ buf.length
          · rw [show sliceIdx buf (off + 4) (off + 4 + v) = .ok ((buf.drop (off + 4)).take (off + 4 + v - (off + 4))) from if_pos ⟨by omega, hin⟩]
            dsimp only
            have hl : ((buf.drop (off + 4)).take (off + 4 + v - (off + 4))).length = v := by simp; omega
            rcases ih (off + 4 + v) (acc ++ xorStream ks ((buf.drop (off + 4)).take (off + 4 + v - (off + 4)))) (by omega) with ⟨out, h1, h2⟩ | ⟨e, h1, h2, h3⟩
            · refine .inl ⟨xorStream ks ((buf.drop (off + 4)).take (off + 4 + v - (off + 4))) ++ out, by rw [h1, List.append_assoc], ?_⟩
              rw [List.length_append, length_xorStream, hl]
              exact .chunk off v _ hlt hneg hh hin h2
            · refine .inr ⟨e, h1, h2, fun total h => ?_⟩
              obtain ⟨t, _, _, h⟩ := inv total h
              exact h3 t h
          · rw [show sliceIdx buf (off + 4) (off + 4 + v) = .error .panicIndex from if_neg fun h => hin h.2]
            refine .inr ⟨_, rfl, rfl, fun total h => ?_⟩
            obtain ⟨_, _, h, _⟩ := inv total h
            exact hin h
        · have hs : signed 32 v = (v : Int) - 2 ^ 32 := by
            unfold signed
            rw [BitVec.toInt_eq_toNat_cond, BitVec.toNat_ofNat, Nat.mod_eq_of_lt (by omega), if_neg (by omega)]
            omega
          have ha : asUsize (signed 32 v) = 2 ^ 64 - (2 ^ 32 - v) := by
            rw [hs]
            unfold asUsize
            omega
          have bad : ∀ total, ¬ ChunkRun buf stop off total := by
            intro total h
            obtain ⟨_, h, _⟩ := inv total h
            exact hneg h
          rw [ha]
          by_cases ho : off + 4 + (2 ^ 64 - (2 ^ 32 - v)) < 2 ^ 64
          · rw [show addU m (off + 4) (2 ^ 64 - (2 ^ 32 - v)) = .ok (off + 4 + (2 ^ 64 - (2 ^ 32 - v))) from if_pos ho]
            dsimp only
            rw [show sliceIdx buf (off + 4) (off + 4 + (2 ^ 64 - (2 ^ 32 - v))) = .error .panicIndex from if_neg fun h => by omega]
            exact .inr ⟨_, rfl, rfl, bad⟩
          · cases m with
            | checked =>
              rw [show addU .checked (off + 4) (2 ^ 64 - (2 ^ 32 - v)) = .error .panicOverflow from if_neg ho]
              exact .inr ⟨_, rfl, rfl, bad⟩
            | wrap =>
              rw [show addU .wrap (off + 4) (2 ^ 64 - (2 ^ 32 - v)) = .ok ((off + 4 + (2 ^ 64 - (2 ^ 32 - v))) % 2 ^ 64) from if_neg ho]
              dsimp only
              rw [show sliceIdx buf (off + 4) ((off + 4 + (2 ^ 64 - (2 ^ 32 - v))) % 2 ^ 64) = .error .panicIndex from if_neg fun h => by omega]
              exact .inr ⟨_, rfl, rfl, bad⟩
      · rw [show readAt buf 4 off = .error .read from if_neg hr]
        refine .inr ⟨_, rfl, rfl, fun total h => ?_⟩
        cases h with
        | done _ h => omega
        | chunk _ len t g1 g2 g3 g4 g5 => omega
    · rw [if_neg hlt]
      exact .inl ⟨[], by rw [List.append_nil], .done _ (by omega)⟩

end Wz.Props
