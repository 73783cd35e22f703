import Verif.Reader.Props
/-!
# Composing reads of stored data

`Reads m e p a q`: from position `p` the operation `m` gives `a` and ends at position `q`.
-/

set_option autoImplicit false
variable {α β γ : Type}

namespace Wz
open Spec

def Rd.Reads (m : Rd α) (e : Env) (p : Nat) (a : α) (q : Nat) : Prop :=
  ∀ c : Cur, c.pos = p → ∃ c' : Cur, m.run e c = (.ok a, c') ∧ c'.pos = q

theorem Rd.Reads.fst {m : Rd α} {e : Env} {a : α} {q : Nat} {c : Cur} (h : m.Reads e c.pos a q) :
    (m.run e c).1 = .ok a := by
  obtain ⟨c', h, _⟩ := h c rfl
  rw [h]

theorem Rd.Reads.pure {e : Env} {p : Nat} (a : α) : (Pure.pure a : Rd α).Reads e p a p :=
  fun c h => ⟨c, rfl, h⟩

theorem Rd.Reads.bind {m : Rd α} {f : α → Rd β} {e : Env} {p q r : Nat} {a : α} {b : β}
    (hm : m.Reads e p a q) (hf : (f a).Reads e q b r) : (m >>= f).Reads e p b r := by
  intro c hc
  obtain ⟨c1, h1, h1p⟩ := hm c hc
  obtain ⟨c2, h2, h2p⟩ := hf c1 h1p
  exact ⟨c2, by rw [Rd.bind_ok h1, h2], h2p⟩

theorem Rd.Reads.getEnv {e : Env} {p : Nat} : Rd.getEnv.Reads e p e p := fun c h => ⟨c, rfl, h⟩
theorem Rd.Reads.getPos {e : Env} {p : Nat} : Rd.getPos.Reads e p p p := fun c h => ⟨c, by rw [Rd.getPos_run, h], h⟩
theorem Rd.Reads.seek {e : Env} {p q : Nat} : (Rd.seek q).Reads e p () q := fun _ _ => ⟨_, rfl, rfl⟩
theorem Rd.Reads.lift {e : Env} {p : Nat} {x : Except Err α} {a : α} (h : x = .ok a) : (Rd.lift x).Reads e p a p :=
  fun c hc => ⟨c, by rw [Rd.lift_run, h], hc⟩

theorem Rd.Reads.skip {e : Env} {p n : Nat} (h : p + n < 2 ^ 64) : (Rd.skip n).Reads e p () (p + n) :=
  fun c hc => ⟨_, Rd.skip_run (by rw [hc]; exact h), by rw [← hc]⟩

theorem Rd.Reads.readLE {e : Env} {p w : Nat} {bs : Bytes} (h : Holds e.buf p bs) (hw : bs.length = w)
    (hb : e.buf.length < 2 ^ 63) : (Rd.readLE w).Reads e p (leNat bs) (p + w) :=
  fun c hc => ⟨_, Rd.readLE_run (by rw [hc]; exact h) hw hb, by rw [← hc]⟩

theorem Rd.Reads.readLE_enc {e : Env} {p w v : Nat} (h : Holds e.buf p (toLE w v)) (hv : v < 256 ^ w)
    (hb : e.buf.length < 2 ^ 63) : (Rd.readLE w).Reads e p v (p + w) := by
  have := Rd.Reads.readLE h (length_toLE w v) hb
  rwa [leNat_toLE w v, Nat.mod_eq_of_lt hv] at this

theorem Rd.Reads.readU8 {e : Env} {p : Nat} {b : Byte} (h : Holds e.buf p [b])
    (hb : e.buf.length < 2 ^ 63) : Rd.readU8.Reads e p b.toNat (p + 1) :=
  fun c hc => ⟨_, Rd.readU8_run (by rw [hc]; exact h) hb, by rw [← hc]⟩

theorem Rd.Reads.readInt_enc {e : Env} {p w : Nat} {v : Int} (hw : 0 < w) (h0 : -2 ^ (8 * w - 1) ≤ v)
    (h1 : v < 2 ^ (8 * w - 1)) (h : Holds e.buf p (toLE w (unsign (8 * w) v)))
    (hb : e.buf.length < 2 ^ 63) : (Rd.readInt w).Reads e p v (p + w) := by
  intro c hc
  subst hc
  have := Rd.readInt_run h (length_toLE w _) hb
  rw [signed_toLE hw h0 h1] at this
  exact ⟨_, this, rfl⟩

theorem Rd.Reads.wzInt {e : Env} {p : Nat} {v : Int} {bs : Bytes} (hv : IsWzInt 4 v bs)
    (h : Holds e.buf p bs) (hb : e.buf.length < 2 ^ 63) : Rd.readWzInt.Reads e p v (p + bs.length) :=
  fun c hc => ⟨_, Props.C01_int32 e c v bs hv (by rw [hc]; exact h) hb, by rw [← hc]⟩

theorem Rd.Reads.wzInt64 {e : Env} {p : Nat} {v : Int} {bs : Bytes} (hv : IsWzInt 8 v bs)
    (h : Holds e.buf p bs) (hb : e.buf.length < 2 ^ 63) : Rd.readWzInt64.Reads e p v (p + bs.length) :=
  fun c hc => ⟨_, Props.C01_int64 e c v bs hv (by rw [hc]; exact h) hb, by rw [← hc]⟩

theorem Rd.Reads.wzString {e : Env} {p : Nat} {s : List Char} {bs : Bytes} (hv : IsWzString e.ks s bs)
    (h : Holds e.buf p bs) (hb : e.buf.length < 2 ^ 63) : Rd.readWzString.Reads e p s (p + bs.length) :=
  fun c hc => ⟨_, readWzString_enc hv (by rw [hc]; exact h) hb, by rw [← hc]⟩

/-- the description `m` of a stored string stands for the text `s` -/
def StrMeta.Is (e : Env) (m : StrMeta) (s : List Char) : Prop := resolveMeta e m.ty m.offset m.length = .ok s

/-- the save slot is neither read nor written -/
def Rd.SavedFree (m : Rd α) : Prop := ∀ e p s s', m.run e ⟨p, s'⟩ = ((m.run e ⟨p, s⟩).1, ⟨(m.run e ⟨p, s⟩).2.pos, s'⟩)

theorem Rd.SavedFree.bind {m : Rd α} {f : α → Rd β} (hm : m.SavedFree) (hf : ∀ a, (f a).SavedFree) :
    (m >>= f).SavedFree := by
  intro e p s s'
  rw [Rd.bind_run, Rd.bind_run, hm e p s s']
  have hk := hm e p s s
  cases hr : m.run e ⟨p, s⟩ with
  | mk r c =>
    rw [hr] at hk
    obtain ⟨p1, s1⟩ := c
    simp only [Prod.mk.injEq, Cur.mk.injEq, true_and] at hk
    subst hk
    cases r with
    | ok a => exact hf a e p1 s1 s'
    | error x => rfl

theorem Rd.SavedFree.pure (a : α) : (Pure.pure a : Rd α).SavedFree := fun _ _ _ _ => rfl
theorem Rd.SavedFree.lift (x : Except Err α) : (Rd.lift x).SavedFree := fun _ _ _ _ => rfl
theorem Rd.SavedFree.fail (x : Err) : (Rd.fail x : Rd α).SavedFree := fun _ _ _ _ => rfl
theorem Rd.SavedFree.getEnv : Rd.getEnv.SavedFree := fun _ _ _ _ => rfl
theorem Rd.SavedFree.getPos : Rd.getPos.SavedFree := fun _ _ _ _ => rfl
theorem Rd.SavedFree.skip (n : Nat) : (Rd.skip n).SavedFree := by
  intro e p s s'
  rw [Rd.skip_def, Rd.skip_def]
  dsimp only
  cases addU e.mode p n <;> rfl
theorem Rd.SavedFree.readLE (w : Nat) : (Rd.readLE w).SavedFree := by
  intro e p s s'
  rw [Rd.readLE_def, Rd.readLE_def]
  dsimp only
  cases addU e.mode p w <;> rfl
theorem Rd.SavedFree.readInt (w : Nat) : (Rd.readInt w).SavedFree :=
  .bind (.readLE w) fun _ => .pure _

theorem Rd.SavedFree.readWzStringMeta : Rd.readWzStringMeta.SavedFree := by
  refine .bind (.readInt 1) fun small => ?_
  split
  · exact .pure _
  · split
    · exact .bind (.readInt 4) fun _ => .bind .getEnv fun _ => .bind (.lift _) fun _ => .bind .getPos fun _ =>
        .bind (.skip _) fun _ => .pure _
    · exact .bind .getEnv fun _ => .bind (.lift _) fun _ => .bind .getPos fun _ =>
        .bind (.skip _) fun _ => .pure _
  · split
    · exact .bind (.readInt 4) fun _ => .bind .getPos fun _ => .bind (.skip _) fun _ => .pure _
    · exact .bind .getPos fun _ => .bind (.skip _) fun _ => .pure _
  · exact .fail _

theorem Rd.SavedFree.readWzInt : Rd.readWzInt.SavedFree := by
  refine .bind (.readInt 1) fun small => ?_
  split
  · exact .readInt 4
  · exact .pure _

/-- one run of an operation that ignores the save slot tells about all runs from the same position -/
theorem Rd.SavedFree.reads {m : Rd α} {e : Env} {c c' : Cur} {a : α} (hm : m.SavedFree)
    (h : m.run e c = (.ok a, c')) : m.Reads e c.pos a c'.pos := by
  intro d hd
  have := hm e c.pos c.saved d.saved
  rw [show (⟨c.pos, c.saved⟩ : Cur) = c from rfl, h] at this
  refine ⟨⟨c'.pos, d.saved⟩, ?_, rfl⟩
  rw [← hd] at this
  exact this

theorem Rd.Reads.wzStringMeta {e : Env} {p : Nat} {s : List Char} {bs : Bytes} (hv : IsWzString e.ks s bs)
    (h : Holds e.buf p bs) (hb : e.buf.length < 2 ^ 63) :
    ∃ m, Rd.readWzStringMeta.Reads e p m (p + bs.length) ∧ m.Is e s := by
  have h1 := readWzString_enc (c := ⟨p, 0⟩) hv h hb
  have h2 := eager_lazy hb h1
  rw [lazyString_def, Rd.bind_run] at h2
  cases hr : Rd.readWzStringMeta.run e ⟨p, 0⟩ with
  | mk r c =>
    rw [hr] at h2
    cases r with
    | error x => cases h2
    | ok m =>
      simp only [resolveHere_run, Prod.mk.injEq] at h2
      refine ⟨m, ?_, h2.1⟩
      have := Rd.SavedFree.readWzStringMeta.reads hr
      rwa [h2.2] at this

theorem Rd.Reads.metaAt {e : Env} {o p q : Nat} {m : StrMeta} (h : Rd.readWzStringMeta.Reads e o m q) :
    (Rd.readWzStringMetaAt o).Reads e p m p := by
  intro c hc
  obtain ⟨c', h1, _⟩ := h ⟨o, c.pos⟩ rfl
  have hk := Rd.KeepsSaved.readWzStringMeta e ⟨o, c.pos⟩
  rw [h1] at hk
  refine ⟨⟨c'.saved, c'.saved⟩, ?_, hk.trans hc⟩
  show ((Rd.readWzStringMeta.run e ⟨o, c.pos⟩).1, _) = _
  rw [h1]

theorem Rd.Reads.pkg2DirMeta {e : Env} {p w : Nat} {s : List Char} (hw : w = 1 ∨ w = 2)
    (h0 : (utf16EncStr s).length ≠ 0) (h1 : (utf16EncStr s).length < 2 ^ (8 * w - 1))
    (h : Holds e.buf p (toLE w (unsign (8 * w) (-((utf16EncStr s).length : Int))) ++ cipherPkg2 e.ks2 (utf16EncStr s)))
    (hb : e.buf.length < 2 ^ 63) :
    ∃ m, (Rd.readPkg2DirMeta w).Reads e p m (p + (w + (cipherPkg2 e.ks2 (utf16EncStr s)).length)) ∧ m.Is e s := by
  generalize hn : (utf16EncStr s).length = n at *
  have hcl : (cipherPkg2 e.ks2 (utf16EncStr s)).length = 2 * n := by simp [cipherPkg2, hn]
  have hr := h.right
  rw [length_toLE] at hr
  have hrl := hr.le
  have hn15 : n < 2 ^ 15 := by
    rcases hw with rfl | rfl
    · exact Nat.lt_trans h1 (by decide)
    · exact h1
  have hint : (n : Int) < 2 ^ (8 * w - 1) := by exact_mod_cast h1
  refine ⟨⟨p + w, 2 * n % 2 ^ 32, .pkg2Dir⟩, ?_, ?_⟩
  · unfold Rd.readPkg2DirMeta
    refine .bind (.readInt_enc (by omega) (by omega) (by omega) h.left hb) ?_
    rw [if_neg (by omega)]
    refine .bind (a := 2 * n) (q := p + w) ?_ ?_
    · unfold Rd.pkg2Len
      refine .bind .getEnv (.bind (a := (n : Int)) (.lift ?_) ?_)
      · unfold negI
        rw [if_neg (by omega)]; simp
      · rw [asUsize_nonneg (by omega) (by omega)]
        rw [if_pos (by simp; omega)]
        have : (n : Int).toNat * 2 = 2 * n := by simp; omega
        rw [this]
        exact .pure _
    · rw [hcl]
      refine .bind .getPos (.bind (.skip (n := 2 * n) (by omega)) ?_)
      rw [Nat.add_assoc]
      exact .pure _
  · unfold StrMeta.Is resolveMeta
    dsimp only
    rw [Nat.mod_eq_of_lt (by omega), resolvePkg2_cipher hr (by omega) hb]
    show Except.ok (utf16Lossy (utf16EncStr s)) = _
    rw [utf16Lossy_encStr]

end Wz
