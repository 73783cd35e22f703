import Verif.Ms.SnowLemmas
/-!
# The key stream of a Snow2 decryptor
-/

set_option autoImplicit false

namespace Wz.Snow

open Wz.Spec.Snow

theorem initialClocking_view (c : Ctx) : view0 (initialClocking c) = Nat.repeat (St.initStep maps) 16 (view0 c) := by
  simp only [initialClocking, init0_view, init1_view, init2_view, init3_view, init4_view, init5_view, init6_view, init7_view, init8_view, init9_view, init10_view, init11_view, init12_view, init13_view, init14_view, init15_view, Nat.repeat]

theorem gen_view (c : Ctx) : view0 (generateKeys c).1 = Nat.repeat (St.step maps 0#32) 16 (view0 c) := by
  simp only [generateKeys, gen0_view, gen1_view, gen2_view, gen3_view, gen4_view, gen5_view, gen6_view, gen7_view, gen8_view, gen9_view, gen10_view, gen11_view, gen12_view, gen13_view, gen14_view, gen15_view, Nat.repeat]

theorem gen_keys (c : Ctx) (i : Nat) (h : i < 16) :
    (generateKeys c).2[i]? = some ((Nat.repeat (St.step maps 0#32) (i + 1) (view0 c)).fsm ^^^ (Nat.repeat (St.step maps 0#32) (i + 1) (view0 c)).at 0) := by
  have hi : i = 0 ∨ i = 1 ∨ i = 2 ∨ i = 3 ∨ i = 4 ∨ i = 5 ∨ i = 6 ∨ i = 7 ∨ i = 8 ∨ i = 9 ∨ i = 10 ∨ i = 11 ∨ i = 12 ∨ i = 13 ∨ i = 14 ∨ i = 15 := by omega
  rcases hi with rfl | rfl | rfl | rfl | rfl | rfl | rfl | rfl | rfl | rfl | rfl | rfl | rfl | rfl | rfl | rfl <;>
    simp only [generateKeys, List.getElem?_cons_zero, List.getElem?_cons_succ, out0_view, out1_view, out2_view, out3_view, out4_view, out5_view, out6_view, out7_view, out8_view, out9_view, out10_view, out11_view, out12_view, out13_view, out14_view, out15_view, gen0_view, gen1_view, gen2_view, gen3_view, gen4_view, gen5_view, gen6_view, gen7_view, gen8_view, gen9_view, gen10_view, gen11_view, gen12_view, gen13_view, gen14_view, gen15_view, Nat.repeat]

theorem repeat_add {α : Type} (f : α → α) (m n : Nat) (a : α) : Nat.repeat f (m + n) a = Nat.repeat f n (Nat.repeat f m a) := by
  induction n with
  | zero => rfl
  | succ n ih => show f (Nat.repeat f (m + n) a) = f (Nat.repeat f n (Nat.repeat f m a)); rw [ih]

/-- the state a key is loaded into -/
def startOf (key : Bytes) : St :=
  let k := fun i => key.getD i 0#8
  start (word (k 0) (k 1) (k 2) (k 3)) (word (k 4) (k 5) (k 6) (k 7)) (word (k 8) (k 9) (k 10) (k 11)) (word (k 12) (k 13) (k 14) (k 15))

theorem loadKey_view (key : Bytes) : view0 (loadKey key) = startOf key := rfl

/-- the key stream of a key -/
def stream (key : Bytes) (n : Nat) : W32 := keyWord maps (startOf key) n

/-- the decryptor for `key` has used `n` words of the key stream -/
structure At (key : Bytes) (n : Nat) (d : Snow2) : Prop where
  idx : d.index < 16
  pos : d.index = n % 16
  ctx : view0 d.ctx = (startOf key).after maps (16 * (n / 16 + 1))
  keys : ∀ i, i < 16 → d.keys[i]? = some (stream key (16 * (n / 16) + i))

theorem after_add (σ : St) (m n : Nat) : σ.after maps (m + n) = Nat.repeat (St.step maps 0#32) n (σ.after maps m) := by
  unfold St.after
  rw [repeat_add]

theorem at_refill (key : Bytes) (k : Nat) (c : Ctx) (h : view0 c = (startOf key).after maps (16 * k)) :
    At key (16 * k) ⟨0, (generateKeys c).1, (generateKeys c).2⟩ := by
  have hk : 16 * k / 16 = k := by omega
  refine ⟨by show 0 < 16; omega, by show 0 = _; omega, ?_, ?_⟩
  · show view0 (generateKeys c).1 = _
    rw [gen_view, h, hk, Nat.mul_add, after_add]
  · intro i hi
    show (generateKeys c).2[i]? = _
    rw [gen_keys c i hi, h, ← after_add, hk]
    rfl

theorem at_new (key : Bytes) : At key 0 (Snow2.new key) := by
  refine at_refill key 0 _ ?_
  rw [initialClocking_view, initialClocking_view, loadKey_view, ← repeat_add]
  rfl

theorem at_block (key : Bytes) (n : Nat) (d : Snow2) (h : At key n d) (w : W32) :
    ∃ d', d.decryptBlock w = .ok (w - stream key n, d') ∧ At key (n + 1) d' := by
  have hn : 16 * (n / 16) + d.index = n := by rw [h.pos]; omega
  have hkey := h.keys d.index h.idx
  rw [hn] at hkey
  unfold Snow2.decryptBlock
  rw [hkey]
  by_cases hi : d.index + 1 ≥ 16
  · refine ⟨_, if_pos hi, ?_⟩
    have h16 : n + 1 = 16 * (n / 16 + 1) := by have := h.idx; omega
    rw [h16]
    exact at_refill key _ _ h.ctx
  · refine ⟨_, if_neg hi, ?_⟩
    have hd : (n + 1) / 16 = n / 16 := by have := h.idx; omega
    refine ⟨by show d.index + 1 < 16; omega, by show d.index + 1 = _; rw [h.pos] at hi ⊢; omega, ?_, ?_⟩
    · rw [hd]; exact h.ctx
    · rw [hd]; exact h.keys

end Wz.Snow
