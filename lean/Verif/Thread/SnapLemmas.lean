import Verif.Thread.JsonLemmas
import Verif.Thread.Props
import Verif.Node.ParseProps

/-!
# Lemmas: an image is exported while other threads read and forget
-/

set_option autoImplicit false

namespace Wz

open Wz.Spec Wz.Props

/-! ### what programs do to the heap -/

/-- every change the program makes is one of `A` -/
inductive ActsBy (A : (NHeap → NHeap) → Prop) {α : Type} : Prog α → Prop
  | done (a : α) : ActsBy A (.done a)
  | acquire (m : LMode) (i : Nat) (k : Prog α) : ActsBy A k → ActsBy A (.acquire m i k)
  | release (m : LMode) (i : Nat) (k : Prog α) : ActsBy A k → ActsBy A (.release m i k)
  | act (upd : NHeap → NHeap) (k : NHeap → Prog α) : A upd → (∀ h, ActsBy A (k h)) → ActsBy A (.act upd k)

/-- nothing, `parse` or `unparse` -/
def ReadForget (content : Content) (u : NHeap → NHeap) : Prop :=
  u = id ∨ (∃ i, u = fun h => (h.parse content i).2) ∨ ∃ i, u = fun h => h.unparse i

section acts

variable {A : (NHeap → NHeap) → Prop}

theorem actsBy_bind {α β : Type} {p : Prog α} {f : α → Prog β} (hp : ActsBy A p) (hf : ∀ a, ActsBy A (f a)) : ActsBy A (p.bind f) := by
  induction hp with
  | done a => exact hf a
  | acquire m i k _ ih => exact .acquire m i _ ih
  | release m i k _ ih => exact .release m i _ ih
  | act upd k hu _ ih => exact .act upd _ hu ih

theorem actsBy_reads (hA : A id) {α : Type} {p : Prog α} (hp : OnlyReads p) : ActsBy A p := by
  induction hp with
  | done a => exact .done a
  | acquire i k _ ih => exact .acquire _ i k ih
  | release m i k _ ih => exact .release m i k ih
  | look k _ ih => exact .act _ k hA ih

end acts

section calls

variable {content : Content}

theorem acts_parse (i : Nat) : ActsBy (ReadForget content) (parseProg content i) :=
  .acquire _ _ _ (.act _ _ (.inr (.inl ⟨i, rfl⟩)) fun _ => .release _ _ _ (.done _))

theorem acts_unparse (i : Nat) : ActsBy (ReadForget content) (unparseProg i) :=
  .acquire _ _ _ (.act _ _ (.inr (.inr ⟨i, rfl⟩)) fun _ => .release _ _ _ (.done _))

theorem acts_fold : ∀ (xs : List (List Char)) (j : Nat), ActsBy (ReadForget content) (foldProg content j xs)
  | [], j => .done _
  | x :: xs, j => by
    refine .acquire _ _ _ (.act _ _ (.inr (.inl ⟨j, rfl⟩)) fun h => .release _ _ _ ?_)
    rcases h.parse content j with ⟨_ | _, g⟩
    · exact .done _
    · dsimp only
      cases g.at j x with
      | none => exact .done _
      | some k => exact acts_fold xs k

theorem acts_find (m : LMode) (i : Nat) (path : List Char) : ActsBy (ReadForget content) (findProg content m i path) := by
  refine .acquire _ _ _ (.act _ _ (.inl rfl) fun h => actsBy_bind ?_ fun _ => .release _ _ _ (.done _))
  unfold findFrom
  split
  · exact .done _
  · split
    · exact .done _
    · exact acts_fold _ _

theorem acts_kids {rec : Nat → Prog (List Nat)} (hr : ∀ c, ActsBy (ReadForget content) (rec c)) :
    ∀ ks : List (List Char × Nat), ActsBy (ReadForget content) (walkKids rec ks)
  | [] => .done _
  | (_, c) :: ks => actsBy_bind (hr c) fun _ => actsBy_bind (acts_kids hr ks) fun _ => .done _

theorem acts_walk {force : Bool} {f : Nat → Prog Unit} (hf : ∀ i, ActsBy (ReadForget content) (f i)) :
    ∀ (fuel i : Nat), ActsBy (ReadForget content) (walkProg content force f fuel i)
  | 0, _ => .done _
  | fuel + 1, i => by
    unfold walkProg
    refine actsBy_bind ?_ fun _ => actsBy_bind (hf i) fun _ => .acquire _ _ _ (.act _ _ (.inl rfl) fun h =>
      actsBy_bind (acts_kids (fun c => acts_walk hf fuel c) _) fun vs => .release _ _ _ ?_)
    · split
      · exact actsBy_bind (acts_parse _) fun _ => .done _
      · exact .done _
    · split
      · refine .acquire _ _ _ (.act _ _ (.inl rfl) fun h => .release _ _ _ ?_)
        split
        · exact actsBy_bind (acts_unparse _) fun _ => .done _
        · exact .done _
      · exact .done _

theorem acts_call (c : TreeCall) : ActsBy (ReadForget content) (callProg content c) := by
  cases c with
  | parse i => exact actsBy_bind (acts_parse i) fun _ => .done _
  | unparse i => exact actsBy_bind (acts_unparse i) fun _ => .done _
  | peek i p => exact actsBy_bind (actsBy_reads (.inl rfl) (C76_at_path_reads i p).1) fun _ => .done _
  | find m i p => exact actsBy_bind (acts_find m i p) fun _ => .done _
  | walk force touch fuel i =>
    refine acts_walk (fun j => ?_) fuel i
    split
    · exact .acquire _ _ _ (.act _ _ (.inl rfl) fun _ => .release _ _ _ (.done _))
    · exact .done _

end calls

/-- a stronger rely, if all changes keep it -/
theorem Safe.acts {R S : NHeap → NHeap → Prop} {rank : Nat → Nat} {α : Type} {Q : NHeap → α → Prop} {fin : List (LMode × Nat)}
    {A : (NHeap → NHeap) → Prop} (hS : ∀ h g, S h g → R h g) (hA : ∀ u, A u → ∀ g, S g (u g)) {h : NHeap} {held : List (LMode × Nat)}
    {p : Prog α} (H : Safe R rank Q fin h held p) (hp : ActsBy A p) : Safe S rank Q fin h held p := by
  induction H with
  | done h a hq => exact .done h a fun g hg => hq g (hS _ _ hg)
  | acquire h held m i k hr _ ih => cases hp with | acquire _ _ _ hk => exact .acquire h held m i k hr (ih hk)
  | release h held m i k hm _ ih => cases hp with | release _ _ _ hk => exact .release h held m i k hm (ih hk)
  | act h held upd k hu _ ih =>
    cases hp with
    | act _ _ ha hk => exact .act h held upd k (fun g _ => hA upd ha g) fun g hg => ih g (hS _ _ hg) (hk g)

/-! ### the JSON of nodes that look alike -/

theorem exportJson_look (e : Env) (h : NHeap) (fuel i : Nat) : h.exportJson e (fuel + 1) i =
    match (lookObject e h i).2 with
    | [] => some (lookObject e h i).1.leafJson
    | k :: ks => wrapObject (NHeap.jsonLoop (h.exportJson e fuel) (k :: ks) (lookObject e h i).1.ownEntries) := by
  unfold NHeap.exportJson lookObject
  rw [NHeap.json]
  rcases h.cell i with _ | c
  · rfl
  · dsimp only
    rcases c.kids with _ | ⟨k, ks⟩
    · rfl
    · rfl

theorem jsonLoop_ren {rec rec' : Nat → Option (Except Err Json)} {σ : Nat → Nat} : ∀ (ks : List (List Char × Nat)) (m : List (List Char × Json)),
    (∀ k ∈ ks, rec' (σ k.2) = rec k.2) → NHeap.jsonLoop rec' (ks.map fun x => (x.1, σ x.2)) m = NHeap.jsonLoop rec ks m
  | [], m, _ => rfl
  | (n, j) :: ks, m, h => by
    rw [List.map_cons, NHeap.jsonLoop, NHeap.jsonLoop, h (n, j) (List.mem_cons_self ..)]
    dsimp only
    rcases rec j with _ | _ | v
    · rfl
    · rfl
    · exact jsonLoop_ren ks _ fun k hk => h k (List.mem_cons_of_mem _ hk)

theorem export_ren (e : Env) {σ : Nat → Nat} {D : Nat → Prop} {h g : NHeap}
    (H : ∀ x, D x → lookObject e g (σ x) = ((lookObject e h x).1, (lookObject e h x).2.map fun y => (y.1, σ y.2)) ∧
      ∀ y ∈ (lookObject e h x).2, D y.2) : ∀ fuel x, D x → g.exportJson e fuel (σ x) = h.exportJson e fuel x
  | 0, _, _ => rfl
  | fuel + 1, x, hx => by
    obtain ⟨h1, h2⟩ := H x hx
    rw [exportJson_look, exportJson_look, h1]
    dsimp only
    revert h2
    rcases (lookObject e h x).2 with _ | ⟨k, ks⟩
    · intro _; rfl
    · intro h2
      exact congrArg wrapObject (jsonLoop_ren (rec := h.exportJson e fuel) (rec' := g.exportJson e fuel) (σ := σ) (k :: ks) _
        fun y hy => export_ren e H fuel y.2 (h2 y hy))

/-! ### what threads may do -/

/-- values and links, and nodes that were dropped, stay as they are -/
def Fixed (h g : NHeap) : Prop :=
  h.length ≤ g.length ∧ ∀ x, x < h.length → (∀ c, h.cell x = some c → InImage c.kind) → g.cell x = h.cell x

/-- `D` are nodes of an image, with all below them -/
def Within (D : Nat → Prop) (h : NHeap) : Prop :=
  ∀ x, D x → x < h.length ∧ ∀ c, h.cell x = some c → InImage c.kind ∧ ∀ y ∈ c.kids, D y.2

theorem Fixed.within {h g : NHeap} {D : Nat → Prop} (F : Fixed h g) (W : Within D h) : Within D g ∧ ∀ x, D x → g.cell x = h.cell x := by
  have key : ∀ x, D x → g.cell x = h.cell x := fun x hx => F.2 x (W x hx).1 fun c hc => ((W x hx).2 c hc).1
  exact ⟨fun x hx => ⟨Nat.lt_of_lt_of_le (W x hx).1 F.1, fun c hc => (W x hx).2 c (by rw [← key x hx]; exact hc)⟩, key⟩

theorem Fixed.refl (h : NHeap) : Fixed h h := ⟨Nat.le_refl _, fun _ _ _ => rfl⟩

theorem Fixed.trans {h g k : NHeap} (a : Fixed h g) (b : Fixed g k) : Fixed h k := by
  refine ⟨Nat.le_trans a.1 b.1, fun x hx hc => ?_⟩
  have h1 := a.2 x hx hc
  rw [b.2 x (Nat.lt_of_lt_of_le hx a.1) (by rw [h1]; exact hc), h1]

theorem inImage_plan {content : Content} {k : NKind} (h : InImage k) : k.plan content = none := by
  rcases h with ⟨v, rfl⟩ | ⟨t, rfl⟩ <;> rfl

theorem inImage_unparsed {k : NKind} (h : InImage k) : k.unparsed = none := by
  rcases h with ⟨v, rfl⟩ | ⟨t, rfl⟩ <;> rfl

theorem fixed_parse (content : Content) (h : NHeap) (i : Nat) : Fixed h (h.parse content i).2 := by
  refine ⟨parse_length .., fun x hx hc => ?_⟩
  by_cases hxi : x = i
  · subst hxi
    cases hcell : h.cell x with
    | none =>
      unfold NHeap.parse
      rw [hcell]
      exact hcell
    | some c =>
      rw [parse_eq hcell, inImage_plan (hc c hcell)]
      exact hcell
  · exact parse_frame hx hxi

theorem fixed_unparse (h : NHeap) (i : Nat) : Fixed h (h.unparse i) := by
  refine ⟨Nat.le_of_eq (unparse_length ..).symm, fun x hx hc => ?_⟩
  by_cases hxi : x = i
  · subst hxi
    cases hcell : h.cell x with
    | none =>
      unfold NHeap.unparse
      rw [hcell]
      exact hcell
    | some c =>
      unfold NHeap.unparse
      rw [hcell]
      dsimp only
      rw [inImage_unparsed (hc c hcell)]
      exact hcell
  · exact unparse_frame hxi

theorem look_cell {e : Env} {h : NHeap} {i : Nat} {c : NCell} (hc : h.cell i = some c) : lookObject e h i = (kindObject e c.kind, c.kids) := by
  unfold lookObject
  rw [hc]

theorem look_same {e : Env} {h g : NHeap} {i : Nat} (hc : g.cell i = h.cell i) : lookObject e g i = lookObject e h i := by
  unfold lookObject
  rw [hc]

theorem within_look {e : Env} {h : NHeap} {D : Nat → Prop} (W : Within D h) {x : Nat} (hx : D x) : ∀ y ∈ (lookObject e h x).2, D y.2 := by
  unfold lookObject
  cases hc : h.cell x with
  | none => intro y hy; cases hy
  | some c => exact ((W x hx).2 c hc).2

/-- nodes that stay as they are have the same JSON -/
theorem export_fixed (e : Env) {h g : NHeap} {D : Nat → Prop} (W : Within D h) (hs : ∀ x, D x → g.cell x = h.cell x) (fuel x : Nat) (hx : D x) :
    g.exportJson e fuel x = h.exportJson e fuel x :=
  export_ren (σ := id) e (fun x hx => ⟨by rw [show id x = x from rfl, look_same (hs x hx)]; simp, within_look W hx⟩) fuel x hx

/-- Image `i`, of source `s`, has not been read, or it has and its JSON is `J`. -/
def Snap (e : Env) (i s : Nat) (nm : List Char) (J : Nat → Option (Except Err Json)) (h : NHeap) : Prop :=
  ∃ c, h.cell i = some c ∧ c.name = nm ∧ ((c.kind = .image false s ∧ c.kids = []) ∨
    (c.kind = .image true s ∧ (∃ D, Within D h ∧ ∀ k ∈ c.kids, D k.2) ∧ ∀ fuel, h.exportJson e fuel i = J fuel))

theorem Snap.kept {e : Env} {i s : Nat} {nm : List Char} {J : Nat → Option (Except Err Json)} {h g : NHeap} (S : Snap e i s nm J h)
    (F : Fixed h g) (hi : g.cell i = h.cell i) : Snap e i s nm J g := by
  obtain ⟨c, hc, hn, hk⟩ := S
  refine ⟨c, by rw [hi, hc], hn, hk.imp id ?_⟩
  rintro ⟨h1, ⟨D, W, hD⟩, hJ⟩
  obtain ⟨W', hs⟩ := F.within W
  refine ⟨h1, ⟨D, W', hD⟩, fun fuel => ?_⟩
  rw [← hJ fuel]
  cases fuel with
  | zero => rfl
  | succ fuel =>
    rw [exportJson_look, exportJson_look, look_same hi, look_cell hc]
    dsimp only
    revert hD
    rcases c.kids with _ | ⟨k, ks⟩
    · intro _; rfl
    · intro hD
      have := jsonLoop_ren (rec := h.exportJson e fuel) (rec' := g.exportJson e fuel) (σ := id) (k :: ks) (kindObject e c.kind).ownEntries
        fun y hy => export_fixed e W hs fuel y.2 (hD y hy)
      simp only [id, Prod.mk.eta, List.map_id'] at this
      dsimp only
      rw [this]

theorem snap_unparse {e : Env} {i s : Nat} {nm : List Char} {J : Nat → Option (Except Err Json)} {h : NHeap} (S : Snap e i s nm J h) (j : Nat) :
    Snap e i s nm J (h.unparse j) := by
  by_cases hj : i = j
  · subst hj
    obtain ⟨c, hc, hn, hk⟩ := S
    have hu : c.kind.unparsed = some (.image false s) := by
      rcases hk with ⟨hk, _⟩ | ⟨hk, _⟩ <;> rw [hk] <;> rfl
    exact ⟨_, unparse_cell hc hu, hn, .inl ⟨rfl, rfl⟩⟩
  · exact S.kept (fixed_unparse h j) (unparse_frame hj)

section snap

variable {content : Content} (hL : ∀ s f, content s = .ok f → Spec.Forest.All NoLink f)

include hL in
theorem snap_parse {e : Env} {i s : Nat} {h0 : NHeap} {c0 : NCell} (hc0 : h0.cell i = some c0) (hk0 : c0.kind = .image false s)
    (hkids : c0.kids = []) (hI : ∀ f, content s = .ok f → Spec.Forest.All InImage f) {h : NHeap} (M : MadeBefore h)
    (S : Snap e i s c0.name (fun fuel => (h0.parse content i).2.exportJson e fuel i) h) (j : Nat) :
    Snap e i s c0.name (fun fuel => (h0.parse content i).2.exportJson e fuel i) (h.parse content j).2 := by
  by_cases hj : i = j
  · subst hj
    have S' := S
    obtain ⟨c, hc, hn, ⟨hk, hks⟩ | ⟨hk, _⟩⟩ := S
    · rcases hf : content s with e' | f
      · rw [parse_eq hc, hk]
        simp only [NKind.plan, hf, Bool.false_eq_true, if_false, Except.map]
        exact S'
      · have hp0 : c0.kind.plan content = some (.ok (f, .image true s)) := by
          rw [hk0]; simp [NKind.plan, hf, Except.map]
        have hp : c.kind.plan content = some (.ok (f, .image true s)) := by
          rw [hk]; simp [NKind.plan, hf, Except.map]
        have ho : h0.parse content i = (.ok (), fresh h0 i { c0 with kind := .image true s, kids := childInsertAll c0.kids (f.roots h0.length) } f) := by
          rw [parse_eq hc0, hp0]
          dsimp only
          rw [uols_nil76 f _ (hL s f hf)]
          rfl
        have hp' : h.parse content i = (.ok (), fresh h i { c with kind := .image true s, kids := childInsertAll c.kids (f.roots h.length) } f) := by
          rw [parse_eq hc, hp]
          dsimp only
          rw [uols_nil76 f _ (hL s f hf)]
          rfl
        obtain ⟨_, I⟩ := parse_iso hc0 hc hn (by rw [hk, hk0]) hkids hks hp0
        obtain ⟨I, _, hlen⟩ := I (by rw [ho])
        have I2 := (parse_iso hc hc rfl rfl hks hks hp).2 (by rw [hp'])
        obtain ⟨I2, _, _⟩ := I2
        have M2 := parse_madeBefore hL M i
        have hil := cell_lt hc
        have htop : (h.parse content i).2.cell i = some { c with kind := .image true s, kids := childInsertAll c.kids (f.roots h.length) } := by
          rw [hp']
          dsimp only
          rw [fresh_old hil hil, if_pos rfl]
        refine ⟨_, htop, hn, .inr ⟨rfl, ⟨fun x => h.length ≤ x ∧ x < h.length + f.size, fun x hx => ⟨by omega, fun d hd => ⟨?_, fun y hy => ?_⟩⟩, fun y hy => ?_⟩, fun fuel => ?_⟩⟩
        · obtain ⟨q, rfl⟩ : ∃ q, x = h.length + q := ⟨x - h.length, by omega⟩
          rw [hp'] at hd
          exact cells_all InImage f _ _ _ (hI f hf) d (fresh_mem hd)
        · rcases I2.kids x d (.inr hx) hd y hy with hyi | hyi
          · have := M2 x d y.1 y.2 hd hy
            omega
          · exact hyi
        · rcases I2.kids i _ (.inl rfl) htop y hy with hyi | hyi
          · have := M2 i _ y.1 y.2 htop hy
            omega
          · exact hyi
        · have := export_ren e (σ := shift i i h0.length h.length) (h := (h0.parse content i).2) (g := (h.parse content i).2)
            (D := fun x => x = i ∨ (h0.length ≤ x ∧ x < h0.length + f.size)) (fun x hx => ?_) fuel i (.inl rfl)
          · rw [I.topσ] at this
            exact this
          · have hk' : ∀ y ∈ (lookObject e (h0.parse content i).2 x).2, y.2 = i ∨ (h0.length ≤ y.2 ∧ y.2 < h0.length + f.size) := by
              unfold lookObject
              cases hx1 : (h0.parse content i).2.cell x with
              | none => intro y hy; cases hy
              | some d => exact I.kids x d hx hx1
            refine ⟨?_, hk'⟩
            by_cases hxi : x = i
            · subst hxi
              obtain ⟨c1, c2, a1, a2, _, a3, a4⟩ := I.topcell
              rw [I.topσ, look_cell a1, look_cell a2, a3, a4]
            · have := I.cells x hx hxi
              unfold lookObject
              rw [this]
              cases hx1 : (h0.parse content i).2.cell x with
              | none => rfl
              | some d => rfl
    · rw [parse_eq hc, hk]
      exact S'
  · have S' := S
    obtain ⟨c, hc, _⟩ := S
    exact S'.kept (fixed_parse content h j) (parse_frame (cell_lt hc) hj)

/-- what threads do that look up, parse, unparse, walk and export -/
def KeepsSnap (e : Env) (i s : Nat) (nm : List Char) (J : Nat → Option (Except Err Json)) (h g : NHeap) : Prop :=
  MadeBefore h → MadeBefore g ∧ Fixed h g ∧ (Snap e i s nm J h → Snap e i s nm J g)

theorem keepsSnap_rely (e : Env) (i s : Nat) (nm : List Char) (J : Nat → Option (Except Err Json)) : Rely (KeepsSnap e i s nm J) where
  refl h := fun M => ⟨M, .refl h, id⟩
  trans h g k a b := fun M => by
    obtain ⟨h1, h2, h3⟩ := a M
    obtain ⟨g1, g2, g3⟩ := b h1
    exact ⟨g1, h2.trans g2, fun S => g3 (h3 S)⟩

include hL in
theorem keepsSnap_acts {e : Env} {i s : Nat} {h0 : NHeap} {c0 : NCell} (hc0 : h0.cell i = some c0) (hk0 : c0.kind = .image false s)
    (hkids : c0.kids = []) (hI : ∀ f, content s = .ok f → Spec.Forest.All InImage f) (u : NHeap → NHeap) (hu : ReadForget content u) (g : NHeap) :
    KeepsSnap e i s c0.name (fun fuel => (h0.parse content i).2.exportJson e fuel i) g (u g) := by
  rcases hu with rfl | ⟨j, rfl⟩ | ⟨j, rfl⟩
  · exact fun M => ⟨M, .refl g, id⟩
  · exact fun M => ⟨parse_madeBefore hL M j, fixed_parse content g j, fun S => snap_parse hL hc0 hk0 hkids hI M S j⟩
  · exact fun M => ⟨unparse_madeBefore M j, fixed_unparse g j, fun S => snap_unparse S j⟩

end snap

/-! ### the export -/

section safe

variable {e : Env} {i s : Nat} {nm : List Char} {J : Nat → Option (Except Err Json)}

theorem safe_release {R : NHeap → NHeap → Prop} {rank : Nat → Nat} {α : Type} {Q : NHeap → α → Prop} {m : LMode} {j : Nat} {g : NHeap}
    {held : List (LMode × Nat)} {a : α} (hq : ∀ k, R g k → Q k a) : Safe R rank Q held g ((m, j) :: held) (.release m j (.done a)) := by
  refine .release g _ m j _ (List.mem_cons_self ..) ?_
  rw [List.erase_cons_head]
  exact .done _ _ hq

theorem safe_exportKids {D : Nat → Prop} {Ok : NHeap → Prop} (hOk : ∀ h g, Ok h → KeepsSnap e i s nm J h g → Ok g)
    {rec : Nat → Prog (Option (Except Err Json))} {T : Nat → Option (Except Err Json)} {held : List (LMode × Nat)} {x : Nat}
    (hrec : ∀ (g : NHeap) (c : Nat), Ok g → D c → x < c → Safe (KeepsSnap e i s nm J) id (fun _ r => r = T c) held g held (rec c)) :
    ∀ (ks : List (List Char × Nat)) (m : List (List Char × Json)) (h : NHeap), Ok h → (∀ k ∈ ks, D k.2 ∧ x < k.2) →
    Safe (KeepsSnap e i s nm J) id (fun _ r => r = NHeap.jsonLoop T ks m) held h held (exportKids rec ks m)
  | [], m, h, _, _ => .done _ _ fun _ _ => rfl
  | (n, c) :: ks, m, h, H, hk => by
    unfold exportKids
    have hc := hk (n, c) (List.mem_cons_self ..)
    refine (hrec h c H hc.1 hc.2).bind (keepsSnap_rely ..) fun g r K hr => ?_
    subst hr
    rw [NHeap.jsonLoop]
    rcases T c with _ | _ | v
    · exact .done _ _ fun _ _ => rfl
    · exact .done _ _ fun _ _ => rfl
    · exact safe_exportKids hOk hrec ks _ g (hOk _ _ H K) fun k hm => hk k (List.mem_cons_of_mem _ hm)

/-- the nodes `D` of an image are as they were in `g0` -/
def AsIn (D : Nat → Prop) (g0 h : NHeap) : Prop := MadeBefore h ∧ Within D h ∧ ∀ x, D x → h.cell x = g0.cell x

theorem asIn_kept {D : Nat → Prop} {g0 h g : NHeap} (H : AsIn D g0 h) (K : KeepsSnap e i s nm J h g) : AsIn D g0 g := by
  obtain ⟨M, W, hs⟩ := H
  obtain ⟨M', F, _⟩ := K M
  obtain ⟨W', hs'⟩ := F.within W
  exact ⟨M', W', fun x hx => (hs' x hx).trans (hs x hx)⟩

theorem look_above {h : NHeap} (M : MadeBefore h) {x : Nat} {y : List Char × Nat} (hy : y ∈ (lookObject e h x).2) : x < y.2 := by
  unfold lookObject at hy
  cases hc : h.cell x with
  | none => rw [hc] at hy; cases hy
  | some c =>
    rw [hc] at hy
    exact M x c y.1 y.2 hc hy

theorem safe_inside {D : Nat → Prop} {g0 : NHeap} : ∀ (fuel : Nat) (held : List (LMode × Nat)) (h : NHeap) (x : Nat), AsIn D g0 h → D x →
    (∀ y : LMode × Nat, y ∈ held → y.2 < x) →
    Safe (KeepsSnap e i s nm J) id (fun _ r => r = g0.exportJson e fuel x) held h held (exportProg e fuel x)
  | 0, _, _, _, _, _, _ => .done _ _ fun _ _ => rfl
  | fuel + 1, held, h, x, H, hx, hh => by
    unfold exportProg
    refine .acquire _ _ .read x _ hh (.look (keepsSnap_rely ..) fun g K => ?_)
    have G := asIn_kept H K
    refine Safe.bind (keepsSnap_rely ..) (mid := (.read, x) :: held) (Q := fun _ r => r = g0.exportJson e (fuel + 1) x) ?_ fun k r _ hr =>
      safe_release fun _ _ => hr
    have hl : lookObject e g x = lookObject e g0 x := look_same (G.2.2 x hx)
    rw [exportJson_look, ← hl]
    have hD := within_look (e := e) G.2.1 hx
    have hA := fun y hy => look_above (e := e) G.1 (x := x) (y := y) hy
    revert hD hA
    rcases (lookObject e g x).2 with _ | ⟨k, ks⟩
    · intro _ _; exact .done _ _ fun _ _ => rfl
    · intro hD hA
      refine (safe_exportKids (D := D) (Ok := AsIn D g0) (x := x) (T := g0.exportJson e fuel) (fun _ _ => asIn_kept)
        (fun g c G hc hlt => safe_inside fuel _ g c G hc fun y hy => ?_) (k :: ks) _ g G fun y hy => ⟨hD y hy, hA y hy⟩).bind
        (keepsSnap_rely ..) fun _ r _ hr => .done _ _ fun _ _ => (by rw [hr])
      rcases List.mem_cons.1 hy with rfl | hy
      · exact hlt
      · exact Nat.lt_trans (hh y hy) hlt

/-- the image is exported as it is when it is locked -/
theorem safe_image (fuel : Nat) (h : NHeap) (M : MadeBefore h) (S : Snap e i s nm J h) :
    Safe (KeepsSnap e i s nm J) id (fun _ r => r = J fuel ∨ r = (if fuel = 0 then none else some (.ok .null))) [] h [] (exportProg e fuel i) := by
  cases fuel with
  | zero => exact .done _ _ fun _ _ => .inr rfl
  | succ fuel =>
    unfold exportProg
    refine .acquire _ _ .read i _ (fun y hy => by cases hy) (.look (keepsSnap_rely ..) fun g K => ?_)
    obtain ⟨M', _, S'⟩ := K M
    obtain ⟨c, hc, _, hk⟩ := S' S
    refine Safe.bind (keepsSnap_rely ..) (mid := [(.read, i)]) (Q := fun _ r => r = J (fuel + 1) ∨ r = some (.ok .null)) ?_ fun k r _ hr =>
      safe_release fun _ _ => hr
    rcases hk with ⟨hk, hks⟩ | ⟨hk, ⟨D, W, hD⟩, hJ⟩
    · rw [look_cell hc, hks, hk]
      exact .done _ _ fun _ _ => .inr rfl
    · rw [← hJ (fuel + 1), exportJson_look]
      have hA := fun y hy => look_above (e := e) M' (x := i) (y := y) hy
      rw [look_cell hc] at hA ⊢
      dsimp only at hA ⊢
      revert hD hA
      rcases c.kids with _ | ⟨k, ks⟩
      · intro _ _; exact .done _ _ fun _ _ => .inl rfl
      · intro hD hA
        refine (safe_exportKids (D := D) (Ok := AsIn D g) (x := i) (T := g.exportJson e fuel) (fun _ _ => asIn_kept)
          (fun g' c G hc hlt => safe_inside fuel _ g' c G hc fun y hy => ?_) (k :: ks) _ g ⟨M', W, fun _ _ => rfl⟩ fun y hy => ⟨hD y hy, hA y hy⟩).bind
          (keepsSnap_rely ..) fun _ r _ hr => .done _ _ fun _ _ => .inl (by rw [hr])
        rcases List.mem_cons.1 hy with rfl | hy
        · exact hlt
        · cases hy

end safe

end Wz
