import Verif.Property.Errs
import Verif.Property.FindLemmas
import Verif.Directory.Props
/-!
# Properties C21 - C24: property trees
-/

set_option autoImplicit false

namespace Wz.Props
open Spec

/-! ## C21 property trees read back exactly -/

/-- C21: a stored tree is read back: names, order, values and children, and the reader stops exactly at the
end of the list.  `fuel` bounds the recursion of the model only: any bound from some `N` on will do. -/
theorem C21_tree (e : Env) (o p q : Nat) (kids : List (List Char × PTree)) (hb : e.buf.length < 2 ^ 63) (ho : o < 2 ^ 63)
    (h : StoredList e o kids p q) :
    ∃ ks, ShowsKids e ks kids ∧ ∃ N, ∀ fuel, N ≤ fuel → ∀ c : Cur, c.pos = p →
      ∃ c', (Rd.parseList o fuel).run e c = (.ok ks, c') ∧ c'.pos = q := by
  obtain ⟨nb, hn, hh, hs⟩ := h
  obtain ⟨ks, hk, N, hN⟩ := Stored.reads hb ho hs
  exact ⟨ks, hk, N, fun f hf => parseListWith_reads hb hn hh (hN f hf)⟩

/-- C21: with overflow checks the bound can be read off the length of the buffer. -/
theorem C21_tree_bound (e : Env) (o p q : Nat) (kids : List (List Char × PTree)) (hb : e.buf.length < 2 ^ 63) (ho : o < 2 ^ 63)
    (hc : e.mode = .checked) (h : StoredList e o kids p q) :
    ∃ ks, ShowsKids e ks kids ∧ ∀ fuel, e.buf.length + 2 ≤ fuel → ∀ c : Cur, c.pos = p →
      ∃ c', (Rd.parseList o fuel).run e c = (.ok ks, c') ∧ c'.pos = q := by
  obtain ⟨ks, hk, N, hN⟩ := C21_tree e o p q kids hb ho h
  refine ⟨ks, hk, fun fuel hf c hp => ?_⟩
  obtain ⟨c', h1, h2⟩ := hN (fuel + N) (by omega) c hp
  refine ⟨c', ?_, h2⟩
  rcases parseListWith_le (parseExt_le o fuel N) o e c with h3 | h3
  · have := (Rd.Good.parseListWith hc (Rd.Good.parseExt hc o fuel 0 (by omega) (by omega)) o c (Nat.zero_le _)).1
    exact absurd h3 this
  · have h4 : (Rd.parseList o fuel).run e c = (Rd.parseList o (fuel + N)).run e c := h3.symm
    rw [h4, h1]

/-! ### A stored tree -/

/-- a string block with the text in place, keys all zero -/
def sblk (s : List Char) : Bytes := 0x73#8 :: byteOf (-(s.length : Int)) :: s.mapIdx fun i c => BitVec.ofNat 8 c.toNat ^^^ BitVec.ofNat 8 (0xAA + i)

theorem sblk_at (e : Env) (o p : Nat) (s : List Char) (hk : e.ks = fun _ => 0#8)
    (h : (∀ c ∈ s, c.toNat < 128) ∧ 1 ≤ s.length ∧ s.length ≤ 127) (hh : Holds e.buf p (sblk s)) :
    StrBlock e o p s (p + (s.length + 2)) := by
  have hs : IsWzString e.ks s (byteOf (-(s.length : Int)) :: s.mapIdx fun i c => BitVec.ofNat 8 c.toNat ^^^ BitVec.ofNat 8 (0xAA + i)) := by
    have := IsWzString.ascii (ks := e.ks) (s := s) [byteOf (-(s.length : Int))] h.1 (.short h.2.1 h.2.2)
    rw [hk] at this ⊢
    have h2 : cipherAscii (fun _ => 0#8) (s.map fun c => BitVec.ofNat 8 c.toNat) = s.mapIdx fun i c => BitVec.ofNat 8 c.toNat ^^^ BitVec.ofNat 8 (0xAA + i) := by
      unfold cipherAscii
      apply List.ext_getElem
      · simp
      · intro i h1 h2; simp
    rw [h2] at this
    exact this
  have := StrBlock.inline (o := o) p 0x73#8 s _ (.inr rfl) hs hh
  have hl : p + (1 + (byteOf (-(s.length : Int)) :: s.mapIdx fun i c => BitVec.ofNat 8 c.toNat ^^^ BitVec.ofNat 8 (0xAA + i)).length) =
      p + (s.length + 2) := by simp; omega
  rw [← hl]
  exact this

/-- three properties: the number 5 as `a`, a sub-property `p` with the vector (1, -2) as `v` inside, and a
property of an unknown kind, `x` -/
def treeBuf : Bytes :=
  [3#8] ++ (sblk ['a'] ++ [3#8, 5#8]) ++
    (sblk ['p'] ++ ([9#8] ++ toLE 4 41 ++ sblk "Property".toList ++ [0#8, 0#8] ++
      ([1#8] ++ (sblk ['v'] ++ ([9#8] ++ toLE 4 20 ++ sblk "Shape2D#Vector2D".toList ++ [1#8, 0xFE#8]))))) ++
    (sblk ['x'] ++ ([9#8] ++ toLE 4 4 ++ (sblk ['?'] ++ [7#8]))) ++ [0xAA#8]

def treeKids : List (List Char × PTree) :=
  [(['a'], .node (.int 5) []), (['p'], .node .sub [(['v'], .node (.vector 1 (-2)) [])]), (['x'], .node .null [])]

def envOf (m : Mode) (b : Bytes) : Env := ⟨m, b, fun _ => 0#8, fun _ => 0#8⟩

theorem holdsAt {m : Mode} {buf bs : Bytes} (p : Nat) (h : p + bs.length ≤ buf.length ∧ (buf.drop p).take bs.length = bs) :
    Holds (envOf m buf).buf p bs := by
  show Holds buf p bs
  have := Holds.of_slice h.1
  rwa [h.2] at this

theorem treeBuf_stored (m : Mode) : StoredList (envOf m treeBuf) 0 treeKids 0 67 := by
  have one : IsWzInt 4 1 [1#8] := .short (by decide) (by decide)
  refine ⟨[3#8], .short (by decide) (by decide), holdsAt 0 (by decide +kernel), ?_⟩
  refine .plain 1 4 67 _ 3#8 (.int 5) [5#8] _ (sblk_at _ _ 1 ['a'] rfl (by decide) (holdsAt 1 (by decide +kernel)))
    (.int _ _ _ (.inl rfl) (.short (by decide) (by decide))) (holdsAt 4 (by decide +kernel)) ?_
  refine .block 6 9 55 67 41 _ _ _ (sblk_at _ _ 6 ['p'] rfl (by decide) (holdsAt 6 (by decide +kernel))) (by decide)
    (holdsAt 9 (by decide +kernel)) ?_ ?_
  · refine Stored.property (e := envOf m treeBuf) (o := 0) 14 24 55 55 [1#8] [(['v'], .node (.vector 1 (-2)) [])] (sblk_at _ _ 14 "Property".toList rfl (by decide +kernel) (holdsAt 14 (by decide +kernel)))
      one (holdsAt 26 (by decide +kernel)) (by decide) ?_
    refine .block 27 30 55 55 20 _ _ _ (sblk_at _ _ 27 ['v'] rfl (by decide) (holdsAt 27 (by decide +kernel))) (by decide)
      (holdsAt 30 (by decide +kernel)) ?_ (.nil _)
    exact .vector 35 53 55 1 (-2) [1#8] [0xFE#8] (sblk_at _ _ 35 "Shape2D#Vector2D".toList rfl (by decide +kernel) (holdsAt 35 (by decide +kernel)))
      one (.short (by decide) (by decide)) (holdsAt 53 (by decide +kernel))
  · exact .unknown 55 58 66 67 4 _ ['?'] _ (sblk_at _ _ 55 ['x'] rfl (by decide) (holdsAt 55 (by decide +kernel))) (by decide)
      (holdsAt 58 (by decide +kernel)) (sblk_at _ _ 63 ['?'] rfl (by decide) (holdsAt 63 (by decide +kernel))) (by decide +kernel) (.nil _)

example : ∃ ks, ShowsKids (envOf .checked treeBuf) ks treeKids ∧ ∀ fuel, 70 ≤ fuel → ∀ c : Cur, c.pos = 0 →
    ∃ c', (Rd.parseList 0 fuel).run (envOf .checked treeBuf) c = (.ok ks, c') ∧ c'.pos = 67 := by
  have := C21_tree_bound (envOf .checked treeBuf) 0 0 67 treeKids (by decide +kernel) (by decide) rfl (treeBuf_stored _)
  obtain ⟨ks, h1, h2⟩ := this
  refine ⟨ks, h1, fun fuel hf => h2 fuel ?_⟩
  have : (envOf .checked treeBuf).buf.length = 68 := by decide +kernel
  omega

/-! ## C22 extended blocks resynchronise -/

theorem runBind {α β : Type} {m : Rd α} {f : α → Rd β} {e : Env} {p q : Nat} {a : α} {c : Cur} (h : m.Reads e p a q) (hc : c.pos = p) :
    ∃ c1 : Cur, c1.pos = q ∧ (m >>= f).run e c = (f a).run e c1 := by
  obtain ⟨c1, h1, h2⟩ := h c hc
  exact ⟨c1, h2, by rw [Rd.bind_run, h1]⟩

theorem blockRun {ext : Rd.Ext} {e : Env} {o p p1 size : Nat} {name : List Char} (hb : e.buf.length < 2 ^ 63) (ho : o < 2 ^ 63)
    (hn : StrBlock e o p name p1) (hs : size < 2 ^ 32) (hh : Holds e.buf p1 (9#8 :: toLE 4 size)) (c : Cur) (hc : c.pos = p) :
    ∃ c1 : Cur, c1.pos = p1 + 5 ∧ (Rd.parseItem ext o).run e c = (do
      let r ← ext (p1 + 5 + size) name
      match r with
      | .ok n => do
        Rd.seek (p1 + 5 + size)
        return n
      | .error name' => do
        Rd.seek (p1 + 5 + size)
        return (name', .node .null []) : Rd (List Char × PNode)).run e c1 := by
  have h9 : Holds e.buf p1 [9#8] := Holds.left (a := [9#8]) hh
  have hz : Holds e.buf (p1 + 1) (toLE 4 size) := Holds.right (a := [9#8]) hh
  have hle := hz.le
  rw [length_toLE] at hle
  unfold Rd.parseItem
  obtain ⟨c1, e1, r1⟩ := runBind (f := fun name => Rd.readU8 >>= fun ty => Rd.parseNode ext o name ty) (hn.reads hb ho) hc
  obtain ⟨c2, e2, r2⟩ := runBind (f := fun ty => Rd.parseNode ext o name ty) (Rd.Reads.readU8 h9 hb) e1
  rw [r1, r2]
  unfold Rd.parseNode
  rw [if_pos (show (9#8).toNat = 9 from rfl)]
  obtain ⟨c3, e3, r3⟩ := runBind (f := _) (Rd.Reads.readLE_enc hz (by omega) hb) e2
  refine ⟨c3, by rw [e3], ?_⟩
  refine r3.trans ?_
  show (Rd.lift (addU e.mode c3.pos size) >>= _ : Rd _).run e c3 = _
  rw [e3, addU_ok (by omega)]
  rfl

/-- C22: whatever a block holds and whatever the parser makes of it: when an entry with a block is read at all,
the reader stands at the end the block declares. -/
theorem C22_resync (ext : Rd.Ext) (e : Env) (o p p1 size : Nat) (name : List Char) (hb : e.buf.length < 2 ^ 63) (ho : o < 2 ^ 63)
    (hn : StrBlock e o p name p1) (hs : size < 2 ^ 32) (hh : Holds e.buf p1 (9#8 :: toLE 4 size))
    (c c' : Cur) (x : List Char × PNode) (hc : c.pos = p) (h : (Rd.parseItem ext o).run e c = (.ok x, c')) :
    c'.pos = p1 + 5 + size := by
  obtain ⟨c1, _, h1⟩ := blockRun (ext := ext) hb ho hn hs hh c hc
  rw [h1, Rd.bind_run] at h
  rcases hr : (ext (p1 + 5 + size) name).run e c1 with ⟨r, c2⟩
  rw [hr] at h
  cases r with
  | error _ => cases h
  | ok r =>
    cases r with
    | ok n => cases h; rfl
    | error n => cases h; rfl

/-- C22: the entries behind a block are read from its declared end on, whatever the block holds. -/
theorem C22_following_entries (ext : Rd.Ext) (e : Env) (o p p1 size n : Nat) (name : List Char) (hb : e.buf.length < 2 ^ 63) (ho : o < 2 ^ 63)
    (hn : StrBlock e o p name p1) (hs : size < 2 ^ 32) (hh : Holds e.buf p1 (9#8 :: toLE 4 size))
    (c c' : Cur) (l : List (List Char × PNode)) (hc : c.pos = p) (h : (Rd.parseItems ext o (n + 1)).run e c = (.ok l, c')) :
    ∃ x xs c1, l = x :: xs ∧ c1.pos = p1 + 5 + size ∧ (Rd.parseItems ext o n).run e c1 = (.ok xs, c') := by
  rw [Rd.parseItems, Rd.bind_run] at h
  rcases hr : (Rd.parseItem ext o).run e c with ⟨r, c1⟩
  rw [hr] at h
  cases r with
  | error _ => cases h
  | ok x =>
    have h1 := C22_resync ext e o p p1 size name hb ho hn hs hh c c1 x hc hr
    replace h : (Rd.parseItems ext o n >>= fun xs => Pure.pure (x :: xs)).run e c1 = _ := h
    rw [Rd.bind_run] at h
    rcases hr2 : (Rd.parseItems ext o n).run e c1 with ⟨r2, c2⟩
    rw [hr2] at h
    cases r2 with
    | error _ => cases h
    | ok xs => cases h; exact ⟨x, xs, c1, rfl, h1, hr2⟩

/-- C22: an entry with a block of a kind the library does not know is a Null of the same name; nothing is asked
of the rest of the block. -/
theorem C22_unknown_kind (e : Env) (o p p1 r size fuel : Nat) (name kind : List Char) (hb : e.buf.length < 2 ^ 63) (ho : o < 2 ^ 63)
    (hn : StrBlock e o p name p1) (hs : size < 2 ^ 32) (hh : Holds e.buf p1 (9#8 :: toLE 4 size))
    (hk : StrBlock e o (p1 + 5) kind r) (hu : kind ∉ knownKinds) (c : Cur) (hc : c.pos = p) :
    ∃ c', (Rd.parseItem (Rd.parseExt o (fuel + 1)) o).run e c = (.ok (name, .node .null []), c') ∧ c'.pos = p1 + 5 + size := by
  obtain ⟨c1, e1, h1⟩ := blockRun (ext := Rd.parseExt o (fuel + 1)) hb ho hn hs hh c hc
  have hx : (Rd.parseExt o (fuel + 1) (p1 + 5 + size) name).Reads e (p1 + 5) (.error name) r := by
    unfold Rd.parseExt
    refine .bind (hk.reads hb ho) ?_
    rw [Kind.of_none.mpr hu]
    exact .pure _
  obtain ⟨c2, h2, _⟩ := hx c1 e1
  rw [h1, Rd.bind_run, h2]
  exact ⟨_, rfl, rfl⟩

/-- C22: an entry with a type code that does not exist is an error. -/
theorem C22_unknown_code (ext : Rd.Ext) (e : Env) (o p p1 : Nat) (name : List Char) (ty : Byte) (hb : e.buf.length < 2 ^ 63) (ho : o < 2 ^ 63)
    (hn : StrBlock e o p name p1) (hh : Holds e.buf p1 [ty])
    (hu : ty ∉ [0#8, 2#8, 3#8, 4#8, 5#8, 8#8, 9#8, 11#8, 19#8, 20#8]) (c : Cur) (hc : c.pos = p) :
    ((Rd.parseItem ext o).run e c).1 = .error (.lib "UnknownPropertyType") := by
  unfold Rd.parseItem
  obtain ⟨c1, e1, r1⟩ := runBind (f := fun name => Rd.readU8 >>= fun ty => Rd.parseNode ext o name ty) (hn.reads hb ho) hc
  obtain ⟨c2, e2, r2⟩ := runBind (f := fun ty => Rd.parseNode ext o name ty) (Rd.Reads.readU8 hh hb) e1
  rw [r1, r2]
  have hne : ∀ k, k < 256 → ty ≠ BitVec.ofNat 8 k → ty.toNat ≠ k := fun k hk h h' => h ((marker_toNat hk).mp h')
  simp only [List.mem_cons, not_or, List.not_mem_nil, not_false_eq_true, and_true] at hu
  obtain ⟨h0, h2, h3, h4, h5, h8, h9, h11, h19, h20⟩ := hu
  unfold Rd.parseNode
  rw [if_neg (hne 9 (by decide) h9)]
  unfold Rd.readPlain
  rw [if_neg (hne 0 (by decide) h0), if_neg (not_or.mpr ⟨hne 2 (by decide) h2, hne 11 (by decide) h11⟩),
    if_neg (not_or.mpr ⟨hne 3 (by decide) h3, hne 19 (by decide) h19⟩), if_neg (hne 20 (by decide) h20),
    if_neg (hne 4 (by decide) h4), if_neg (hne 5 (by decide) h5), if_neg (hne 8 (by decide) h8)]
  rfl

/-- names and values of a list of nodes -/
def flat (x : Except Err (List (List Char × PNode))) : Except Err (List (List Char × PObj)) :=
  x.map fun l => l.map fun k => (k.1, k.2.obj)

/-- a convex shape `s` with one point of an unknown kind, then the number 5 as `a` -/
def shapeBuf : Bytes :=
  [2#8] ++ (sblk ['s'] ++ ([9#8] ++ toLE 4 23 ++ (sblk "Shape2D#Convex2D".toList ++ [1#8] ++ sblk ['?'] ++ [7#8]))) ++
    (sblk ['a'] ++ [3#8, 5#8])

/-- C22 fails inside a convex shape: a point of an unknown kind turns the whole shape into a Null, under the
name `0` of the point instead of `s`.  The entries behind it are read all the same. -/
theorem C22_unknown_point_renames_shape :
    flat ((Rd.parseList 0 9).run (envOf .checked shapeBuf) ⟨0, 0⟩).1 = .ok [(['0'], .null), (['a'], .int 5)] := by
  decide +kernel

example : (Rd.parseItem (Rd.parseExt 0 1) 0).run (envOf .checked treeBuf) ⟨55, 0⟩ = (.ok (['x'], .node .null []), ⟨67, 0⟩) := by
  rfl

example : ∃ c', (Rd.parseItem (Rd.parseExt 0 (3 + 1)) 0).run (envOf .wrap treeBuf) ⟨55, 8⟩ = (.ok (['x'], .node .null []), c') ∧ c'.pos = 67 :=
  C22_unknown_kind (envOf .wrap treeBuf) 0 55 58 66 4 3 ['x'] ['?'] (by decide +kernel) (by decide)
    (sblk_at _ _ 55 ['x'] rfl (by decide) (holdsAt 55 (by decide +kernel))) (by decide) (holdsAt 58 (by decide +kernel))
    (sblk_at _ _ 63 ['?'] rfl (by decide) (holdsAt 63 (by decide +kernel))) (by decide +kernel) ⟨55, 8⟩ rfl

/-- the sub-property `p` of the tree, its body replaced by an unknown kind and rubbish: the entry behind it does
not notice -/
example (c' : Cur) (l : List (List Char × PNode)) (h : (Rd.parseItems (Rd.parseExt 0 9) 0 (1 + 1)).run (envOf .wrap treeBuf) ⟨6, 0⟩ = (.ok l, c')) :
    ∃ x xs c1, l = x :: xs ∧ c1.pos = 55 ∧ (Rd.parseItems (Rd.parseExt 0 9) 0 1).run (envOf .wrap treeBuf) c1 = (.ok xs, c') :=
  C22_following_entries (Rd.parseExt 0 9) (envOf .wrap treeBuf) 0 6 9 41 1 ['p'] (by decide +kernel) (by decide)
    (sblk_at _ _ 6 ['p'] rfl (by decide) (holdsAt 6 (by decide +kernel))) (by decide) (holdsAt 9 (by decide +kernel)) ⟨6, 0⟩ c' l rfl h

example : ((Rd.parseItem (Rd.parseExt 0 9) 0).run (envOf .wrap (sblk ['u'] ++ [7#8])) ⟨0, 0⟩).1 = .error (.lib "UnknownPropertyType") :=
  C22_unknown_code _ _ 0 0 3 ['u'] 7#8 (by decide +kernel) (by decide) (sblk_at _ _ 0 ['u'] rfl (by decide) (holdsAt 0 (by decide +kernel)))
    (holdsAt 3 (by decide +kernel)) (by decide) ⟨0, 0⟩ rfl

/-! ## C23 property parsing terminates -/

/-- C23 in a build with overflow checks: from position `p` on, a nesting depth of two more than the bytes left
is never used up, on no input at all. -/
theorem C23_depth_partial (e : Env) (o fuel : Nat) (c : Cur) (hc : e.mode = .checked) (h : e.buf.length + 2 ≤ c.pos + fuel) (h1 : 1 ≤ fuel) :
    ((Rd.parseList o fuel).run e c).1 ≠ .error .fuel :=
  (Rd.Good.parseListWith hc (Rd.Good.parseExt hc o fuel c.pos h h1) o c (Nat.le_refl _)).1

/-- C23: beyond that bound the bound does not matter: the recursion of the program itself has a result. -/
theorem C23_bound_irrelevant_partial (e : Env) (o fuel fuel' : Nat) (c : Cur) (hc : e.mode = .checked)
    (h : e.buf.length + 2 ≤ c.pos + fuel) (h1 : 1 ≤ fuel) (hf : fuel ≤ fuel') :
    (Rd.parseList o fuel').run e c = (Rd.parseList o fuel).run e c := by
  obtain ⟨d, rfl⟩ := Nat.exists_eq_add_of_le hf
  rcases parseListWith_le (parseExt_le o fuel d) o e c with h3 | h3
  · exact absurd h3 (C23_depth_partial e o fuel c hc h h1)
  · exact h3

/-- C23: looking up a single node ends as well. -/
theorem C23_lookup_partial (e : Env) (path : List Char) (o fuel : Nat) (c : Cur) (hc : e.mode = .checked)
    (h : e.buf.length + 2 ≤ c.pos + fuel) (h1 : 1 ≤ fuel) : ((Rd.getNode path o fuel).run e c).1 ≠ .error .fuel :=
  (Rd.Good.getNode hc path o fuel h h1 c (Nat.le_refl _)).1

example : ((Rd.parseList 0 70).run (envOf .checked treeBuf) ⟨0, 0⟩).1 ≠ .error .fuel :=
  C23_depth_partial _ _ _ _ rfl (by decide +kernel) (by decide)

/-- a list with a negative count -/
theorem C23_negative_count_panics (e : Env) (o fuel p : Nat) (v : Int) (bs : Bytes) (hb : e.buf.length < 2 ^ 63) (hv : IsWzInt 4 v bs)
    (hn : v < 0) (hh : Holds e.buf p bs) (c : Cur) (hc : c.pos = p) :
    ((Rd.parseList o fuel).run e c).1 = .error .panicUnwrap := by
  unfold Rd.parseList Rd.parseListWith
  obtain ⟨c1, _, r1⟩ := runBind (f := fun count => if count < 0 then Rd.fail .panicUnwrap else Rd.parseItems (Rd.parseExt o fuel) o count.toNat)
    (Rd.Reads.wzInt hv hh hb) hc
  rw [r1, if_pos hn]
  rfl

example : ((Rd.parseList 0 9).run (envOf .wrap [0xFF#8]) ⟨0, 0⟩).1 = .error .panicUnwrap :=
  C23_negative_count_panics _ _ _ 0 (-1) [0xFF#8] (by decide +kernel) (.short (by decide) (by decide)) (by decide) (holdsAt 0 (by decide +kernel)) _ rfl

/-- one entry: a sub-property with two entries, the first a string of length -27, which puts the reader back to
the beginning -/
def loopBuf : Bytes :=
  [1#8, 7#8] ++ ([9#8] ++ toLE 4 0 ++ sblk "Property".toList ++ [0#8, 0#8, 2#8]) ++ [7#8, 8#8, 0#8, 0x80#8] ++ toLE 4 (unsign 32 (-27))

theorem runErr {α β : Type} {m : Rd α} {f : α → Rd β} {e : Env} {c : Cur} {x : Err} (h : (m.run e c).1 = .error x) :
    ((m >>= f).run e c).1 = .error x := by
  rw [Rd.bind_run]
  rcases hr : m.run e c with ⟨r, c1⟩
  rw [hr] at h
  cases r with
  | ok a => cases h
  | error y => cases h; rfl

theorem loop_name : StrBlock (envOf .wrap loopBuf) 0 1 [] 2 := .absent 1 7#8 (by decide) (holdsAt 1 (by decide +kernel))

/-- the string of length -27 -/
theorem loop_string : ∃ m, Rd.readWzStringMeta.Reads (envOf .wrap loopBuf) 23 m 1 := by
  have h : (Rd.readWzStringMeta.run (envOf .wrap loopBuf) ⟨23, 0⟩).1.isOk = true ∧ (Rd.readWzStringMeta.run (envOf .wrap loopBuf) ⟨23, 0⟩).2.pos = 1 := by
    decide +kernel
  rcases hr : Rd.readWzStringMeta.run (envOf .wrap loopBuf) ⟨23, 0⟩ with ⟨r, c1⟩
  rw [hr] at h
  cases r with
  | error _ => exact absurd h.1 Bool.false_ne_true
  | ok m =>
    have := Rd.SavedFree.readWzStringMeta.reads hr
    rw [h.2] at this
    exact ⟨m, this⟩

theorem loop_first (ext : Rd.Ext) : ∃ x, (Rd.parseItem ext 0).Reads (envOf .wrap loopBuf) 20 x 1 := by
  have hb : (envOf .wrap loopBuf).buf.length < 2 ^ 63 := by decide +kernel
  obtain ⟨m, hm⟩ := loop_string
  refine ⟨([], .node (.str m) []), parseItem_reads (o := 0) (p1 := 21) (ty := 8#8) hb (by decide)
    (.absent 20 7#8 (by decide) (holdsAt 20 (by decide +kernel))) (holdsAt 21 (by decide +kernel)) ?_⟩
  show (Rd.readPlain 0 8 >>= fun v => (Pure.pure ([], PNode.node v []) : Rd (List Char × PNode))).Reads _ _ _ _
  refine .bind (a := .str m) (q := 1) ?_ (.pure _)
  show (Rd.readWzStringBlockMeta 0 >>= fun m => (Pure.pure (PObj.str m) : Rd PObj)).Reads _ _ _ _
  refine .bind (a := m) (q := 1) ?_ (.pure _)
  unfold Rd.readWzStringBlockMeta
  exact .bind (Rd.Reads.readU8 (p := 22) (b := 0#8) (holdsAt 22 (by decide +kernel)) hb) hm

theorem loop_again (f : Nat) : ∀ (n : Nat) (c : Cur), c.pos = 1 →
    ((Rd.parseItems (Rd.parseExt 0 f) 0 (n + 1)).run (envOf .wrap loopBuf) c).1 = .error .fuel := by
  have hb : (envOf .wrap loopBuf).buf.length < 2 ^ 63 := by decide +kernel
  induction f with
  | zero =>
    intro n c hc
    obtain ⟨c1, _, h1⟩ := blockRun (ext := Rd.parseExt 0 0) (size := 0) hb (show 0 < 2 ^ 63 by decide) loop_name
      (by decide) (holdsAt 2 (by decide +kernel)) c hc
    refine runErr ?_
    rw [h1]
    exact runErr rfl
  | succ f ih =>
    intro n c hc
    obtain ⟨c1, e1, h1⟩ := blockRun (ext := Rd.parseExt 0 (f + 1)) (size := 0) hb (show 0 < 2 ^ 63 by decide) loop_name
      (by decide) (holdsAt 2 (by decide +kernel)) c hc
    refine runErr ?_
    rw [h1]
    refine runErr ?_
    unfold Rd.parseExt
    obtain ⟨c2, e2, r2⟩ := runBind (f := fun t => Rd.parseMore (Rd.parseExt 0 f) 0 (2 + 5 + 0) [] (Kind.of t))
      ((sblk_at (envOf .wrap loopBuf) 0 7 "Property".toList rfl (by decide +kernel) (holdsAt 7 (by decide +kernel))).reads hb (by decide)) e1
    rw [r2, Kind.of_property]
    unfold Rd.parseMore Rd.parseKids
    dsimp only
    refine runErr ?_
    obtain ⟨c3, e3, r3⟩ := runBind (f := fun _ => Rd.parseListWith (Rd.parseExt 0 f) 0 >>= fun ks => (Pure.pure (childInsertAll [] ks) : Rd (List (List Char × PNode))))
      (Rd.Reads.skip (e := envOf .wrap loopBuf) (p := 17) (n := 2) (by decide)) e2
    rw [r3]
    refine runErr ?_
    unfold Rd.parseListWith
    obtain ⟨c4, e4, r4⟩ := runBind (f := fun count => if count < 0 then Rd.fail .panicUnwrap else Rd.parseItems (Rd.parseExt 0 f) 0 count.toNat)
      (Rd.Reads.wzInt (e := envOf .wrap loopBuf) (p := 19) (v := 2) (bs := [2#8]) (.short (by decide) (by decide)) (holdsAt 19 (by decide +kernel)) hb) e3
    rw [r4, if_neg (by decide)]
    obtain ⟨x, hx⟩ := loop_first (Rd.parseExt 0 f)
    obtain ⟨c5, e5, r5⟩ := runBind (f := fun x => Rd.parseItems (Rd.parseExt 0 f) 0 1 >>= fun xs => (Pure.pure (x :: xs) : Rd (List (List Char × PNode)))) hx e4
    show ((Rd.parseItem (Rd.parseExt 0 f) 0 >>= fun x => Rd.parseItems (Rd.parseExt 0 f) 0 1 >>= fun xs => (Pure.pure (x :: xs) : Rd (List (List Char × PNode)))).run _ _).1 = _
    rw [r5]
    exact runErr (ih 0 c5 e5)

/-- C23 fails in a build without overflow checks: a string with a negative length moves the reader backwards, and
28 bytes are enough for a list whose reading recurses for ever (until the stack is used up). -/
theorem C23_wrap_never_ends (fuel : Nat) : ((Rd.parseList 0 fuel).run (envOf .wrap loopBuf) ⟨0, 0⟩).1 = .error .fuel := by
  have hb : (envOf .wrap loopBuf).buf.length < 2 ^ 63 := by decide +kernel
  unfold Rd.parseList Rd.parseListWith
  obtain ⟨c4, e4, r4⟩ := runBind (f := fun count => if count < 0 then Rd.fail .panicUnwrap else Rd.parseItems (Rd.parseExt 0 fuel) 0 count.toNat)
    (Rd.Reads.wzInt (e := envOf .wrap loopBuf) (p := 0) (v := 1) (bs := [1#8]) (.short (by decide) (by decide)) (holdsAt 0 (by decide +kernel)) hb)
    (show (⟨0, 0⟩ : Cur).pos = 0 from rfl)
  rw [r4, if_neg (by decide)]
  exact loop_again fuel 0 c4 e4

/-- the same bytes with overflow checks: a panic -/
example : ((Rd.parseList 0 33).run (envOf .checked loopBuf) ⟨0, 0⟩).1 = .error .panicOverflow := by rfl

/-! ## C24 direct path access agrees with a full parse -/

/-- C24: a stored tree without double names, a path that leads down through sub-properties to some property `t`.
Direct access and a full parse followed by a walk down the tree both give a node that shows `t`. -/
theorem C24_same_partial (e : Env) (o p q : Nat) (kids : List (List Char × PTree)) (path : List Char) (t : PTree)
    (hb : e.buf.length < 2 ^ 63) (ho : o < 2 ^ 63) (h : StoredList e o kids p q) (hn : (names kids).Nodup) (hp : path ≠ [])
    (ha : AtPath kids (splitSlash path) t) :
    ∃ ks n n', Shows e n t ∧ Shows e n' t ∧ walk ks (splitSlash path) = some n ∧ ∃ N, ∀ fuel, N ≤ fuel → ∀ c : Cur, c.pos = p →
      ((Rd.parseList o fuel).run e c).1 = .ok ks ∧
      ((Rd.getNode path o fuel).run e c).1 = .ok ((splitSlash path).getLast!, n') := by
  obtain ⟨ks, hk, N, hN⟩ := C21_tree e o p q kids hb ho h
  have hd : NodupTree kids := by
    obtain ⟨nb, _, _, hs⟩ := h
    exact .mk _ hn (Stored.nodup hs)
  obtain ⟨n, hw, hs⟩ := ShowsKids.walk ha ks hk hd
  rcases hp' : splitSlash path with _ | ⟨x, xs⟩
  · rw [hp'] at ha; cases ha
  rw [hp'] at ha hw
  obtain ⟨n', hs', N', hN'⟩ := getNodeLoop_reads hb ho ha p q x xs rfl h hn
  refine ⟨ks, n, n', hs, hs', hw, N + N', fun fuel hf c hc => ?_⟩
  obtain ⟨c1, h1, _⟩ := hN fuel (by omega) c hc
  obtain ⟨q', h2⟩ := hN' fuel (by omega)
  obtain ⟨c2, h3, _⟩ := h2 c hc
  refine ⟨by rw [h1], ?_⟩
  unfold Rd.getNode
  rw [if_neg hp, hp']
  dsimp only
  rw [h3]

/-- C24: a path that leads down through sub-properties to a name that is not there: not found in both ways. -/
theorem C24_missing_partial (e : Env) (o p q : Nat) (kids : List (List Char × PTree)) (path : List Char)
    (hb : e.buf.length < 2 ^ 63) (ho : o < 2 ^ 63) (h : StoredList e o kids p q) (hn : (names kids).Nodup) (hp : path ≠ [])
    (ha : MissingAt kids (splitSlash path)) :
    ∃ ks, walk ks (splitSlash path) = none ∧ ∃ N, ∀ fuel, N ≤ fuel → ∀ c : Cur, c.pos = p →
      ((Rd.parseList o fuel).run e c).1 = .ok ks ∧ ((Rd.getNode path o fuel).run e c).1 = .error (.lib "NodeNotFound") := by
  obtain ⟨ks, hk, N, hN⟩ := C21_tree e o p q kids hb ho h
  have hd : NodupTree kids := by
    obtain ⟨nb, _, _, hs⟩ := h
    exact .mk _ hn (Stored.nodup hs)
  refine ⟨ks, walk_missing ha ks hk hd, N, fun fuel hf c hc => ?_⟩
  obtain ⟨c1, h1, _⟩ := hN fuel hf c hc
  refine ⟨by rw [h1], ?_⟩
  rcases hp' : splitSlash path with _ | ⟨x, xs⟩
  · rw [hp'] at ha; cases ha
  rw [hp'] at ha
  unfold Rd.getNode
  rw [if_neg hp, hp']
  exact getNodeLoop_missing hb ho _ ha p q x xs rfl h hn c hc

example : ∃ ks n n', Shows (envOf .wrap treeBuf) n (.node (.vector 1 (-2)) []) ∧ Shows (envOf .wrap treeBuf) n' (.node (.vector 1 (-2)) []) ∧
    walk ks [['p'], ['v']] = some n ∧ ∃ N, ∀ fuel, N ≤ fuel → ∀ c : Cur, c.pos = 0 →
      ((Rd.parseList 0 fuel).run (envOf .wrap treeBuf) c).1 = .ok ks ∧
      ((Rd.getNode "p/v".toList 0 fuel).run (envOf .wrap treeBuf) c).1 = .ok (['v'], n') :=
  C24_same_partial (envOf .wrap treeBuf) 0 0 67 treeKids "p/v".toList (.node (.vector 1 (-2)) []) (by decide +kernel) (by decide)
    (treeBuf_stored _) (by decide) (by decide) (.step treeKids [(['v'], .node (.vector 1 (-2)) [])] ['p'] ['v'] [] _ (by simp [treeKids]) (.last _ _ _ (by simp)))

example : MissingAt treeKids (splitSlash "p/w".toList) :=
  .step treeKids [(['v'], .node (.vector 1 (-2)) [])] ['p'] ['w'] [] (by simp [treeKids]) (.last _ _ (by decide))

/-- what a full parse followed by a walk gives, as the map of children of an image would hold it -/
def fullAt (e : Env) (path : List Char) (fuel : Nat) : Except Err (Option PObj) :=
  ((Rd.parseList 0 fuel).run e ⟨0, 0⟩).1.map fun ks => (walk (childInsertAll [] ks) (splitSlash path)).map PNode.obj

/-- what direct access gives -/
def directAt (e : Env) (path : List Char) (fuel : Nat) : Except Err PObj :=
  ((Rd.getNode path 0 fuel).run e ⟨0, 0⟩).1.map fun x => x.2.obj

/-- a canvas `c` with a child `k` -/
def canvasBuf : Bytes :=
  [1#8] ++ (sblk ['c'] ++ ([9#8] ++ toLE 4 39 ++ sblk "Canvas".toList ++ [0#8, 1#8, 0#8, 0#8] ++ ([1#8] ++ sblk ['k'] ++ [3#8, 7#8]) ++
    [1#8, 1#8, 2#8, 0#8, 0#8, 0#8, 0#8, 0#8] ++ toLE 4 3 ++ [0#8, 0x78#8, 0x9C#8] ++ [0#8, 0#8]))

/-- C24 fails below a canvas: direct access leaves out two bytes too few, finds an empty list and says that the
child is not there. -/
theorem C24_canvas_child_not_found :
    fullAt (envOf .checked canvasBuf) "c/k".toList 9 = .ok (some (.int 7)) ∧
      directAt (envOf .checked canvasBuf) "c/k".toList 9 = .error (.lib "NodeNotFound") := by
  constructor <;> rfl

/-- a list with only `a`; behind it the bytes of another list, with an `x` -/
def behindBuf : Bytes := [1#8] ++ sblk ['a'] ++ [3#8, 7#8] ++ ([1#8] ++ sblk ['x'] ++ [3#8, 9#8])

/-- C24 fails for a path through a name that is not there: direct access goes on reading behind the list and gives
a node that is not even part of it, for a path that names something else. -/
theorem C24_missing_component_found :
    fullAt (envOf .checked behindBuf) "x/y".toList 9 = .ok none ∧ directAt (envOf .checked behindBuf) "x/y".toList 9 = .ok (.int 9) := by
  constructor <;> rfl

/-- two entries named `a` -/
def twiceBuf : Bytes := [2#8] ++ sblk ['a'] ++ [3#8, 1#8] ++ sblk ['a'] ++ [3#8, 2#8]

/-- C24 fails for double names: direct access gives the first, a full parse keeps the last. -/
theorem C24_first_or_last :
    fullAt (envOf .checked twiceBuf) "a".toList 9 = .ok (some (.int 2)) ∧ directAt (envOf .checked twiceBuf) "a".toList 9 = .ok (.int 1) := by
  constructor <;> rfl

end Wz.Props
