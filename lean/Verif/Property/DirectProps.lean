import Verif.Property.DirectLemmas
/-!
# Properties of direct access from any bytes (C74)
-/

set_option autoImplicit false

namespace Wz.Props
open Spec

/-- beyond the size of the file the bound on the depth does not matter -/
theorem getNode_bound (e : Env) (path : List Char) (o fuel fuel' : Nat) (c : Cur) (hm : e.mode = .checked)
    (hf : e.buf.length + 2 ≤ fuel) (h : fuel ≤ fuel') : (Rd.getNode path o fuel').run e c = (Rd.getNode path o fuel).run e c := by
  have hne := C23_lookup_partial e path o fuel c hm (by omega) (by omega)
  obtain ⟨d, rfl⟩ := Nat.exists_eq_add_of_le h
  unfold Rd.getNode at hne ⊢
  by_cases hp : path = []
  · rw [if_pos hp, if_pos hp]
  · rw [if_neg hp] at hne ⊢
    rw [if_neg hp]
    cases hs : splitSlash path with
    | nil => rfl
    | cons x xs =>
      rw [hs] at hne
      rcases getNodeLoop_le (parseExt_le o fuel d) o xs x e c with h3 | h3
      · exact absurd h3 hne
      · exact h3

/-- C74: what direct access gives, from any bytes: the entry that is reached with the path.  `fuel` bounds the recursion of
the model only. -/
theorem C74_direct (e : Env) (path cur : List Char) (rest : List (List Char)) (o fuel : Nat) (x : List Char × PNode) (c : Cur)
    (hb : e.buf.length < 2 ^ 63) (hm : e.mode = .checked) (hf : e.buf.length + 2 ≤ fuel) (hp : path ≠ [])
    (hs : splitSlash path = cur :: rest) :
    ((Rd.getNode path o fuel).run e c).1 = .ok x ↔ Reached e o cur rest c.pos x := by
  have hg : ∀ f, Rd.getNode path o f = Rd.getNodeLoop (Rd.parseExt o f) o cur rest := by
    intro f
    unfold Rd.getNode
    rw [if_neg hp, hs]
  constructor
  · intro h
    rw [hg] at h
    cases hr : (Rd.getNodeLoop (Rd.parseExt o fuel) o cur rest).run e c with
    | mk r c' =>
      rw [hr] at h
      exact reached_of_read hb hm (ext_of_read hb hm fuel) rest cur x c c' (by rw [hr]; exact congrArg (·, c') h)
  · intro h
    obtain ⟨N, hN⟩ := h.reads hb
    obtain ⟨q, hq⟩ := hN (fuel + N) (by omega)
    rw [← getNode_bound e path o fuel (fuel + N) c hm hf (by omega), hg]
    obtain ⟨c', h1, _⟩ := hq c rfl
    rw [h1]

/-- C74: a path that leads to nothing is reported as such -/
theorem C74_not_found (e : Env) (path cur : List Char) (rest : List (List Char)) (o fuel : Nat) (c : Cur)
    (hb : e.buf.length < 2 ^ 63) (hp : path ≠ []) (hs : splitSlash path = cur :: rest) (h : NotReached e o cur rest c.pos) :
    ((Rd.getNode path o fuel).run e c).1 = .error (.lib "NodeNotFound") := by
  unfold Rd.getNode
  rw [if_neg hp, hs]
  exact h.fails hb c rfl

/-- C74: where a full parse succeeds and the way is clear, direct access gives what a full parse gives: the node, or that it
is not there. -/
theorem C74_same (e : Env) (path cur : List Char) (rest : List (List Char)) (o fuel : Nat) (kids : List (List Char × PNode)) (c c' : Cur)
    (hb : e.buf.length < 2 ^ 63) (hm : e.mode = .checked) (hf : e.buf.length + 2 ≤ fuel) (hp : path ≠ [])
    (hs : splitSlash path = cur :: rest) (h : (Rd.parseList o fuel).run e c = (.ok kids, c')) (hw : ClearWay e o cur rest c.pos) :
    (∀ n, walk kids (cur :: rest) = some n →
      ((Rd.getNode path o fuel).run e c).1 = .ok ((cur :: rest).getLast (by simp), n)) ∧
    (walk kids (cur :: rest) = none → ((Rd.getNode path o fuel).run e c).1 = .error (.lib "NodeNotFound")) := by
  obtain ⟨h1, h2⟩ := clear_walk hb hm hw (C72_shown_is_stored e o fuel kids c c' hb hm h) (.inl rfl)
  exact ⟨fun n hn => (C74_direct e path cur rest o fuel _ c hb hm hf hp hs).mpr (h1 n hn),
    fun hn => C74_not_found e path cur rest o fuel c hb hp hs (h2 hn)⟩

/-- C74: with a path of one component, whatever direct access gives is in the list a full parse gives, if there is one. -/
theorem C74_one_level (e : Env) (path : List Char) (o fuel : Nat) (kids : List (List Char × PNode)) (x : List Char × PNode) (c c' : Cur)
    (hb : e.buf.length < 2 ^ 63) (hm : e.mode = .checked) (hf : e.buf.length + 2 ≤ fuel) (hp : path ≠ []) (hs : '/' ∉ path)
    (h : (Rd.parseList o fuel).run e c = (.ok kids, c')) (hx : ((Rd.getNode path o fuel).run e c).1 = .ok x) : x ∈ kids := by
  have hsp : splitSlash path = [path] := splitSlash_plain path hs
  obtain ⟨nb, t1, t2, t3⟩ := C72_shown_is_stored e o fuel kids c c' hb hm h
  have hr := (C74_direct e path path [] o fuel x c hb hm hf hp hsp).mp hx
  generalize hc : c.pos = p at hr t2 t3
  cases hr with
  | last => rename_i h ht; exact first_mem hb t1 t2 t3 h ht

/-! ### concrete cases -/

/-- an entry `b` that is damaged: a shape with a negative number of points; behind it an `x` -/
def damagedBuf : Bytes :=
  [2#8] ++ sblk ['b'] ++ ([9#8] ++ toLE 4 19 ++ sblk "Shape2D#Convex2D".toList ++ [0xFF#8]) ++ (sblk ['x'] ++ [3#8, 9#8])

/-- C74: damage elsewhere does not matter: direct access gives `x` although a full parse stops at `b`. -/
theorem C74_damaged :
    ((Rd.parseList 0 60).run (envOf .checked damagedBuf) ⟨0, 0⟩).1.isOk = false ∧
      ((Rd.getNode ['x'] 0 60).run (envOf .checked damagedBuf) ⟨0, 0⟩).1 = .ok (['x'], .node (.int 9) []) := by
  constructor <;> rfl

example : Reached (envOf .checked damagedBuf) 0 ['x'] [] 0 (['x'], .node (.int 9) []) :=
  (C74_direct _ ['x'] ['x'] [] 0 60 _ ⟨0, 0⟩ (by decide +kernel) rfl (by decide +kernel) (by decide) rfl).mp C74_damaged.2

/-- a text read at a place of a buffer -/
theorem textAt {buf : Bytes} {o p q s' : Nat} {s : List Char} (hb : buf.length < 2 ^ 63)
    (h : (Rd.readWzStringBlock o).run (envOf .checked buf) ⟨p, 0⟩ = (.ok s, ⟨q, s'⟩)) : TextBlock (envOf .checked buf) o p s q :=
  textBlock_of_read (e := envOf .checked buf) (c := ⟨p, 0⟩) (c' := ⟨q, s'⟩) hb rfl h

theorem treeBuf_small : treeBuf.length < 2 ^ 63 := by decide +kernel

/-- the list `p` in `treeBuf` -/
theorem treeBuf_inner : ListIs (envOf .checked treeBuf) 0 [(['v'], .node (.vector 1 (-2)) [])] 26 := by
  obtain ⟨nb, h1, h2, h3⟩ := C72_shown_is_stored (envOf .checked treeBuf) 0 80 [(['v'], .node (.vector 1 (-2)) [])] ⟨26, 0⟩ ⟨55, 0⟩
    treeBuf_small rfl rfl
  have hnb : nb.length = 1 := (wzInt_unique treeBuf_small h1 h2
    (IsWzInt.short (w := 4) (v := 1) (by decide) (by decide)) (holdsAt 26 (by decide +kernel))).2
  refine ⟨nb, [(['v'], 9#8)], 55, h1, h2, h3, ?_, rfl⟩
  rw [hnb]
  exact .cons 27 30 55 55 ['v'] 9#8 [] (textAt treeBuf_small (s' := 0) rfl) (holdsAt 30 (by decide +kernel))
    (.block 31 20 (by decide) (holdsAt 31 (by decide +kernel))) (.nil _)

/-- what `treeBuf` holds -/
def treeNodes : List (List Char × PNode) :=
  [(['a'], .node (.int 5) []), (['p'], .node .property [(['v'], .node (.vector 1 (-2)) [])]), (['x'], .node .null [])]

theorem treeBuf_parse : (Rd.parseList 0 80).run (envOf .checked treeBuf) ⟨0, 0⟩ = (.ok treeNodes, ⟨67, 0⟩) := rfl

theorem treeBuf_outer : ListIs (envOf .checked treeBuf) 0 treeNodes 0 := by
  obtain ⟨nb, h1, h2, h3⟩ := C72_shown_is_stored (envOf .checked treeBuf) 0 80 _ ⟨0, 0⟩ _ treeBuf_small rfl treeBuf_parse
  have hnb : nb.length = 1 := (wzInt_unique treeBuf_small h1 h2
    (IsWzInt.short (w := 4) (v := 3) (by decide) (by decide)) (holdsAt 0 (by decide +kernel))).2
  refine ⟨nb, [(['a'], 3#8), (['p'], 9#8), (['x'], 9#8)], 67, h1, h2, h3, ?_, rfl⟩
  rw [hnb]
  refine .cons 1 4 6 67 ['a'] 3#8 _ (textAt treeBuf_small (s' := 0) rfl) (holdsAt 4 (by decide +kernel))
    (.int 3#8 5 5 [5#8] (.inl rfl) (.short (by decide) (by decide)) (holdsAt 5 (by decide +kernel))) ?_
  refine .cons 6 9 55 67 ['p'] 9#8 _ (textAt treeBuf_small (s' := 0) rfl) (holdsAt 9 (by decide +kernel))
    (.block 10 41 (by decide) (holdsAt 10 (by decide +kernel))) ?_
  exact .cons 55 58 67 67 ['x'] 9#8 [] (textAt treeBuf_small (s' := 0) rfl) (holdsAt 58 (by decide +kernel))
    (.block 59 4 (by decide) (holdsAt 59 (by decide +kernel))) (.nil _)

/-- the way `p/v`, and `p/w`, is clear in `treeBuf` -/
theorem treeBuf_clear (last : List Char) (h : [['v']].count last ≤ 1) : ClearWay (envOf .checked treeBuf) 0 ['p'] [last] 0 :=
  .step ['p'] last [] 0 6 9 24 treeNodes treeBuf_outer (by decide)
    ⟨3, [3#8], [(['a'], 3#8)], .short (by decide) (by decide), holdsAt 0 (by decide +kernel),
      .cons 1 4 6 6 ['a'] 3#8 [] (textAt treeBuf_small (s' := 0) rfl) (holdsAt 4 (by decide +kernel))
        (.int 3#8 5 5 [5#8] (.inl rfl) (.short (by decide) (by decide)) (holdsAt 5 (by decide +kernel))) (.nil _),
      by decide, by decide, rfl, textAt treeBuf_small (s' := 0) rfl, holdsAt 9 (by decide +kernel)⟩
    (textAt treeBuf_small (s' := 0) rfl) (.last last 26 _ treeBuf_inner h)

example : ((Rd.getNode "p/v".toList 0 80).run (envOf .checked treeBuf) ⟨0, 0⟩).1 = .ok (['v'], .node (.vector 1 (-2)) []) :=
  (C74_same _ "p/v".toList ['p'] [['v']] 0 80 treeNodes ⟨0, 0⟩ _ treeBuf_small rfl (by decide +kernel) (by decide) rfl treeBuf_parse
    (treeBuf_clear ['v'] (by decide))).1 _ rfl

example : ((Rd.getNode "p/w".toList 0 80).run (envOf .checked treeBuf) ⟨0, 0⟩).1 = .error (.lib "NodeNotFound") :=
  (C74_same _ "p/w".toList ['p'] [['w']] 0 80 treeNodes ⟨0, 0⟩ _ treeBuf_small rfl (by decide +kernel) (by decide) rfl treeBuf_parse
    (treeBuf_clear ['w'] (by decide))).2 rfl

end Wz.Props
