import Verif.Thread.Spec

/-!
# What can be read from a tree
-/

set_option autoImplicit false

namespace Wz.Spec

open Wz

/-- where a node of this kind reads what is in it -/
def SourceOf (k : NKind) (s : Nat) : Prop :=
  (∃ p q, k = .dir p q s) ∨ (∃ p, k = .file p s) ∨ (∃ p, k = .msFile p s) ∨ (∃ p, k = .image p s) ∨ k = .msImage s

/-- the forest has a node of this kind -/
def Forest.Has (k : NKind) : Forest → Prop
  | .nil => False
  | .node _ q ks rest => k = q ∨ Forest.Has k ks ∨ Forest.Has k rest

/-- The places that calls on this tree can ever read from: those of its nodes, and those of nodes that are found there. -/
inductive Reachable (content : Content) (h : NHeap) : Nat → Prop
  | node (i : Nat) (c : NCell) (s : Nat) : h.cell i = some c → SourceOf c.kind s → Reachable content h s
  | found (s : Nat) (f : Forest) (k : NKind) (s' : Nat) : Reachable content h s → content s = .ok f → Forest.Has k f → SourceOf k s' →
      Reachable content h s'

/-- nothing that can ever be read from the tree has a link in it -/
def NoLinksBelow (content : Content) (h : NHeap) : Prop :=
  ∀ s, Reachable content h s → ∀ f, content s = .ok f → Forest.All NoLink f

end Wz.Spec
