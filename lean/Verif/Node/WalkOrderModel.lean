import Verif.Node.Model

/-!
# Walks that take children in the order of hash maps
-/

set_option autoImplicit false

namespace Wz

/-- the order in which a hash map lists the children of a node; it may be another one for each node and each state of the nodes -/
abbrev KidOrder := NHeap → Nat → List (List Char × Nat) → List (List Char × Nat)

/-- `walk_node` (walk.rs 6-23) with `force_parse = true`, as `NHeap.walkForce`, but the children (walk.rs 14) are taken in the order `ord`
gives them. -/
def NHeap.walkForceIn (content : Content) (ord : KidOrder) :
    Nat → NHeap → List Nat → Nat → Except Err (List (Nat × Option NCell) × NHeap)
  | 0, _, _, _ => .error .fuel
  | fuel + 1, h, held, i =>
    if i ∈ held then .error (.lib "deadlock")
    else
      match panicOf (h.parse content i).1 with
      | some e => .error e
      | none =>
        match (h.parse content i).2.cell i with
        | none => .ok ([(i, none)], (h.parse content i).2)
        | some c =>
          match NHeap.forceLoop (fun g j => NHeap.walkForceIn content ord fuel g (i :: held) j)
              (h.parse content i).2 (ord (h.parse content i).2 i c.kids) with
          | .error e => .error e
          | .ok (vs, h') => .ok ((i, some c) :: vs, if h'.isImage i then h'.unparse i else h')

end Wz
