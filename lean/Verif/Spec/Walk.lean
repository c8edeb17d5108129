import Verif.Spec.Tree
/-!
# Iterating a traversal function
-/
namespace Flo.Spec

/-- The nodes met when starting at `c` and applying `step` until it answers 0 (`c` included). -/
def walkFrom (step : Nat → Out Nat) : Nat → Nat → Out (List Nat)
  | 0, _ => .hang
  | f + 1, c =>
    if c = 0 then .ok []
    else do
      let n ← step c
      let l ← walkFrom step f n
      .ok (c :: l)

/-- Distance of a node from the root in the document tree. -/
inductive Depth (d : Dom) : Nat → Nat → Prop
  | root : Depth d rootID 0
  | child {p c k : Nat} : Depth d p k → c ∈ kids d p → Depth d c (k + 1)

end Flo.Spec
