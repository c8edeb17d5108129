import Verif.Spec.PageQuery
import Verif.Spec.EditMem
/-!
# What the mutating functions return, on the page (C104)

`pg` is the page before the call and `pg'` the page after it; the value is described by the children of one node on both pages.
-/
namespace Flo.Spec

/-- The value `v` a call returns; functions that return nothing are given the value 0, a truth value is 0 or 1. -/
def Op.Gives (pg pg' : Page) (v : Nat) : Op → Prop
  -- whether the element has the attribute
  | .attr (.set n k _) => ∀ tag ps bs, (n, .elem tag ps bs) ∈ pg.root.entries → v = if k ∈ ps.map Prod.fst then 1 else 0
  -- the first of the new children, or the last child if a new text was merged into it and nothing else is new
  | .appendDoc p _ | .appendText p _ | .appendHTML p _ =>
    ∃ l cs new, pg.Has p l cs ∧ pg'.Has p l (cs ++ new) ∧ v = new.headD (cs.getLastD 0)
  -- the first child
  | .prependDoc p _ | .prependHTML p _ => ∃ l cs new, pg.Has p l cs ∧ pg'.Has p l (new ++ cs) ∧ v = (new ++ cs).headD 0
  -- the number of the new node, also if that node was merged away (C20)
  | .prependText _ _ | .replaceDoc _ _ | .replaceText _ _ => v = pg.next
  -- the first of the new children; if a single new text was merged away, the child before, but 0 at the end (C27)
  | .replaceHTML n _ => ∃ p l l₁ l₂ new, pg.Has p l (l₁ ++ n :: l₂) ∧ pg'.Has p l (l₁ ++ new ++ l₂) ∧
      v = new.headD (if l₂ = [] then 0 else l₁.getLastD 0)
  | _ => v = 0

/-- Calling the functions one after the other, with the values they return. -/
def callEach : List (Op × (Nat → Bool)) → Dom → Out (List Nat × Dom)
  | [], d => .ok ([], d)
  | o :: ops, d => do
    let (v, d) ← callOp (fun i => .ok (o.2 i)) o.1 d
    let (vs, d) ← callEach ops d
    .ok (v :: vs, d)

/-- The values of a sequence of calls. -/
def GivesAll : Page → List (Op × (Nat → Bool)) → List Nat → Prop
  | _, [], vs => vs = []
  | pg, o :: ops, vs => ∃ v r, vs = v :: r ∧ o.1.Gives pg (pg.step o.2 o.1) v ∧ GivesAll (pg.step o.2 o.1) ops r

end Flo.Spec
