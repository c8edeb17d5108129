import Verif.Spec.Page
/-!
# Edits that leave no trace (C96)
-/
namespace Flo.Spec

mutual
/-- The part of the tree that hangs at node `n`. -/
def PTree.part (n : Nat) : PTree → Option PTree
  | .node m l ks => if m = n then some (.node m l ks) else partAll n ks
def partAll (n : Nat) : List PTree → Option PTree
  | [] => none
  | t :: ts => (t.part n).or (partAll n ts)
end

/-- The node an operation is about. -/
def Op.target : Op → Nat
  | .attr op => op.node
  | .addText n _ _ | .setTag _ n _ | .setText n _ | .removeNode n | .removeChildren n => n
  | .appendDoc n _ | .appendText n _ | .appendHTML n _ | .prependDoc n _ | .prependText n _ | .prependHTML n _ => n
  | .replaceDoc n _ | .replaceText n _ | .replaceHTML n _ => n

/-- The operation takes its node away. -/
def Op.takes : Op → Bool
  | .removeNode _ | .replaceDoc _ _ | .replaceText _ _ | .replaceHTML _ _ => true
  | _ => false

/-- The operation is about a node below `n`, or about `n` without taking it away. -/
def Page.Inside (n : Nat) (op : Op) (pg : Page) : Prop :=
  ∃ sub l, pg.root.part n = some sub ∧ (op.target, l) ∈ sub.entries ∧ (op.takes = true → op.target ≠ n)

/-- All operations of a sequence are, when their turn comes. -/
def Page.InsideAll (n : Nat) : List (Op × (Nat → Bool)) → Page → Prop
  | [], _ => True
  | o :: ops, pg => pg.Inside n o.1 ∧ Page.InsideAll n ops (pg.step o.2 o.1)

/-- The operation puts one new element at the end or the beginning of a node's children. -/
def Op.AddsOne (answer : Nat → Bool) (op : Op) : Prop :=
  (∃ tag ps bs ts, op.brings answer = [.elem tag ps bs ts]) ∧
  match op with
  | .appendDoc _ _ | .prependDoc _ _ | .appendHTML _ _ | .prependHTML _ _ => True
  | _ => False

end Flo.Spec
