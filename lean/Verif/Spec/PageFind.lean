import Verif.Spec.PageRefuse
import Verif.Model.Messages
/-!
# Edits addressed by a query, on the page (C109)

Nine editing functions take a query instead of a node.  On the page they are the functions that take a node, applied to the first node
in document order that the query selects.
-/
namespace Flo.Spec

/-- Node `n` is the first node of the page, in document order, that the query selects. -/
def Page.Picks (pg : Page) (q : Query) (n : Nat) : Prop :=
  ∃ before l behind, pg.root.entries = before ++ (n, l) :: behind ∧ q.onPage pg n ∧ ∀ m ∈ before, ¬ q.onPage pg m.1

/-- The function that takes the node `n` in place of the query. -/
def QEdit.at (n : Nat) : QueryEdit → Op
  | .appendDocument doc => .appendDoc n doc
  | .appendText t => .appendText n t
  | .appendHTML h => .appendHTML n h
  | .prependDocument doc => .prependDoc n doc
  | .prependText t => .prependText n t
  | .prependHTML h => .prependHTML n h
  | .replaceDocument doc => .replaceDoc n doc
  | .replaceText t => .replaceText n t
  | .replaceHTML h => .replaceHTML n h

/-- A call of a session: an edit of a node, or an edit of what a query finds. -/
inductive SCall where
  | edit (op : Op) (answer : Nat → Bool)
  | find (q : Query) (e : QueryEdit) (answer : Nat → Bool)

/-- Making the calls one after the other, with the values they return.  `pun` says what the library reads as the tag of a text. -/
def callSteps (pun : Dom → Nat → Nat) : List SCall → Dom → Out (List Nat × Dom)
  | [], d => .ok ([], d)
  | .edit op answer :: ss, d => do
    let (v, d) ← callOp (fun i => .ok (answer i)) op d
    let (vs, d) ← callSteps pun ss d
    .ok (v :: vs, d)
  | .find q e answer :: ss, d => do
    let (v, d) ← withQuery (pun d) q.text (fun n d => callOp (fun i => .ok (answer i)) (QEdit.at n e) d) d
    let (vs, d) ← callSteps pun ss d
    .ok (v :: vs, d)

/-- The attribute functions are applied to elements only. -/
def Page.AttrOnElem (pg : Page) (op : Op) : Prop := ∀ a, op = .attr a → ∃ l, (a.node, l) ∈ pg.root.entries ∧ l.isElem = true

/-- What the calls of a session are when every query is replaced by the node it picks.  The queries are well formed, all their parts
select something, and all calls are in order (C106). -/
inductive Page.Resolves : Page → List SCall → List (Op × (Nat → Bool)) → Prop
  | done {pg : Page} : Page.Resolves pg [] []
  | edit {pg : Page} {op : Op} {answer : Nat → Bool} {ss : List SCall} {ops : List (Op × (Nat → Bool))} :
      pg.Permits answer op → pg.AttrOnElem op → (pg.call answer op).Resolves ss ops → pg.Resolves (.edit op answer :: ss) ((op, answer) :: ops)
  | find {pg : Page} {q : Query} {e : QueryEdit} {n : Nat} {answer : Nat → Bool} {ss : List SCall} {ops : List (Op × (Nat → Bool))} :
      (∀ p ∈ q.parts, p.WF ∧ p.Small ∧ ∃ m, p.onPage pg m) → pg.Picks q n → pg.Permits answer (QEdit.at n e) →
      (pg.call answer (QEdit.at n e)).Resolves ss ops → pg.Resolves (.find q e answer :: ss) ((QEdit.at n e, answer) :: ops)

end Flo.Spec
