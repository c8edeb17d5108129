import Verif.Spec.PageValue
/-!
# HTML strings that are refused, on the page (C106)

A string that opens an element within 256 others is read up to that element and then given up.  The nodes made so far keep their
numbers, and the names used so far keep their forms; nothing else remains.
-/
namespace Flo.Spec

/-- The tokens up to the one that opens an element while `limit` of them are open (`n` are open), that one included. -/
def readUntil (limit : Nat) : Nat → List Token → List Token
  | _, [] => []
  | n, .start tag as true :: ts => .start tag as true :: if limit ≤ n then [] else readUntil limit (n + 1) ts
  | n, .close :: ts => .close :: readUntil limit (n - 1) ts
  | n, t :: ts => t :: readUntil limit n ts

/-- The number of nodes a list of tokens makes. -/
def nodesOf : List Token → Nat
  | [] => 0
  | .close :: ts => nodesOf ts
  | _ :: ts => nodesOf ts + 1

/-- The page after a string was refused. -/
def Page.refuse (answer : Nat → Bool) (html : Str) (pg : Page) : Page where
  next := pg.next + nodesOf (readUntil 256 0 (fragTokens answer html).1)
  forms := pg.forms ++ tokenForms (readUntil 256 0 (fragTokens answer html).1)
  root := pg.root

/-- The HTML string of an operation. -/
def Op.fragment : Op → Option Str
  | .appendHTML _ h | .prependHTML _ h | .replaceHTML _ h => some h
  | _ => none

/-- The operation is about an HTML string that is refused. -/
def Op.Refused (answer : Nat → Bool) (op : Op) : Prop := ∃ h, op.fragment = some h ∧ fragOutcome answer h = .null

/-- One call on a page, HTML strings that are refused included. -/
def Page.call (answer : Nat → Bool) (op : Op) (pg : Page) : Page :=
  match op.fragment with
  | some h => match fragOutcome answer h with
    | .null => pg.refuse answer h
    | _ => pg.step answer op
  | none => pg.step answer op

def Page.calls : List (Op × (Nat → Bool)) → Page → Page
  | [], pg => pg
  | o :: ops, pg => Page.calls ops (pg.call o.2 o.1)

/-- The call is in order (`Page.Allows`), or about a string that is refused and a node of the page in the right place. -/
def Page.Permits (answer : Nat → Bool) (pg : Page) (op : Op) : Prop :=
  pg.Allows answer op ∨ op.Refused answer ∧ match op with
    | .appendHTML p _ | .prependHTML p _ => ∃ l, (p, l) ∈ pg.root.entries
    | .replaceHTML n _ => ∃ x, pg.root.siblings n = some x
    | _ => True

def Page.PermitsAll : List (Op × (Nat → Bool)) → Page → Prop
  | [], _ => True
  | o :: ops, pg => pg.Permits o.2 o.1 ∧ Page.PermitsAll ops (pg.call o.2 o.1)

/-- The value of a call: see `Op.Gives`; a string that is refused gives 0. -/
def Op.Returns (answer : Nat → Bool) (pg pg' : Page) (v : Nat) (op : Op) : Prop :=
  (op.Refused answer → v = 0) ∧ (¬ op.Refused answer → op.Gives pg pg' v)

def ReturnsAll : Page → List (Op × (Nat → Bool)) → List Nat → Prop
  | _, [], vs => vs = []
  | pg, o :: ops, vs => ∃ v r, vs = v :: r ∧ o.1.Returns o.2 pg (pg.call o.2 o.1) v ∧ ReturnsAll (pg.call o.2 o.1) ops r

end Flo.Spec
