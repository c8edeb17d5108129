import Verif.Spec.Page
import Verif.Spec.Query
/-!
# Queries, on the page (C100, C101)

The meaning of a query in terms of the page alone: its nodes, what they are, and which nodes they have as children.
-/
namespace Flo.Spec

/-- DOMs a program can hold that applies the attribute functions to elements only. -/
inductive Proper : Dom → Prop
  | parsed {s : Str} {d : Dom} : createDom s = .ok (some d) → Proper d
  | edited {junk : Nat → Out Bool} {op : Op} {d d' : Dom} : Reads junk → Proper d → Allowed junk d op →
      (∀ a, op = .attr a → typeOf d a.node = some .document) → runOp junk op d = .ok d' → Proper d'
  | duplicated {d d' : Dom} : Proper d → duplicateDom d = .ok d' → Proper d'

mutual
/-- The nodes of a tree with what they are and the numbers of their children. -/
def PTree.rows : PTree → List (Nat × Label × List Nat)
  | .node n l ks => (n, l, ks.map PTree.id) :: rowsAll ks
def rowsAll : List PTree → List (Nat × Label × List Nat)
  | [] => []
  | t :: ts => t.rows ++ rowsAll ts
end

/-- Node `n` is on the page, is `l`, and has the children `cs`. -/
def Page.Has (pg : Page) (n : Nat) (l : Label) (cs : List Nat) : Prop := (n, l, cs) ∈ pg.root.rows

/-- Node `n` is on the page. -/
def Page.On (pg : Page) (n : Nat) : Prop := ∃ l cs, pg.Has n l cs

def Label.isElem : Label → Bool
  | .elem _ _ _ => true
  | _ => false

def Label.tag : Label → Option Str
  | .elem t _ _ => some t
  | _ => none

def Label.pairs : Label → List (Str × Str)
  | .elem _ ps _ => ps
  | _ => []

def Label.bools : Label → List Str
  | .elem _ _ bs => bs
  | _ => []

def Cond.meets (l : Label) : Cond → Prop
  | .flag _ b _ => b ∈ l.bools
  | .eq _ k _ _ v _ => (k, v) ∈ l.pairs

def Final.meets (l : Label) : Final → Prop
  | .cls v => (b!"class", v) ∈ l.pairs
  | .ident v => (b!"id", v) ∈ l.pairs

/-- What a compound selector asks of a node; `*` asks nothing. -/
def Compound.meets (l : Label) : Compound → Prop
  | .any => True
  | .mk t cs fin => (∀ x, t = some x → l.tag = some x) ∧ (∀ c ∈ cs, c.meets l) ∧ ∀ f, fin = some f → f.meets l

/-- Node `n` of the page satisfies the selector. -/
def Page.Meets (pg : Page) (c : Compound) (n : Nat) : Prop := ∃ l cs, pg.Has n l cs ∧ c.meets l

/-- `n` is an element and a child of `v`. -/
def Page.ElemChild (pg : Page) (v n : Nat) : Prop :=
  (∃ l cs, pg.Has v l cs ∧ n ∈ cs) ∧ ∃ l cs, pg.Has n l cs ∧ l.isElem = true

/-- The relation a combinator stands for.  Siblings are sibling nodes, texts included. -/
def CombKind.onPage (pg : Page) : CombKind → Nat → Nat → Prop
  | .child => pg.ElemChild
  | .descendant => Relation.TransGen pg.ElemChild
  | .adjacent => fun v n => ∃ p l l₁ l₂, pg.Has p l (l₁ ++ v :: n :: l₂)
  | .sibling => fun v n => ∃ p l l₁ l₂, pg.Has p l (l₁ ++ v :: l₂) ∧ n ∈ l₂

/-- The nodes selected after further steps, if `S` are selected so far. -/
def restOnPage (pg : Page) : List (Comb × Compound) → (Nat → Prop) → Nat → Prop
  | [], S => S
  | (k, c) :: r, S => restOnPage pg r (fun n => pg.Meets c n ∧ ∃ v, S v ∧ k.kind.onPage pg v n)

/-- The nodes of the page a comma-free query selects. -/
def Part.onPage (pg : Page) (p : Part) : Nat → Prop := restOnPage pg p.rest (pg.Meets p.first)

/-- The nodes of the page a query selects. -/
def Query.onPage (pg : Page) (q : Query) (n : Nat) : Prop := ∃ p ∈ q.parts, p.onPage pg n

/-- The attribute functions are applied to elements only. -/
def Page.AttrsOnElems : List (Op × (Nat → Bool)) → Page → Prop
  | [], _ => True
  | o :: ops, pg => (∀ a, o.1 = .attr a → ∃ l, (a.node, l) ∈ pg.root.entries ∧ l.isElem = true) ∧
      Page.AttrsOnElems ops (pg.step o.2 o.1)

end Flo.Spec
