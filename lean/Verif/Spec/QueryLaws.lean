import Verif.Spec.Query
/-!
# Queries that mean the same, or more (C124)
-/
namespace Flo.Spec

/-- The condition without the blanks in it. -/
def Cond.bare : Cond → Cond
  | .flag _ n _ => .flag [] n []
  | .eq _ k _ _ v _ => .eq [] k [] [] v []

/-- The selectors say the same, in another order or with other blanks in the brackets. -/
inductive Compound.Same : Compound → Compound → Prop
  | any : Compound.Same .any .any
  | mk {t : Option Str} {cs cs' : List Cond} {fin : Option Final} : (cs.map Cond.bare).Perm (cs'.map Cond.bare) →
      Compound.Same (.mk t cs fin) (.mk t cs' fin)

/-- The second combinator is the first, or the one that reaches more: descendants instead of children, all siblings behind instead of
the next one. -/
inductive CombKind.Wider : CombKind → CombKind → Prop
  | same (k : CombKind) : CombKind.Wider k k
  | child : CombKind.Wider .child .descendant
  | adjacent : CombKind.Wider .adjacent .sibling

/-- The same steps with the same or wider combinators; blanks do not matter. -/
inductive StepsWider : List (Comb × Compound) → List (Comb × Compound) → Prop
  | nil : StepsWider [] []
  | cons {k k' : Comb} {c c' : Compound} {r r' : List (Comb × Compound)} : k.kind.Wider k'.kind → c.Same c' → StepsWider r r' →
      StepsWider ((k, c) :: r) ((k', c') :: r')

/-- The same comma-free query with the same or wider combinators; blanks do not matter. -/
def Part.Wider (p p' : Part) : Prop := p.first.Same p'.first ∧ StepsWider p.rest p'.rest

/-- The same comma-free query up to blanks and the order of conditions. -/
def Part.Same (p p' : Part) : Prop := p.Wider p' ∧ p'.Wider p

/-- A query of one part. -/
def Part.query (p : Part) : Query := ⟨p, []⟩

/-- The query that consists of one compound selector. -/
def Compound.query (c : Compound) : Query := ⟨⟨[], c, [], []⟩, []⟩

end Flo.Spec
