import Verif.Spec.Tree
import Verif.Spec.Attrs
/-!
# Document trees (C09, C10, C23, C24, C54)

A document as a mathematical tree, and what it means that a node of a DOM represents it.
-/
namespace Flo.Spec

/-- A text, or an element with its (key, value) attributes, boolean attributes and children. -/
inductive Tree where
  | text (raw : Str)
  | elem (tag : Str) (pairs : List (Str × Str)) (bools : List Str) (kids : List Tree)

mutual
/-- Node `n` of `d` is the root of exactly this tree: same kind, text, tag, attributes, and its child list (as
seen through the navigation functions) is the list of roots of the child trees. -/
def Rep (d : Dom) : Tree → Nat → Prop
  | .text raw, n => textOf d n = some raw ∧ kids d n = []
  | .elem tag ps bs ts, n => tagOf d n = some tag ∧ pairs d n = ps ∧ bools d n = bs ∧ RepL d ts (kids d n)
/-- The same for a list of nodes and a list of trees. -/
def RepL (d : Dom) : List Tree → List Nat → Prop
  | [], [] => True
  | t :: ts, n :: ns => Rep d t n ∧ RepL d ts ns
  | _, _ => False
end

end Flo.Spec
