import Verif.Spec.Page
/-!
# Strings one after the other (C117)
-/
namespace Flo.Spec

/-- The last piece of the source is a text. -/
def Srcs.endsInText : Srcs → Bool
  | .nil => false
  | .cons (.text _ _) _ .nil => true
  | .cons _ _ .nil => false
  | .cons _ _ rest => rest.endsInText

/-- At the end of the input or at a `<` that starts no comment. -/
def AtMarkup (r : Str) : Prop := ∀ c q, r = c :: q → c = 60 ∧ ¬ b!"!--" <+: q

/-- The trees of `first`, if any, in front of what comes of the rest. -/
def Outcome.after (first : List Tree) : Outcome → Outcome
  | .document ts => .document (first ++ ts)
  | o => o

end Flo.Spec
