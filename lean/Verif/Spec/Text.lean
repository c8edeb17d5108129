import Verif.Model.Basic
/-!
# What "whitespace-normalised text" means (C06), and the words of a text (C06, C07)
-/
namespace Flo.Spec

/-- No '<', tab, newline or carriage return; never two consecutive spaces; no trailing space. -/
def NormalText (t : Str) : Prop :=
  (∀ c ∈ t, c ≠ 60 ∧ c ≠ 9 ∧ c ≠ 10 ∧ c ≠ 13) ∧
  (∀ a b, t ≠ a ++ [32, 32] ++ b) ∧
  (∀ a, t ≠ a ++ [32])

/-- The words of a text (`cur` is the word being read): white space (space, tab, newline, carriage return) separates
them. -/
def wordsFrom (cur : Str) : Str → List Str
  | [] => if cur = [] then [] else [cur]
  | c :: cs =>
    if c = 32 ∨ c = 9 ∨ c = 10 ∨ c = 13 then (if cur = [] then wordsFrom [] cs else cur :: wordsFrom [] cs)
    else wordsFrom (cur ++ [c]) cs

/-- The words of a text, in order. -/
def words (t : Str) : List Str := wordsFrom [] t

/-- Words joined by single spaces. -/
def unwords (ws : List Str) : Str := List.intercalate [32] ws

end Flo.Spec
