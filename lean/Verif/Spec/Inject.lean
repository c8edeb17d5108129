import Verif.Spec.PageRefuse
import Verif.Spec.PageCompare
import Verif.Spec.Print
/-!
# Strings that stay data (C115)

Nothing is escaped on output.  These are the strings that need no escaping: texts without `<` whose white space is normalised,
values without `"`, and well-formed names.
-/
namespace Flo.Spec

def Label.Harmless : Label → Prop
  | .root => True
  | .text raw => Stretch raw
  | .elem tag ps bs => TagName tag ∧ (∀ b ∈ bs, KeyName b) ∧ ∀ p ∈ ps, KeyName p.1 ∧ 34 ∉ p.2

/-- All strings on the page are harmless. -/
def Page.Harmless (pg : Page) : Prop := ∀ e ∈ pg.root.entries, e.2.Harmless

mutual
/-- What is in a tree, in document order. -/
def Tree.labels : Tree → List Label
  | .text raw => [.text raw]
  | .elem tag ps bs ts => .elem tag ps bs :: labelsAll ts
def labelsAll : List Tree → List Label
  | [] => []
  | t :: ts => t.labels ++ labelsAll ts
end

/-- The strings a call puts into the document are harmless; of an HTML string, what is read in it. -/
def Op.Harmless (answer : Nat → Bool) : Op → Prop
  | .attr (.add _ k v) | .attr (.set _ k v) => KeyName k ∧ 34 ∉ v
  | .attr (.addBool _ b) => KeyName b
  | .attr _ => True
  | .addText _ t _ | .setText _ t | .appendText _ t | .prependText _ t | .replaceText _ t => Stretch t
  | .setTag t _ _ => TagName t
  | .appendDoc _ doc | .prependDoc _ doc | .replaceDoc _ doc => (Label.elem doc.tag doc.props doc.boolProps).Harmless
  | .appendHTML _ h | .prependHTML _ h | .replaceHTML _ h => ∀ l ∈ labelsAll (fragTrees answer h), l.Harmless
  | _ => True

/-- Elements whose name is printed with end tag are not void elements; the others are empty, and their `/>` does not follow a
boolean attribute (C54, C55). -/
def Page.FormsFit (pg : Page) : Prop := ∀ n tag ps bs cs, pg.Has n (.elem tag ps bs) cs →
  (pg.form tag = some true → ¬NeverContent tag) ∧
  (pg.form tag ≠ some true → cs = [] ∧ (tag = b!"!DOCTYPE" ∨ bs = [] ∨ ps ≠ []))

/-- `t` in front of `ts`; two texts next to each other become one. -/
def joinText : Tree → List Tree → List Tree
  | .text a, .text b :: ts => .text (a ++ b) :: ts
  | t, ts => t :: ts

mutual
/-- The tree with texts that are next to each other joined: they are printed without anything between them. -/
def Tree.joinTexts : Tree → Tree
  | .text raw => .text raw
  | .elem tag ps bs ts => .elem tag ps bs (joinTextsAll ts)
def joinTextsAll : List Tree → List Tree
  | [] => []
  | t :: ts => joinText t.joinTexts (joinTextsAll ts)
end

/-- The elements with their attributes, in document order. -/
def elementsOf (ls : List Label) : List (Str × List (Str × Str) × List Str) :=
  ls.filterMap fun l => match l with
    | .elem tag ps bs => some (tag, ps, bs)
    | _ => none

/-- All text, in document order. -/
def textOfLabels (ls : List Label) : Str :=
  ls.flatMap fun l => match l with
    | .text raw => raw
    | _ => []

end Flo.Spec
