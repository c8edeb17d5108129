import Verif.Spec.Forest
import Verif.Spec.Source
/-!
# The printed form of a document (C54, C55)
-/
namespace Flo.Spec

/-- ` key="value"` for every pair. -/
def pairsText (ps : List (Str × Str)) : Str := ps.flatMap (fun p => b!" " ++ p.1 ++ b!"=\"" ++ p.2 ++ b!"\"")

/-- ` name` for every boolean attribute. -/
def boolsText (bs : List Str) : Str := bs.flatMap (fun b => b!" " ++ b)

/-- How an element without end tag is closed. -/
def closing (tag : Str) : Str := if tag = b!"!DOCTYPE" then b!">" else b!"/>"

mutual
/-- The text of a tree: start tag with the boolean attributes first, then the pairs; if elements of that name are
paired, content and end tag. -/
def Tree.print (paired : Str → Bool) : Tree → Str
  | .text raw => raw
  | .elem tag ps bs ts =>
    b!"<" ++ tag ++ boolsText bs ++ pairsText ps ++
      (if paired tag then b!">" ++ printAll paired ts ++ b!"</" ++ tag ++ b!">" else closing tag)
def printAll (paired : Str → Bool) : List Tree → Str
  | [] => []
  | t :: ts => t.print paired ++ printAll paired ts
end

/-- Are elements of this name registered as paired?  (A DOM records it per tag name, when the name is first used;
row 0 of the registry is a placeholder.) -/
def pairedTag (d : Dom) (tag : Str) : Bool :=
  match (d.tagReg.drop 1).find? (fun r => r.1 == tag) with
  | some r => r.2
  | none => false

/-- Text nodes have no children. -/
def TextLeaves (d : Dom) : Prop := ∀ n t, textOf d n = some t → kids d n = []

end Flo.Spec

namespace Flo.Spec

/-- Is it a text? -/
def Tree.isText : Tree → Bool
  | .text _ => true
  | .elem .. => false

mutual
/-- Nesting of the elements that are printed with an end tag. -/
def Tree.nesting (paired : Str → Bool) : Tree → Nat
  | .text _ => 0
  | .elem tag _ _ ts => if paired tag then nestingAll paired ts + 1 else 0
def nestingAll (paired : Str → Bool) : List Tree → Nat
  | [] => 0
  | t :: ts => max (t.nesting paired) (nestingAll paired ts)
end

mutual
/-- The printed form determines the tree: names are well formed, texts are normalised, not adjacent and do not start
with a space, values contain no `"`, elements printed without end tag are empty, elements printed with end tag are
not void elements, and the `/>` of an element without end tag does not follow a boolean attribute. -/
def Tree.Printable (paired : Str → Bool) : Tree → Prop
  | .text raw => NormalText raw ∧ (∃ c r, raw = c :: r ∧ c ≠ 32)
  | .elem tag ps bs ts => TagName tag ∧ (∀ b ∈ bs, KeyName b) ∧ (∀ p ∈ ps, KeyName p.1 ∧ 34 ∉ p.2) ∧
      (paired tag = true → ¬NeverContent tag) ∧
      (paired tag = false → ts = [] ∧ (tag = b!"!DOCTYPE" ∨ bs = [] ∨ ps ≠ [])) ∧ PrintableAll paired ts
def PrintableAll (paired : Str → Bool) : List Tree → Prop
  | [] => True
  | t :: ts => t.Printable paired ∧ PrintableAll paired ts ∧
      (t.isText = true → ∀ t' ts', ts = t' :: ts' → t'.isText = false)
end

mutual
/-- In this source, every element is written with an end tag exactly if `paired` says so of its name. -/
def Src.Uses (paired : Str → Bool) : Src → Prop
  | .text _ _ => True
  | .single tag _ _ _ => paired tag = false
  | .paired tag _ _ _ ks _ => paired tag = true ∧ ks.Uses paired
def Srcs.Uses (paired : Str → Bool) : Srcs → Prop
  | .nil => True
  | .cons t _ rest => t.Uses paired ∧ rest.Uses paired
end

end Flo.Spec
