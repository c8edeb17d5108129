import Verif.Model.Edit
import Verif.Spec.Forest
import Verif.Spec.Edit
/-!
# Inserting a parsed fragment (C23, C24, C27)

`Fragment html d F`: the trees `F` are what `html` is as a document of its own, and the fragment parser accepts
`html` without reading outside its nesting stack and with enough memory.
-/
namespace Flo.Spec

structure Fragment (html : Str) (d : Dom) (F : List Tree) : Prop where
  /-- parsed as a document, `html` has the top-level trees `F` -/
  trees : ∃ dh, createDom html = .ok (some dh) ∧ RepL dh F (kids dh 1)
  /-- parsed as a fragment into `d`, `html` is accepted; the stray stack read (the oracle that fails) is not
  reached -/
  accepted : ∃ d1, parseExtra (fun _ => .ub .oobIndex) html d = .ok ⟨true, d1⟩
  nonempty : F ≠ []

/-- A leading text of `F` is merged into the text node `k` that precedes the insertion point; `F1` is left. -/
def MergeFirst (d d' : Dom) (k : Nat) (F F1 : List Tree) : Prop :=
  (∃ tk tn, textOf d k = some tk ∧ F = .text tn :: F1 ∧ textOf d' k = some (tk ++ [32] ++ tn) ∧
    pairs d' k = pairs d k ∧ bools d' k = bools d k) ∨
  ((∀ tk tn F', textOf d k = some tk → F ≠ .text tn :: F') ∧ F1 = F ∧ SameNode d d' k)

/-- A trailing text of `F` is merged into the text node `k` that follows the insertion point; `F1` is left. -/
def MergeLast (d d' : Dom) (k : Nat) (F F1 : List Tree) : Prop :=
  (∃ tk tn, textOf d k = some tk ∧ F = F1 ++ [.text tn] ∧ textOf d' k = some (tn ++ [32] ++ tk) ∧
    pairs d' k = pairs d k ∧ bools d' k = bools d k) ∨
  ((∀ tk tn F', textOf d k = some tk → F ≠ F' ++ [.text tn]) ∧ F1 = F ∧ SameNode d d' k)

end Flo.Spec
