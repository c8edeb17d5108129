import Verif.Spec.Tree
import Verif.Spec.Attrs
/-!
# When two documents are the same (C39 - C41)
-/
namespace Flo.Spec

/-- Is the tag of element `n` registered as paired? -/
def pairedOf (d : Dom) (n : Nat) : Option Bool :=
  match d.nodes[n]? with
  | some ⟨.document, .tag t⟩ => (d.tagReg[t]?).map (·.2)
  | _ => none

/-- The two subtrees have the same shape, and nodes at corresponding places are related by `R`. -/
inductive SameTree (R : Nat → Nat → Prop) (d₁ d₂ : Dom) : Nat → Nat → Prop
  | node {a b : Nat} : R a b → (kids d₁ a).length = (kids d₂ b).length →
      (∀ (i x y : Nat), (kids d₁ a)[i]? = some x → (kids d₂ b)[i]? = some y → SameTree R d₁ d₂ x y) →
      SameTree R d₁ d₂ a b

/-- Same kind, text, tag, attributes (in the same order). -/
structure SameContent (d₁ d₂ : Dom) (a b : Nat) : Prop where
  type : typeOf d₁ a = typeOf d₂ b
  text : textOf d₁ a = textOf d₂ b
  tag : tagOf d₁ a = tagOf d₂ b
  paired : pairedOf d₁ a = pairedOf d₂ b
  bools : bools d₁ a = bools d₂ b
  pairs : pairs d₁ a = pairs d₂ b

/-- Same kind, text and tag; elements have the same set of boolean attributes, the same set of keys and the same
set of values (but perhaps not the same value for a key). -/
structure SimilarContent (d₁ d₂ : Dom) (a b : Nat) : Prop where
  type : typeOf d₁ a = typeOf d₂ b
  text : textOf d₁ a = textOf d₂ b
  tag : tagOf d₁ a = tagOf d₂ b
  paired : pairedOf d₁ a = pairedOf d₂ b
  bools : typeOf d₁ a = some .document → ∀ s, s ∈ bools d₁ a ↔ s ∈ bools d₂ b
  keys : typeOf d₁ a = some .document → ∀ s, s ∈ (pairs d₁ a).map (·.1) ↔ s ∈ (pairs d₂ b).map (·.1)
  values : typeOf d₁ a = some .document → ∀ s, s ∈ (pairs d₁ a).map (·.2) ↔ s ∈ (pairs d₂ b).map (·.2)

/-- More attributes than the comparison can hold. -/
def TooMany (d : Dom) (n : Nat) : Prop := 64 < (bools d n).length ∨ 64 < (pairs d n).length

end Flo.Spec
