import Verif.Spec.Tree
import Verif.Spec.Attrs
/-!
# Vocabulary for the effect of an edit
-/
namespace Flo.Spec

/-- Everything the DOM says about node `m` itself (type, text, tag, attributes) is the same in `d` and `d'`. -/
structure SameNode (d d' : Dom) (m : Nat) : Prop where
  type : typeOf d' m = typeOf d m
  text : textOf d' m = textOf d m
  tag : tagOf d' m = tagOf d m
  pairs : pairs d' m = pairs d m
  bools : bools d' m = bools d m

end Flo.Spec
