import Verif.Spec.Inject
/-!
# HTML as a way of handing over nodes (C116)

A node can be handed to the editing functions as a structure, a text as a string of its own, and both as HTML.
-/
namespace Flo.Spec

/-- The HTML of a node that is handed over as a structure. -/
def docHTML (doc : DocNode) : Str := (Tree.elem doc.tag doc.props doc.boolProps []).print fun _ => doc.isPaired

/-- The node and its HTML say the same: harmless strings; with end tag, not a void element; without, its `/>` does not follow a
boolean attribute. -/
def DocPlain (doc : DocNode) : Prop :=
  (Label.elem doc.tag doc.props doc.boolProps).Harmless ∧ (doc.isPaired = true → ¬NeverContent doc.tag) ∧
  (doc.isPaired = false → doc.tag = b!"!DOCTYPE" ∨ doc.boolProps = [] ∨ doc.props ≠ [])

/-- The same call with HTML instead of a structure or a text. -/
def Op.viaHTML : Op → Option Op
  | .appendDoc p doc => some (.appendHTML p (docHTML doc))
  | .prependDoc p doc => some (.prependHTML p (docHTML doc))
  | .replaceDoc n doc => some (.replaceHTML n (docHTML doc))
  | .appendText p t => some (.appendHTML p t)
  | .prependText p t => some (.prependHTML p t)
  | .replaceText n t => some (.replaceHTML n t)
  | _ => none

/-- What is handed over reads the same as HTML.  A text in place of a first child, with a text behind it, is left out (C27). -/
def Op.Plain (pg : Page) : Op → Prop
  | .appendDoc _ doc | .prependDoc _ doc | .replaceDoc _ doc => DocPlain doc
  | .appendText _ t | .prependText _ t => Stretch t
  | .replaceText n t => Stretch t ∧ ∀ x, pg.root.siblings n = some x → ¬(x.1 = [] ∧ (x.2.head?.any PTree.isText) = true)
  | _ => False

/-- The functions whose value is the number of the new node even if that node was merged away (C20, C26). -/
def Op.ownNumber : Op → Prop
  | .prependText _ _ | .replaceText _ _ => True
  | _ => False

/-- The names of the elements of some trees with the forms they are printed in. -/
def namesOf (paired : Str → Bool) (ts : List Tree) : List (Str × Bool) :=
  (elementsOf (labelsAll ts)).map fun e => (e.1, paired e.1)

end Flo.Spec
