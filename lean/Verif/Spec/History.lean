import Verif.Model.Edit
import Verif.Model.Compare
import Verif.Spec.Edit
import Verif.Spec.Store
/-!
# Histories of DOM operations

`Reachable d`: `d` was obtained by parsing a document and then calling mutating functions of the API (and duplicating
the DOM), each with arguments that satisfy its documented or obvious preconditions (`Allowed`), and each call returned.
-/
namespace Flo.Spec

/-- The mutating functions of the API. -/
inductive Op
  | attr (op : AttrOp)
  | addText (n : Nat) (text : Str) (isAppend : Bool)
  | setTag (tag : Str) (n : Nat) (isPaired : Bool)
  | setText (n : Nat) (text : Str)
  | removeNode (n : Nat)
  | removeChildren (n : Nat)
  | appendDoc (p : Nat) (doc : DocNode)
  | appendText (p : Nat) (text : Str)
  | appendHTML (p : Nat) (html : Str)
  | prependDoc (p : Nat) (doc : DocNode)
  | prependText (p : Nat) (text : Str)
  | prependHTML (p : Nat) (html : Str)
  | replaceDoc (n : Nat) (doc : DocNode)
  | replaceText (n : Nat) (text : Str)
  | replaceHTML (n : Nat) (html : Str)

/-- Calling an attribute function. -/
def runAttr (op : AttrOp) (d : Dom) : Out Dom :=
  match op with
  | .add n k v => addProperty n k v d
  | .addBool n b => addBoolProperty n b d
  | .set n k v => do
    let (_, d) ← setPropertyValue n k v d
    .ok d
  | .remove n k => .ok (removeProperty n k d)
  | .removeBool n b => .ok (removeBoolProperty n b d)

/-- Forget the value an operation returns. -/
def dropValue (x : Out (Nat × Dom)) : Out Dom := do
  let (_, d) ← x
  .ok d

/-- Calling a mutating function; `junk` is what the fragment parser reads outside its nesting stack. -/
def runOp (junk : Nat → Out Bool) (op : Op) (d : Dom) : Out Dom :=
  match op with
  | .attr op => runAttr op d
  | .addText n t a => addTextToTextNode n t a d
  | .setTag t n p => Flo.setTag t n p d
  | .setText n t => setTextContent n t d
  | .removeNode n => Flo.removeNode n d
  | .removeChildren n => Flo.removeChildren n d
  | .appendDoc p doc => dropValue (appendDocumentNode p doc d)
  | .appendText p t => dropValue (appendTextNode p t d)
  | .appendHTML p h => dropValue (Flo.appendHTML junk p h d)
  | .prependDoc p doc => dropValue (prependDocumentNode p doc d)
  | .prependText p t => dropValue (prependTextNode p t d)
  | .prependHTML p h => dropValue (Flo.prependHTML junk p h d)
  | .replaceDoc n doc => dropValue (replaceWithDocumentNode n doc d)
  | .replaceText n t => dropValue (replaceWithTextNode n t d)
  | .replaceHTML n h => dropValue (replaceWithHTML junk n h d)

/-- `n` is the identifier of a node that was created (the root included). -/
def IsNode (d : Dom) (n : Nat) : Prop := n ≠ 0 ∧ n < d.nodes.length

/-- `n` is a child of some node. -/
def HasParent (d : Dom) (n : Nat) : Prop := ∃ p, n ∈ kids d p

/-- The top-level nodes a fragment parse has made: the first new identifier and its following siblings. -/
def fragTop (d : Dom) (r : ParseRes) : List Nat := chainFrom r.dom r.dom.nodes.length d.nodes.length

/-- The fragment contains at least one node (or its parse is refused). -/
def NonEmptyFrag (junk : Nat → Out Bool) (html : Str) (d : Dom) : Prop :=
  ∀ r, parseExtra junk html d = .ok r → r.ok = true → d.nodes.length < r.dom.nodes.length

/-- The two situations in which `replaceWithHTMLFromString` is not safe (see C27): a single text that can only
be merged with the next sibling while there is no previous one, and two adjacent texts that are both merged. -/
def ReplaceSafe (junk : Nat → Out Bool) (n : Nat) (html : Str) (d : Dom) : Prop :=
  ∀ r, parseExtra junk html d = .ok r → r.ok = true →
    (∀ a, fragTop d r = [a] → getPrevious n d = 0 → textOf r.dom a = none ∨ textOf d (getNext n d) = none) ∧
    (∀ a b, fragTop d r = [a, b] → textOf r.dom a = none ∨ textOf r.dom b = none ∨
      textOf d (getPrevious n d) = none ∨ textOf d (getNext n d) = none)

/-- Preconditions. -/
def Allowed (junk : Nat → Out Bool) (d : Dom) : Op → Prop
  | .attr op => IsNode d op.node
  | .addText n _ _ => ∃ t, textOf d n = some t
  | .setTag _ n _ => typeOf d n = some .document
  | .setText n _ => IsNode d n
  | .removeNode n => HasParent d n
  | .removeChildren n => IsNode d n
  | .appendDoc p _ => IsNode d p
  | .appendText p _ => IsNode d p
  | .appendHTML p h => IsNode d p ∧ NonEmptyFrag junk h d
  | .prependDoc p _ => IsNode d p
  | .prependText p _ => IsNode d p
  | .prependHTML p h => IsNode d p ∧ NonEmptyFrag junk h d
  | .replaceDoc n _ => HasParent d n
  | .replaceText n _ => HasParent d n
  | .replaceHTML n h => HasParent d n ∧ NonEmptyFrag junk h d ∧ ReplaceSafe junk n h d

/-- What the read outside the nesting stack may yield: some answer. -/
def Reads (junk : Nat → Out Bool) : Prop := ∀ i, ∃ b, junk i = .ok b

/-- DOMs a program can hold. -/
inductive Reachable : Dom → Prop
  | parsed {s : Str} {d : Dom} : createDom s = .ok (some d) → Reachable d
  | edited {junk : Nat → Out Bool} {op : Op} {d d' : Dom} : Reads junk → Reachable d → Allowed junk d op →
      runOp junk op d = .ok d' → Reachable d'
  | duplicated {d d' : Dom} : Reachable d → duplicateDom d = .ok d' → Reachable d'

end Flo.Spec
