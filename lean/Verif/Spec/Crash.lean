import Verif.Model.Crash
import Verif.Model.Write
import Verif.Spec.History
/-!
# A DOM after a call that failed (C125–C130)

`SameReadings d d'`: a program that holds `d'` instead of `d` reads the same about every node of `d`, and prints the same text.
-/
namespace Flo.Spec

structure SameReadings (d d' : Dom) : Prop where
  /-- kind, text, tag name and attributes of every node -/
  node : ∀ n, n ≠ 0 → n < d.nodes.length → SameNode d d' n
  first : ∀ n, n ≠ 0 → n < d.nodes.length → getFirstChild n d' = getFirstChild n d
  next : ∀ n, n ≠ 0 → n < d.nodes.length → getNext n d' = getNext n d
  previous : ∀ n, n ≠ 0 → n < d.nodes.length → getPrevious n d' = getPrevious n d
  parent : ∀ n, n ≠ 0 → n < d.nodes.length → getParent n d' = getParent n d
  hasKey : ∀ n key, n ≠ 0 → n < d.nodes.length → hasPropKey n key d' = hasPropKey n key d
  hasValue : ∀ n value, n ≠ 0 → n < d.nodes.length → hasPropValue n value d' = hasPropValue n value d
  hasPair : ∀ n key value, n ≠ 0 → n < d.nodes.length → hasProperty n key value d' = hasProperty n key value d
  hasBool : ∀ n name, n ≠ 0 → n < d.nodes.length → hasBoolProp n name d' = hasBoolProp n name d
  value : ∀ n key, n ≠ 0 → n < d.nodes.length → getValue n key d' = getValue n key d
  print : ∀ t, printHTML d = .ok t → printHTML d' = .ok t

/-- Calling a mutating function with memory for `k` more allocations: the program it runs (`runOp` is the same with memory enough). -/
def runAttrC : AttrOp → CM Unit
  | .add n k v => addPropertyC n k v
  | .addBool n b => addBoolPropertyC n b
  | .set n k v => do
    let _ ← setPropertyValueC n k v
    pure ()
  | .remove n k => CM.write (removeProperty n k)
  | .removeBool n b => CM.write (removeBoolProperty n b)

/-- Forget the value an operation returns. -/
def dropC (m : CM Nat) : CM Unit := do
  let _ ← m
  pure ()

def runOpC (junk : Nat → Out Bool) : Op → CM Unit
  | .attr op => runAttrC op
  | .addText n t a => addTextToTextNodeC n t a
  | .setTag t n p => setTagC t n p
  | .setText n t => setTextContentC n t
  | .removeNode n => CM.change (removeNode n)
  | .removeChildren n => CM.change (removeChildren n)
  | .appendDoc p doc => dropC (appendDocumentNodeC p doc)
  | .appendText p t => dropC (appendTextNodeC p t)
  | .appendHTML p h => dropC (appendHTMLC junk p h)
  | .prependDoc p doc => dropC (prependDocumentNodeC p doc)
  | .prependText p t => dropC (prependTextNodeC p t)
  | .prependHTML p h => dropC (prependHTMLC junk p h)
  | .replaceDoc n doc => dropC (replaceWithDocumentNodeC n doc)
  | .replaceText n t => dropC (replaceWithTextNodeC n t)
  | .replaceHTML n h => dropC (replaceWithHTMLC junk n h)

/-- The call leaves through the failure exit with the DOM `d'`, for some amount of memory. -/
def Fails (junk : Nat → Out Bool) (op : Op) (d d' : Dom) : Prop := ∃ k, runOpC junk op k d = .fail d'

/-- The two DOMs differ at most in their tables of parents. -/
def SameButParents (d d' : Dom) : Prop := d' = { d with pc := d'.pc }

/-- The node `n` is as it was, except that a text may have become longer at either end. -/
def SameOrLonger (d d' : Dom) (n : Nat) : Prop :=
  SameNode d d' n ∨ ∃ t before after, textOf d n = some t ∧ textOf d' n = some (before ++ t ++ after) ∧ pairs d' n = pairs d n ∧ bools d' n = bools d n

/-- What a failing edit of the children of `p` may have done (C130): every old node is as it was, or a longer text; every other old node has the
children it had; the children of `p` satisfy `opt`. -/
structure OnlyKids (d d' : Dom) (p : Nat) (opt : List Nat → Prop) : Prop where
  node : ∀ n, n ≠ 0 → n < d.nodes.length → SameOrLonger d d' n
  others : ∀ q, q ≠ 0 → q ≠ p → q < d.nodes.length → kids d' q = kids d q
  here : opt (kids d' p)

/-- Every number that was given to a name has its name: no table of numbers (the string maps of a DOM) is ahead of its table of names. -/
structure WholeNames (d : Dom) : Prop where
  tag : d.tagReg.length = d.tagMap.identity + 1
  bool : d.boolReg.length = d.boolMap.identity + 1
  key : d.keyReg.length = d.keyMap.identity + 1
  val : d.valReg.length = d.valMap.identity + 1

end Flo.Spec
