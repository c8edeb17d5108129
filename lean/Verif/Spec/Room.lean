import Verif.Spec.History
/-!
# Room for more nodes and names

Node and name identifiers are 16 bits wide.  `map.identity` is the number of different names handed out so far (C11).
-/
namespace Flo.Spec

/-- Room for `k` more attribute names and values. -/
structure RoomA (d : Dom) (k : Nat) : Prop where
  bool : d.boolMap.identity + k ≤ 65535
  key : d.keyMap.identity + k ≤ 65535
  val : d.valMap.identity + k ≤ 65535

/-- Room for `k` more nodes and names of every kind. -/
structure Room (d : Dom) (k : Nat) : Prop where
  nodes : d.nodes.length + k ≤ 65535
  tag : d.tagMap.identity + k ≤ 65535
  attrs : RoomA d k

/-- What creating an element can use up of one kind of identifier: one node, one tag name, its boolean attributes, its
attributes. -/
def docCost (doc : DocNode) : Nat := max 1 (max doc.boolProps.length doc.props.length)

/-- What an attribute function can use up. -/
def attrCost : AttrOp → Nat
  | .add _ _ _ | .addBool _ _ | .set _ _ _ => 1
  | .remove _ _ | .removeBool _ _ => 0

/-- What a mutating function can use up of one kind of identifier: nothing if it creates no node and no name, the
number of bytes if it parses a fragment. -/
def Op.cost : Op → Nat
  | .attr op => attrCost op
  | .addText _ _ _ | .removeNode _ | .removeChildren _ => 0
  | .setTag _ _ _ | .setText _ _ | .appendText _ _ | .prependText _ _ | .replaceText _ _ => 1
  | .appendDoc _ doc | .prependDoc _ doc | .replaceDoc _ doc => docCost doc
  | .appendHTML _ html | .prependHTML _ html | .replaceHTML _ html => html.length

/-- Calling mutating functions one after the other. -/
def runOps (junk : Nat → Out Bool) : List Op → Dom → Out Dom
  | [], d => .ok d
  | op :: ops, d => do
    let d ← runOp junk op d
    runOps junk ops d

/-- The operations are all allowed when their turn comes. -/
def AllAllowed (junk : Nat → Out Bool) : List Op → Dom → Prop
  | [], _ => True
  | op :: ops, d => Allowed junk d op ∧ ∀ d', runOp junk op d = .ok d' → AllAllowed junk ops d'

end Flo.Spec
