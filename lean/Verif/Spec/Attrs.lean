import Verif.Model.Dom
/-!
# What a DOM says about one node: tag, attributes, text

Read off the node and attribute tables; C29 shows that the attribute API answers according to these.
-/
namespace Flo.Spec

/-- The (key, value) attributes of node `n`, oldest first. -/
def pairs (d : Dom) (n : Nat) : List (Str × Str) :=
  (d.props.filter (fun r => r.node == n)).map (fun r => (d.keyReg.getD r.key [], d.valReg.getD r.value []))

/-- The boolean attributes of node `n`, oldest first. -/
def bools (d : Dom) (n : Nat) : List Str :=
  (d.boolProps.filter (fun r => r.1 == n)).map (fun r => d.boolReg.getD r.2 [])

/-- The type of node `n`. -/
def typeOf (d : Dom) (n : Nat) : Option NodeType := d.nodes[n]?.map (·.type)

/-- The text of node `n`, if it is a text node. -/
def textOf (d : Dom) (n : Nat) : Option Str :=
  match d.nodes[n]? with
  | some ⟨.text, .text s⟩ => some s
  | _ => none

/-- The tag name of node `n`, if it is an element. -/
def tagOf (d : Dom) (n : Nat) : Option Str :=
  match d.nodes[n]? with
  | some ⟨.document, .tag t⟩ => (d.tagReg[t]?).map (·.1)
  | _ => none

end Flo.Spec
