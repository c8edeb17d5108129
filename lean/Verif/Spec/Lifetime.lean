import Verif.Spec.Room
/-!
# What a call spends (C119)
-/
namespace Flo.Spec

/-- Calls that make a node: an element or a text handed over, wherever it is put. -/
def Op.makesNode : Op → Bool
  | .setText _ _ => true
  | .appendDoc _ _ => true
  | .appendText _ _ => true
  | .prependDoc _ _ => true
  | .prependText _ _ => true
  | .replaceDoc _ _ => true
  | .replaceText _ _ => true
  | _ => false

/-- `n` times: an element is appended to the root and removed again; the first gets identifier `k`. -/
def addRemove (doc : DocNode) : Nat → Nat → List Op
  | _, 0 => []
  | k, n + 1 => .appendDoc rootID doc :: .removeNode k :: addRemove doc (k + 1) n

end Flo.Spec
