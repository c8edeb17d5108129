import Verif.Spec.PageValue
/-!
# A session in memory (C105)

A program that parses a source in memory and then calls mutating functions whose strings are in memory.
-/
namespace Flo.Spec

/-- Calls on the DOM in memory one after the other, with the values they return. -/
def memEach : List (MOp × (Nat → Bool)) → MDom → Arena → Out (List Nat × MDom × Arena)
  | [], M, a => .ok ([], M, a)
  | o :: ops, M, a => do
    let (v, M, a) ← memCall (fun i => .ok (o.2 i)) o.1 M a
    let (vs, M, a) ← memEach ops M a
    .ok (v :: vs, M, a)

/-- `flo_html_createDom`, then the calls. -/
def memSession (src : MStr) (ops : List (MOp × (Nat → Bool))) (a : Arena) : Out (Option (List Nat × MDom × Arena)) := do
  let (q, a) ← memCreateDom src a
  match q with
  | none => .ok none
  | some M => do
    let r ← memEach ops M a
    .ok (some r)

/-- The operations meant by the calls. -/
def readAll (mem : Int → UInt8) (ops : List (MOp × (Nat → Bool))) : List (Op × (Nat → Bool)) := ops.map fun o => (o.1.read mem, o.2)

end Flo.Spec
