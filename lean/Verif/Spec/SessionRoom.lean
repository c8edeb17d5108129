import Verif.Spec.MemSession
import Verif.Spec.PageRefuse
/-!
# Memory for a whole session (C107)

`n` is the length of the source, `N` the number of calls, `S` the bytes of all the strings of the calls with one more for each.
-/
namespace Flo.Spec

/-- The bytes of the strings of all the calls, one more for each string. -/
def sizes (ops : List (MOp × (Nat → Bool))) : Int := (ops.map fun o => o.1.size).sum

/-- Memory that is enough for `N` calls on a DOM of measure `b`, if no more than `X` siblings are ever recorded. -/
def callsRoom (b X : Int) (N : Nat) (S : Int) : Int :=
  (N : Int) * (3 * (b + (N : Int) * (24 * X + 400) + 400 * S) + 1000) + 1000 * S

/-- Memory that is enough for a session. -/
def sessionRoom (n : Int) (N : Nat) (S : Int) : Int := 840 + 320 * n + callsRoom (840 + 320 * n) (n + S) N S

end Flo.Spec
