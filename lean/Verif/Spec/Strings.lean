import Verif.Model.Strings
import Verif.Spec.Memory
/-!
# What the string helpers promise
-/
namespace Flo.Spec

/-- The bytes of a string in memory. -/
def View.bytes (v : View) (mem : Int → UInt8) : List UInt8 := bytesAt mem v.buf v.len.toNat

/-- `i` is the first position at or after `start` that holds `ch`; -1 if there is none. -/
def IsFirst (s : Str) (ch : UInt8) (start : Nat) (i : Int) : Prop :=
  (i = -1 ∧ ∀ j : Nat, start ≤ j → s[j]? ≠ some ch) ∨
  (∃ k : Nat, i = k ∧ start ≤ k ∧ s[k]? = some ch ∧ ∀ j : Nat, start ≤ j → j < k → s[j]? ≠ some ch)

/-- `i` is the last position that holds `ch`; -1 if there is none. -/
def IsLast (s : Str) (ch : UInt8) (i : Int) : Prop :=
  (i = -1 ∧ ∀ j : Nat, s[j]? ≠ some ch) ∨
  (∃ k : Nat, i = k ∧ s[k]? = some ch ∧ ∀ j : Nat, k < j → s[j]? ≠ some ch)

end Flo.Spec
