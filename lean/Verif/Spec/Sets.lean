import Verif.Model.Basic
/-!
# Vocabulary for the hash sets (C48, C49)
-/
namespace Flo.Spec

/-- Calling an insertion function for the elements of a list, one after the other. -/
def runInserts {α β : Type} (insert : α → β → Out β) : List α → β → Out β
  | [], m => .ok m
  | v :: vs, m => do
    let m ← insert v m
    runInserts insert vs m

/-- How many different elements a list has. -/
def distinct {α : Type} [DecidableEq α] : List α → Nat
  | [] => 0
  | v :: vs => (if v ∈ vs then 0 else 1) + distinct vs

/-- What the fixed-size string set counts as used after inserting the strings `ss`: every different non-empty
string once, and the empty string every time it is inserted. -/
def usedSlots (ss : List Str) : Nat := distinct (ss.filter (· ≠ [])) + ss.count []

end Flo.Spec
