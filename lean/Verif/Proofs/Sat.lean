import Verif.Model.Basic
/-!
# Showing that a concrete run returns
-/
namespace Flo

/-- The run returns a value that passes the test. -/
def okAnd {α : Type} (x : Out α) (p : α → Bool) : Bool :=
  match x with
  | .ok a => p a
  | _ => false

theorem okAnd_ex {α : Type} {x : Out α} {p : α → Bool} (h : okAnd x p = true) : ∃ a, x = .ok a ∧ p a = true := by
  cases x with
  | ok a => exact ⟨a, rfl, h⟩
  | _ => cases h

/-- The run returns `some` value that passes the test. -/
def someAnd {α : Type} (x : Out (Option α)) (p : α → Bool) : Bool :=
  match x with
  | .ok (some a) => p a
  | _ => false

theorem someAnd_ex {α : Type} {x : Out (Option α)} {p : α → Bool} (h : someAnd x p = true) :
    ∃ a, x = .ok (some a) ∧ p a = true := by
  match x, h with
  | .ok (some a), h => exact ⟨a, rfl, h⟩
  | .ok none, h => cases h
  | .longjmp, h => cases h
  | .ub _, h => cases h
  | .hang, h => cases h

/-- Did the call take the failure exit? -/
def jumps {α : Type} : Out α → Bool
  | .longjmp => true
  | _ => false

end Flo
