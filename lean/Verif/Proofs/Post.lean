import Verif.Model.Basic
import Mathlib.Tactic.ByContra
import Mathlib.Tactic.SplitIfs
import Mathlib.Tactic.Tauto
import Mathlib.Data.List.Nodup
import Mathlib.Data.List.Infix
/-!
# A small Hoare logic for `Out`

`Post E P x`: the run `x` does not hang; if it returns, the result satisfies `P`; if it is undefined
behaviour, the reason satisfies `E`.
-/
namespace Flo

def Post {α : Type} (E : Why → Prop) (P : α → Prop) : Out α → Prop
  | .ok a => P a
  | .longjmp => True
  | .ub w => E w
  | .hang => False

namespace Post
variable {α β : Type} {E : Why → Prop}

@[simp] theorem ok {P : α → Prop} {a : α} : Post E P (.ok a) ↔ P a := Iff.rfl
@[simp] theorem longjmp {P : α → Prop} : Post E P (.longjmp) ↔ True := Iff.rfl
@[simp] theorem ub {P : α → Prop} {w : Why} : Post E P (.ub w) ↔ E w := Iff.rfl
@[simp] theorem hang {P : α → Prop} : Post E P (.hang) ↔ False := Iff.rfl

theorem bind {x : Out α} {f : α → Out β} {P : α → Prop} {Q : β → Prop}
    (hx : Post E P x) (hf : ∀ a, x = .ok a → P a → Post E Q (f a)) : Post E Q (x >>= f) := by
  cases x with
  | ok a => exact hf a rfl hx
  | longjmp => trivial
  | ub w => exact hx
  | hang => exact hx

theorem bindP {x : Out α} {f : α → Out β} {P : α → Prop} {Q : β → Prop}
    (hx : Post E P x) (hf : ∀ a, P a → Post E Q (f a)) : Post E Q (x >>= f) :=
  bind hx fun a _ h => hf a h

theorem mono {x : Out α} {P Q : α → Prop} (h : Post E P x) (hPQ : ∀ a, P a → Q a) : Post E Q x := by
  cases x with
  | ok a => exact hPQ a h
  | longjmp => trivial
  | ub w => exact h
  | hang => exact h

theorem monoE {x : Out α} {P : α → Prop} {E' : Why → Prop} (h : Post E P x) (hE : ∀ w, E w → E' w) :
    Post E' P x := by
  cases x with
  | ok a => exact h
  | longjmp => trivial
  | ub w => exact hE w h
  | hang => exact h

theorem and {x : Out α} {P Q : α → Prop} (h : Post E P x) (h' : Post E Q x) :
    Post E (fun a => P a ∧ Q a) x := by
  cases x with
  | ok a => exact ⟨h, h'⟩
  | longjmp => trivial
  | ub w => exact h
  | hang => exact h

theorem elim {x : Out α} {P : α → Prop} {a : α} (h : Post E P x) (hx : x = .ok a) : P a := by
  subst hx; exact h

theorem ne_hang {x : Out α} {P : α → Prop} (h : Post E P x) : x ≠ .hang := by
  rintro rfl; exact h

/-- Record the equation of the result. -/
theorem eqn {x : Out α} {P : α → Prop} (h : Post E P x) : Post E (fun a => x = .ok a ∧ P a) x := by
  cases x with
  | ok a => exact ⟨rfl, h⟩
  | longjmp => trivial
  | ub w => exact h
  | hang => exact h

theorem ite {c : Prop} [Decidable c] {x y : Out α} {P : α → Prop}
    (hx : c → Post E P x) (hy : ¬c → Post E P y) : Post E P (if c then x else y) := by
  split
  · exact hx ‹_›
  · exact hy ‹_›

end Post

/-- No undefined behaviour allowed. -/
def NoUB : Why → Prop := fun _ => False

/-- Any undefined behaviour allowed (partial correctness, up to termination). -/
def AnyUB : Why → Prop := fun _ => True

end Flo
