import Verif.Proofs.History
/-!
# Reachable DOMs in terms of the public child lists
-/
namespace Flo
open Spec

theorem Post.cases {α : Type} {P : α → Prop} {x : Out α} (h : Post NoUB P x) :
    x = .longjmp ∨ ∃ a, x = .ok a ∧ P a := by
  cases x with
  | ok a => exact Or.inr ⟨a, rfl, h⟩
  | longjmp => exact Or.inl rfl
  | ub w => exact False.elim h
  | hang => exact False.elim h

theorem DomI.kidsFun {d : Dom} {ch : Nat → List Nat} (h : DomI d ch) (h0 : ch 0 = []) : kids d = ch := by
  funext q
  by_cases hq : q = 0
  · subst hq; rw [h.linked.kids_zero, h0]
  · exact h.linked.kids_eq hq

theorem reach_domI {d : Dom} (h : Reachable d) : DomI d (kids d) ∧ kids d 0 = [] := by
  obtain ⟨ch, h1, h0⟩ := Reachable.inv h
  rw [h1.kidsFun h0]; exact ⟨h1, h0⟩

theorem hasParent_split {d : Dom} (h : Reachable d) {n : Nat} (hp : HasParent d n) :
    ∃ p l₁ l₂, p ≠ 0 ∧ kids d p = l₁ ++ n :: l₂ := HasParent.get (reach_domI h).1 hp

theorem preorder_kids {d : Dom} (h : DomI d (kids d)) {p : Nat} (hp : IsNode d p) :
    preorder d p = pre d.nodes.length (kids d) p := preorder_eq h.linked hp.1 hp.2

end Flo
