import Verif.Proofs.CompareTrans
import Verif.Props.Compare
/-!
# Equality is transitive, and equal documents cannot be told apart by comparing them with others (C120)
-/
namespace Flo
open Spec

/-- Two documents that are reported equal behave the same in every comparison with a third one: both comparisons take the failure
handler, or both answer with the same status and the same node of the third document. -/
theorem C120_congruence (d₁ d₂ d₃ : Dom) (h₁ : Reachable d₁) (h₂ : Reachable d₂) (h₃ : Reachable d₃) (r : CResult)
    (h : equals d₁ d₂ = .ok r) (hs : r.status = .success) :
    (equals d₁ d₃ = .longjmp ∧ equals d₂ d₃ = .longjmp) ∨
    ∃ st x y z, equals d₁ d₃ = .ok ⟨st, x, z⟩ ∧ equals d₂ d₃ = .ok ⟨st, y, z⟩ := by
  have := Trans.equals_congr (reach_domI h₁).1 (reach_domI h₂).1 (reach_domI h₃).1 h hs
  generalize e1 : equals d₁ d₃ = o at this
  generalize e2 : equals d₂ d₃ = o' at this
  cases this with
  | ok => exact .inr ⟨_, _, _, _, rfl, rfl⟩
  | longjmp => exact .inl ⟨rfl, rfl⟩
  | ub =>
    rcases C40_symmetric d₁ d₃ h₁ h₃ with ⟨r, e, _⟩ | ⟨e, _⟩
    · rw [e] at e1; cases e1
    · rw [e] at e1; cases e1
  | hang =>
    rcases C40_symmetric d₁ d₃ h₁ h₃ with ⟨r, e, _⟩ | ⟨e, _⟩
    · rw [e] at e1; cases e1
    · rw [e] at e1; cases e1

/-- Equality is transitive; the third comparison does not even take the failure handler. -/
theorem C120_transitive (d₁ d₂ d₃ : Dom) (h₁ : Reachable d₁) (h₂ : Reachable d₂) (h₃ : Reachable d₃) (r r' : CResult)
    (h : equals d₁ d₂ = .ok r) (hs : r.status = .success) (h' : equals d₂ d₃ = .ok r') (hs' : r'.status = .success) :
    ∃ r'', equals d₁ d₃ = .ok r'' ∧ r''.status = .success := by
  rcases C120_congruence d₁ d₂ d₃ h₁ h₂ h₃ r h hs with ⟨_, e⟩ | ⟨st, x, y, z, e1, e2⟩
  · rw [h'] at e; cases e
  · rw [h'] at e2
    cases e2
    exact ⟨_, e1, hs'⟩

/-- non-vacuity: three documents with different sources, the first two reported equal, the third different in its last node. -/
example : ∃ d e g, createDom b!"<p a=1 b=2>x</p><i>t</i>" = .ok (some d) ∧ createDom b!"<p  b=2 a=1>x</p> <i>t</i>" = .ok (some e) ∧
    createDom b!"<p a=1 b=2>x</p><i>u</i>" = .ok (some g) ∧ equals d e = .ok ⟨.success, 0, 0⟩ ∧
    equals d g = .ok ⟨.differentContent, 5, 5⟩ ∧ equals e g = .ok ⟨.differentContent, 5, 5⟩ := by
  obtain ⟨d, h1, h2⟩ := someAnd_ex (x := createDom b!"<p a=1 b=2>x</p><i>t</i>") (p := fun d =>
    someAnd (createDom b!"<p  b=2 a=1>x</p> <i>t</i>") fun e => someAnd (createDom b!"<p a=1 b=2>x</p><i>u</i>") fun g =>
      decide (equals d e = .ok ⟨.success, 0, 0⟩ ∧ equals d g = .ok ⟨.differentContent, 5, 5⟩ ∧ equals e g = .ok ⟨.differentContent, 5, 5⟩))
    (by decide +kernel)
  obtain ⟨e, h3, h4⟩ := someAnd_ex h2
  obtain ⟨g, h5, h6⟩ := someAnd_ex h4
  obtain ⟨a, b, c⟩ := of_decide_eq_true h6
  exact ⟨d, e, g, h1, h3, h5, a, b, c⟩

end Flo
