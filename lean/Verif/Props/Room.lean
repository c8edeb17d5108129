import Verif.Proofs.EditRoom
import Verif.Props.Nav
/-!
# Edits fail only for lack of identifiers (C72)

`Op.cost` (in `Spec/Room.lean`) is what a mutating function can use up; `Room d k` says that the DOM can take `k` more
nodes and `k` more names of every kind.
-/
namespace Flo
open Spec

/-- An edit whose preconditions hold and for which there is room returns normally, provided its fragment (if it takes
one) does not end in a quote (C02). -/
theorem C72_edits_succeed (d : Dom) (h : Reachable d) (junk : Nat → Out Bool) (hj : Reads junk) (op : Op)
    (ha : Allowed junk d op) (hr : Room d op.cost) (hq : ∀ t, Op.html op ≠ t ++ [34] ∧ Op.html op ≠ t ++ [39]) :
    ∃ d', runOp junk op d = .ok d' ∧ Reachable d' ∧ ∀ k, Room d (op.cost + k) → Room d' k := by
  have h1 := (runOp_room (k := 0) hj op (hr.le (by omega))).ne
  obtain ⟨h2, h3⟩ := C14_edits_are_safe_partial d h junk hj op ha
  cases hx : runOp junk op d with
  | ok d' => exact ⟨d', rfl, .edited hj h ha hx, fun k hk => (runOp_room hj op hk).elim hx⟩
  | longjmp => exact absurd hx h1
  | hang => exact absurd hx h2
  | ub w =>
    obtain ⟨_, t, ht⟩ := h3 w hx
    rcases ht with ht | ht
    · exact absurd ht (hq t).1
    · exact absurd ht (hq t).2

theorem runOps_room {junk : Nat → Out Bool} (hj : Reads junk) : ∀ (ops : List Op) (d : Dom) (k : Nat),
    Room d ((ops.map Op.cost).sum + k) → NJ (fun d' => Room d' k) (runOps junk ops d) := by
  intro ops
  induction ops with
  | nil => intro d k h; exact h.le (by simp)
  | cons op ops ih =>
    intro d k h
    unfold runOps
    refine (runOp_room (k := (ops.map Op.cost).sum + k) hj op (h.le (by simp; omega))).bind (fun d1 _ h1 => ?_)
    exact ih d1 k h1

/-- A whole session never takes the failure exit for lack of identifiers when the document and what the edits add come
to at most 65533: parsing the document, and then any sequence of calls of mutating functions, on any nodes, in any
order. -/
theorem C72_sessions_last (s : Str) (ops : List Op) (junk : Nat → Out Bool) (hj : Reads junk)
    (h : s.length + (ops.map Op.cost).sum ≤ 65533) :
    createDom s ≠ .longjmp ∧ ∀ d, createDom s = .ok (some d) → runOps junk ops d ≠ .longjmp := by
  have h1 := createDom_room h
  refine ⟨h1.ne, fun d hd => ?_⟩
  exact (runOps_room (k := 0) hj ops d ((h1.elim hd d rfl).le (by omega))).ne

/-- If, besides, each call respects its preconditions and no fragment ends in a quote, the whole session succeeds. -/
theorem C72_sessions_succeed (s : Str) (ops : List Op) (junk : Nat → Out Bool) (hj : Reads junk)
    (h : s.length + (ops.map Op.cost).sum ≤ 65533) (d : Dom) (hd : createDom s = .ok (some d))
    (ha : AllAllowed junk ops d) (hq : ∀ op ∈ ops, ∀ t, Op.html op ≠ t ++ [34] ∧ Op.html op ≠ t ++ [39]) :
    ∃ d', runOps junk ops d = .ok d' ∧ Reachable d' := by
  have hr : Room d (ops.map Op.cost).sum := (createDom_room h).elim hd d rfl
  replace hd : Reachable d := .parsed hd
  clear h
  induction ops generalizing d with
  | nil => exact ⟨d, rfl, hd⟩
  | cons op ops ih =>
    rw [List.map_cons, List.sum_cons] at hr
    obtain ⟨d1, e1, e2, e3⟩ := C72_edits_succeed d hd junk hj op ha.1 (hr.le (by omega)) (hq op (by simp))
    obtain ⟨d', f1, f2⟩ := ih d1 (ha.2 d1 e1) (fun o ho => hq o (by simp [ho])) (e3 _ hr) e2
    exact ⟨d', by show (runOp junk op d >>= _) = _; rw [e1]; exact f1, f2⟩

/-- Non-vacuity: parsing, setting an attribute, appending an element and removing another. -/
example : ∃ d, createDom b!"<p><b></b>x</p>" = .ok (some d) ∧
    AllAllowed (fun _ => .ok false)
      [.attr (.add 2 b!"k" b!"v"), .appendDoc 1 ⟨b!"em", true, [b!"a"], []⟩, .removeNode 3] d := by
  obtain ⟨d, h, hd⟩ := someAnd_ex (x := createDom b!"<p><b></b>x</p>")
    (p := fun d => decide (2 < d.nodes.length) && okAnd (runOp (fun _ => .ok false) (.attr (.add 2 b!"k" b!"v")) d) (fun d1 =>
      decide (1 < d1.nodes.length) && okAnd (runOp (fun _ => .ok false) (.appendDoc 1 ⟨b!"em", true, [b!"a"], []⟩) d1) (fun d2 =>
        decide (3 ∈ kids d2 2)))) (by decide +kernel)
  rw [Bool.and_eq_true] at hd
  obtain ⟨hd1, hd2⟩ := hd
  obtain ⟨d1, e1, hd2⟩ := okAnd_ex hd2
  rw [Bool.and_eq_true] at hd2
  obtain ⟨hd2, hd3⟩ := hd2
  obtain ⟨d2, e2, hd3⟩ := okAnd_ex hd3
  refine ⟨d, h, ⟨by decide, of_decide_eq_true hd1⟩, fun d' e => ?_⟩
  rw [e1] at e; cases e
  refine ⟨⟨by decide, of_decide_eq_true hd2⟩, fun d' e => ?_⟩
  rw [e2] at e; cases e
  exact ⟨⟨2, of_decide_eq_true hd3⟩, fun _ _ => trivial⟩

end Flo
