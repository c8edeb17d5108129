import Verif.Proofs.QueryKeep
import Verif.Props.Query
/-!
# Names are never forgotten (C77)
-/
namespace Flo
open Spec

/-- C77: an operation leaves every name in its table, with the number it has. -/
theorem C77_names_kept (d d' : Dom) (h : Reachable d) (junk : Nat → Out Bool) (hj : Reads junk) (op : Op) (ha : Allowed junk d op)
    (hr : runOp junk op d = .ok d') (k : Str) :
    (d.tagMap.contains k ≠ 0 → d'.tagMap.contains k = d.tagMap.contains k) ∧
    (d.boolMap.contains k ≠ 0 → d'.boolMap.contains k = d.boolMap.contains k) ∧
    (d.keyMap.contains k ≠ 0 → d'.keyMap.contains k = d.keyMap.contains k) ∧
    (d.valMap.contains k ≠ 0 → d'.valMap.contains k = d.valMap.contains k) := by
  have hK := (runOp_grow hj op d d' hr).keeps (reach_domI h).1.names (reach_domI (.edited hj h ha hr)).1.names
  exact ⟨hK.tag k, hK.bool k, hK.key k, hK.val k⟩

/-- C77: a query that was answered before an operation is answered after it; one that was refused for a reason other than an
unknown name is refused for the same reason. -/
theorem C77_query_kept (d d' : Dom) (h : Reachable d) (junk : Nat → Out Bool) (hj : Reads junk) (op : Op) (ha : Allowed junk d op)
    (hr : runOp junk op d = .ok d') (pun pun' : Nat → Nat) (css : Str) :
    (∀ L, querySelectorAll pun css d = .ok (.go L) → ∃ L', querySelectorAll pun' css d' = .ok (.go L')) ∧
    (∀ st, st ≠ .notSeenBefore → querySelectorAll pun css d = .ok (.fail st) → querySelectorAll pun' css d' = .ok (.fail st)) := by
  have hd := (reach_domI h).1
  have hd' := (reach_domI (.edited hj h ha hr)).1
  have hK := (runOp_grow hj op d d' hr).keeps hd.names hd'.names
  have e := querySelectorAll_eval hd pun css
  have e' := querySelectorAll_eval hd' pun' css
  constructor
  · intro L hL
    rcases e with ⟨st, _, e2⟩ | ⟨e1, _⟩
    · rw [hL] at e2; cases e2
    · have := firstFail_keep hK (ps := splitComma css) (by rw [e1]; simp)
      rw [e1] at this
      rcases e' with ⟨st, f1, _⟩ | ⟨_, L', f2, _⟩
      · rw [this] at f1; cases f1
      · exact ⟨L', f2⟩
  · intro st hst hL
    rcases e with ⟨st', e1, e2⟩ | ⟨_, L, e2, _⟩
    · rw [hL] at e2; cases e2
      have := firstFail_keep hK (ps := splitComma css) (by rw [e1]; simpa using hst)
      rw [e1] at this
      rcases e' with ⟨st', f1, f2⟩ | ⟨f1, _⟩
      · rw [this] at f1; cases f1; exact f2
      · rw [this] at f1; cases f1
    · rw [hL] at e2; cases e2

/-- A case: the query keeps its answer although every element it could mean is gone, and `[` is refused as before. -/
example : ∃ d d', createDom b!"<div><p k=v></p></div>" = .ok (some d) ∧ Allowed (fun _ => .ok false) d (.removeNode 3) ∧
    runOp (fun _ => .ok false) (.removeNode 3) d = .ok d' ∧
    decide (querySelectorAll (fun _ => 0) b!"div > p" d = .ok (.go [3]) ∧ querySelectorAll (fun _ => 0) b!"div > p" d' = .ok (.go []) ∧
      querySelectorAll (fun _ => 0) b!"[" d = querySelectorAll (fun _ => 0) b!"[" d' ∧
      querySelectorAll (fun _ => 0) b!"q" d' = .ok (.fail .notSeenBefore)) = true := by
  obtain ⟨d, h1, h2⟩ := someAnd_ex (x := createDom b!"<div><p k=v></p></div>")
    (p := fun d => decide (kids d 2 = [3]) && okAnd (runOp (fun _ => .ok false) (.removeNode 3) d) (fun d' =>
      decide (querySelectorAll (fun _ => 0) b!"div > p" d = .ok (.go [3]) ∧ querySelectorAll (fun _ => 0) b!"div > p" d' = .ok (.go []) ∧
      querySelectorAll (fun _ => 0) b!"[" d = querySelectorAll (fun _ => 0) b!"[" d' ∧
      querySelectorAll (fun _ => 0) b!"q" d' = .ok (.fail .notSeenBefore)))) (by decide +kernel)
  rw [Bool.and_eq_true] at h2
  obtain ⟨r, h3, h4⟩ := okAnd_ex h2.2
  exact ⟨d, r, h1, ⟨2, by rw [of_decide_eq_true h2.1]; simp⟩, h3, h4⟩

end Flo
