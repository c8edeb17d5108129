import Verif.Proofs.CrashQuery
import Verif.Props.Crash
/-!
# Queries after a failing call (C131)
-/
namespace Flo
open Spec Crash

/-- What a failing call that changes attributes, a text or a tag leaves behind: names. -/
theorem names_left (d : Dom) (junk : Nat → Out Bool) (op : Op) (hop : (∃ a, op = .attr a) ∨ (∃ n t e, op = .addText n t e) ∨
    ∃ t n p, op = .setTag t n p) (d' : Dom) (hf : Fails junk op d d') : NamesOnly d d' := by
  have hi := interning_names d
  have h0 := NamesOnly.rfl' d
  obtain ⟨k, e⟩ := hf
  rcases hop with ⟨a, rfl⟩ | ⟨n, t, b, rfl⟩ | ⟨t, n, p, rfl⟩
  · cases a with
    | add n key v => exact (addProperty_fail hi n key v).fails h0 e
    | addBool n b => exact (addBool_fail hi n b).fails h0 e
    | set n key v =>
      exact Tri.fails (m := runAttrC (.set n key v)) ((setValue_fail hi n key v).bind fun _ => Tri.pure (R := fun _ _ => True) fun _ _ => trivial) h0 e
    | remove n key => cases e
    | removeBool n b => cases e
  · exact (addText_fail hi n t b).fails h0 e
  · exact (setTag_fail hi t n p).fails h0 e

/-- **C131, calls that change one node.**  After a failing call that changes attributes, a text or a tag, every query is answered as before: the
same nodes in the same order, or the same error; only a query refused because it uses an unknown name may be answered now. -/
theorem C131_one_node (d : Dom) (junk : Nat → Out Bool) (op : Op) (hop : (∃ a, op = .attr a) ∨ (∃ n t e, op = .addText n t e) ∨
    ∃ t n p, op = .setTag t n p) (d' : Dom) (hf : Fails junk op d d') (pun : Nat → Nat) (css : Str)
    (hq : querySelectorAll pun css d ≠ .ok (.fail .notSeenBefore)) : querySelectorAll pun css d' = querySelectorAll pun css d :=
  ((names_left d junk op hop d' hf).query pun css).resolve_left hq

/-- A failing call and a query with an answer (C131): the hypotheses can be met. The last query was refused before the call. -/
example : ∃ d, Reachable d ∧ ∃ d', Fails crashJunk (.attr (.add 2 b!"id" b!"x")) d d' ∧
    querySelectorAll (fun _ => 0) b!"p > b" d = .ok (.go [3]) ∧ querySelectorAll (fun _ => 0) b!"p > b" d' = .ok (.go [3]) ∧
    querySelectorAll (fun _ => 0) b!"[id=x]" d = .ok (.fail .notSeenBefore) ∧ querySelectorAll (fun _ => 0) b!"[id=x]" d' = .ok (.go []) := by
  obtain ⟨d, hd, hp⟩ := someAnd_ex (x := createDom b!"<p><b></b></p>") (p := fun d =>
    decide (querySelectorAll (fun _ => 0) b!"p > b" d = .ok (.go [3]) ∧ querySelectorAll (fun _ => 0) b!"[id=x]" d = .ok (.fail .notSeenBefore)) &&
      failAnd (runOpC crashJunk (.attr (.add 2 b!"id" b!"x")) 4 d) (fun x => decide (querySelectorAll (fun _ => 0) b!"p > b" x = .ok (.go [3]) ∧
        querySelectorAll (fun _ => 0) b!"[id=x]" x = .ok (.go [])))) (by decide +kernel)
  rw [Bool.and_eq_true] at hp
  obtain ⟨x, f, p⟩ := failAnd_ex hp.2
  have h1 := of_decide_eq_true hp.1
  have h2 := of_decide_eq_true p
  exact ⟨d, .parsed hd, x, ⟨_, f⟩, h1.1, h2.1, h1.2, h2.2⟩

/-- **C131, replacing a node by an element or a text.**  After such a call has failed, every query that was answered is answered, and those of the
old nodes are answered that were; the others among the answers are nodes the failed call has made. -/
theorem C131_replace_partial (d : Dom) (h : Reachable d) (junk : Nat → Out Bool) (op : Op)
    (hop : (∃ n doc, op = .replaceDoc n doc) ∨ ∃ n t, op = .replaceText n t) (d' : Dom) (hf : Fails junk op d d') (pun : Nat → Nat) (css : Str)
    (L : List Nat) (hq : querySelectorAll pun css d = .ok (.go L)) :
    ∃ L', querySelectorAll pun css d' = .ok (.go L') ∧ L'.Nodup ∧ ∀ n, n < d.nodes.length → (n ∈ L' ↔ n ∈ L) := by
  obtain ⟨hi, _⟩ := reach_domI h
  have h0 : Spare d d := ⟨⟨Ext.rfl' d, rfl, rfl, rfl⟩, hi.cap⟩
  have hs : Spare d d' := by
    obtain ⟨k, e⟩ := hf
    rcases hop with ⟨n, doc, rfl⟩ | ⟨n, t, rfl⟩
    · exact (replaceDoc_spare hi n doc).fails h0 (drop_fail e)
    · exact (replaceText_spare hi n t).fails h0 (drop_fail e)
  exact Spare.query hi.walk hs pun css L hq

/-- A replacement that fails after it has made the element (C131): the answer to a query for its tag has the element besides the old nodes, the
answer to a query for children has not. -/
example : ∃ d, Reachable d ∧ ∃ d', Fails crashJunk (.replaceDoc 3 ⟨b!"u", true, [b!"k"], []⟩) d d' ∧
    querySelectorAll (fun _ => 0) b!"u" d = .ok (.go [4]) ∧ querySelectorAll (fun _ => 0) b!"u" d' = .ok (.go [4, 5]) ∧
    querySelectorAll (fun _ => 0) b!"p > u" d = .ok (.go [4]) ∧ querySelectorAll (fun _ => 0) b!"p > u" d' = .ok (.go [4]) := by
  obtain ⟨d, hd, hp⟩ := someAnd_ex (x := createDom b!"<p><a></a><u></u></p>") (p := fun d =>
    decide (querySelectorAll (fun _ => 0) b!"u" d = .ok (.go [4]) ∧ querySelectorAll (fun _ => 0) b!"p > u" d = .ok (.go [4])) &&
      failAnd (runOpC crashJunk (.replaceDoc 3 ⟨b!"u", true, [b!"k"], []⟩) 1 d) (fun x =>
        decide (querySelectorAll (fun _ => 0) b!"u" x = .ok (.go [4, 5]) ∧ querySelectorAll (fun _ => 0) b!"p > u" x = .ok (.go [4])))) (by decide +kernel)
  rw [Bool.and_eq_true] at hp
  obtain ⟨x, f, p⟩ := failAnd_ex hp.2
  have h1 := of_decide_eq_true hp.1
  have h2 := of_decide_eq_true p
  exact ⟨d, .parsed hd, x, ⟨_, f⟩, h1.1, h2.1, h1.2, h2.2⟩

/-- **C131 does not hold for fragments.**  After a failing call that appends a fragment, a query that was answered with a node of the document also
answers a node that is in no list of children: the fragment's nodes were created, with their tags, and never linked to the document. -/
theorem C131_violated : ∃ d, createDom b!"<p><a></a><u></u></p>" = .ok (some d) ∧ querySelectorAll (fun _ => 0) b!"u" d = .ok (.go [4]) ∧
    ∃ d', Fails crashJunk (.appendHTML 2 b!"<u></u>") d d' ∧ kids d' 2 = [3, 4] ∧ preorder d' 1 = [1, 2, 3, 4] ∧
      querySelectorAll (fun _ => 0) b!"u" d' = .ok (.go [4, 5]) := by
  obtain ⟨d, hd, hp⟩ := someAnd_ex (x := createDom b!"<p><a></a><u></u></p>") (p := fun d =>
    decide (querySelectorAll (fun _ => 0) b!"u" d = .ok (.go [4])) &&
      failAnd (runOpC crashJunk (.appendHTML 2 b!"<u></u>") 1 d) (fun x => decide (kids x 2 = [3, 4] ∧ preorder x 1 = [1, 2, 3, 4] ∧
        querySelectorAll (fun _ => 0) b!"u" x = .ok (.go [4, 5])))) (by decide +kernel)
  rw [Bool.and_eq_true] at hp
  obtain ⟨x, f, p⟩ := failAnd_ex hp.2
  have h2 := of_decide_eq_true p
  exact ⟨d, hd, of_decide_eq_true hp.1, x, ⟨_, f⟩, h2.1, h2.2.1, h2.2.2⟩

end Flo
