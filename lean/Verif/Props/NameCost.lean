import Verif.Proofs.NameCost
import Verif.Props.Edit
import Verif.Proofs.Sat
/-!
# How many names a lookup compares (C111)
-/
namespace Flo
open Spec

/-- **C111** What holds: in every reachable DOM, looking a name up compares it with the names of the table in the order of
their identifiers, up to the name itself, or with all of them if it is not in the table.  Missing: this is a search of a
list, so `FewCompared` does not hold (`C111_violated`). -/
theorem C111_exact_partial (d : Dom) (h : Reachable d) (k : Str) :
    d.tagMap.compared k = searched k ((d.tagReg.map (·.1)).drop 1) ∧
    d.boolMap.compared k = searched k (d.boolReg.drop 1) ∧
    d.keyMap.compared k = searched k (d.keyReg.drop 1) ∧
    d.valMap.compared k = searched k (d.valReg.drop 1) := by
  have hn := (reach_domI h).1.names
  exact ⟨hn.tag.compared k, hn.bool.compared k, hn.key.compared k, hn.val.compared k⟩

/-- Looking up the name with identifier `v` takes `v` comparisons; a name that is not in the table is compared with all. -/
theorem C111_count_partial (d : Dom) (h : Reachable d) (k : Str) :
    (d.tagMap.compared k).length = (if d.tagMap.contains k = 0 then d.tagReg.length - 1 else d.tagMap.contains k) ∧
    (d.boolMap.compared k).length = (if d.boolMap.contains k = 0 then d.boolReg.length - 1 else d.boolMap.contains k) ∧
    (d.keyMap.compared k).length = (if d.keyMap.contains k = 0 then d.keyReg.length - 1 else d.keyMap.contains k) ∧
    (d.valMap.compared k).length = (if d.valMap.contains k = 0 then d.valReg.length - 1 else d.valMap.contains k) := by
  have hn := (reach_domI h).1.names
  refine ⟨?_, hn.bool.compared_length k, hn.key.compared_length k, hn.val.compared_length k⟩
  have := hn.tag.compared_length k
  rwa [List.length_map] at this

/-- Looking up each of the `n` tag names of a DOM once takes `n (n + 1) / 2` comparisons, and so for the other tables. -/
theorem C111_quadratic_partial (d : Dom) (h : Reachable d) :
    2 * (((d.tagReg.map (·.1)).drop 1).map (fun k => (d.tagMap.compared k).length)).sum = (d.tagReg.length - 1) * d.tagReg.length ∧
    2 * ((d.boolReg.drop 1).map (fun k => (d.boolMap.compared k).length)).sum = (d.boolReg.length - 1) * d.boolReg.length ∧
    2 * ((d.keyReg.drop 1).map (fun k => (d.keyMap.compared k).length)).sum = (d.keyReg.length - 1) * d.keyReg.length ∧
    2 * ((d.valReg.drop 1).map (fun k => (d.valMap.compared k).length)).sum = (d.valReg.length - 1) * d.valReg.length := by
  have hn := (reach_domI h).1.names
  refine ⟨?_, hn.bool.compared_sum, hn.key.compared_sum, hn.val.compared_sum⟩
  have := hn.tag.compared_sum
  rwa [List.length_map] at this

/-- A document with 40 tag names, `a` and `b` followed by other letters, none of which has the hash of `zz`. -/
def fortyTags : Str :=
  (List.range 40).flatMap (fun i => b!"<" ++ [UInt8.ofNat (97 + i / 20), UInt8.ofNat (97 + i % 20)] ++ b!"/>")

/-- The property fails: with 40 tag names, none of them with the hash of `zz`, looking up `zz` compares it with all 40. -/
theorem C111_violated : ∃ d, createDom fortyTags = .ok (some d) ∧ Reachable d ∧ ¬ FewCompared d.tagMap ((d.tagReg.map (·.1)).drop 1) := by
  obtain ⟨d, h, hd⟩ := someAnd_ex (x := createDom fortyTags) (p := fun d => decide (
    32 + (((d.tagReg.map (·.1)).drop 1).filter (fun s => hashDjb2 s == hashDjb2 b!"zz")).length < (d.tagMap.compared b!"zz").length)) (by decide +kernel)
  rw [decide_eq_true_eq] at hd
  exact ⟨d, h, .parsed h, fun hf => Nat.not_le.2 hd (hf b!"zz")⟩

/-- A concrete case of the exact theorems: three names, the second is looked up. -/
example : ∃ d, Reachable d ∧ d.tagMap.compared b!"b" = [b!"a", b!"b"] ∧ d.tagMap.compared b!"q" = [b!"a", b!"b", b!"c"] ∧ d.tagMap.contains b!"b" = 2 := by
  obtain ⟨d, h, hd⟩ := someAnd_ex (x := createDom b!"<a/><b/><c/>") (p := fun d => decide (
    d.tagMap.compared b!"b" = [b!"a", b!"b"] ∧ d.tagMap.compared b!"q" = [b!"a", b!"b", b!"c"] ∧ d.tagMap.contains b!"b" = 2)) (by decide +kernel)
  rw [decide_eq_true_eq] at hd
  exact ⟨d, .parsed h, hd⟩

end Flo
