import Verif.Model.Scan16
import Verif.Proofs.Count
import Verif.Proofs.Kids
import Verif.Proofs.Sat
/-!
# The 16-bit loop counters of the traversal functions (C56)
-/
namespace Flo
open Spec

theorem scan16_from (test : Row → Bool) (table : List Row) (hl : table.length ≤ 65535) :
    ∀ (k i f : Nat), table.length = i + k → k < f →
      scan16 test table f (UInt16.ofNat i) = .ok (((table.drop i).findIdx? test).map (· + i)) := by
  intro k
  induction k with
  | zero =>
    intro i f hi hf
    obtain ⟨f, rfl⟩ : ∃ f', f = f' + 1 := ⟨f - 1, by omega⟩
    unfold scan16
    have : (UInt16.ofNat i).toNat = i := by simp; omega
    rw [this, if_neg (by omega), List.drop_eq_nil_of_le (by omega)]
    rfl
  | succ k ih =>
    intro i f hi hf
    obtain ⟨f, rfl⟩ : ∃ f', f = f' + 1 := ⟨f - 1, by omega⟩
    unfold scan16
    have hn : (UInt16.ofNat i).toNat = i := by simp; omega
    have hlt : i < table.length := by omega
    rw [hn, if_pos hlt, List.drop_eq_getElem_cons hlt, List.findIdx?_cons]
    have hrow : rowAt table i = table[i] := rowAt_eq (List.getElem?_eq_getElem hlt)
    rw [hrow]
    by_cases ht : test table[i] = true
    · rw [if_pos ht, if_pos ht]; simp
    · rw [if_neg ht, if_neg ht]
      have : UInt16.ofNat i + 1 = UInt16.ofNat (i + 1) := by
        apply UInt16.toNat_inj.mp
        simp
      rw [this, ih (i + 1) f (by omega) (by omega), Option.map_map]
      congr 2
      funext x
      simp; omega

/-- In a table of at most 65535 rows the loop with the 16-bit counter ends and finds the first matching row. -/
theorem scan16_eq (test : Row → Bool) (table : List Row) (hl : table.length ≤ 65535) :
    scan16 test table (table.length + 1) 0 = .ok (table.findIdx? test) := by
  have := scan16_from test table hl table.length 0 (table.length + 1) (by simp) (by omega)
  simpa using this

/-- The bound matters: a table of 65536 rows or more without a match is searched for ever. -/
theorem C56_longer_tables_hang (test : Row → Bool) (table : List Row) (hl : 65536 ≤ table.length)
    (hno : ∀ r ∈ table, test r = false) : ∀ (f : Nat) (i : UInt16), scan16 test table f i = .hang := by
  intro f
  induction f with
  | zero => intro i; rfl
  | succ f ih =>
    intro i
    unfold scan16
    have h1 : i.toNat < 65536 := i.toNat_lt
    have hlt : i.toNat < table.length := by omega
    rw [if_pos hlt, rowAt_eq (List.getElem?_eq_getElem hlt), hno _ (List.getElem_mem hlt)]
    exact ih (i + 1)

/-- In every reachable DOM both tables searched with a 16-bit counter are shorter than 2^16 - 1: all their rows
together are at least two fewer than the nodes. -/
theorem C56_tables_fit (d : Dom) (h : Reachable d) :
    d.fc.length + d.nn.length + 2 ≤ d.nodes.length ∧ d.nodes.length ≤ 65535 :=
  ⟨h.rows, (reach_domI h).1.cap⟩

/-- The three searches, run with their 16-bit counters, end after at most one test per row and one more, and find
the first row that matches (or that there is none), in every reachable DOM. -/
theorem C56_searches_end (d : Dom) (h : Reachable d) (n : Nat) :
    getFirstChildNode16 (d.fc.length + 1) n d = .ok (d.fc.findIdx? (·.1 == n)) ∧
    getNextNode16 (d.nn.length + 1) n d = .ok (d.nn.findIdx? (·.1 == n)) ∧
    getPreviousNode16 (d.nn.length + 1) n d = .ok (d.nn.findIdx? (·.2 == n)) := by
  obtain ⟨h1, h2⟩ := C56_tables_fit d h
  exact ⟨scan16_eq _ _ (by omega), scan16_eq _ _ (by omega), scan16_eq _ _ (by omega)⟩

/-- Hence the unbounded searches of the model are what the C code computes. -/
theorem C56_model_agrees (d : Dom) (h : Reachable d) (n : Nat) :
    getFirstChildNode16 (d.fc.length + 1) n d = .ok (getFirstChildNode n d) ∧
    getNextNode16 (d.nn.length + 1) n d = .ok (getNextNode n d) ∧
    getPreviousNode16 (d.nn.length + 1) n d = .ok (getPreviousNode n d) := C56_searches_end d h n

example : ∃ d, Reachable d ∧ decide (d.fc.length = 3 ∧ d.nn.length = 1 ∧
    getFirstChildNode16 4 2 d = .ok (some 1) ∧ getNextNode16 2 7 d = .ok none) = true := by
  obtain ⟨d, h, hd⟩ := someAnd_ex (x := createDom b!"<p>a<b>c</b></p>") (p := fun d => decide (d.fc.length = 3 ∧
    d.nn.length = 1 ∧ getFirstChildNode16 4 2 d = .ok (some 1) ∧ getNextNode16 2 7 d = .ok none)) (by decide +kernel)
  exact ⟨d, .parsed h, hd⟩

example : ∀ f, scan16 (fun _ => false) (List.replicate 65536 (0, 0)) f 0 = .hang :=
  fun f => C56_longer_tables_hang _ _ (le_of_eq List.length_replicate.symm) (fun _ _ => rfl) f 0

end Flo
