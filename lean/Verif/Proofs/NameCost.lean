import Verif.Spec.NameCost
import Verif.Proofs.Intern
/-!
# How many names a lookup compares
-/
namespace Flo
open Spec

theorem ATrie.compared_chain {t : ATrie} (h : t.Chain) (k : Str) (hs : UInt64) :
    t.compared autoSlot k hs = searched k (t.entries.map (·.1)) := by
  induction t generalizing hs with
  | nil => rfl
  | node key value c0 c1 c2 c3 i0 i1 i2 i3 =>
    obtain ⟨h0, rfl, rfl, rfl⟩ := h
    simp only [compared, autoSlot_zero, entries, List.append_nil, List.map_cons, searched, strEq, beq_iff_eq]
    by_cases hk : k = key
    · simp [hk]
    · simp [hk, i0 h0]

theorem ATrie.contains_chain {t : ATrie} (h : t.Chain) (k : Str) (hs : UInt64) (n : Nat)
    (he : t.entries.map (·.2) = List.range' (n + 1) t.entries.length) :
    (searched k (t.entries.map (·.1))).length = if t.find autoSlot k hs = 0 then t.entries.length else t.find autoSlot k hs - n := by
  induction t generalizing hs n with
  | nil => rfl
  | node key value c0 c1 c2 c3 i0 i1 i2 i3 =>
    obtain ⟨h0, rfl, rfl, rfl⟩ := h
    simp only [entries, List.append_nil, List.map_cons, List.length_cons, List.range'_succ, List.cons.injEq] at he
    obtain ⟨rfl, he⟩ := he
    simp only [find, autoSlot_zero, entries, List.append_nil, List.map_cons, searched, strEq, beq_iff_eq, List.length_cons]
    by_cases hk : k = key
    · simp [hk]
    · simp only [hk, if_false, List.length_cons]
      rw [i0 h0 (hs <<< 2) (n + 1) he]
      have hgt : c0.find autoSlot k (hs <<< 2) = 0 ∨ n + 1 < c0.find autoSlot k (hs <<< 2) := by
        clear i0 i1 i2 i3
        generalize hs <<< 2 = hs'
        generalize n + 1 = n' at he ⊢
        induction c0 generalizing hs' n' with
        | nil => exact .inl rfl
        | node key value c0 c1 c2 c3 i0 i1 i2 i3 =>
          obtain ⟨h0, rfl, rfl, rfl⟩ := h0
          simp only [entries, List.append_nil, List.map_cons, List.length_cons, List.range'_succ, List.cons.injEq] at he
          obtain ⟨rfl, he⟩ := he
          simp only [find, autoSlot_zero, strEq, beq_iff_eq]
          by_cases hk : k = key
          · simp [hk]
          · simp only [hk, if_false]
            rcases i0 h0 (hs' <<< 2) (n' + 1) he with h | h
            · exact .inl h
            · exact .inr (by omega)
      split <;> omega

theorem zipIdx_drop_fst {α : Type} (l : List α) : (l.zipIdx.drop 1).map (·.1) = l.drop 1 := by
  rw [List.map_drop, List.zipIdx_map_fst]

theorem zipIdx_drop_snd {α : Type} (l : List α) : (l.zipIdx.drop 1).map (·.2) = List.range' 1 (l.zipIdx.drop 1).length := by
  rw [List.map_drop, List.zipIdx_map_snd, List.length_drop, List.length_zipIdx]
  cases l with
  | nil => rfl
  | cons a l => simp [List.range'_succ]

theorem MapOK.compared {m : AutoMap} {reg : List Str} (h : MapOK m reg) (k : Str) :
    m.compared k = searched k (reg.drop 1) := by
  unfold AutoMap.compared
  rw [ATrie.compared_chain h.chain, h.list, zipIdx_drop_fst]

theorem MapOK.compared_length {m : AutoMap} {reg : List Str} (h : MapOK m reg) (k : Str) :
    (m.compared k).length = if m.contains k = 0 then reg.length - 1 else m.contains k := by
  rw [h.compared, ← zipIdx_drop_fst, ← h.list]
  have := ATrie.contains_chain h.chain k (hashDjb2 k) 0 (by rw [h.list, zipIdx_drop_snd])
  rw [this, h.list]
  simp only [List.length_drop, List.length_zipIdx, Nat.sub_zero]
  rfl

theorem range_sum (n : Nat) : ∀ k, 2 * ((List.range' k n).sum) = n * (2 * k + n - 1) := by
  induction n with
  | zero => intro k; simp
  | succ n ih =>
    intro k
    rw [List.range'_succ, List.sum_cons, Nat.mul_add, ih (k + 1)]
    rw [show 2 * (k + 1) + n - 1 = 2 * k + n + 1 by omega, show 2 * k + (n + 1) - 1 = 2 * k + n by omega]
    rw [Nat.add_mul n 1, Nat.mul_succ]
    omega

theorem MapOK.compared_sum {m : AutoMap} {reg : List Str} (h : MapOK m reg) :
    2 * ((reg.drop 1).map (fun k => (m.compared k).length)).sum = (reg.length - 1) * reg.length := by
  have : (reg.drop 1).map (fun k => (m.compared k).length) = List.range' 1 (reg.length - 1) := by
    apply List.ext_getElem?
    intro i
    rw [List.getElem?_map, List.getElem?_drop]
    by_cases hi : i < reg.length - 1
    · have hlt : 1 + i < reg.length := by omega
      rw [List.getElem?_eq_getElem hlt, List.getElem?_range' hi]
      have := (h.iff reg[1 + i] (1 + i) (by omega)).2 (List.getElem?_eq_getElem hlt)
      simp only [Option.map_some, h.compared_length, this]
      rw [if_neg (by omega)]
      simp
    · rw [List.getElem?_eq_none (by omega), List.getElem?_eq_none (by simp; omega)]; rfl
  rw [this, range_sum]
  have := h.len
  congr 1
  omega

end Flo
