import Verif.Proofs.DomInv
import Verif.Model.Compare
/-!
# Duplicating a DOM
-/
namespace Flo
open Spec

/-- Re-inserting the rest of a registry of different names numbers them as before. -/
theorem rebuild_spec : ∀ (rest pre : List Str) (m : AutoMap), MapOK m pre →
    (∀ i j k, i ≠ 0 → j ≠ 0 → (pre ++ rest)[i]? = some k → (pre ++ rest)[j]? = some k → i = j) →
    (pre ++ rest).length ≤ 65536 → ∃ m', rebuildMap rest m = .ok m' ∧ MapOK m' (pre ++ rest) := by
  intro rest
  induction rest with
  | nil => intro pre m h _ _; exact ⟨m, rfl, by simpa using h⟩
  | cons k rest ih =>
    intro pre m h hinj hlen
    have hi := h.insert k
    have hl := h.len
    have hk : (pre ++ k :: rest)[pre.length]? = some k := by simp
    unfold rebuildMap
    cases hr : m.insert k with
    | ok r =>
      rw [hr] at hi
      obtain ⟨hnz, hi⟩ := hi
      by_cases hw : r.wasInserted
      · rw [if_pos hw] at hi
        obtain ⟨_, _, _, hm⟩ := hi
        obtain ⟨m', e1, e2⟩ := ih (pre ++ [k]) r.map hm (by simpa using hinj) (by simpa using hlen)
        exact ⟨m', e1, by simpa using e2⟩
      · rw [if_neg hw] at hi
        obtain ⟨_, _, hg⟩ := hi
        have h1 : (pre ++ k :: rest)[r.entryIndex]? = some k := by
          rw [List.getElem?_append_left (List.getElem?_eq_some_iff.mp hg).1]; exact hg
        have h2 := hinj _ _ k hnz (by omega) h1 hk
        have h3 := (List.getElem?_eq_some_iff.mp hg).1
        omega
    | longjmp =>
      rw [hr] at hi
      obtain ⟨_, hid⟩ := hi
      simp at hlen
      omega
    | ub w => rw [hr] at hi; exact False.elim hi
    | hang => rw [hr] at hi; exact False.elim hi

theorem MapOK.rebuild {m : AutoMap} {reg : List Str} (h : MapOK m reg) :
    ∃ m', rebuildMap (reg.drop 1) .empty = .ok m' ∧ MapOK m' reg := by
  have hl := h.len
  have hle := h.le
  cases reg with
  | nil => simp at hl
  | cons a rest =>
    have hinj : ∀ i j k, i ≠ 0 → j ≠ 0 → (a :: rest)[i]? = some k → (a :: rest)[j]? = some k → i = j := by
      intro i j k hi hj h1 h2
      rw [← (h.iff k i hi).mpr h1, ← (h.iff k j hj).mpr h2]
    have hsh : ∀ (x : Str) (v : Nat) (k : Str), v ≠ 0 → ((x :: rest)[v]? = some k ↔ (a :: rest)[v]? = some k) := by
      intro x v k hv
      cases v with
      | zero => exact absurd rfl hv
      | succ v => rfl
    obtain ⟨m', e1, e2⟩ := rebuild_spec rest [[]] .empty MapOK.empty
      (by
        intro i j k hi hj h1 h2
        exact hinj i j k hi hj ((hsh _ i k hi).mp h1) ((hsh _ j k hj).mp h2))
      (by simp at hl ⊢; omega)
    refine ⟨m', e1, ⟨e2.nz, by simpa using e2.len, e2.le, ?_, e2.chain, e2.list⟩⟩
    intro k v hv
    rw [e2.iff k v hv]
    exact hsh _ v k hv

/-- `duplicateDom` succeeds, copies all tables, and rebuilds name tables with the same numbering. -/
theorem duplicate_inv {d : Dom} {ch : Nat → List Nat} (h : DomI d ch) :
    ∃ tm bm km vm, duplicateDom d = .ok { d with tagMap := tm, boolMap := bm, keyMap := km, valMap := vm } ∧
      DomI { d with tagMap := tm, boolMap := bm, keyMap := km, valMap := vm } ch := by
  obtain ⟨tm, t1, t2⟩ := h.names.tag.rebuild
  obtain ⟨bm, b1, b2⟩ := h.names.bool.rebuild
  obtain ⟨km, k1, k2⟩ := h.names.key.rebuild
  obtain ⟨vm, v1, v2⟩ := h.names.val.rebuild
  refine ⟨tm, bm, km, vm, ?_, ?_⟩
  · unfold duplicateDom
    rw [List.map_drop, t1, b1, k1, v1]; rfl
  · exact {
      linked := h.linked
      names := ⟨t2, b2, k2, v2, h.names.propsLt, h.names.propsNz, h.names.boolsLt, h.names.boolsNz, h.names.tag0⟩
      fresh := h.fresh
      cap := h.cap
      zero := h.zero
      rootN := h.rootN
      good := h.good
      kind := h.kind }

end Flo
