import Verif.Proofs.Records
import Verif.Props.Edit
/-!
# C63: exactly which removed nodes keep their parent
-/
namespace Flo
open Spec

/-- How often node `m` is recorded in the table of parents (the rows `printDOMStatus` lists as parent and child). -/
def Spec.parentRecords (d : Dom) (m : Nat) : Nat := d.pc.countP (·.2 == m)

theorem parent_after {d d' : Dom} {ch : Nat → List Nat} {S : List Nat} (h : LinkedD d ch) (D : Dropped d d' S) {m p : Nat} (hm : m ≠ 0)
    (hc : S.count m = 1) (hp : m ∈ ch p) : getParent m d' = if parentRecords d m ≤ 1 then 0 else getParent m d := by
  have hcount := D.count m hm
  rw [hc] at hcount
  have hpar : ∀ e : Dom, (∀ r ∈ e.pc, r ∈ d.pc ∨ r = (0, 0)) → 0 < e.pc.countP (·.2 == m) → getParent m e = p := by
    intro e he hpos
    obtain ⟨r, hr, hr2⟩ := List.countP_pos_iff.1 hpos
    unfold getParent
    cases hg : getParentNode m e with
    | none =>
      have hr2 : r.2 = m := by simpa using hr2
      exact absurd (show (r.1, m) ∈ e.pc by rw [← hr2]; exact hr) (findSnd_none.mp hg r.1)
    | some i =>
      obtain ⟨a, ha⟩ := findSnd_some hg
      simp only [rowAt_eq ha]
      rcases he _ (List.mem_of_getElem? ha) with h1 | h1
      · exact h.pcOwn p a m h1 hp
      · cases h1; exact absurd rfl hm
  unfold parentRecords
  split
  · rename_i hle
    have hz : d'.pc.countP (·.2 == m) = 0 := by omega
    unfold getParent
    have hn : getParentNode m d' = none := findSnd_none.mpr (fun a ha => by
      have := List.countP_eq_zero.1 hz (a, m) ha
      simp at this)
    rw [hn]
  · rename_i hle
    rw [hpar d' D.rows (by omega), hpar d (fun r hr => Or.inl hr) (by omega)]

theorem below_parent {N : Nat} {ch : Nat → List Nat} (hu : Up N ch) {n m : Nat} (hn : n < N) (hm : m ∈ pre N ch n) (hne : m ≠ n) :
    ∃ p, m ∈ ch p := by
  cases (LiveC.mem_pre hu hn).mpr hm with
  | root => exact absurd rfl hne
  | child _ hc => exact ⟨_, hc⟩

/-- **C63** (partial, exact) After `removeNode` a node of the removed subtree is without a parent if it was recorded once, and otherwise
keeps the parent it had. -/
theorem C63_parent_exact_partial (d : Dom) (h : Reachable d) (n : Nat) (hn : HasParent d n) :
    ∃ d', removeNode n d = .ok d' ∧ ∀ m, m ∈ preorder d n →
      getParent m d' = if parentRecords d m ≤ 1 then 0 else getParent m d := by
  obtain ⟨hi, h0⟩ := reach_domI h
  obtain ⟨p, l₁, l₂, hp, he⟩ := hasParent_split h hn
  have hmem : n ∈ kids d p := by rw [he]; simp
  have hr := hi.linked.range _ _ hmem
  have hpre := preorder_kids hi (p := n) ⟨by omega, hr.2.2⟩
  obtain ⟨d', e, D, L⟩ := removeNode_spec hi.linked hmem
  refine ⟨d', e, fun m hm => ?_⟩
  rw [hpre] at hm
  have hm0 := pre_ge hi.linked.up n hr.2.2 m hm
  have hnd := pre_nodup' hi.linked.up hi.linked.uniq hi.linked.nodup n hr.2.2
  obtain ⟨q, hq⟩ : ∃ q, m ∈ kids d q := by
    by_cases hmn : m = n
    · exact ⟨p, hmn ▸ hmem⟩
    · exact below_parent hi.linked.up hr.2.2 hm hmn
  exact parent_after hi.linked D (by omega) (List.count_eq_one_of_mem hnd hm) hq

/-- The same for `removeChildren`. -/
theorem C63_removeChildren_exact_partial (d : Dom) (h : Reachable d) (n : Nat) (hn : IsNode d n) :
    ∃ d', removeChildren n d = .ok d' ∧ ∀ m, m ∈ (preorder d n).tail →
      getParent m d' = if parentRecords d m ≤ 1 then 0 else getParent m d := by
  obtain ⟨hi, h0⟩ := reach_domI h
  have hpre := preorder_kids hi hn
  obtain ⟨d', e, D, L⟩ := removeChildren_spec hi.linked hn.1 hn.2
  refine ⟨d', e, fun m hm => ?_⟩
  rw [hpre] at hm
  have hm0 : m ∈ pre d.nodes.length (kids d) n := List.mem_of_mem_tail hm
  have hge := pre_ge hi.linked.up n hn.2 m hm0
  have hnd := pre_nodup' hi.linked.up hi.linked.uniq hi.linked.nodup n hn.2
  have hne : m ≠ n := by
    rw [pre_eq hi.linked.up hn.2] at hnd hm
    rintro rfl
    exact (List.nodup_cons.1 hnd).1 hm
  obtain ⟨q, hq⟩ := below_parent hi.linked.up hn.2 hm0 hne
  have := hn.1
  exact parent_after hi.linked D (by omega) (List.count_eq_one_of_mem (hnd.sublist (List.tail_sublist _)) hm) hq

theorem PcOnce.records {d : Dom} (h : PcOnce d) (m : Nat) : parentRecords d m ≤ 1 := by
  unfold parentRecords
  have := h.once
  generalize d.pc = l at this
  induction l with
  | nil => simp
  | cons r l ih =>
    obtain ⟨h1, h2⟩ := List.pairwise_cons.1 this
    rw [List.countP_cons]
    split
    · rename_i hr
      have hr : r.2 = m := by simpa using hr
      have : l.countP (·.2 == m) = 0 := by
        rw [List.countP_eq_zero]
        intro x hx hxm
        have hxm : x.2 = m := by simpa using hxm
        exact h1 x hx (by rw [hr, hxm])
      omega
    · have := ih h2
      omega

/-- **C63** (partial) On a document that was parsed and not yet edited the whole property holds: no removed node has a parent, a child
or a sibling.  *Missing*: documents in which children were recorded twice, see `C63_violated`. -/
theorem C63_parsed_partial (s : Str) (d : Dom) (hd : createDom s = .ok (some d)) (n : Nat) (hn : HasParent d n) :
    ∃ d', removeNode n d = .ok d' ∧ ∀ m, m ∈ preorder d n →
      getParent m d' = 0 ∧ getFirstChild m d' = 0 ∧ getNext m d' = 0 ∧ getPrevious m d' = 0 := by
  have h := Reachable.parsed hd
  obtain ⟨d', e, h1⟩ := C63_parent_exact_partial d h n hn
  obtain ⟨d'', e', h2⟩ := C63_detached_partial d h n hn
  rw [e] at e'
  cases e'
  refine ⟨d', e, fun m hm => ⟨?_, h2 m hm⟩⟩
  rw [h1 m hm, if_pos ((createDom_once hd).records m)]

/-- In the example of `C63_violated` node 3 is recorded twice. -/
example : ∃ d, createDom b!"<p><b></b></p>" = .ok (some d) ∧
    (decide (parentRecords d 3 = 1) && okAnd (prependDocumentNode 2 ⟨b!"i", true, [], []⟩ d) (fun r =>
      decide (parentRecords r.2 3 = 2 ∧ parentRecords r.2 4 = 1))) = true :=
  someAnd_ex (by decide +kernel)

end Flo
