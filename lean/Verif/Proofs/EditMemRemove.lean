import Verif.Proofs.EditMemTag
/-!
# Editing in memory: removing nodes
-/
namespace Flo
open Spec

variable {V : MEnv} {B T N : Int} {d : Dom} {M : MDom} {a : Arena}

/-! ## Rows -/

theorem EdR.nn0 (h : EdR V B T N d M a) {i : Nat} {r : Row} (hi : d.nn[i]? = some r) :
    ∃ a', arrPoke 4 i 0 (encRow (0, 0)) M.nn a = .ok a' ∧ EdR V B T N { d with nn := d.nn.set i (0, 0) } M a' := by
  obtain ⟨own, x, hr, hB, hT, hN⟩ := h
  obtain ⟨a', he, hr', _⟩ := hr.setNn hi (r' := (0, 0)) (off := 0) (e := encRow (0, 0)) (by omega) (by decide)
    fun p _ => rowAt_write (by decide) (by decide) _ _ _ _
  exact ⟨a', he, own, x, hr', by unfold Dom.bytes Dom.textLen at *; simpa using hB, hT, by simpa using hN⟩

theorem EdR.nn2 (h : EdR V B T N d M a) {i : Nat} {r : Row} (hi : d.nn[i]? = some r) {v : Nat} (hv : v < 65536) :
    ∃ a', arrPoke 4 i 2 (leBytes 2 v) M.nn a = .ok a' ∧ EdR V B T N { d with nn := d.nn.set i (r.1, v) } M a' := by
  obtain ⟨own, x, hr, hB, hT, hN⟩ := h
  obtain ⟨a', he, hr', _⟩ := hr.setNn hi (r' := (r.1, v)) (off := 2) (e := leBytes 2 v) (by omega) (by rw [leBytes_length]; decide)
    fun p h => rowAt_write2 hv _ _ _ _ h
  exact ⟨a', he, own, x, hr', by unfold Dom.bytes Dom.textLen at *; simpa using hB, hT, by simpa using hN⟩

theorem EdR.nn1 (h : EdR V B T N d M a) {i : Nat} {r : Row} (hi : d.nn[i]? = some r) {v : Nat} (hv : v < 65536) :
    ∃ a', arrPoke 4 i 0 (leBytes 2 v) M.nn a = .ok a' ∧ EdR V B T N { d with nn := d.nn.set i (v, r.2) } M a' := by
  obtain ⟨own, x, hr, hB, hT, hN⟩ := h
  obtain ⟨a', he, hr', _⟩ := hr.setNn hi (r' := (v, r.2)) (off := 0) (e := leBytes 2 v) (by omega) (by rw [leBytes_length]; decide)
    fun p h => rowAt_write1 hv _ _ _ _ h
  exact ⟨a', he, own, x, hr', by unfold Dom.bytes Dom.textLen at *; simpa using hB, hT, by simpa using hN⟩

theorem EdR.fc0 (h : EdR V B T N d M a) {i : Nat} {r : Row} (hi : d.fc[i]? = some r) :
    ∃ a', arrPoke 4 i 0 (encRow (0, 0)) M.fc a = .ok a' ∧ EdR V B T N { d with fc := d.fc.set i (0, 0) } M a' := by
  obtain ⟨own, x, hr, hB, hT, hN⟩ := h
  obtain ⟨a', he, hr', _⟩ := hr.setFc hi (r' := (0, 0)) (off := 0) (e := encRow (0, 0)) (by omega) (by decide)
    fun p _ => rowAt_write (by decide) (by decide) _ _ _ _
  exact ⟨a', he, own, x, hr', by unfold Dom.bytes Dom.textLen at *; simpa using hB, hT, hN⟩

theorem EdR.fc2 (h : EdR V B T N d M a) {i : Nat} {r : Row} (hi : d.fc[i]? = some r) {v : Nat} (hv : v < 65536) :
    ∃ a', arrPoke 4 i 2 (leBytes 2 v) M.fc a = .ok a' ∧ EdR V B T N { d with fc := d.fc.set i (r.1, v) } M a' := by
  obtain ⟨own, x, hr, hB, hT, hN⟩ := h
  obtain ⟨a', he, hr', _⟩ := hr.setFc hi (r' := (r.1, v)) (off := 2) (e := leBytes 2 v) (by omega) (by rw [leBytes_length]; decide)
    fun p h => rowAt_write2 hv _ _ _ _ h
  exact ⟨a', he, own, x, hr', by unfold Dom.bytes Dom.textLen at *; simpa using hB, hT, hN⟩

theorem EdR.pc0 (h : EdR V B T N d M a) {i : Nat} {r : Row} (hi : d.pc[i]? = some r) :
    ∃ a', arrPoke 4 i 0 (encRow (0, 0)) M.pc a = .ok a' ∧ EdR V B T N { d with pc := d.pc.set i (0, 0) } M a' := by
  obtain ⟨own, x, hr, hB, hT, hN⟩ := h
  obtain ⟨a', he, hr', _⟩ := hr.setPc hi (r' := (0, 0)) (off := 0) (e := encRow (0, 0)) (by omega) (by decide)
    fun p _ => rowAt_write (by decide) (by decide) _ _ _ _
  exact ⟨a', he, own, x, hr', by unfold Dom.bytes Dom.textLen at *; simpa using hB, hT, hN⟩

theorem EdR.pc2 (h : EdR V B T N d M a) {i : Nat} {r : Row} (hi : d.pc[i]? = some r) {v : Nat} (hv : v < 65536) :
    ∃ a', arrPoke 4 i 2 (leBytes 2 v) M.pc a = .ok a' ∧ EdR V B T N { d with pc := d.pc.set i (r.1, v) } M a' := by
  obtain ⟨own, x, hr, hB, hT, hN⟩ := h
  obtain ⟨a', he, hr', _⟩ := hr.setPc hi (r' := (r.1, v)) (off := 2) (e := leBytes 2 v) (by omega) (by rw [leBytes_length]; decide)
    fun p h => rowAt_write2 hv _ _ _ _ h
  exact ⟨a', he, own, x, hr', by unfold Dom.bytes Dom.textLen at *; simpa using hB, hT, hN⟩

theorem EdR.typed (h : EdR V B T N d M a) {n : Nat} {nd : Node} (hn : d.nodes[n]? = some nd) (t : NodeType) :
    ∃ a', arrPoke 24 n 4 (leBytes 4 t.code) M.nodes a = .ok a' ∧ EdR V B T N { d with nodes := d.nodes.set n { nd with type := t } } M a' := by
  obtain ⟨own, x, hr, hB, hT, hN⟩ := h
  have e0 : ({ nd with type := t } : Node).textLen = nd.textLen := rfl
  obtain ⟨a', he, hr'⟩ := hr.pokeNode (x' := x) (nd' := { nd with type := t }) hn (off := 4) (e := leBytes 4 t.code) (by omega)
    (by rw [leBytes_length]; decide) (fun p h hf => poke_type t h hf) (by rw [e0])
  have h1 := setNode_bytes (d := d) (y := { nd with type := t }) hn
  have h2 := setNode_textLen (y := { nd with type := t }) hn
  rw [e0] at h1 h2
  exact ⟨a', he, own, x, hr', by show (d.setNode n _).bytes + _ ≤ _; omega, by show ((d.setNode n _).textLen : Int) ≤ _; omega, hN⟩

theorem EdR.untexted (h : EdR V B T N d M a) {n : Nat} {nd : Node} (hn : d.nodes[n]? = some nd) :
    ∃ a', arrPoke 24 n 8 (leBytes 2 0) M.nodes a = .ok a' ∧ EdR V B T N { d with nodes := d.nodes.set n { nd with payload := .tag 0 } } M a' := by
  obtain ⟨own, x, hr, hB, hT, hN⟩ := h
  have e0 : (({ nd with payload := .tag 0 } : Node).textLen : Int) = 0 := rfl
  obtain ⟨a', he, hr'⟩ := hr.pokeNode (x' := x + 4 * (nd.textLen : Int)) (nd' := { nd with payload := .tag 0 }) hn (off := 8) (e := leBytes 2 0)
    (by omega) (by rw [leBytes_length]; decide) (fun p h _ => poke_tag (by decide) h) (by omega)
  have h1 := setNode_bytes (d := d) (y := { nd with payload := .tag 0 }) hn
  have h2 := setNode_textLen (y := { nd with payload := .tag 0 }) hn
  exact ⟨a', he, own, _, hr', by show (d.setNode n _).bytes + _ ≤ _; omega, by show ((d.setNode n _).textLen : Int) ≤ _; omega, hN⟩

/-! ## Unlinking -/

theorem EdR.unlinkPrev (h : EdR V B T N d M a) (n : Nat) :
    ∃ a', memUnlinkPrev (getPreviousNode n d) (getNextNode n d) M a = .ok a' ∧ EdR V B T N { d with nn := Flo.unlinkPrev n d } M a' := by
  unfold memUnlinkPrev Flo.unlinkPrev
  cases hp : getPreviousNode n d with
  | none => exact ⟨a, rfl, h⟩
  | some v =>
    obtain ⟨r, hr⟩ := findIdx_some hp
    cases hx : getNextNode n d with
    | none => exact h.nn0 hr
    | some i =>
      dsimp only
      rw [h.rowsNn, rowAt_of hr]
      exact h.nn2 hr (h.smallNn i).2

theorem EdR.unlinkParent (n : Nat) (h : EdR V B T N { d with nn := Flo.unlinkPrev n d } M a) :
    SimC V (fun _ => B) (Flo.unlinkParent n d) (memUnlinkParent n (getParentNode n d) (getNextNode n d) M a)
      (fun r a' => EdR V B T N { d with fc := r.1, pc := r.2, nn := Flo.unlinkPrev n d } M a') := by
  unfold memUnlinkParent Flo.unlinkParent
  cases hp : getParentNode n d with
  | none => exact SimC.okR h
  | some i =>
    obtain ⟨r, hr⟩ := findIdx_some hp
    dsimp only
    rw [h.rowsPc]
    obtain ⟨a1, he, h1⟩ := h.pc0 (i := i) hr
    rw [he, Out.bind_ok, h1.tables]
    show SimC V _ _ (match getFirstChildNode (rowAt d.pc i).1 d with | none => _ | some k => _) _
    cases hk : getFirstChildNode (rowAt d.pc i).1 d with
    | none => exact SimC.ub
    | some k =>
      obtain ⟨q, hq⟩ := findIdx_some hk
      dsimp only
      rw [h1.rowsFc]
      dsimp only
      by_cases hc : (rowAt d.fc k).2 = n
      · rw [if_pos hc, if_pos hc]
        cases hx : getNextNode n d with
        | none =>
          obtain ⟨a2, he2, h2⟩ := h1.fc0 (i := k) hq
          dsimp only
          rw [he2]
          exact SimC.okR h2
        | some j =>
          dsimp only
          rw [h1.rowsNn]
          obtain ⟨a2, he2, h2⟩ := h1.fc2 (i := k) hq (v := (rowAt (Flo.unlinkPrev n d) j).2) (h1.smallNn j).2
          dsimp only
          rw [he2]
          rw [rowAt_of hq]
          exact SimC.okR h2
      · rw [if_neg hc, if_neg hc]
        exact SimC.okR h1

theorem EdR.unlinkNext (n : Nat) {d2 : Dom} (h : EdR V B T N d2 M a) (h2 : d2.nn = Flo.unlinkPrev n d) :
    ∃ a', memUnlinkNext (getNextNode n d) M a = .ok a' ∧ EdR V B T N { d2 with nn := Flo.unlinkNext n d } M a' := by
  unfold memUnlinkNext Flo.unlinkNext
  cases hx : getNextNode n d with
  | none =>
    refine ⟨a, rfl, ?_⟩
    dsimp only
    rw [← h2]
    exact h
  | some j =>
    obtain ⟨q, hq⟩ := findIdx_some hx
    have hl := (List.getElem?_eq_some_iff.1 hq).1
    have : j < d2.nn.length := by rw [h2, unlinkPrev_length]; exact hl
    dsimp only
    rw [← h2]
    exact h.nn0 (List.getElem?_eq_getElem this)

theorem EdR.unlink (h : EdR V B T N d M a) (n : Nat) : SimC V (fun _ => B) (unlinkNode n d) (memUnlinkNode n M a) (EdA V B T N M) := by
  unfold unlinkNode
  by_cases hn : n ≥ d.nodes.length
  · rw [if_pos hn]; exact SimC.ub
  · rw [if_neg hn]
    have hnd : d.nodes[n]? = some d.nodes[n] := List.getElem?_eq_getElem (by omega)
    unfold memUnlinkNode
    rw [h.nodeID hnd, Out.bind_ok, h.tables]
    obtain ⟨a1, he1, h1⟩ := h.unlinkPrev n
    show SimC V _ _ (memUnlinkPrev (getPreviousNode n d) (getNextNode n d) M a >>= fun a => memUnlinkParent n (getParentNode n d) (getNextNode n d) M a >>= fun a =>
      memUnlinkNext (getNextNode n d) M a >>= fun a => arrPoke 24 n 8 (leBytes 2 0) M.nodes a >>= fun a =>
      arrPoke 24 n 4 (leBytes 4 NodeType.removed.code) M.nodes a) _
    rw [he1, Out.bind_ok]
    refine (EdR.unlinkParent n h1).then (le_refl _) fun ⟨fc, pc⟩ a2 _ h2 => ?_
    obtain ⟨a3, he3, h3⟩ := EdR.unlinkNext (d := d) n h2 rfl
    rw [he3, Out.bind_ok]
    obtain ⟨a4, he4, h4⟩ := h3.untexted hnd
    rw [he4, Out.bind_ok]
    obtain ⟨a5, he5, h5⟩ := h4.typed (n := n) (nd := { d.nodes[n] with payload := .tag 0 }) (by show (d.nodes.set n _)[n]? = _; exact List.getElem?_set_self (Nat.lt_of_not_le hn)) .removed
    rw [he5]
    refine SimC.okR ?_
    have : (d.nodes.set n { d.nodes[n] with payload := .tag 0 }).set n { ({ d.nodes[n] with payload := .tag 0 } : Node) with type := .removed } =
      d.nodes.set n ⟨.removed, .tag 0⟩ := by rw [List.set_set]
    rw [this] at h5
    exact h5

theorem EdR.removeLoop {rm : Nat → Dom → Out Dom} {rm' : Nat → Arena → Out Arena}
    (hrm : ∀ (c : Nat) {d : Dom} {a : Arena}, EdR V B T N d M a → SimC V (fun _ => B) (rm c d) (rm' c a) (EdA V B T N M)) (n : Nat) :
    ∀ (k : Nat) {d : Dom} {a : Arena}, EdR V B T N d M a →
      SimC V (fun _ => B) (removeChildrenLoop rm n k d) (memRemoveChildrenLoop rm' M n k a) (EdA V B T N M)
  | 0, _, _, _ => SimC.hang
  | k + 1, d, a, h => by
    simp only [removeChildrenLoop, memRemoveChildrenLoop]
    rw [h.tables]
    show SimC V _ _ (if getFirstChild n d > 0 then _ else _) _
    by_cases hc : getFirstChild n d > 0
    · rw [if_pos hc, if_pos hc]
      exact (hrm _ h).then (le_refl _) fun d1 a1 _ h1 => EdR.removeLoop hrm n k h1
    · rw [if_neg hc, if_neg hc]
      exact SimC.okR h

theorem EdR.removeF : ∀ (f n : Nat) {d : Dom} {a : Arena}, EdR V B T N d M a →
    SimC V (fun _ => B) (removeNodeF f n d) (memRemoveNodeF M f n a) (EdA V B T N M)
  | 0, _, _, _, _ => SimC.hang
  | f + 1, n, d, a, h => by
    simp only [removeNodeF, memRemoveNodeF]
    have : M.nodes.len.toNat + 1 = d.nodes.length + 1 := by have := h.count; omega
    rw [this]
    exact (EdR.removeLoop (fun c {d a} h => EdR.removeF f c h) n _ h).then (le_refl _) fun d1 a1 _ h1 => h1.unlink n

theorem EdR.remove (h : EdR V B T N d M a) (n : Nat) : SimC V (fun _ => B) (removeNode n d) (memRemoveNode n M a) (EdA V B T N M) := by
  unfold removeNode memRemoveNode
  have : M.nodes.len.toNat + 1 = d.nodes.length + 1 := by have := h.count; omega
  rw [this]
  exact EdR.removeF _ n h

theorem EdR.removeKids (h : EdR V B T N d M a) (n : Nat) : SimC V (fun _ => B) (removeChildren n d) (memRemoveChildren n M a) (EdA V B T N M) := by
  unfold removeChildren memRemoveChildren
  have : M.nodes.len.toNat + 1 = d.nodes.length + 1 := by have := h.count; omega
  rw [this]
  exact EdR.removeLoop (fun c {d a} h => EdR.removeF _ c h) n _ h

end Flo
