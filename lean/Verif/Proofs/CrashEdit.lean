import Verif.Proofs.Crash
import Verif.Proofs.EditOps
/-!
# Failing edits: what is linked before the memory runs out (C125)
-/
namespace Flo.Crash
open Spec CM

/-! ## Removing takes no memory -/

theorem unlinkNode_noJump (n : Nat) (d : Dom) : unlinkNode n d ≠ .longjmp := by
  unfold unlinkNode unlinkParent
  intro h
  repeat' (first | split at h | (simp only [Out.bind_ok, Out.bind_ub] at h) | contradiction | cases h)

theorem removeChildrenLoop_noJump {rm : Nat → Dom → Out Dom} (hrm : ∀ c d, rm c d ≠ .longjmp) (n : Nat) :
    ∀ k d, removeChildrenLoop rm n k d ≠ .longjmp
  | 0, _ => by unfold removeChildrenLoop; exact fun h => by cases h
  | k + 1, d => by
    unfold removeChildrenLoop
    intro h
    dsimp only at h
    split at h
    · cases e : rm (getFirstChild n d) d with
      | ok d' => rw [e] at h; exact removeChildrenLoop_noJump hrm n k d' h
      | longjmp => exact hrm _ _ e
      | ub w => rw [e] at h; cases h
      | hang => rw [e] at h; cases h
    · cases h

theorem removeNodeF_noJump : ∀ f n d, removeNodeF f n d ≠ .longjmp
  | 0, _, _ => by unfold removeNodeF; exact fun h => by cases h
  | f + 1, n, d => by
    unfold removeNodeF
    intro h
    cases e : removeChildrenLoop (removeNodeF f) n (d.nodes.length + 1) d with
    | ok d' => rw [e] at h; exact unlinkNode_noJump n d' h
    | longjmp => exact removeChildrenLoop_noJump (removeNodeF_noJump f) n _ d e
    | ub w => rw [e] at h; cases h
    | hang => rw [e] at h; cases h

theorem removeNode_noJump (n : Nat) (d : Dom) : removeNode n d ≠ .longjmp := removeNodeF_noJump _ n d

theorem Tri.change {P F : Dom → Prop} {f : Dom → Out Dom} (hf : ∀ d, f d ≠ .longjmp) : Tri P (change f) (fun _ _ => True) F := by
  intro k d _
  unfold CM.change
  cases e : f d with
  | ok a => trivial
  | longjmp => exact absurd e (hf d)
  | ub w => trivial
  | hang => trivial

/-! ## Replacing -/

theorem getNext_none {d : Dom} {n : Nat} (h : ∀ r ∈ d.nn, r.1 ≠ n) : getNext n d = 0 := by
  unfold getNext getNextNode
  have : d.nn.findIdx? (fun r => r.1 == n) = none := by
    rw [List.findIdx?_eq_none_iff]
    intro r hr
    simpa using h r hr
  rw [this]

theorem replacePrev_fst (old new : Nat) (d : Dom) {n : Nat} (h : ∀ r ∈ d.nn, r.1 ≠ n) : ∀ r ∈ replacePrev old new d, r.1 ≠ n := by
  unfold replacePrev
  split
  · rename_i v hv
    intro r hr
    rcases List.mem_or_eq_of_mem_set hr with hr | rfl
    · exact h r hr
    · have hlt : v < d.nn.length := (List.findIdx?_eq_some_iff_findIdx_eq.mp hv).1
      unfold rowAt
      rw [List.getD_eq_getElem?_getD, List.getElem?_eq_getElem hlt]
      exact h d.nn[v] (List.getElem_mem hlt)
  · exact h

/-- A single new node: no row is pushed. -/
theorem replaceUpdate_tri {I : Dom → Prop} (old new : Nat) :
    Tri (fun x => I x ∧ ∀ r ∈ x.nn, r.1 ≠ new) (replaceUpdateReferencesC old new) (fun _ _ => True) I := by
  unfold replaceUpdateReferencesC
  refine (Tri.ask fun _ h => h.1).bind fun node => (Tri.ask fun _ h => h.1.1).bind fun lastNew => (Tri.read _).bind fun next =>
    (Tri.read _).bind fun parent => ?_
  refine (Tri.write (Q := fun x => ∀ r ∈ x.nn, r.1 ≠ new) fun x h => replacePrev_fst old new x h.1.1.1.1.2).bind fun _ => ?_
  have hw : Tri (fun _ => True) (write fun d => { d with nn := replaceNext next lastNew d.nn, nodes := d.nodes.set old { node with type := .removed } })
    (fun _ _ => True) I := Tri.write (Q := fun _ => True) fun _ _ => trivial
  refine Tri.bind (R := fun _ _ => True) ?_ fun _ => hw
  unfold replaceParentC
  cases parent with
  | none => exact Tri.pure fun _ _ => trivial
  | some i =>
    dsimp only
    refine Tri.bind (R := fun _ x => ∀ r ∈ x.nn, r.1 ≠ new) (fun _ x h => h) fun _ => (Tri.read _).bind fun len => (Tri.read _).bind fun nx => ?_
    intro k x h
    have h0 : nx = 0 := by
      rw [h.2]; exact getNext_none h.1.1
    rw [h0, replaceConnectLoopC, if_neg (by decide)]
    trivial

theorem built_next {d x : Dom} {ch : Nat → List Nat} (hi : DomI d ch) (h : Built d x) {n : Nat} (hn : d.nodes.length ≤ n) :
    ∀ r ∈ x.nn, r.1 ≠ n := by
  intro r hr e
  rw [h.nn] at hr
  have h2 := hi.linked.two
  have := (hi.linked.nnLt r.1 r.2 hr (by omega)).1.2
  omega

section Ops
variable {d : Dom} {ch : Nat → List Nat} (hi : DomI d ch)
include hi

theorem replaceDoc_fails (old : Nat) (doc : DocNode) : Tri (Built d) (replaceWithDocumentNodeC old doc) (fun _ _ => True) (Ext d) := by
  unfold replaceWithDocumentNodeC
  refine ((parseDocumentElement_tri (closed_built d) doc).mono (fun _ h => h) (fun _ _ h => h) fun _ h => h.ext).bind fun id => ?_
  refine Tri.iteC (fun _ => Tri.pure fun _ _ => trivial) fun _ => ?_
  refine ((replaceUpdate_tri (I := Ext d) old id).mono (fun x h => ⟨h.1.ext, built_next hi h.1 h.2⟩) (fun _ _ h => h) fun _ h => h).bind fun _ => ?_
  exact Tri.pure fun _ _ => trivial

omit hi in
theorem mergePrev_tri {L : Nat} {I : Dom → Prop} (hI : Closed L I) (old new : Nat) :
    Tri I (tryMergePrevC old new) (fun b x => b = false → I x) I := by
  unfold tryMergePrevC
  refine (Tri.read _).bind fun v => ?_
  cases v with
  | none => exact Tri.pure fun _ h _ => h.1
  | some v =>
    exact (Tri.read _).bind fun p => (tryMerge_fail hI.toInterning p new true).mono (fun _ h => h.1.1) (fun _ _ h => h) fun _ h => h

omit hi in
theorem mergeNext_tri {L : Nat} {I : Dom → Prop} (hI : Closed L I) (old new : Nat) :
    Tri I (tryMergeNextC old new) (fun b x => b = false → I x) I := by
  unfold tryMergeNextC
  refine (Tri.read _).bind fun v => ?_
  cases v with
  | none => exact Tri.pure fun _ h _ => h.1
  | some v =>
    exact (Tri.read _).bind fun p => (tryMerge_fail hI.toInterning p new false).mono (fun _ h => h.1.1) (fun _ _ h => h) fun _ h => h

omit hi in
theorem mergeBoth_tri {L : Nat} {I : Dom → Prop} (hI : Closed L I) (old new : Nat) :
    Tri I (tryMergeBothSidesC old new) (fun b x => b = false → I x) I := by
  unfold tryMergeBothSidesC
  refine (Tri.ask fun _ h => h).bind fun node => Tri.iteC (fun _ => ?_) fun _ => Tri.pure fun _ h _ => h.1
  refine ((mergePrev_tri hI old new).mono (fun _ h => h.1) (fun _ _ h => h) fun _ h => h).bind fun b => ?_
  refine Tri.iteC (fun _ => Tri.pure fun _ _ h => by cases h) fun hb => ?_
  have hb : b = false := by simpa using hb
  exact (mergeNext_tri hI old new).mono (fun _ h => h hb) (fun _ _ h => h) fun _ h => h

theorem replaceText_fails (old : Nat) (text : Str) : Tri (Built d) (replaceWithTextNodeC old text) (fun _ _ => True) (Ext d) := by
  unfold replaceWithTextNodeC
  refine ((parseTextElement_tri (closed_built d) text).mono (fun _ h => h) (fun _ _ h => h) fun _ h => h.ext).bind fun id => ?_
  refine Tri.iteC (fun _ => Tri.pure fun _ _ => trivial) fun _ => Tri.hyp fun hn => ?_
  refine ((mergeBoth_tri (closed_built d) old id).mono (fun _ h => h) (fun _ _ h => h) fun _ h => h.ext).bind fun b => ?_
  refine Tri.iteC (fun _ => ?_) fun hb => ?_
  · exact (Tri.change (removeNode_noJump id)).bind fun _ => (Tri.change (removeNode_noJump old)).bind fun _ => Tri.pure fun _ _ => trivial
  · have hb : b = false := by simpa using hb
    refine ((replaceUpdate_tri (I := Ext d) old id).mono (fun x h => ⟨(h hb).ext, built_next hi (h hb) hn⟩) (fun _ _ h => h) fun _ h => h).bind
      fun _ => ?_
    exact Tri.pure fun _ _ => trivial

end Ops

end Flo.Crash
