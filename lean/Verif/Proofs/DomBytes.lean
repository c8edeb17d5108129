import Verif.Proofs.DomMemRep
import Verif.Proofs.Count
/-!
# The bytes of a DOM grow while it is built
-/
namespace Flo
open Spec

theorem autoInsert_mono (m : AutoMap) (s : Str) : Ok (fun r => m.identity ≤ r.map.identity) (m.insert s) := by
  intro r hr
  unfold AutoMap.insert at hr
  split at hr
  · cases hr; exact le_refl _
  · split at hr
    · cases hr
    · cases hr; simp

/-- Attributes and names only add. -/
structure Adds (d d' : Dom) : Prop where
  bytes : d.bytes ≤ d'.bytes
  nodes : d'.nodes = d.nodes

theorem Adds.refl (d : Dom) : Adds d d := ⟨le_refl _, rfl⟩
theorem Adds.trans {a b c : Dom} (h : Adds a b) (h' : Adds b c) : Adds a c := ⟨h.bytes.trans h'.bytes, h'.nodes.trans h.nodes⟩

theorem internKey_adds (s : Str) (d : Dom) : Ok (fun r => Adds d r.2) (internKey s d) := by
  unfold internKey
  refine (autoInsert_mono _ _).bind fun r hr => Ok.ok ⟨?_, rfl⟩
  unfold Dom.bytes Dom.textLen
  cases r.wasInserted <;> simp <;> omega

theorem internVal_adds (s : Str) (d : Dom) : Ok (fun r => Adds d r.2) (internVal s d) := by
  unfold internVal
  refine (autoInsert_mono _ _).bind fun r hr => Ok.ok ⟨?_, rfl⟩
  unfold Dom.bytes Dom.textLen
  cases r.wasInserted <;> simp <;> omega

theorem internBool_adds (s : Str) (d : Dom) : Ok (fun r => Adds d r.2) (internBool s d) := by
  unfold internBool
  refine (autoInsert_mono _ _).bind fun r hr => Ok.ok ⟨?_, rfl⟩
  unfold Dom.bytes Dom.textLen
  cases r.wasInserted <;> simp <;> omega

theorem addProperty_adds (n : Nat) (k v : Str) (d : Dom) : Ok (fun d' => Adds d d') (addProperty n k v d) := by
  unfold addProperty
  refine (internKey_adds _ _).bind fun r1 h1 => (internVal_adds _ _).bind fun r2 h2 => Ok.ok ?_
  refine (h1.trans h2).trans ⟨?_, rfl⟩
  unfold Dom.bytes Dom.textLen
  simp

theorem addBoolProperty_adds (n : Nat) (k : Str) (d : Dom) : Ok (fun d' => Adds d d') (addBoolProperty n k d) := by
  unfold addBoolProperty
  refine (internBool_adds _ _).bind fun r1 h1 => Ok.ok ?_
  refine h1.trans ⟨?_, rfl⟩
  unfold Dom.bytes Dom.textLen
  simp

theorem sum_set_le {l : List Node} {n : Nat} {x y : Node} (hx : l[n]? = some x) :
    ((l.set n y).map Node.textLen).sum + x.textLen = (l.map Node.textLen).sum + y.textLen := by
  induction l generalizing n with
  | nil => cases hx
  | cons z l ih =>
    cases n with
    | zero => simp only [List.getElem?_cons_zero, Option.some.injEq] at hx; subst hx; simp; omega
    | succ n =>
      simp only [List.getElem?_cons_succ] at hx
      have := ih hx
      simp only [List.set_cons_succ, List.map_cons, List.sum_cons]; omega

theorem setNode_textLen {d : Dom} {n : Nat} {x y : Node} (hx : d.nodes[n]? = some x) :
    (d.setNode n y).textLen + x.textLen = d.textLen + y.textLen := sum_set_le hx

theorem setNode_bytes {d : Dom} {n : Nat} {x y : Node} (hx : d.nodes[n]? = some x) :
    (d.setNode n y).bytes + 4 * (x.textLen : Int) = d.bytes + 4 * (y.textLen : Int) := by
  have := setNode_textLen (y := y) hx
  unfold Dom.bytes
  have e : (d.setNode n y).nodes.length = d.nodes.length := by simp [Dom.setNode]
  rw [e]
  simp only [Dom.setNode] at this ⊢
  omega

/-- The first part of `setTag`: the tables, without the node. -/
theorem setTag_bytes (tag : Str) (n : Nat) (p : Bool) (d : Dom) {nd : Node} (hn : d.nodes[n]? = some nd) (ht : nd.textLen = 0) :
    Ok (fun d' => d.bytes ≤ d'.bytes) (setTag tag n p d) := by
  unfold setTag
  refine (autoInsert_mono _ _).bind fun r hr => ?_
  dsimp only
  intro d' hd'
  unfold Dom.node at hd'
  dsimp only at hd'
  rw [hn] at hd'
  simp only [Out.bind_ok] at hd'
  cases hd'
  have h1 := setNode_bytes (d := { d with
      tagMap := r.map, tagReg := if r.wasInserted = true then d.tagReg ++ [(tag, p)] else d.tagReg }) (n := n) (x := nd)
      (y := { nd with payload := .tag r.entryIndex }) hn
  have h2 : (d.bytes : Int) ≤ ({ d with
      tagMap := r.map, tagReg := if r.wasInserted = true then d.tagReg ++ [(tag, p)] else d.tagReg } : Dom).bytes := by
    unfold Dom.bytes Dom.textLen
    cases r.wasInserted <;> simp <;> omega
  rw [ht] at h1
  have : (({ nd with payload := .tag r.entryIndex } : Node).textLen : Int) = 0 := rfl
  rw [this] at h1
  omega

theorem createNode_bytes (t : NodeType) (d : Dom) :
    Ok (fun r => r.1 = d.nodes.length ∧ d.bytes + 104 = r.2.bytes ∧ r.2.nodes[r.1]? = some ⟨t, if t = .text then .text [] else .tag 0⟩)
      (createNode t d) := by
  unfold createNode
  by_cases hc : d.nodes.length > 65534
  · rw [if_pos hc]; exact Ok.longjmp
  · rw [if_neg hc]
    refine Ok.ok ⟨rfl, ?_, by simp⟩
    unfold Dom.bytes Dom.textLen
    have : Node.textLen ⟨t, if t = .text then .text [] else .tag 0⟩ = 0 := by unfold Node.textLen; split <;> simp_all <;> split at * <;> simp_all
    simp [this]; omega

theorem attrLoop_adds (s : Str) (n : Nat) : ∀ (f idx : Nat) (can : Bool) (d : Dom), Ok (fun r => Adds d r.2.2) (attrLoop s n f idx can d)
  | 0, _, _, _ => Ok.hang
  | f + 1, idx, can, d => by
    simp only [attrLoop]
    split
    · exact Ok.ok (Adds.refl d)
    · split
      · exact Ok.ok (Adds.refl d)
      · split
        · exact attrLoop_adds s n f _ _ d
        · split
          · refine Ok.triv.bind fun r _ => ?_
            split
            · refine Ok.triv.bind fun r2 _ => (addProperty_adds _ _ _ _).bind fun d1 h1 => ?_
              exact (attrLoop_adds s n f _ _ d1).mono fun r hr => h1.trans hr
            · refine (addBoolProperty_adds _ _ _).bind fun d1 h1 => ?_
              exact (attrLoop_adds s n f _ _ d1).mono fun r hr => h1.trans hr
          · exact attrLoop_adds s n f _ _ d

theorem parseDocumentNode_bytes (s : Str) (idx : Nat) (ex : Bool) (d : Dom) :
    Ok (fun r => d.bytes ≤ r.dom.bytes) (parseDocumentNode s idx ex d) := by
  unfold parseDocumentNode
  refine (createNode_bytes _ _).bind fun r1 h1 => Ok.triv.bind fun _ _ => Ok.triv.bind fun _ _ =>
    (attrLoop_adds _ _ _ _ _ _).bind fun ⟨j, can, d2⟩ h2 => ?_
  dsimp only at h2 ⊢
  refine (setTag_bytes _ _ _ _ (nd := ⟨.document, .tag 0⟩) ?_ rfl).bind fun d3 h3 => Ok.ok ?_
  · have := h1.2.2
    rw [h2.nodes, this, if_neg (by decide)]
  · have := h1.2.1; have := h2.bytes
    dsimp only
    omega

theorem parserUpdate_bytes (new prev : Nat) (stack : List (Nat × Str)) (d : Dom) : d.bytes ≤ (parserUpdateReferences new prev stack d).bytes := by
  unfold parserUpdateReferences
  split
  · split
    · unfold Dom.bytes Dom.textLen; simp
    · dsimp only
      split
      · unfold Dom.bytes Dom.textLen; simp; omega
      · unfold Dom.bytes Dom.textLen; simp; omega
  · exact le_refl _

theorem parseTextNode_bytes (s : Str) (idx : Nat) (tag : Str) (d : Dom) : Ok (fun r => d.bytes ≤ r.2.2.bytes) (parseTextNode s idx tag d) := by
  unfold parseTextNode
  refine (createNode_bytes _ _).bind fun r1 h1 => Ok.triv.bind fun r2 _ => ?_
  intro r hr
  have hn := h1.2.2
  rw [if_pos rfl] at hn
  unfold Dom.node at hr
  rw [hn] at hr
  simp only [Out.bind_ok] at hr
  cases hr
  have := setNode_bytes (d := r1.2) (n := r1.1) (y := ⟨.text, .text r2.1⟩) hn
  have e : (Node.textLen ⟨.text, .text []⟩ : Int) = 0 := rfl
  have := h1.2.1
  dsimp only
  omega

end Flo
