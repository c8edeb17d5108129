import Verif.Proofs.Capacity
import Verif.Spec.History
/-!
# Edits give up only for lack of identifiers
-/
namespace Flo
open Spec

/-- The number of nodes, the name maps and the registries are unchanged. -/
structure SameRoom (d d' : Dom) : Prop where
  nodes : d'.nodes.length = d.nodes.length
  tag : d'.tagMap = d.tagMap
  bool : d'.boolMap = d.boolMap
  key : d'.keyMap = d.keyMap
  val : d'.valMap = d.valMap
  reg : (d'.tagReg, d'.boolReg, d'.keyReg, d'.valReg) = (d.tagReg, d.boolReg, d.keyReg, d.valReg)
  rows : (d'.props, d'.boolProps) = (d.props, d.boolProps)
  types : ∀ n, typeOf d' n = typeOf d n ∨ typeOf d' n = some .removed

theorem types_set (d : Dom) (n : Nat) (nd : Node) (h : some nd.type = typeOf d n ∨ nd.type = .removed) (m : Nat) :
    (d.nodes.set n nd)[m]?.map (·.type) = typeOf d m ∨ (d.nodes.set n nd)[m]?.map (·.type) = some .removed := by
  by_cases e : n = m
  · subst e
    by_cases hl : n < d.nodes.length
    · rw [List.getElem?_set_self hl]
      exact h.imp id (fun h => by simp [h])
    · rw [List.set_eq_of_length_le (by omega)]; exact .inl rfl
  · rw [List.getElem?_set_ne e]; exact .inl rfl

theorem node_type {d : Dom} {n : Nat} {nd : Node} (e : d.node n = .ok nd) : some nd.type = typeOf d n := by
  unfold Dom.node at e
  unfold typeOf
  cases h : d.nodes[n]? with
  | none => rw [h] at e; cases e
  | some x => rw [h] at e; cases e; rfl

theorem SameRoom.rfl' (d : Dom) : SameRoom d d :=
  ⟨rfl, rfl, rfl, rfl, rfl, rfl, rfl, fun _ => .inl rfl⟩

theorem SameRoom.trans {a b c : Dom} (h : SameRoom a b) (h' : SameRoom b c) : SameRoom a c :=
  ⟨h'.nodes.trans h.nodes, h'.tag.trans h.tag, h'.bool.trans h.bool, h'.key.trans h.key, h'.val.trans h.val, h'.reg.trans h.reg,
    h'.rows.trans h.rows, fun n => (h'.types n).elim (fun e => e ▸ h.types n) .inr⟩

theorem SameRoom.room {d d' : Dom} (h : SameRoom d d') {k : Nat} (hr : Room d k) : Room d' k :=
  ⟨by rw [h.nodes]; exact hr.nodes, by rw [h.tag]; exact hr.tag,
    ⟨by rw [h.bool]; exact hr.attrs.bool, by rw [h.key]; exact hr.attrs.key, by rw [h.val]; exact hr.attrs.val⟩⟩

theorem node_nj (d : Dom) (i : Nat) : NJ Any (d.node i) := by
  unfold Dom.node; split <;> trivial

theorem getText_nj (n : Node) : NJ Any n.getText := by
  unfold Node.getText; split <;> trivial

theorem lastNextLoop_nj (d : Dom) : ∀ f n, NJ Any (lastNextLoop d f n) := by
  intro f
  induction f with
  | zero => intro n; trivial
  | succ f ih =>
    intro n
    unfold lastNextLoop
    split
    · trivial
    · exact ih _

theorem getLastNext_nj (n : Nat) (d : Dom) : NJ Any (getLastNext n d) := lastNextLoop_nj _ _ _

theorem unlinkParent_nj (n : Nat) (d : Dom) : NJ Any (unlinkParent n d) := by
  unfold unlinkParent
  split
  · trivial
  · dsimp only
    split
    · trivial
    · split
      · split <;> trivial
      · trivial

theorem unlinkNode_nj (n : Nat) (d : Dom) : NJ (SameRoom d) (unlinkNode n d) := by
  unfold unlinkNode
  split
  · trivial
  · refine (unlinkParent_nj n d).bind (fun ⟨a, b⟩ _ _ => ?_)
    exact ⟨by simp, rfl, rfl, rfl, rfl, rfl, rfl, types_set d n _ (.inr rfl)⟩

theorem removeChildrenLoop_nj {rm : Nat → Dom → Out Dom} (hrm : ∀ n d, NJ (SameRoom d) (rm n d)) (n : Nat) :
    ∀ k d, NJ (SameRoom d) (removeChildrenLoop rm n k d) := by
  intro k
  induction k with
  | zero => intro d; trivial
  | succ k ih =>
    intro d
    unfold removeChildrenLoop
    dsimp only
    split
    · refine (hrm _ _).bind (fun d1 _ h1 => ?_)
      exact (ih d1).mono (fun d2 h2 => h1.trans h2)
    · exact SameRoom.rfl' d

theorem removeNodeF_nj : ∀ f n d, NJ (SameRoom d) (removeNodeF f n d) := by
  intro f
  induction f with
  | zero => intro n d; trivial
  | succ f ih =>
    intro n d
    unfold removeNodeF
    refine (removeChildrenLoop_nj ih n _ d).bind (fun d1 _ h1 => ?_)
    exact (unlinkNode_nj n d1).mono (fun d2 h2 => h1.trans h2)

theorem removeNode_nj (n : Nat) (d : Dom) : NJ (SameRoom d) (removeNode n d) := removeNodeF_nj _ _ _

theorem removeChildren_nj (n : Nat) (d : Dom) : NJ (SameRoom d) (removeChildren n d) :=
  removeChildrenLoop_nj (removeNodeF_nj _) _ _ _

theorem connectLoop_nj (p : Nat) : ∀ f o d, NJ (SameRoom d) (connectLoop p f o d) := by
  intro f
  induction f with
  | zero => intro o d; trivial
  | succ f ih =>
    intro o d
    unfold connectLoop
    split
    · dsimp only
      exact (ih _ _).mono (fun d2 h2 => ⟨h2.nodes, h2.tag, h2.bool, h2.key, h2.val, h2.reg, h2.rows, h2.types⟩)
    · exact SameRoom.rfl' d

theorem appendUpdateReferences_nj (p n : Nat) (d : Dom) : NJ (SameRoom d) (appendUpdateReferences p n d) := by
  unfold appendUpdateReferences connectOthers
  split
  · exact (connectLoop_nj _ _ _ _).mono (fun d2 h2 => ⟨h2.nodes, h2.tag, h2.bool, h2.key, h2.val, h2.reg, h2.rows, h2.types⟩)
  · refine (getLastNext_nj _ _).bind (fun l _ _ => ?_)
    exact (connectLoop_nj _ _ _ _).mono (fun d2 h2 => ⟨h2.nodes, h2.tag, h2.bool, h2.key, h2.val, h2.reg, h2.rows, h2.types⟩)

theorem prependUpdateReferences_nj (p n : Nat) (d : Dom) : NJ (SameRoom d) (prependUpdateReferences p n d) := by
  unfold prependUpdateReferences connectOthers
  split
  · exact (connectLoop_nj _ _ _ _).mono (fun d2 h2 => ⟨h2.nodes, h2.tag, h2.bool, h2.key, h2.val, h2.reg, h2.rows, h2.types⟩)
  · dsimp only
    refine (getLastNext_nj _ _).bind (fun l _ _ => ?_)
    exact (connectLoop_nj _ _ _ _).mono (fun d2 h2 => ⟨h2.nodes, h2.tag, h2.bool, h2.key, h2.val, h2.reg, h2.rows, h2.types⟩)

theorem replaceConnectLoop_nj (i : Nat) : ∀ f o d, NJ (SameRoom d) (replaceConnectLoop i f o d) := by
  intro f
  induction f with
  | zero => intro o d; trivial
  | succ f ih =>
    intro o d
    unfold replaceConnectLoop
    split
    · dsimp only
      exact (ih _ _).mono (fun d2 h2 => ⟨h2.nodes, h2.tag, h2.bool, h2.key, h2.val, h2.reg, h2.rows, h2.types⟩)
    · exact SameRoom.rfl' d

theorem replaceUpdateReferences_nj (o n : Nat) (d : Dom) : NJ (SameRoom d) (replaceUpdateReferences o n d) := by
  unfold replaceUpdateReferences
  refine (node_nj _ _).bind (fun nd _ _ => ?_)
  refine (getLastNext_nj _ _).bind (fun l _ _ => ?_)
  dsimp only
  refine NJ.bind (P := SameRoom d) ?_ (fun d1 _ h1 => ?_)
  · unfold replaceParent
    split
    · exact ⟨rfl, rfl, rfl, rfl, rfl, rfl, rfl, fun _ => .inl rfl⟩
    · dsimp only
      exact (replaceConnectLoop_nj _ _ _ _).mono (fun d2 h2 => ⟨h2.nodes, h2.tag, h2.bool, h2.key, h2.val, h2.reg, h2.rows, h2.types⟩)
  · exact h1.trans ⟨by simp, rfl, rfl, rfl, rfl, rfl, rfl, types_set d1 o _ (.inr rfl)⟩

theorem addTextToTextNode_nj (n : Nat) (t : Str) (a : Bool) (d : Dom) : NJ (SameRoom d) (addTextToTextNode n t a d) := by
  unfold addTextToTextNode
  refine (node_nj _ _).bind (fun nd e _ => ?_)
  refine (getText_nj _).bind (fun x _ _ => ?_)
  exact ⟨by simp [Dom.setNode], rfl, rfl, rfl, rfl, rfl, rfl, types_set d n _ (.inl (node_type (nd := nd) e))⟩

theorem tryMerge_nj (p r : Nat) (a : Bool) (d : Dom) : NJ (fun x => SameRoom d x.2) (tryMerge p r a d) := by
  unfold tryMerge
  refine (node_nj _ _).bind (fun nd _ _ => ?_)
  split
  · refine (node_nj _ _).bind (fun nd _ _ => ?_)
    refine (getText_nj _).bind (fun x _ _ => ?_)
    exact (addTextToTextNode_nj _ _ _ _).bind (fun d1 _ h1 => h1)
  · exact SameRoom.rfl' d

theorem tryMergePrev_nj (o n : Nat) (d : Dom) : NJ (fun x => SameRoom d x.2) (tryMergePrev o n d) := by
  unfold tryMergePrev
  split
  · exact tryMerge_nj _ _ _ _
  · exact SameRoom.rfl' d

theorem tryMergeNext_nj (o n : Nat) (d : Dom) : NJ (fun x => SameRoom d x.2) (tryMergeNext o n d) := by
  unfold tryMergeNext
  split
  · exact tryMerge_nj _ _ _ _
  · exact SameRoom.rfl' d

theorem tryMergeBothSides_nj (o n : Nat) (d : Dom) : NJ (fun x => SameRoom d x.2) (tryMergeBothSides o n d) := by
  unfold tryMergeBothSides
  refine (node_nj _ _).bind (fun nd _ _ => ?_)
  split
  · refine (tryMergePrev_nj _ _ _).bind (fun ⟨b, d1⟩ _ h1 => ?_)
    dsimp only at h1 ⊢
    split
    · exact h1
    · exact (tryMergeNext_nj _ _ _).mono (fun x hx => h1.trans hx)
  · exact SameRoom.rfl' d

/-- A postcondition transported along unchanged room. -/
theorem NJ.room {α : Type} {x : Out α} {f : α → Dom} {d : Dom} {k : Nat} (hr : Room d k) (h : NJ (fun a => SameRoom d (f a)) x) :
    NJ (fun a => Room (f a) k) x := h.mono (fun _ ha => ha.room hr)

theorem createNode_room {ty : NodeType} {d : Dom} {k : Nat} (h : Room d (k + 1)) :
    NJ (fun r => Room r.2 k ∧ r.1 = d.nodes.length ∧ r.2.tagMap = d.tagMap ∧ r.2.boolMap = d.boolMap ∧ r.2.keyMap = d.keyMap ∧
      r.2.valMap = d.valMap) (createNode ty d) := by
  obtain ⟨h1, h2, h3, h4, h5⟩ := h
  unfold createNode
  rw [if_neg (by omega)]
  exact ⟨⟨by simp; omega, by show d.tagMap.identity + k ≤ _; omega,
    ⟨by show d.boolMap.identity + k ≤ _; omega, by show d.keyMap.identity + k ≤ _; omega,
      by show d.valMap.identity + k ≤ _; omega⟩⟩, rfl, rfl, rfl, rfl, rfl⟩

theorem parseTextElement_room (t : Str) {d : Dom} {k : Nat} (h : Room d (k + 1)) :
    NJ (fun r => Room r.2 k) (parseTextElement t d) := by
  unfold parseTextElement
  refine (createNode_room h).bind (fun ⟨id, d1⟩ _ h1 => ?_)
  refine (node_nj _ _).bind (fun nd _ _ => ?_)
  exact ⟨by show (d1.nodes.set _ _).length + k ≤ _; rw [List.length_set]; exact h1.1.nodes, h1.1.tag, ⟨h1.1.attrs.bool, h1.1.attrs.key, h1.1.attrs.val⟩⟩

theorem addBools_room (n : Nat) : ∀ (bs : List Str) (d : Dom) (j : Nat), RoomA d (j + bs.length) →
    NJ (fun d' => RoomA d' j ∧ d'.nodes = d.nodes ∧ d'.tagMap = d.tagMap ∧ d'.keyMap = d.keyMap ∧ d'.valMap = d.valMap)
      (addBools n bs d) := by
  intro bs
  induction bs with
  | nil => intro d j h; exact ⟨h.le (by simp), rfl, rfl, rfl, rfl⟩
  | cons b bs ih =>
    intro d j h
    unfold addBools
    have h' : RoomA d (j + bs.length + 1) := h.le (by simp; omega)
    refine NJ.bind (P := fun d' => RoomA d' (j + bs.length) ∧ d'.nodes = d.nodes ∧ d'.tagMap = d.tagMap ∧ d'.keyMap = d.keyMap ∧
      d'.valMap = d.valMap) ?_ ?_
    · unfold addBoolProperty internBool
      have hb := h'.bool
      refine NJ.bind (P := fun r => r.2.boolMap.identity ≤ d.boolMap.identity + 1 ∧ r.2.keyMap = d.keyMap ∧ r.2.valMap = d.valMap ∧
        r.2.nodes = d.nodes ∧ r.2.tagMap = d.tagMap) ((insert_nj b (by omega)).bind (fun r _ hr => ⟨hr, rfl, rfl, rfl, rfl⟩)) ?_
      rintro ⟨a, d1⟩ _ ⟨e1, e2, e3, e4, e5⟩
      dsimp only at e1 e2 e3 e4 e5 ⊢
      have hk := h'.key
      have hv := h'.val
      exact ⟨⟨by show d1.boolMap.identity + (j + bs.length) ≤ _; omega, by rw [e2]; omega, by rw [e3]; omega⟩, e4, e5, e2, e3⟩
    · rintro d1 _ ⟨h1, h2, h3, h4, h5⟩
      refine (ih d1 j h1).mono ?_
      rintro d2 ⟨g1, g2, g3, g4, g5⟩
      exact ⟨g1, g2.trans h2, g3.trans h3, g4.trans h4, g5.trans h5⟩

/-- Room in the key and value maps only. -/
theorem addProps_room (n : Nat) : ∀ (ps : List (Str × Str)) (d : Dom) (j : Nat),
    d.keyMap.identity + (j + ps.length) ≤ 65535 → d.valMap.identity + (j + ps.length) ≤ 65535 →
    NJ (fun d' => d'.keyMap.identity + j ≤ 65535 ∧ d'.valMap.identity + j ≤ 65535 ∧ d'.nodes = d.nodes ∧ d'.tagMap = d.tagMap ∧
      d'.boolMap = d.boolMap) (addProps n ps d) := by
  intro ps
  induction ps with
  | nil => intro d j h1 h2; exact ⟨by simpa using h1, by simpa using h2, rfl, rfl, rfl⟩
  | cons p ps ih =>
    intro d j h1 h2
    obtain ⟨kk, vv⟩ := p
    simp only [List.length_cons] at h1 h2
    unfold addProps
    refine NJ.bind (P := fun d' => d'.keyMap.identity + (j + ps.length) ≤ 65535 ∧ d'.valMap.identity + (j + ps.length) ≤ 65535 ∧
      d'.nodes = d.nodes ∧ d'.tagMap = d.tagMap ∧ d'.boolMap = d.boolMap) ?_ ?_
    · unfold addProperty internKey internVal
      refine NJ.bind (P := fun r => r.2.boolMap = d.boolMap ∧ r.2.keyMap.identity ≤ d.keyMap.identity + 1 ∧ r.2.valMap = d.valMap ∧
        r.2.nodes = d.nodes ∧ r.2.tagMap = d.tagMap) ((insert_nj kk (by omega)).bind (fun r _ hr => ⟨rfl, hr, rfl, rfl, rfl⟩)) ?_
      rintro ⟨a, d1⟩ _ ⟨e1, e2, e3, e4, e5⟩
      dsimp only at e1 e2 e3 e4 e5 ⊢
      refine NJ.bind (P := fun r => r.2.boolMap = d.boolMap ∧ r.2.keyMap.identity ≤ d.keyMap.identity + 1 ∧
        r.2.valMap.identity ≤ d.valMap.identity + 1 ∧ r.2.nodes = d.nodes ∧ r.2.tagMap = d.tagMap)
        ((insert_nj vv (by rw [e3]; omega)).bind (fun r _ hr => ⟨e1, e2, by rw [e3] at hr; exact hr, e4, e5⟩)) ?_
      rintro ⟨b, d2⟩ _ ⟨f1, f2, f3, f4, f5⟩
      dsimp only at f1 f2 f3 f4 f5 ⊢
      exact ⟨by show d2.keyMap.identity + (j + ps.length) ≤ _; omega, by show d2.valMap.identity + (j + ps.length) ≤ _; omega, f4, f5, f1⟩
    · rintro d1 _ ⟨g1, g2, g3, g4, g5⟩
      refine (ih d1 j g1 g2).mono ?_
      rintro d2 ⟨k1, k2, k3, k4, k5⟩
      exact ⟨k1, k2, k3.trans g3, k4.trans g4, k5.trans g5⟩

theorem parseDocumentElement_room (doc : DocNode) {d : Dom} {k : Nat} (h : Room d (docCost doc + k)) :
    NJ (fun r => Room r.2 k) (parseDocumentElement doc d) := by
  obtain ⟨h1, h2, h3, h4, h5⟩ := h
  unfold docCost at h1 h2 h3 h4 h5
  unfold parseDocumentElement createNode
  rw [if_neg (by omega)]
  dsimp only [Out.bind_ok]
  refine (setTag_nj (by show d.tagMap.identity < _; omega)).bind ?_
  rintro d1 _ ⟨a1, a2, a3, a4, a5⟩
  dsimp only at a1 a2 a3 a4 a5
  rw [List.length_append, List.length_singleton] at a2
  refine (addBools_room _ doc.boolProps d1 k ⟨by rw [a3]; omega, by rw [a4]; omega, by rw [a5]; omega⟩).bind ?_
  rintro d2 _ ⟨b1, b2, b3, b4, b5⟩
  refine (addProps_room _ doc.props d2 k (by rw [b4, a4]; omega) (by rw [b5, a5]; omega)).bind ?_
  rintro d3 _ ⟨c1, c2, c3, c4, c5⟩
  exact ⟨by show d3.nodes.length + k ≤ _; rw [c3, b2]; omega, by show d3.tagMap.identity + k ≤ _; rw [c4, b3]; omega,
    ⟨by show d3.boolMap.identity + k ≤ _; rw [c5]; exact b1.bool, c1, c2⟩⟩

theorem runAttr_room (op : AttrOp) {d : Dom} {k : Nat} (h : Room d (attrCost op + k)) :
    NJ (fun d' => Room d' k) (runAttr op d) := by
  cases op with
  | add n key v =>
    refine (addProperty_nj (j := k) key v (h.attrs.le (by simp [attrCost]; omega))).mono ?_
    rintro d' ⟨a1, a2, a3⟩
    exact ⟨by rw [a2]; have := h.nodes; omega, by rw [a3]; have := h.tag; omega, a1⟩
  | addBool n b =>
    refine (addBoolProperty_nj (j := k) b (h.attrs.le (by simp [attrCost]; omega))).mono ?_
    rintro d' ⟨a1, a2, a3⟩
    exact ⟨by rw [a2]; have := h.nodes; omega, by rw [a3]; have := h.tag; omega, a1⟩
  | set n key v =>
    have h' : Room d (1 + k) := h
    unfold runAttr setPropertyValue
    dsimp only
    split
    · exact h'.le (by omega)
    · split
      · exact h'.le (by omega)
      · unfold internVal
        have := h'.attrs.val
        refine NJ.bind (P := fun r => Room r.2 k) (NJ.bind (P := fun r => Room r.2 k)
          ((insert_nj v (by omega)).bind (fun r _ hr => ?_)) ?_) ?_
        · have h'' := h'.le (j := k) (by omega)
          exact ⟨h''.nodes, h''.tag, ⟨h''.attrs.bool, h''.attrs.key, by show r.map.identity + k ≤ _; omega⟩⟩
        · rintro ⟨a, d1⟩ _ h1
          exact ⟨h1.nodes, h1.tag, ⟨h1.attrs.bool, h1.attrs.key, h1.attrs.val⟩⟩
        · rintro ⟨a, d1⟩ _ h1
          exact h1
  | remove n key =>
    have h' := h.le (j := k) (by omega)
    show Room (removeProperty n key d) k
    unfold removeProperty
    dsimp only
    split
    · split
      · exact ⟨h'.nodes, h'.tag, ⟨h'.attrs.bool, h'.attrs.key, h'.attrs.val⟩⟩
      · exact h'
    · exact h'
  | removeBool n b =>
    have h' := h.le (j := k) (by omega)
    show Room (removeBoolProperty n b d) k
    unfold removeBoolProperty
    dsimp only
    split
    · split
      · exact ⟨h'.nodes, h'.tag, ⟨h'.attrs.bool, h'.attrs.key, h'.attrs.val⟩⟩
      · exact h'
    · exact h'

theorem dropValue_nj {x : Out (Nat × Dom)} {k : Nat} (h : NJ (fun r => Room r.2 k) x) :
    NJ (fun d => Room d k) (dropValue x) := by
  unfold dropValue
  exact h.bind (fun ⟨_, _⟩ _ h => h)

section
variable {d : Dom} {k : Nat}

theorem appendDone (h : Room d k) (p n v : Nat) :
    NJ (fun r => Room r.2 k) (appendUpdateReferences p n d >>= fun d => .ok (v, d)) :=
  (NJ.room (f := id) h (appendUpdateReferences_nj p n d)).bind (fun _ _ h => h)

theorem prependDone (h : Room d k) (p n v : Nat) :
    NJ (fun r => Room r.2 k) (prependUpdateReferences p n d >>= fun d => .ok (v, d)) :=
  (NJ.room (f := id) h (prependUpdateReferences_nj p n d)).bind (fun _ _ h => h)

theorem replaceDone (h : Room d k) (p n v : Nat) :
    NJ (fun r => Room r.2 k) (replaceUpdateReferences p n d >>= fun d => .ok (v, d)) :=
  (NJ.room (f := id) h (replaceUpdateReferences_nj p n d)).bind (fun _ _ h => h)

theorem removeDone (h : Room d k) (n v : Nat) :
    NJ (fun r => Room r.2 k) (removeNode n d >>= fun d => .ok (v, d)) :=
  (NJ.room (f := id) h (removeNode_nj n d)).bind (fun _ _ h => h)

theorem appendDocumentNode_room (p : Nat) (doc : DocNode) (h : Room d (docCost doc + k)) :
    NJ (fun r => Room r.2 k) (appendDocumentNode p doc d) := by
  unfold appendDocumentNode
  refine (parseDocumentElement_room doc h).bind (fun ⟨id, d1⟩ _ h1 => ?_)
  dsimp only at h1 ⊢
  split
  · exact h1
  · exact appendDone h1 _ _ _

theorem prependDocumentNode_room (p : Nat) (doc : DocNode) (h : Room d (docCost doc + k)) :
    NJ (fun r => Room r.2 k) (prependDocumentNode p doc d) := by
  unfold prependDocumentNode
  refine (parseDocumentElement_room doc h).bind (fun ⟨id, d1⟩ _ h1 => ?_)
  dsimp only at h1 ⊢
  split
  · exact h1
  · exact prependDone h1 _ _ _

theorem replaceWithDocumentNode_room (p : Nat) (doc : DocNode) (h : Room d (docCost doc + k)) :
    NJ (fun r => Room r.2 k) (replaceWithDocumentNode p doc d) := by
  unfold replaceWithDocumentNode
  refine (parseDocumentElement_room doc h).bind (fun ⟨id, d1⟩ _ h1 => ?_)
  dsimp only at h1 ⊢
  split
  · exact h1
  · exact replaceDone h1 _ _ _

theorem appendTextNode_room (p : Nat) (t : Str) (h : Room d (k + 1)) :
    NJ (fun r => Room r.2 k) (appendTextNode p t d) := by
  unfold appendTextNode
  refine (parseTextElement_room t h).bind (fun ⟨id, d1⟩ _ h1 => ?_)
  dsimp only at h1 ⊢
  split
  · exact h1
  · split
    · refine (getLastNext_nj _ _).bind (fun l _ _ => ?_)
      refine (NJ.room (f := Prod.snd) h1 (tryMerge_nj _ _ _ _)).bind (fun ⟨b, d2⟩ _ h2 => ?_)
      dsimp only at h2 ⊢
      split
      · exact removeDone h2 _ _
      · exact appendDone h2 _ _ _
    · exact appendDone h1 _ _ _

theorem prependTextNode_room (p : Nat) (t : Str) (h : Room d (k + 1)) :
    NJ (fun r => Room r.2 k) (prependTextNode p t d) := by
  unfold prependTextNode
  refine (parseTextElement_room t h).bind (fun ⟨id, d1⟩ _ h1 => ?_)
  dsimp only at h1 ⊢
  split
  · exact h1
  · split
    · refine (NJ.room (f := Prod.snd) h1 (tryMerge_nj _ _ _ _)).bind (fun ⟨b, d2⟩ _ h2 => ?_)
      dsimp only at h2 ⊢
      split
      · exact removeDone h2 _ _
      · exact prependDone h2 _ _ _
    · exact prependDone h1 _ _ _

theorem replaceWithTextNode_room (o : Nat) (t : Str) (h : Room d (k + 1)) :
    NJ (fun r => Room r.2 k) (replaceWithTextNode o t d) := by
  unfold replaceWithTextNode
  refine (parseTextElement_room t h).bind (fun ⟨id, d1⟩ _ h1 => ?_)
  dsimp only at h1 ⊢
  split
  · exact h1
  · refine (NJ.room (f := Prod.snd) h1 (tryMergeBothSides_nj _ _ _)).bind (fun ⟨b, d2⟩ _ h2 => ?_)
    dsimp only at h2 ⊢
    split
    · refine (NJ.room (f := fun d => d) h2 (removeNode_nj _ _)).bind (fun d3 _ h3 => ?_)
      exact removeDone h3 _ _
    · exact replaceDone h2 _ _ _

theorem setTextContent_room (n : Nat) (t : Str) (h : Room d (k + 1)) :
    NJ (fun r => Room r k) (setTextContent n t d) := by
  unfold setTextContent
  refine (NJ.room (f := fun d => d) h (removeChildren_nj _ _)).bind (fun d1 _ h1 => ?_)
  refine (parseTextElement_room t h1).bind (fun ⟨id, d2⟩ _ h2 => ?_)
  exact ⟨h2.nodes, h2.tag, ⟨h2.attrs.bool, h2.attrs.key, h2.attrs.val⟩⟩

variable {junk : Nat → Out Bool}

theorem parseExtra_room (hj : Reads junk) (html : Str) (h : Room d (html.length + k)) :
    NJ (fun r => Room r.dom k) (parseExtra junk html d) :=
  parse_room (fun i => by obtain ⟨b, hb⟩ := hj i; rw [hb]; simp) (fun i => by obtain ⟨b, hb⟩ := hj i; rw [hb]; simp) h _ _

theorem appendHTML_room (hj : Reads junk) (p : Nat) (html : Str) (h : Room d (html.length + k)) :
    NJ (fun r => Room r.2 k) (appendHTML junk p html d) := by
  unfold appendHTML
  refine (parseExtra_room hj html h).bind (fun r _ h1 => ?_)
  dsimp only
  split
  · exact h1
  · split
    · refine (getLastNext_nj _ _).bind (fun l _ _ => ?_)
      refine (node_nj _ _).bind (fun nd _ _ => ?_)
      split
      · split
        · refine (getLastNext_nj _ _).bind (fun l _ _ => ?_)
          refine (NJ.room (f := Prod.snd) h1 (tryMerge_nj _ _ _ _)).bind (fun ⟨b, d2⟩ _ h2 => ?_)
          dsimp only at h2 ⊢
          split
          · refine (NJ.room (f := fun d => d) h2 (removeNode_nj _ _)).bind (fun d3 _ h3 => ?_)
            exact appendDone h3 _ _ _
          · exact appendDone h2 _ _ _
        · exact appendDone h1 _ _ _
      · split
        · refine (getLastNext_nj _ _).bind (fun l _ _ => ?_)
          refine (NJ.room (f := Prod.snd) h1 (tryMerge_nj _ _ _ _)).bind (fun ⟨b, d2⟩ _ h2 => ?_)
          dsimp only at h2 ⊢
          split
          · exact removeDone h2 _ _
          · exact appendDone h2 _ _ _
        · exact appendDone h1 _ _ _
    · exact appendDone h1 _ _ _

theorem prependHTML_room (hj : Reads junk) (p : Nat) (html : Str) (h : Room d (html.length + k)) :
    NJ (fun r => Room r.2 k) (prependHTML junk p html d) := by
  unfold prependHTML
  refine (parseExtra_room hj html h).bind (fun r _ h1 => ?_)
  dsimp only
  split
  · exact h1
  · split
    · refine (getLastNext_nj _ _).bind (fun l _ _ => ?_)
      refine (node_nj _ _).bind (fun nd _ _ => ?_)
      split
      · split
        · refine (NJ.room (f := Prod.snd) h1 (tryMerge_nj _ _ _ _)).bind (fun ⟨b, d2⟩ _ h2 => ?_)
          dsimp only at h2 ⊢
          split
          · refine (NJ.room (f := fun d => d) h2 (removeNode_nj _ _)).bind (fun d3 _ h3 => ?_)
            exact prependDone h3 _ _ _
          · exact prependDone h2 _ _ _
        · exact prependDone h1 _ _ _
      · refine (node_nj _ _).bind (fun nd _ _ => ?_)
        split
        · refine (NJ.room (f := Prod.snd) h1 (tryMerge_nj _ _ _ _)).bind (fun ⟨b, d2⟩ _ h2 => ?_)
          dsimp only at h2 ⊢
          split
          · exact removeDone h2 _ _
          · exact prependDone h2 _ _ _
        · exact prependDone h1 _ _ _
    · exact prependDone h1 _ _ _

theorem replaceMergeFirst_nj (o n : Nat) (d : Dom) : NJ (fun x => SameRoom d x.2) (replaceMergeFirst o n d) := by
  unfold replaceMergeFirst
  refine (node_nj _ _).bind (fun nd _ _ => ?_)
  split
  · refine (tryMergePrev_nj _ _ _).bind (fun ⟨b, d1⟩ _ h1 => ?_)
    dsimp only at h1 ⊢
    split
    · exact (removeNode_nj _ _).bind (fun d2 _ h2 => h1.trans h2)
    · exact h1
  · exact SameRoom.rfl' d

theorem replaceMergeLast_nj (o n : Nat) (d : Dom) : NJ (SameRoom d) (replaceMergeLast o n d) := by
  unfold replaceMergeLast
  refine (node_nj _ _).bind (fun nd _ _ => ?_)
  split
  · refine (tryMergeNext_nj _ _ _).bind (fun ⟨b, d1⟩ _ h1 => ?_)
    dsimp only at h1 ⊢
    split
    · exact (removeNode_nj _ _).mono (fun d2 h2 => h1.trans h2)
    · exact h1
  · exact SameRoom.rfl' d

theorem replaceWithHTML_room (hj : Reads junk) (o : Nat) (html : Str) (h : Room d (html.length + k)) :
    NJ (fun r => Room r.2 k) (replaceWithHTML junk o html d) := by
  unfold replaceWithHTML
  refine (parseExtra_room hj html h).bind (fun r _ h1 => ?_)
  dsimp only
  split
  · exact h1
  · refine (getLastNext_nj _ _).bind (fun l _ _ => ?_)
    split
    · refine (NJ.room (f := Prod.snd) h1 (replaceMergeFirst_nj _ _ _)).bind (fun ⟨b, d2⟩ _ h2 => ?_)
      dsimp only at h2 ⊢
      refine (NJ.room (f := fun d => d) h2 (replaceMergeLast_nj _ _ _)).bind (fun d3 _ h3 => ?_)
      exact replaceDone h3 _ _ _
    · refine (NJ.room (f := Prod.snd) h1 (tryMergeBothSides_nj _ _ _)).bind (fun ⟨b, d2⟩ _ h2 => ?_)
      dsimp only at h2 ⊢
      split
      · refine (NJ.room (f := fun d => d) h2 (removeNode_nj _ _)).bind (fun d3 _ h3 => ?_)
        refine (NJ.room (f := fun d => d) h3 (removeNode_nj _ _)).bind (fun d4 _ h4 => ?_)
        unfold replaceReturn
        split
        · exact h4
        · trivial
      · exact replaceDone h2 _ _ _

/-- An operation that has as much room as it costs does not jump, and leaves the rest of the room. -/
theorem runOp_room (hj : Reads junk) (op : Op) (h : Room d (op.cost + k)) :
    NJ (fun d' => Room d' k) (runOp junk op d) := by
  have hc : ∀ {j}, op.cost = j → Room d (j + k) := fun e => e ▸ h
  cases op with
  | attr op => exact runAttr_room op h
  | addText n t a => exact NJ.room (f := fun d => d) (h.le (by omega)) (addTextToTextNode_nj n t a d)
  | setTag t n p =>
    have h' : Room d (1 + k) := h
    have ht := h'.tag
    refine (setTag_nj (by omega)).mono ?_
    rintro d' ⟨a1, a2, a3, a4, a5⟩
    exact ⟨by rw [a2]; have := h'.nodes; omega, by omega, ⟨by rw [a3]; have := h'.attrs.bool; omega,
      by rw [a4]; have := h'.attrs.key; omega, by rw [a5]; have := h'.attrs.val; omega⟩⟩
  | setText n t => exact setTextContent_room n t (h.le (by show k + 1 ≤ 1 + k; omega))
  | removeNode n => exact NJ.room (f := fun d => d) (h.le (by omega)) (removeNode_nj n d)
  | removeChildren n => exact NJ.room (f := fun d => d) (h.le (by omega)) (removeChildren_nj n d)
  | appendDoc p doc => exact dropValue_nj (appendDocumentNode_room p doc h)
  | appendText p t => exact dropValue_nj (appendTextNode_room p t (h.le (by show k + 1 ≤ 1 + k; omega)))
  | appendHTML p html => exact dropValue_nj (appendHTML_room hj p html h)
  | prependDoc p doc => exact dropValue_nj (prependDocumentNode_room p doc h)
  | prependText p t => exact dropValue_nj (prependTextNode_room p t (h.le (by show k + 1 ≤ 1 + k; omega)))
  | prependHTML p html => exact dropValue_nj (prependHTML_room hj p html h)
  | replaceDoc n doc => exact dropValue_nj (replaceWithDocumentNode_room n doc h)
  | replaceText n t => exact dropValue_nj (replaceWithTextNode_room n t (h.le (by show k + 1 ≤ 1 + k; omega)))
  | replaceHTML n html => exact dropValue_nj (replaceWithHTML_room hj n html h)

end
end Flo
