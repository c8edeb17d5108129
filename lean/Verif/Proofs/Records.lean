import Verif.Proofs.Count
/-!
# A parsed document records every node at most once in the table of parents
-/
namespace Flo
open Spec

/-- `k` nodes are added, the table of parents stays. -/
structure PcSame (d d' : Dom) (k : Nat) : Prop where
  nodes : d'.nodes.length = d.nodes.length + k
  pc : d'.pc = d.pc

theorem PcSame.refl (d : Dom) : PcSame d d 0 := ⟨rfl, rfl⟩

theorem PcSame.then {a b c : Dom} {k : Nat} (h : PcSame a b k) (h' : PcSame b c 0) : PcSame a c k :=
  ⟨by rw [h'.nodes, h.nodes]; rfl, by rw [h'.pc, h.pc]⟩

theorem internKey_pc (s : Str) (d : Dom) : Ok (fun r => PcSame d r.2 0) (internKey s d) := by
  unfold internKey
  exact Ok.triv.bind fun r _ => Ok.ok ⟨rfl, rfl⟩

theorem internVal_pc (s : Str) (d : Dom) : Ok (fun r => PcSame d r.2 0) (internVal s d) := by
  unfold internVal
  exact Ok.triv.bind fun r _ => Ok.ok ⟨rfl, rfl⟩

theorem internBool_pc (s : Str) (d : Dom) : Ok (fun r => PcSame d r.2 0) (internBool s d) := by
  unfold internBool
  exact Ok.triv.bind fun r _ => Ok.ok ⟨rfl, rfl⟩

theorem addProperty_pc (n : Nat) (k v : Str) (d : Dom) : Ok (fun d' => PcSame d d' 0) (addProperty n k v d) := by
  unfold addProperty
  refine (internKey_pc k d).bind fun r h => ?_
  exact (internVal_pc v r.2).bind fun r' h' => Ok.ok (h.then ⟨h'.nodes, h'.pc⟩)

theorem addBoolProperty_pc (n : Nat) (b : Str) (d : Dom) : Ok (fun d' => PcSame d d' 0) (addBoolProperty n b d) := by
  unfold addBoolProperty
  exact (internBool_pc b d).bind fun r h => Ok.ok ⟨h.nodes, h.pc⟩

theorem setTag_pc (t : Str) (n : Nat) (p : Bool) (d : Dom) : Ok (fun d' => PcSame d d' 0) (setTag t n p d) := by
  unfold setTag
  refine Ok.triv.bind fun r _ => ?_
  refine Ok.triv.bind fun nd _ => Ok.ok ?_
  exact ⟨by simp [Dom.setNode], rfl⟩

theorem createNode_pc (t : NodeType) (d : Dom) : Ok (fun r => r.1 = d.nodes.length ∧ PcSame d r.2 1) (createNode t d) := by
  unfold createNode
  split
  · exact Ok.longjmp
  · exact Ok.ok ⟨rfl, by simp, rfl⟩

theorem parseText_pc (t : Str) (d : Dom) : Ok (fun r => r.1 = d.nodes.length ∧ PcSame d r.2 1) (parseTextElement t d) := by
  unfold parseTextElement
  refine (createNode_pc .text d).bind fun r h => ?_
  refine Ok.triv.bind fun nd _ => Ok.ok ⟨h.1, h.2.then ?_⟩
  exact ⟨by simp [Dom.setNode], rfl⟩

theorem buildAttrs_pc (n : Nat) : ∀ (l : List Attr) (d : Dom), Ok (fun d' => PcSame d d' 0) (buildAttrs n l d)
  | [], d => Ok.ok (PcSame.refl d)
  | a :: as, d => by
    unfold buildAttrs
    have ha : Ok (fun d' => PcSame d d' 0) (buildAttr n a d) := by
      cases a with
      | bool b => exact addBoolProperty_pc n b d
      | pair k v => exact addProperty_pc n k v d
    exact ha.bind fun d1 h => (buildAttrs_pc n as d1).mono fun d2 h' => h.then h'

theorem buildElem_pc (t : Str) (can : Bool) (as : List Attr) (d : Dom) :
    Ok (fun r => r.1 = d.nodes.length ∧ PcSame d r.2 1) (buildElem t can as d) := by
  unfold buildElem
  refine (createNode_pc .document d).bind fun r h => ?_
  refine (buildAttrs_pc _ _ _).bind fun d1 h1 => ?_
  exact (setTag_pc _ _ _ _).bind fun d2 h2 => Ok.ok ⟨h.1, (h.2.then h1).then h2⟩

/-- Every node is recorded at most once, and only nodes are. -/
structure PcOnce (d : Dom) : Prop where
  lt : ∀ r ∈ d.pc, r.2 < d.nodes.length
  once : d.pc.Pairwise (fun a b => a.2 ≠ b.2)

theorem PcOnce.update {d d1 : Dom} (h : PcOnce d) (hs : PcSame d d1 1) (prev : Nat) (stack : List (Nat × Str)) :
    PcOnce (parserUpdateReferences d.nodes.length prev stack d1) := by
  have h0 : ∀ d2 : Dom, d2.pc = d.pc → d2.nodes.length = d.nodes.length + 1 → PcOnce d2 := by
    intro d2 e1 e2
    refine ⟨fun r hr => ?_, by rw [e1]; exact h.once⟩
    rw [e1] at hr
    have := h.lt r hr
    omega
  have h1 : ∀ (d2 : Dom) (p : Nat), d2.pc = d.pc ++ [(p, d.nodes.length)] → d2.nodes.length = d.nodes.length + 1 → PcOnce d2 := by
    intro d2 p e1 e2
    refine ⟨fun r hr => ?_, ?_⟩
    · rw [e1] at hr
      rcases List.mem_append.1 hr with hr | hr
      · have := h.lt r hr
        omega
      · rw [List.mem_singleton] at hr
        subst hr
        show d.nodes.length < _
        omega
    · rw [e1, List.pairwise_append]
      refine ⟨h.once, List.pairwise_singleton _ _, fun a ha b hb => ?_⟩
      rw [List.mem_singleton] at hb
      subst hb
      have := h.lt a ha
      show a.2 ≠ d.nodes.length
      omega
  unfold parserUpdateReferences
  split
  · cases stack with
    | nil => exact h0 _ hs.pc hs.nodes
    | cons e l =>
      dsimp only
      split
      · exact h1 _ e.1 (by show d1.pc ++ _ = _; rw [hs.pc]) hs.nodes
      · exact h1 _ e.1 (by show d1.pc ++ _ = _; rw [hs.pc]) hs.nodes
  · exact h0 _ hs.pc hs.nodes

theorem runEv_once {startLen : Nat} {b : BState} (h : PcOnce b.dom) (e : Ev) : Ok (fun r => match r with
      | .inl b' => PcOnce b'.dom
      | .inr d => PcOnce d) (runEv startLen b e) := by
  cases e with
  | text raw =>
    unfold runEv
    refine (parseText_pc raw b.dom).bind fun r hr => Ok.ok ?_
    obtain ⟨h1, h2⟩ := hr
    show PcOnce (parserUpdateReferences r.1 b.prev b.stack r.2)
    rw [h1]
    exact h.update h2 _ _
  | elem tag can attrs =>
    unfold runEv
    refine (buildElem_pc tag can attrs b.dom).bind fun r hr => ?_
    obtain ⟨h1, h2⟩ := hr
    have := h.update h2 b.prev b.stack
    rw [← h1] at this
    dsimp only
    split
    · split
      · exact Ok.ok this
      · exact Ok.ok this
    · exact Ok.ok this
  | close =>
    unfold runEv
    cases hs : b.stack with
    | nil => exact Ok.ok (by dsimp only; exact h)
    | cons e l =>
      dsimp only
      split
      · exact Ok.ok h
      · exact Ok.ok h

theorem runEvs_once {startLen : Nat} : ∀ (es : List Ev) (b : BState), PcOnce b.dom → Ok (fun r => PcOnce r.dom) (runEvs startLen es b)
  | [], b, h => Ok.ok h
  | e :: es, b, h => by
    unfold runEvs
    refine (runEv_once h e).bind fun r hr => ?_
    cases r with
    | inl b' => exact runEvs_once es b' hr
    | inr d => exact Ok.ok hr

theorem createDom_once {s : Str} {d : Dom} (h : createDom s = .ok (some d)) : PcOnce d := by
  unfold createDom at h
  cases hp : parseRoot (fun _ => .ub .oobIndex) s Dom.init with
  | ok r =>
    rw [hp] at h
    simp only [Out.bind_ok, Out.ok.injEq] at h
    have := (parse_trace (E := fun _ => True) (junk := fun _ => .ub .oobIndex) (s := s) (d := Dom.init) (prev := rootID)
      (stack := [(rootID, [])]) (fun hx _ => by cases hx) (fun _ _ => trivial)).elim hp
    obtain ⟨evs, _, e⟩ := this
    have hr := runEvs_once evs ⟨Dom.init, [(rootID, [])], rootID⟩ ⟨fun r hr => (by cases hr), List.Pairwise.nil⟩ r e
    split at h
    · cases h; exact hr
    · cases h
  | longjmp => rw [hp] at h; cases h
  | ub w => rw [hp] at h; cases h
  | hang => rw [hp] at h; cases h

end Flo
