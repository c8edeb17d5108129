import Verif.Proofs.Forms
import Verif.Proofs.Kids
/-!
# Only elements have attributes (C100)
-/
namespace Flo
open Spec

/-- A number a row of the attribute tables may carry: an element, a node that was removed, or none. -/
def MayHold (d : Dom) (n : Nat) : Prop := n = 0 ∨ typeOf d n = some .document ∨ typeOf d n = some .removed

structure OnlyElems (d : Dom) : Prop where
  props : ∀ r ∈ d.props, MayHold d r.node
  boolProps : ∀ r ∈ d.boolProps, MayHold d r.1

theorem OnlyElems.closed : ∀ a b, SameRoom a b → OnlyElems a → OnlyElems b := by
  intro a b h ho
  have hp : b.props = a.props := congrArg (·.1) h.rows
  have hb : b.boolProps = a.boolProps := congrArg (·.2) h.rows
  have key : ∀ n, MayHold a n → MayHold b n := by
    rintro n (h0 | h1)
    · exact .inl h0
    · rcases h.types n with e | e
      · rw [MayHold, e]; exact .inr h1
      · exact .inr (.inr e)
  exact ⟨fun r hr => key _ (ho.props r (hp ▸ hr)), fun r hr => key _ (ho.boolProps r (hb ▸ hr))⟩

/-- The same rows, and nodes that could have attributes still can. -/
theorem OnlyElems.grow {a b : Dom} (ho : OnlyElems a) (hp : b.props = a.props) (hb : b.boolProps = a.boolProps)
    (ht : ∀ n, n < a.nodes.length → typeOf b n = typeOf a n) : OnlyElems b := by
  have key : ∀ n, MayHold a n → MayHold b n := by
    rintro n (h0 | h1)
    · exact .inl h0
    · have hl : n < a.nodes.length := by
        by_contra hc
        rw [typeOf, List.getElem?_eq_none (by omega)] at h1
        simp at h1
      rw [MayHold, ht n hl]; exact .inr h1
  exact ⟨fun r hr => key _ (ho.props r (hp ▸ hr)), fun r hr => key _ (ho.boolProps r (hb ▸ hr))⟩

theorem createNode_bare (ty : NodeType) {d : Dom} (h : OnlyElems d) :
    Ok (fun r => OnlyElems r.2 ∧ typeOf r.2 r.1 = some ty ∧ r.1 = d.nodes.length) (createNode ty d) := by
  rintro ⟨id, d'⟩ hc
  unfold createNode at hc
  split at hc
  · cases hc
  · cases hc
    refine ⟨h.grow rfl rfl fun n hn => ?_, ?_, rfl⟩
    · simp only [typeOf]; rw [List.getElem?_append_left hn]
    · simp [typeOf]

/-- The attribute functions do not touch the nodes. -/
theorem addProperty_bare {n : Nat} {k v : Str} {d : Dom} (h : OnlyElems d) (hn : typeOf d n = some .document) :
    Ok (fun d' => OnlyElems d' ∧ d'.nodes = d.nodes) (addProperty n k v d) := by
  intro d' hc
  simp only [addProperty, internKey, internVal, Out.bind_eq_ok] at hc
  obtain ⟨⟨a, d1⟩, ⟨r1, _, e1⟩, ⟨b, d2⟩, ⟨r2, _, e2⟩, e⟩ := hc
  cases e1; cases e2; cases e
  refine ⟨⟨fun r hr => ?_, h.boolProps⟩, rfl⟩
  rcases List.mem_append.mp hr with hr | hr
  · exact h.props r hr
  · rw [List.mem_singleton] at hr; subst hr; exact .inr (.inl hn)

theorem addBoolProperty_bare {n : Nat} {b : Str} {d : Dom} (h : OnlyElems d) (hn : typeOf d n = some .document) :
    Ok (fun d' => OnlyElems d' ∧ d'.nodes = d.nodes) (addBoolProperty n b d) := by
  intro d' hc
  simp only [addBoolProperty, internBool, Out.bind_eq_ok] at hc
  obtain ⟨⟨a, d1⟩, ⟨r1, _, e1⟩, e⟩ := hc
  cases e1; cases e
  refine ⟨⟨h.props, fun r hr => ?_⟩, rfl⟩
  rcases List.mem_append.mp hr with hr | hr
  · exact h.boolProps r hr
  · rw [List.mem_singleton] at hr; subst hr; exact .inr (.inl hn)

theorem typeOf_nodes {d d' : Dom} (e : d'.nodes = d.nodes) (n : Nat) : typeOf d' n = typeOf d n := by
  unfold typeOf; rw [e]

theorem addBools_bare {n : Nat} : ∀ (l : List Str) {d : Dom} (_ : OnlyElems d) (_ : typeOf d n = some .document),
    Ok (fun d' => OnlyElems d' ∧ d'.nodes = d.nodes) (addBools n l d)
  | [], d, h, _ => Ok.ok ⟨h, rfl⟩
  | b :: l, d, h, hn => by
    unfold addBools
    refine (addBoolProperty_bare h hn).bind fun d1 h1 => ?_
    exact (addBools_bare l h1.1 ((typeOf_nodes h1.2 n).trans hn)).mono fun _ h2 => ⟨h2.1, h2.2.trans h1.2⟩

theorem addProps_bare {n : Nat} : ∀ (l : List (Str × Str)) {d : Dom} (_ : OnlyElems d) (_ : typeOf d n = some .document),
    Ok (fun d' => OnlyElems d' ∧ d'.nodes = d.nodes) (addProps n l d)
  | [], d, h, _ => Ok.ok ⟨h, rfl⟩
  | (k, v) :: l, d, h, hn => by
    unfold addProps
    refine (addProperty_bare h hn).bind fun d1 h1 => ?_
    exact (addProps_bare l h1.1 ((typeOf_nodes h1.2 n).trans hn)).mono fun _ h2 => ⟨h2.1, h2.2.trans h1.2⟩

theorem buildAttrs_bare {n : Nat} : ∀ (l : List Attr) {d : Dom} (_ : OnlyElems d) (_ : typeOf d n = some .document),
    Ok (fun d' => OnlyElems d' ∧ d'.nodes = d.nodes) (buildAttrs n l d)
  | [], d, h, _ => Ok.ok ⟨h, rfl⟩
  | a :: l, d, h, hn => by
    unfold buildAttrs
    refine Ok.bind (P := fun d' => OnlyElems d' ∧ d'.nodes = d.nodes) ?_ fun d1 h1 =>
      (buildAttrs_bare l h1.1 ((typeOf_nodes h1.2 n).trans hn)).mono fun _ h2 => ⟨h2.1, h2.2.trans h1.2⟩
    cases a with
    | bool b => exact addBoolProperty_bare h hn
    | pair k v => exact addProperty_bare h hn

/-- Nodes changed in their contents only. -/
theorem setNode_types {d : Dom} {n : Nat} {nd nd' : Node} (e : d.node n = .ok nd) (ht : nd'.type = nd.type) (m : Nat) :
    typeOf (d.setNode n nd') m = typeOf d m := by
  have h1 := node_type e
  show (d.nodes.set n nd')[m]?.map (·.type) = d.nodes[m]?.map (·.type)
  by_cases hm : n = m
  · subst hm
    by_cases hl : n < d.nodes.length
    · rw [List.getElem?_set_self hl, Option.map_some, ht]; exact h1
    · rw [List.set_eq_of_length_le (by omega)]
  · rw [List.getElem?_set_ne hm]

theorem setTag_bare {tag : Str} {n : Nat} {can : Bool} {d : Dom} (h : OnlyElems d) :
    Ok (fun d' => OnlyElems d' ∧ ∀ m, typeOf d' m = typeOf d m) (setTag tag n can d) := by
  intro d' hs
  simp only [setTag, Out.bind_eq_ok] at hs
  obtain ⟨r, hr, nd, hnd, e⟩ := hs
  cases e
  have ht : ∀ m, typeOf (Dom.setNode { d with tagMap := r.map, tagReg := if r.wasInserted then d.tagReg ++ [(tag, can)] else d.tagReg } n
      { nd with payload := .tag r.entryIndex }) m = typeOf d m := fun m => setNode_types (nd' := { nd with payload := .tag r.entryIndex }) hnd rfl m
  exact ⟨h.grow rfl rfl fun m _ => ht m, ht⟩

theorem parseText_bare (t : Str) {d : Dom} (h : OnlyElems d) : Ok (fun r => OnlyElems r.2) (parseTextElement t d) := by
  unfold parseTextElement
  refine (createNode_bare _ h).bind fun ⟨id, d1⟩ h1 => ?_
  intro r hr
  simp only [Out.bind_eq_ok] at hr
  obtain ⟨nd, hnd, e⟩ := hr
  cases e
  exact h1.1.grow rfl rfl fun m _ => setNode_types (nd' := { nd with payload := .text t }) hnd rfl m

theorem parseDoc_bare (doc : DocNode) {d : Dom} (h : OnlyElems d) : Ok (fun r => OnlyElems r.2) (parseDocumentElement doc d) := by
  unfold parseDocumentElement
  refine (createNode_bare _ h).bind fun ⟨id, d1⟩ h1 => ?_
  dsimp only at h1 ⊢
  refine (setTag_bare h1.1).bind fun d2 h2 => ?_
  have t2 : typeOf d2 id = some .document := (h2.2 id).trans h1.2.1
  refine (addBools_bare _ h2.1 t2).bind fun d3 h3 => ?_
  exact (addProps_bare _ h3.1 ((typeOf_nodes h3.2 id).trans t2)).bind fun d4 h4 => Ok.ok h4.1

theorem buildElem_bare (tag : Str) (can : Bool) (as : List Attr) {d : Dom} (h : OnlyElems d) :
    Ok (fun r => OnlyElems r.2) (buildElem tag can as d) := by
  unfold buildElem
  refine (createNode_bare _ h).bind fun ⟨id, d1⟩ h1 => ?_
  dsimp only at h1 ⊢
  refine (buildAttrs_bare as h1.1 h1.2.1).bind fun d2 h2 => ?_
  exact (setTag_bare h2.1).bind fun d3 h3 => Ok.ok h3.1

theorem parserUpdate_bare {new prev : Nat} {stack : List (Nat × Str)} {d : Dom} (h : OnlyElems d) :
    OnlyElems (parserUpdateReferences new prev stack d) := by
  refine h.grow ?_ ?_ ?_ <;> unfold parserUpdateReferences
  all_goals
    split
    · split
      · first | rfl | exact fun _ _ => rfl
      · dsimp only
        split <;> first | rfl | exact fun _ _ => rfl
    · first | rfl | exact fun _ _ => rfl

theorem runEvs_bare {startLen : Nat} : ∀ (es : List Ev) (b : BState), OnlyElems b.dom →
    Ok (fun r => OnlyElems r.dom) (runEvs startLen es b)
  | [], b, h => Ok.ok h
  | e :: es, b, h => by
    unfold runEvs
    refine Ok.bind (P := fun x => match x with | .inl b' => OnlyElems b'.dom | .inr d' => OnlyElems d') ?_ ?_
    · cases e with
      | text raw =>
        unfold runEv
        exact (parseText_bare raw h).bind fun ⟨id, d1⟩ h1 => Ok.ok (parserUpdate_bare h1)
      | close =>
        simp only [runEv]
        split
        · split <;> exact Ok.ok h
        · exact Ok.ok h
      | elem tag can as =>
        unfold runEv
        refine (buildElem_bare tag can as h).bind fun ⟨id, d1⟩ h1 => ?_
        have h2 := parserUpdate_bare (new := id) (prev := b.prev) (stack := b.stack) h1
        dsimp only at h1 h2 ⊢
        split
        · split <;> exact Ok.ok h2
        · exact Ok.ok h2
    · intro x hx
      cases x with
      | inl b' => exact runEvs_bare es b' hx
      | inr d' => exact Ok.ok hx

theorem OnlyElems.init : OnlyElems Dom.init := ⟨(fun _ h => by cases h), (fun _ h => by cases h)⟩

theorem parseExtra_bare {junk : Nat → Out Bool} (hj : Reads junk) (s : Str) {d : Dom} (h : OnlyElems d) :
    Ok (fun r => OnlyElems r.dom) (parseExtra junk s d) := by
  intro r hr
  have := (parse_trace (E := fun _ => True) (junk := junk) (s := s) (d := d) (prev := 0) (stack := [])
    (fun _ i => by obtain ⟨b, e⟩ := hj i; rw [e]; trivial) (fun _ _ => trivial)).elim hr
  obtain ⟨evs, _, e⟩ := this
  exact runEvs_bare evs ⟨d, [], 0⟩ h r e

theorem runAttr_bare {op : AttrOp} {d : Dom} (h : OnlyElems d) (hn : typeOf d op.node = some .document) :
    Ok OnlyElems (runAttr op d) := by
  cases op with
  | add n k v => exact (addProperty_bare h hn).mono fun _ h => h.1
  | addBool n b => exact (addBoolProperty_bare h hn).mono fun _ h => h.1
  | set n k v =>
    unfold runAttr
    refine Ok.bind (P := fun r => OnlyElems r.2) ?_ (fun ⟨_, d1⟩ h1 => Ok.ok h1)
    unfold setPropertyValue
    dsimp only
    split
    · exact Ok.ok h
    · split
      · exact Ok.ok h
      · intro r hr
        simp only [internVal, Out.bind_eq_ok] at hr
        obtain ⟨⟨v', d1⟩, ⟨r1, _, e1⟩, e⟩ := hr
        cases e1; cases e
        refine ⟨fun x hx => ?_, h.boolProps⟩
        obtain ⟨i, hi⟩ := List.getElem?_of_mem hx
        rw [List.getElem?_modify] at hi
        cases hy : d.props[i]? with
        | none => rw [hy] at hi; simp at hi
        | some y =>
          rw [hy, Option.map_eq_map, Option.map_some] at hi
          have hy' := h.props y (List.mem_of_getElem? hy)
          split at hi <;> cases hi <;> exact hy'
  | remove n k =>
    refine Ok.ok ?_
    unfold removeProperty
    dsimp only
    split
    · split
      · refine ⟨fun x hx => ?_, h.boolProps⟩
        rcases List.mem_or_eq_of_mem_set hx with hx | rfl
        · exact h.props x hx
        · exact .inl rfl
      · exact h
    · exact h
  | removeBool n b =>
    refine Ok.ok ?_
    unfold removeBoolProperty
    dsimp only
    split
    · split
      · refine ⟨h.props, fun x hx => ?_⟩
        rcases List.mem_or_eq_of_mem_set hx with hx | rfl
        · exact h.boolProps x hx
        · exact .inl rfl
      · exact h
    · exact h

theorem runOp_bare {junk : Nat → Out Bool} (hj : Reads junk) {op : Op} {d : Dom} (h : OnlyElems d)
    (hop : ∀ a, op = .attr a → typeOf d a.node = some .document) : Ok OnlyElems (runOp junk op d) := by
  have hc := OnlyElems.closed
  cases op with
  | attr a => exact runAttr_bare h (hop a rfl)
  | addText n t a => exact (addTextToTextNode_nj _ _ _ d).ok'.mono fun _ e => hc _ _ e h
  | setTag t n p => exact (setTag_bare h).mono fun _ h => h.1
  | setText n t => exact setTextContent_fin hc _ _ fun d1 h1 => parseText_bare _ (hc _ _ h1 h)
  | removeNode n => exact (removeNode_nj _ d).ok'.mono fun _ e => hc _ _ e h
  | removeChildren n => exact (removeChildren_nj _ d).ok'.mono fun _ e => hc _ _ e h
  | appendDoc p doc => exact (appendDocumentNode_fin hc _ _ (parseDoc_bare _ h)).drop fun _ h => h
  | appendText p t => exact (appendTextNode_fin hc _ _ (parseText_bare _ h)).drop fun _ h => h
  | prependDoc p doc => exact (prependDocumentNode_fin hc _ _ (parseDoc_bare _ h)).drop fun _ h => h
  | prependText p t => exact (prependTextNode_fin hc _ _ (parseText_bare _ h)).drop fun _ h => h
  | replaceDoc n doc => exact (replaceWithDocumentNode_fin hc _ _ (parseDoc_bare _ h)).drop fun _ h => h
  | replaceText n t => exact (replaceWithTextNode_fin hc _ _ (parseText_bare _ h)).drop fun _ h => h
  | appendHTML p x => exact (appendHTML_fin hc _ _ (parseExtra_bare hj x h)).drop fun _ h => h
  | prependHTML p x => exact (prependHTML_fin hc _ _ (parseExtra_bare hj x h)).drop fun _ h => h
  | replaceHTML p x => exact (replaceWithHTML_fin hc _ _ (parseExtra_bare hj x h)).drop fun _ h => h

theorem OnlyElems.none {d : Dom} (h : OnlyElems d) {n : Nat} (h0 : n ≠ 0) (h1 : typeOf d n ≠ some .document)
    (h2 : typeOf d n ≠ some .removed) : pairs d n = [] ∧ bools d n = [] := by
  have hn : ¬MayHold d n := fun hm => hm.elim h0 fun hm => hm.elim h1 h2
  constructor
  · unfold pairs
    rw [List.map_eq_nil_iff, List.filter_eq_nil_iff]
    intro r hr e
    have e := beq_iff_eq.mp e
    exact hn (e ▸ h.props r hr)
  · unfold bools
    rw [List.map_eq_nil_iff, List.filter_eq_nil_iff]
    intro r hr e
    have e := beq_iff_eq.mp e
    exact hn (e ▸ h.boolProps r hr)

end Flo
