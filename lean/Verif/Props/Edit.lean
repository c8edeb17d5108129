import Verif.Props.Nav
import Verif.Model.Query
/-!
# Effects of the edits that add or remove single nodes (C17–C22, C25, C26)

`kids d` is the child list an API user sees, `SameNode d d' m` says that nothing about node `m` itself changed.
Every statement has the form "the call jumps to the out-of-memory handler or returns with ...": undefined
behaviour and divergence are excluded.
-/
namespace Flo
open Spec

/-! ## C17, C18: adding an element -/

/-- `appendDocumentNode` gives a new node (the next identifier), the last child of the parent, with the given
tag and attributes and no children; every other child list and node is unchanged. -/
theorem C17_appendDocumentNode (d : Dom) (h : Reachable d) (p : Nat) (hp : IsNode d p) (doc : DocNode) :
    appendDocumentNode p doc d = .longjmp ∨
    ∃ id d', appendDocumentNode p doc d = .ok (id, d') ∧ id = d.nodes.length ∧
      kids d' p = kids d p ++ [id] ∧ (∀ q, q ≠ p → kids d' q = kids d q) ∧ kids d' id = [] ∧
      tagOf d' id = some doc.tag ∧ pairs d' id = doc.props ∧ bools d' id = doc.boolProps ∧
      ∀ m, m ≠ id → SameNode d d' m := by
  obtain ⟨hi, h0⟩ := reach_domI h
  rcases (appendDoc_spec hi h0 hp.1 hp.2 doc).cases with e | ⟨⟨id, d'⟩, e, h1, h2, h3, h4, h5, h6⟩
  · exact Or.inl e
  · dsimp only at h1 h2 h3 h4 h5 h6
    subst h1
    have hk := h2.inv.kidsFun (upd_nil hp.1 h0 _)
    have hne : d.nodes.length ≠ p := by have := hp.2; omega
    refine Or.inr ⟨_, d', e, rfl, by rw [hk, upd_same], fun q hq => by rw [hk, upd_ne hq], ?_, h4, h5, h6, h3⟩
    rw [hk, upd_ne hne, List.eq_nil_iff_forall_not_mem]
    intro c hc
    have := hi.linked.range _ _ hc; omega

/-- `prependDocumentNode`: the same, as first child. -/
theorem C18_prependDocumentNode (d : Dom) (h : Reachable d) (p : Nat) (hp : IsNode d p) (doc : DocNode) :
    prependDocumentNode p doc d = .longjmp ∨
    ∃ id d', prependDocumentNode p doc d = .ok (id, d') ∧ id = d.nodes.length ∧
      kids d' p = id :: kids d p ∧ (∀ q, q ≠ p → kids d' q = kids d q) ∧ kids d' id = [] ∧
      tagOf d' id = some doc.tag ∧ pairs d' id = doc.props ∧ bools d' id = doc.boolProps ∧
      ∀ m, m ≠ id → SameNode d d' m := by
  obtain ⟨hi, h0⟩ := reach_domI h
  rcases (prependDoc_spec hi h0 hp.1 hp.2 doc).cases with e | ⟨⟨id, d'⟩, e, h1, h2, h3, h4, h5, h6⟩
  · exact Or.inl e
  · dsimp only at h1 h2 h3 h4 h5 h6
    subst h1
    have hk := h2.inv.kidsFun (upd_nil hp.1 h0 _)
    have hne : d.nodes.length ≠ p := by have := hp.2; omega
    refine Or.inr ⟨_, d', e, rfl, by rw [hk, upd_same], fun q hq => by rw [hk, upd_ne hq], ?_, h4, h5, h6, h3⟩
    rw [hk, upd_ne hne, List.eq_nil_iff_forall_not_mem]
    intro c hc
    have := hi.linked.range _ _ hc; omega

/-- non-vacuity: both calls return on a concrete reachable document. -/
example : ∃ d, Reachable d ∧ IsNode d 2 ∧
    okAnd (appendDocumentNode 2 ⟨b!"i", true, [b!"x"], []⟩ d) (fun r => decide (kids r.2 2 = [6, 3, 7])) = true ∧
    okAnd (prependDocumentNode 2 ⟨b!"i", true, [b!"x"], []⟩ d) (fun r => decide (kids r.2 2 = [7, 6, 3])) = true := by
  obtain ⟨d, h, hd⟩ := okAnd_ex (x := exampleRun) (p := fun d =>
    decide (2 < d.nodes.length) &&
    (okAnd (appendDocumentNode 2 ⟨b!"i", true, [b!"x"], []⟩ d) (fun r => decide (kids r.2 2 = [6, 3, 7])) &&
    okAnd (prependDocumentNode 2 ⟨b!"i", true, [b!"x"], []⟩ d) (fun r => decide (kids r.2 2 = [7, 6, 3])))) (by decide +kernel)
  rw [Bool.and_eq_true, Bool.and_eq_true] at hd
  exact ⟨d, exampleRun_reachable h, ⟨by omega, of_decide_eq_true hd.1⟩, hd.2⟩

/-! ## C19, C20: adding text -/

/-- `appendTextNode`: if the last child of the parent is a text, that text is extended by one space and the new
text and the tree is unchanged (the identifier used up on the way is a removed node); otherwise a new text node
becomes the last child. -/
theorem C19_appendTextNode (d : Dom) (h : Reachable d) (p : Nat) (hp : IsNode d p) (text : Str) :
    appendTextNode p text d = .longjmp ∨
    ∃ id d', appendTextNode p text d = .ok (id, d') ∧
      ((∃ l k old, kids d p = l ++ [k] ∧ textOf d k = some old ∧ textOf d' k = some (old ++ [32] ++ text) ∧
          pairs d' k = pairs d k ∧ bools d' k = bools d k ∧ typeOf d' d.nodes.length = some .removed ∧
          (∀ q, kids d' q = kids d q) ∧ ∀ m, m ≠ k → m ≠ d.nodes.length → SameNode d d' m) ∨
       ((∀ l k, kids d p = l ++ [k] → textOf d k = none) ∧ id = d.nodes.length ∧ textOf d' id = some text ∧
          pairs d' id = [] ∧ bools d' id = [] ∧ kids d' p = kids d p ++ [id] ∧ (∀ q, q ≠ p → kids d' q = kids d q) ∧
          ∀ m, m ≠ id → SameNode d d' m)) := by
  obtain ⟨hi, h0⟩ := reach_domI h
  rcases (appendText_spec hi h0 hp.1 hp.2 text).cases with e | ⟨⟨id, d'⟩, e, ⟨tk, h1, h2, h3⟩ | ⟨h1, h2, h3⟩⟩
  · exact Or.inl e
  · refine Or.inr ⟨_, _, e, Or.inl ?_⟩
    have hk := h3.inv.kidsFun h0
    have hne : kids d p ≠ [] := by
      intro hx; rw [hx, List.getLastD_nil, hi.text_zero] at h1; cases h1
    refine ⟨(kids d p).dropLast, (kids d p).getLastD 0, tk, ?_, h1, h3.text, h3.attrs.1, h3.attrs.2,
      h3.gone, fun q => by rw [hk], h3.others⟩
    rcases List.eq_nil_or_concat' (kids d p) with hx | ⟨l, k, hx⟩
    · exact absurd hx hne
    · rw [hx]; simp
  · dsimp only at h2 h3
    subst h2
    refine Or.inr ⟨_, _, e, Or.inr ⟨?_, rfl, h3.text, h3.attrs.1, h3.attrs.2, ?_, ?_, h3.others⟩⟩
    · intro l k hl
      rw [hl] at h1
      simpa using h1
    · rw [h3.inv.kidsFun (upd_nil hp.1 h0 _), upd_same]
    · intro q hq
      rw [h3.inv.kidsFun (upd_nil hp.1 h0 _), upd_ne hq]

/-- `prependTextNode`: the same at the front. -/
theorem C19_prependTextNode (d : Dom) (h : Reachable d) (p : Nat) (hp : IsNode d p) (text : Str) :
    prependTextNode p text d = .longjmp ∨
    ∃ id d', prependTextNode p text d = .ok (id, d') ∧
      ((∃ l k old, kids d p = k :: l ∧ textOf d k = some old ∧ textOf d' k = some (text ++ [32] ++ old) ∧
          pairs d' k = pairs d k ∧ bools d' k = bools d k ∧ typeOf d' d.nodes.length = some .removed ∧
          (∀ q, kids d' q = kids d q) ∧ ∀ m, m ≠ k → m ≠ d.nodes.length → SameNode d d' m) ∨
       ((∀ l k, kids d p = k :: l → textOf d k = none) ∧ id = d.nodes.length ∧ textOf d' id = some text ∧
          pairs d' id = [] ∧ bools d' id = [] ∧ kids d' p = id :: kids d p ∧ (∀ q, q ≠ p → kids d' q = kids d q) ∧
          ∀ m, m ≠ id → SameNode d d' m)) := by
  obtain ⟨hi, h0⟩ := reach_domI h
  rcases (prependText_spec hi h0 hp.1 hp.2 text).cases with e | ⟨⟨id, d'⟩, e, ⟨tk, h1, h2, h3⟩ | ⟨h1, h2, h3⟩⟩
  · exact Or.inl e
  · refine Or.inr ⟨_, _, e, Or.inl ?_⟩
    have hk := h3.inv.kidsFun h0
    cases hx : kids d p with
    | nil => rw [hx, List.headD_nil, hi.text_zero] at h1; cases h1
    | cons k l =>
      rw [hx] at h1 h3
      exact ⟨l, k, tk, rfl, h1, h3.text, h3.attrs.1, h3.attrs.2, h3.gone, fun q => by rw [hk], h3.others⟩
  · dsimp only at h2 h3
    subst h2
    refine Or.inr ⟨_, _, e, Or.inr ⟨?_, rfl, h3.text, h3.attrs.1, h3.attrs.2, ?_, ?_, h3.others⟩⟩
    · intro l k hl
      rw [hl] at h1
      simpa using h1
    · rw [h3.inv.kidsFun (upd_nil hp.1 h0 _), upd_same]
    · intro q hq
      rw [h3.inv.kidsFun (upd_nil hp.1 h0 _), upd_ne hq]

/-- non-vacuity: node 2 starts with a text and does not end in one; a merge and a new node. -/
example : ∃ d, Reachable d ∧ IsNode d 2 ∧
    okAnd (appendTextNode 2 b!"z" d) (fun r => decide (kids r.2 2 = [6, 3, 7])) = true ∧
    okAnd (prependTextNode 2 b!"z" d) (fun r => decide (kids r.2 2 = [6, 3] ∧ textOf r.2 6 = some b!"z hi")) = true := by
  obtain ⟨d, h, hd⟩ := okAnd_ex (x := exampleRun) (p := fun d =>
    decide (2 < d.nodes.length) &&
    (okAnd (appendTextNode 2 b!"z" d) (fun r => decide (kids r.2 2 = [6, 3, 7])) &&
    okAnd (prependTextNode 2 b!"z" d) (fun r => decide (kids r.2 2 = [6, 3] ∧ textOf r.2 6 = some b!"z hi")))) (by decide +kernel)
  rw [Bool.and_eq_true, Bool.and_eq_true] at hd
  exact ⟨d, exampleRun_reachable h, ⟨by omega, of_decide_eq_true hd.1⟩, hd.2⟩

/-- C20 fails for `prependTextNode`: after a merge it returns the identifier of a removed node. -/
theorem C20_violated : ∃ d, createDom b!"<p>old</p>" = .ok (some d) ∧
    okAnd (prependTextNode 2 b!"new" d) (fun r => decide (r.1 = 4 ∧ typeOf r.2 4 = some .removed ∧
      textOf r.2 3 = some b!"new old")) = true :=
  someAnd_ex (by decide +kernel)

/-- C20 holds for `appendTextNode`: the returned node is the last child of the parent and a text that ends in
the new text.  Missing: `prependTextNode` after a merge. -/
theorem C20_appendTextNode_returns_holder_partial (d : Dom) (h : Reachable d) (p : Nat) (hp : IsNode d p) (text : Str)
    (id : Nat) (d' : Dom) (e : appendTextNode p text d = .ok (id, d')) :
    (∃ l, kids d' p = l ++ [id]) ∧ ∃ pre, textOf d' id = some (pre ++ text) := by
  obtain ⟨hi, h0⟩ := reach_domI h
  have := (appendText_spec hi h0 hp.1 hp.2 text).elim e
  rcases this with ⟨tk, h1, h2, h3⟩ | ⟨h1, h2, h3⟩
  · dsimp only at h2 h3
    have hk := h3.inv.kidsFun h0
    refine ⟨⟨(kids d p).dropLast, ?_⟩, tk ++ [32], by rw [h2, h3.text]⟩
    rw [hk]
    have hne : kids d p ≠ [] := by
      intro hx; rw [hx, List.getLastD_nil, hi.text_zero] at h1; cases h1
    rcases List.eq_nil_or_concat' (kids d p) with hx | ⟨l, k, hx⟩
    · exact absurd hx hne
    · rw [hx] at h2 ⊢; simp at h2 ⊢; exact h2.symm
  · dsimp only at h2 h3
    subst h2
    refine ⟨⟨kids d p, ?_⟩, [], by rw [h3.text]; rfl⟩
    rw [h3.inv.kidsFun (upd_nil hp.1 h0 _), upd_same]

/-- The same for `prependTextNode` when it does not merge. -/
theorem C20_prependTextNode_returns_holder_partial (d : Dom) (h : Reachable d) (p : Nat) (hp : IsNode d p) (text : Str)
    (hn : ∀ k l, kids d p = k :: l → textOf d k = none)
    (id : Nat) (d' : Dom) (e : prependTextNode p text d = .ok (id, d')) :
    (∃ l, kids d' p = id :: l) ∧ textOf d' id = some text := by
  rcases C19_prependTextNode d h p hp text with x | ⟨_, _, x, ⟨l, k, old, h1, h2, _⟩ | ⟨_, rfl, h2, _, _, h3, _⟩⟩
  · rw [x] at e; cases e
  · rw [hn k l h1] at h2; cases h2
  · rw [x] at e; cases e
    exact ⟨⟨_, h3⟩, h2⟩

/-- C20 exactly: `prependTextNode` returns the new identifier in every case, also when the new node has been merged into
the first child and removed: then the returned node is nobody's child and the text is in the first child. -/
theorem C20_prependTextNode_exact_partial (d : Dom) (h : Reachable d) (p : Nat) (hp : IsNode d p) (text : Str)
    (id : Nat) (d' : Dom) (e : prependTextNode p text d = .ok (id, d')) :
    id = d.nodes.length ∧
    ∀ k l old, kids d p = k :: l → textOf d k = some old →
      typeOf d' id = some .removed ∧ (∀ q, id ∉ kids d' q) ∧ kids d' p = k :: l ∧
        textOf d' k = some (text ++ [32] ++ old) := by
  obtain ⟨hi, h0⟩ := reach_domI h
  have := (prependText_spec hi h0 hp.1 hp.2 text).elim e
  rcases this with ⟨tk, h1, h2, h3⟩ | ⟨h1, h2, h3⟩
  · dsimp only at h2 h3
    refine ⟨h2, fun k l old hk ho => ?_⟩
    have hkd := h3.inv.kidsFun h0
    rw [hk, List.headD_cons] at h1 h3
    rw [ho] at h1; cases h1
    refine ⟨by rw [h2]; exact h3.gone, fun q hq => ?_, by rw [hkd, hk], h3.text⟩
    rw [hkd, h2] at hq
    have := hi.linked.range q _ hq
    omega
  · refine ⟨h2, fun k l old hk ho => ?_⟩
    rw [hk, List.headD_cons, ho] at h1; cases h1

/-! ## C21, C22: removing -/

/-- `removeNode` on any node that is a child of some node: all nodes of its subtree are marked removed and lose
their children, the node disappears from its parent's child list, and nothing else changes. -/
theorem C21_removeNode (d : Dom) (h : Reachable d) (n : Nat) (hn : HasParent d n) :
    ∃ d', removeNode n d = .ok d' ∧
      (∀ m, m ∈ preorder d n → typeOf d' m = some .removed ∧ kids d' m = []) ∧
      (∀ q, q ∉ preorder d n → kids d' q = (kids d q).filter (· ≠ n)) ∧
      (∀ m, m ∉ preorder d n → SameNode d d' m) := by
  obtain ⟨hi, h0⟩ := reach_domI h
  obtain ⟨p, l₁, l₂, hp, he⟩ := hasParent_split h hn
  have hmem : n ∈ kids d p := by rw [he]; simp
  have hr := hi.linked.range _ _ hmem
  obtain ⟨d', e, i, h3, h4, h5⟩ := dropAll hi hmem
  have hpre := preorder_kids hi (p := n) ⟨by omega, hr.2.2⟩
  rw [← hpre] at h3 h4
  have hk := i.kidsFun (dropTree_nil h0)
  refine ⟨d', e, fun m hm => ⟨h4 m hm, ?_⟩, fun q hq => ?_, h3⟩
  · rw [hk]; unfold dropTree; rw [if_pos (by rw [← hpre]; exact hm)]
  · rw [hk]; unfold dropTree
    rw [if_neg (by rw [← hpre]; exact hq), (hi.linked.nodup q).erase_eq_filter]
    congr 1
    funext x
    by_cases hx : x = n <;> simp [hx]

example : ∃ d, Reachable d ∧ decide ((kids d 1).contains 2 = true ∧ preorder d 2 = [2, 6, 3]) = true := by
  obtain ⟨d, h, hd⟩ := okAnd_ex (x := exampleRun)
    (p := fun d => decide ((kids d 1).contains 2 = true ∧ preorder d 2 = [2, 6, 3])) (by decide +kernel)
  exact ⟨d, exampleRun_reachable h, hd⟩

/-- `removeChildren`: the node loses its children, everything below it is marked removed, nothing else
changes. -/
theorem C22_removeChildren (d : Dom) (h : Reachable d) (n : Nat) (hn : IsNode d n) :
    ∃ d', removeChildren n d = .ok d' ∧ kids d' n = [] ∧
      (∀ m, m ∈ (preorder d n).tail → typeOf d' m = some .removed ∧ kids d' m = []) ∧
      (∀ q, q ∉ preorder d n → kids d' q = kids d q) ∧
      (∀ m, m ∉ (preorder d n).tail → SameNode d d' m) := by
  obtain ⟨hi, h0⟩ := reach_domI h
  obtain ⟨d', e, i, h3, h4, h5⟩ := dropKids hi hn.1 hn.2
  have hpre := preorder_kids hi hn
  rw [← hpre] at h3 h4
  have hk := i.kidsFun (dropBelow_nil h0)
  have hself : n ∈ preorder d n := by rw [hpre, pre_eq hi.linked.up hn.2]; simp
  have hin : ∀ m, m ∈ preorder d n → kids d' m = [] := fun m hm => by
    rw [hk]; unfold dropBelow; rw [if_pos (by rw [← hpre]; exact hm)]
  refine ⟨d', e, hin n hself, fun m hm => ⟨h4 m hm, hin m (List.mem_of_mem_tail hm)⟩, fun q hq => ?_, h3⟩
  rw [hk]; unfold dropBelow; rw [if_neg (by rw [← hpre]; exact hq)]

/-- `setTextContent`: afterwards the node has exactly one child, a text node holding the text; everything that
was below it is marked removed; nothing else changes. -/
theorem C22_setTextContent (d : Dom) (h : Reachable d) (n : Nat) (hn : IsNode d n) (text : Str) :
    setTextContent n text d = .longjmp ∨
    ∃ d' id, setTextContent n text d = .ok d' ∧ id = d.nodes.length ∧ kids d' n = [id] ∧
      textOf d' id = some text ∧ pairs d' id = [] ∧ bools d' id = [] ∧
      (∀ m, m ∈ (preorder d n).tail → typeOf d' m = some .removed ∧ kids d' m = []) ∧
      (∀ q, q ∉ preorder d n → kids d' q = kids d q) ∧
      (∀ m, m ∉ (preorder d n).tail → m ≠ id → SameNode d d' m) := by
  obtain ⟨hi, h0⟩ := reach_domI h
  rcases (setText_spec hi h0 hn.1 hn.2 text).cases with e | ⟨d', e, i, h2, h3, h4, h5, h6⟩
  · exact Or.inl e
  have hpre := preorder_kids hi hn
  rw [← hpre] at h4 h5
  have hz : upd (dropBelow d.nodes.length (kids d) n) n [d.nodes.length] 0 = [] := by
    rw [upd_ne (Ne.symm hn.1)]; exact dropBelow_nil h0
  have hk := i.kidsFun hz
  have htail : ∀ m ∈ (preorder d n).tail, m ≠ n := by
    intro m hm e
    have hnd : (preorder d n).Nodup := by
      rw [hpre]; exact pre_nodup' hi.linked.up hi.linked.uniq hi.linked.nodup _ hn.2
    rw [hpre, pre_eq hi.linked.up hn.2] at hm hnd
    simp only [List.tail_cons] at hm
    rw [e] at hm
    exact (List.nodup_cons.mp hnd).1 hm
  refine Or.inr ⟨d', _, e, rfl, by rw [hk, upd_same], h2, h3.1, h3.2, fun m hm => ⟨h5 m hm, ?_⟩, fun q hq => ?_, h4⟩
  · rw [hk, upd_ne (htail m hm)]
    unfold dropBelow; rw [if_pos (by rw [← hpre]; exact List.mem_of_mem_tail hm)]
  · have hself : n ∈ preorder d n := by rw [hpre, pre_eq hi.linked.up hn.2]; simp
    have hqn : q ≠ n := fun e => hq (e ▸ hself)
    rw [hk, upd_ne hqn]
    unfold dropBelow; rw [if_neg (by rw [← hpre]; exact hq)]

example : ∃ d, Reachable d ∧ IsNode d 2 ∧ decide ((preorder d 2).tail = [6, 3]) = true ∧
    okAnd (setTextContent 2 b!"t" d) (fun r => decide (kids r 2 = [7])) = true := by
  obtain ⟨d, h, hd⟩ := okAnd_ex (x := exampleRun) (p := fun d => decide (2 < d.nodes.length) &&
    (decide ((preorder d 2).tail = [6, 3]) && okAnd (setTextContent 2 b!"t" d) (fun r => decide (kids r 2 = [7]))))
    (by decide +kernel)
  rw [Bool.and_eq_true, Bool.and_eq_true] at hd
  exact ⟨d, exampleRun_reachable h, ⟨by omega, of_decide_eq_true hd.1⟩, hd.2⟩

/-! ## C25, C26: replacing -/

/-- `replaceWithDocumentNode`: a new element takes the position of the old node; the siblings and all other
child lists and nodes are unchanged, and the old node is marked removed. -/
theorem C25_replaceWithDocumentNode (d : Dom) (h : Reachable d) (p old : Nat) (l₁ l₂ : List Nat)
    (he : kids d p = l₁ ++ old :: l₂) (doc : DocNode) :
    replaceWithDocumentNode old doc d = .longjmp ∨
    ∃ id d', replaceWithDocumentNode old doc d = .ok (id, d') ∧ id = d.nodes.length ∧
      kids d' p = l₁ ++ id :: l₂ ∧ (∀ q, q ≠ p → kids d' q = kids d q) ∧
      tagOf d' id = some doc.tag ∧ pairs d' id = doc.props ∧ bools d' id = doc.boolProps ∧
      typeOf d' old = some .removed ∧ ∀ m, m ≠ id → m ≠ old → SameNode d d' m := by
  obtain ⟨hi, h0⟩ := reach_domI h
  have hp : p ≠ 0 := by rintro rfl; rw [h0] at he; simp at he
  rcases (replaceDoc_spec hi h0 hp he doc).cases with e | ⟨⟨id, d'⟩, e, h1, h2, h3, h4, h5, h6, h7⟩
  · exact Or.inl e
  · dsimp only at h1 h2 h3 h4 h5 h6 h7
    subst h1
    have hk := h2.inv.kidsFun (upd_nil hp h0 _)
    exact Or.inr ⟨_, d', e, rfl, by rw [hk, upd_same], fun q hq => by rw [hk, upd_ne hq], h5, h6, h7, h4, h3⟩

/-- `replaceWithTextNode`: with a text before the old node that text is extended, otherwise with a text after
it that one, and the old subtree is removed; without neighbouring texts a new text node takes its place. -/
theorem C25_replaceWithTextNode (d : Dom) (h : Reachable d) (p old : Nat) (l₁ l₂ : List Nat)
    (he : kids d p = l₁ ++ old :: l₂) (text : Str) :
    replaceWithTextNode old text d = .longjmp ∨
    ∃ id d', replaceWithTextNode old text d = .ok (id, d') ∧ typeOf d' old = some .removed ∧
      ((∃ k new, (∃ t l, l₁ = l ++ [k] ∧ textOf d k = some t ∧ new = t ++ [32] ++ text) ∧
          textOf d' k = some new ∧ pairs d' k = pairs d k ∧ bools d' k = bools d k ∧ kids d' p = l₁ ++ l₂ ∧
          typeOf d' d.nodes.length = some .removed ∧ (∀ m, m ∈ preorder d old → typeOf d' m = some .removed ∧ kids d' m = []) ∧
          (∀ q, q ≠ p → q ∉ preorder d old → kids d' q = kids d q) ∧
          (∀ m, m ≠ k → m ≠ d.nodes.length → m ∉ preorder d old → SameNode d d' m)) ∨
       (∃ k new, (∃ t l, l₂ = k :: l ∧ textOf d k = some t ∧ new = text ++ [32] ++ t) ∧
          (∀ l x, l₁ = l ++ [x] → textOf d x = none) ∧
          textOf d' k = some new ∧ pairs d' k = pairs d k ∧ bools d' k = bools d k ∧ kids d' p = l₁ ++ l₂ ∧
          typeOf d' d.nodes.length = some .removed ∧ (∀ m, m ∈ preorder d old → typeOf d' m = some .removed ∧ kids d' m = []) ∧
          (∀ q, q ≠ p → q ∉ preorder d old → kids d' q = kids d q) ∧
          (∀ m, m ≠ k → m ≠ d.nodes.length → m ∉ preorder d old → SameNode d d' m)) ∨
       ((∀ l x, l₁ = l ++ [x] → textOf d x = none) ∧ (∀ l x, l₂ = x :: l → textOf d x = none) ∧
          id = d.nodes.length ∧ textOf d' id = some text ∧ pairs d' id = [] ∧ bools d' id = [] ∧
          kids d' p = l₁ ++ id :: l₂ ∧
          (∀ q, q ≠ p → kids d' q = kids d q) ∧ ∀ m, m ≠ id → m ≠ old → SameNode d d' m)) := by
  obtain ⟨hi, h0⟩ := reach_domI h
  have hp : p ≠ 0 := by rintro rfl; rw [h0] at he; simp at he
  have hmem : old ∈ kids d p := by rw [he]; simp
  have hr := hi.linked.range _ _ hmem
  have hpre := preorder_kids hi (p := old) ⟨by omega, hr.2.2⟩
  have hself : old ∈ preorder d old := by rw [hpre, pre_eq hi.linked.up hr.2.2]; simp
  have hnd := hi.linked.nodup p
  have hpn : p ∉ preorder d old := by
    rw [hpre, ← LiveC.mem_pre hi.linked.up hr.2.2]
    intro hl
    have := hl.ge hi.linked.up; omega
  have herase : (kids d p).erase old = l₁ ++ l₂ := by
    rw [he] at hnd ⊢
    rw [List.erase_append_right _ (fun hm => by
      rw [List.nodup_append] at hnd; exact hnd.2.2 old hm old (by simp) rfl)]
    simp
  have hsw : ∀ {k : Nat} {t : Str} {d' : Dom}, Swallowed d (kids d) old k t d' →
      kids d' p = l₁ ++ l₂ ∧ (∀ q, q ≠ p → q ∉ preorder d old → kids d' q = kids d q) ∧
      (∀ m, m ∈ preorder d old → typeOf d' m = some .removed ∧ kids d' m = []) := by
    intro k t d' s
    have hk := s.inv.kidsFun (dropTree_nil h0)
    refine ⟨?_, fun q hq hqn => ?_, fun m hm => ⟨s.gone m (by rw [← hpre]; exact hm), ?_⟩⟩
    · rw [hk]; unfold dropTree; rw [if_neg (by rw [← hpre]; exact hpn), herase]
    · rw [hk]; unfold dropTree; rw [if_neg (by rw [← hpre]; exact hqn)]
      exact List.erase_of_not_mem (fun hm => hq (hi.linked.uniq _ _ _ hm hmem))
    · rw [hk]; unfold dropTree; rw [if_pos (by rw [← hpre]; exact hm)]
  have hl1 : textOf d (l₁.getLastD 0) = none → ∀ l x, l₁ = l ++ [x] → textOf d x = none := by
    rintro hx l x rfl; simpa using hx
  have hl2 : textOf d (l₂.headD 0) = none → ∀ l x, l₂ = x :: l → textOf d x = none := by
    rintro hx l x rfl; simpa using hx
  rcases (replaceText_spec hi h0 hp he text).cases with e | ⟨⟨id, d'⟩, e, h1, ⟨tk, h2, s⟩ | ⟨h2, tk, h3, s⟩ | ⟨h2, h3, s⟩⟩
  · exact Or.inl e
  · obtain ⟨h4, h5, h6⟩ := hsw s
    have hoth := s.others
    rw [← hpre] at hoth
    refine Or.inr ⟨_, d', e, s.gone old (by rw [← hpre]; exact hself), Or.inl ⟨_, _, ⟨tk, l₁.dropLast, ?_, h2, rfl⟩, s.text, s.attrs.1, s.attrs.2, h4, s.temp, h6, h5, hoth⟩⟩
    rcases List.eq_nil_or_concat' l₁ with hx | ⟨l, k, hx⟩
    · rw [hx, List.getLastD_nil, hi.text_zero] at h2; cases h2
    · rw [hx]; simp
  · obtain ⟨h4, h5, h6⟩ := hsw s
    have hoth := s.others
    rw [← hpre] at hoth
    refine Or.inr ⟨_, d', e, s.gone old (by rw [← hpre]; exact hself), Or.inr (Or.inl ⟨_, _, ⟨tk, l₂.tail, ?_, h3, rfl⟩, hl1 h2, s.text, s.attrs.1, s.attrs.2, h4, s.temp, h6, h5, hoth⟩)⟩
    cases l₂ with
    | nil => rw [List.headD_nil, hi.text_zero] at h3; cases h3
    | cons k l => rfl
  · dsimp only at h1 s
    have hk := s.inv.kidsFun (upd_nil hp h0 _)
    subst h1
    exact Or.inr ⟨_, d', e, s.gone, Or.inr (Or.inr ⟨hl1 h2, hl2 h3, rfl, s.text, s.attrs.1, s.attrs.2, by rw [hk, upd_same],
      fun q hq => by rw [hk, upd_ne hq], s.others⟩)⟩

/-- non-vacuity: in the example document node 3 has a text before it, node 2 has none around it. -/
example : ∃ d, Reachable d ∧ kids d 2 = [6] ++ 3 :: [] ∧ kids d 1 = [] ++ 2 :: [5] ∧
    okAnd (replaceWithTextNode 3 b!"t" d) (fun r => decide (kids r.2 2 = [6] ∧ textOf r.2 6 = some b!"hi t")) = true ∧
    okAnd (replaceWithDocumentNode 2 ⟨b!"q", true, [], []⟩ d) (fun r => decide (kids r.2 1 = [7, 5])) = true := by
  obtain ⟨d, h, hd⟩ := okAnd_ex (x := exampleRun) (p := fun d => decide (kids d 2 = [6] ++ 3 :: [] ∧ kids d 1 = [] ++ 2 :: [5]) &&
    (okAnd (replaceWithTextNode 3 b!"t" d) (fun r => decide (kids r.2 2 = [6] ∧ textOf r.2 6 = some b!"hi t")) &&
    okAnd (replaceWithDocumentNode 2 ⟨b!"q", true, [], []⟩ d) (fun r => decide (kids r.2 1 = [7, 5])))) (by decide +kernel)
  rw [Bool.and_eq_true, Bool.and_eq_true] at hd
  have := of_decide_eq_true hd.1
  exact ⟨d, exampleRun_reachable h, this.1, this.2, hd.2⟩

/-- C26 fails: after `replaceWithDocumentNode` the replaced element and its child are still found by a query. -/
theorem C26_violated : ∃ d, createDom b!"<div><p><b></b></p></div>" = .ok (some d) ∧
    okAnd (replaceWithDocumentNode 3 ⟨b!"i", true, [], []⟩ d) (fun r =>
      decide (kids r.2 2 = [5]) &&
      decide (querySelectorAll id b!"p" r.2 = .ok (.go [3])) &&
      decide (querySelectorAll id b!"b" r.2 = .ok (.go [4]))) = true :=
  someAnd_ex (by decide +kernel)

/-- What holds: after the replacement the old node and its descendants are no longer part of the document, so a
walk from the root does not meet them.  Missing: queries, which look at all nodes. -/
theorem C26_replaced_not_live_partial (d : Dom) (h : Reachable d) (p old : Nat) (l₁ l₂ : List Nat)
    (he : kids d p = l₁ ++ old :: l₂) (doc : DocNode) (id : Nat) (d' : Dom)
    (hr : replaceWithDocumentNode old doc d = .ok (id, d')) (n : Nat) (hn : n ∈ preorder d old) : ¬ Live d' n := by
  obtain ⟨hi, h0⟩ := reach_domI h
  have hmem : old ∈ kids d p := by rw [he]; simp
  have hrg := hi.linked.range _ _ hmem
  have hpre := preorder_kids hi (p := old) ⟨by omega, hrg.2.2⟩
  rcases C25_replaceWithDocumentNode d h p old l₁ l₂ he doc with e | ⟨id', d'', e, rfl, hk1, hk2, _, _, _, _, _⟩
  · rw [e] at hr; cases hr
  rw [e] at hr
  cases hr
  have hnd := hi.linked.nodup p
  rw [he, List.nodup_append] at hnd
  -- no node of the old subtree is below the root any more
  intro hl
  have key : ∀ m, Live d' m → m ∉ preorder d old := by
    intro m hm
    induction hm with
    | root =>
      rw [hpre, ← LiveC.mem_pre hi.linked.up hrg.2.2]
      intro hx
      have h1 := hx.ge hi.linked.up
      have : rootID = 1 := rfl
      omega
    | @child q c _ hc ih =>
      intro hx
      rw [hpre, ← LiveC.mem_pre hi.linked.up hrg.2.2] at hx
      by_cases hq : q = p
      · subst hq
        rw [hk1] at hc
        have hc' : c = d.nodes.length ∨ (c ∈ kids d q ∧ c ≠ old) := by
          simp only [List.mem_append, List.mem_cons] at hc
          rw [he]
          rcases hc with hc | hc | hc
          · exact Or.inr ⟨by simp [hc], fun e => hnd.2.2 c hc old (by simp) e⟩
          · exact Or.inl hc
          · exact Or.inr ⟨by simp [hc], fun e => (List.nodup_cons.mp hnd.2.1).1 (e ▸ hc)⟩
        rcases hc' with rfl | ⟨hc', hne⟩
        · have := hx.lt hi.linked.up hrg.2.2; omega
        · have := hx.parent hi.linked.uniq hc' hne
          have := this.ge hi.linked.up; omega
      · rw [hk2 q hq] at hc
        have hne : c ≠ old := fun e => hq (hi.linked.uniq _ _ _ (e ▸ hc) hmem)
        refine ih ?_
        rw [hpre, ← LiveC.mem_pre hi.linked.up hrg.2.2]
        exact hx.parent hi.linked.uniq hc hne
  exact key n hl hn

/-! ### C63: a removed node is detached -/

theorem iso_next {d : Dom} {m : Nat} (h : Iso d.nn m) : getNext m d = 0 ∧ getPrevious m d = 0 := by
  have h1 : getNextNode m d = none := findFst_none.mpr (fun b hb => (h m b hb).1 rfl)
  have h2 : getPreviousNode m d = none := findSnd_none.mpr (fun a ha => (h a m ha).2 rfl)
  unfold getNext getPrevious
  rw [h1, h2]
  exact ⟨rfl, rfl⟩

/-- After `removeNode` every node of the removed subtree is without children, without a next and without a
previous sibling. Missing from C63: that such a node has no parent either (`C63_violated`). -/
theorem C63_detached_partial (d : Dom) (h : Reachable d) (n : Nat) (hn : HasParent d n) :
    ∃ d', removeNode n d = .ok d' ∧ ∀ m, m ∈ preorder d n →
      getFirstChild m d' = 0 ∧ getNext m d' = 0 ∧ getPrevious m d' = 0 := by
  obtain ⟨hi, h0⟩ := reach_domI h
  obtain ⟨p, l₁, l₂, hp, he⟩ := hasParent_split h hn
  have hmem : n ∈ kids d p := by rw [he]; simp
  have hr := hi.linked.range _ _ hmem
  have hpre := preorder_kids hi (p := n) ⟨by omega, hr.2.2⟩
  obtain ⟨d', e, D, L⟩ := removeNode_spec hi.linked hmem
  refine ⟨d', e, fun m hm => ?_⟩
  rw [hpre] at hm
  have hm0 := pre_ge hi.linked.up n hr.2.2 m hm
  refine ⟨?_, iso_next (D.iso m hm (by omega))⟩
  rw [L.getFirstChild_eq (by omega)]
  unfold dropTree
  rw [if_pos hm]; rfl

/-- The same for `removeChildren`. -/
theorem C63_removeChildren_partial (d : Dom) (h : Reachable d) (n : Nat) (hn : IsNode d n) :
    ∃ d', removeChildren n d = .ok d' ∧ ∀ m, m ∈ (preorder d n).tail →
      getFirstChild m d' = 0 ∧ getNext m d' = 0 ∧ getPrevious m d' = 0 := by
  obtain ⟨hi, h0⟩ := reach_domI h
  have hpre := preorder_kids hi hn
  obtain ⟨d', e, D, L⟩ := removeChildren_spec hi.linked hn.1 hn.2
  refine ⟨d', e, fun m hm => ?_⟩
  rw [hpre] at hm
  have hm0 : m ∈ pre d.nodes.length (kids d) n := List.mem_of_mem_tail hm
  have hge := pre_ge hi.linked.up n hn.2 m hm0
  have := hn.1
  refine ⟨?_, iso_next (D.iso m hm (by omega))⟩
  rw [L.getFirstChild_eq (by omega)]
  unfold dropBelow
  rw [if_pos hm0]; rfl

example : ∃ d, Reachable d ∧ decide ((kids d 1).contains 2 = true ∧ preorder d 2 = [2, 6, 3]) = true := by
  obtain ⟨d, h, hd⟩ := okAnd_ex (x := exampleRun)
    (p := fun d => decide ((kids d 1).contains 2 = true ∧ preorder d 2 = [2, 6, 3])) (by decide +kernel)
  exact ⟨d, exampleRun_reachable h, hd⟩

/-- C63 fails for `getParent`: a prepend records the older children of the parent a second time, `removeNode`
erases one of the two records, so the removed node still has a parent. -/
theorem C63_violated : ∃ d, createDom b!"<p><b></b></p>" = .ok (some d) ∧
    okAnd (prependDocumentNode 2 ⟨b!"i", true, [], []⟩ d) (fun r =>
      okAnd (removeNode 3 r.2) (fun d' => decide (kids d' 2 = [4] ∧ typeOf d' 3 = some .removed ∧
        getParent 3 d' = 2))) = true :=
  someAnd_ex (by decide +kernel)

end Flo
