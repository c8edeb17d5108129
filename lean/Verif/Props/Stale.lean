import Verif.Props.Query
import Verif.Props.Edit
import Verif.Proofs.Grow
/-!
# What queries answer about nodes that are no longer in the document (C26, C36), and without assumptions on texts (C31, C32)

`storedTag` and `Compound.finds` (Spec/Query.lean) say what the library looks at: the tag that is read from a node whatever its
type, and the attributes recorded for its identifier.
-/
namespace Flo
open Spec

/-! ## C31, C32: the exact answers -/

/-- C31 (partial): on every reachable DOM the answer to a compound selector with known names and at most eight filters, for
every identifier and whatever the pointers of texts read as.  The full property has `Compound.holds` and only nodes of the
document instead; `C31_violated_union` and `C36_violated` show the difference. -/
theorem C31_exact_partial (d : Dom) (h : Reachable d) (pun : Nat → Nat) (c : Compound) (lead trail : Str)
    (hl : Blanks lead) (ht : Blanks trail) (hw : c.WF true) (hk : c.known d) (hs : c.size ≤ 8) :
    ∃ L, querySelectorAll pun (lead ++ (c.text ++ trail)) d = .ok (.go L) ∧ L.Nodup ∧
      ∀ n, n ∈ L ↔ IsNode d n ∧ c.finds pun d n :=
  compound_all (reach_domI h).1 ⟨hl, ht, hw, trivial⟩ hk hs

/-- C32 (partial): combinators without the assumption on texts. -/
theorem C32_exact_partial (d : Dom) (h : Reachable d) (pun : Nat → Nat) (q : Query)
    (hw : ∀ p ∈ q.parts, p.WF) (hk : ∀ p ∈ q.parts, p.known d) (hs : ∀ p ∈ q.parts, p.Small) :
    ∃ L, querySelectorAll pun q.text d = .ok (.go L) ∧ L.Nodup ∧ ∀ n, Live d n → (n ∈ L ↔ q.finds pun d n) := by
  obtain ⟨hd, h0⟩ := reach_domI h
  obtain ⟨L, e1, e2, _, e4⟩ := query_finds (pun := pun) hd h0 hw hk hs
  exact ⟨L, e1, e2, e4⟩

/-- The statements differ from C31's: a text whose pointer reads as the identifier of `p` is found by `p`. -/
example : ∃ d, createDom b!"<p>x</p>" = .ok (some d) ∧ Compound.finds (fun _ => 1) d 3 (.mk (some b!"p") [] none) ∧
    ¬Compound.holds d 3 (.mk (some b!"p") [] none) := by
  obtain ⟨d, h1, h2⟩ := someAnd_ex (x := createDom b!"<p>x</p>")
    (p := fun d => decide (storedTag (fun _ => 1) d 3 = some b!"p" ∧ tagOf d 3 = none)) (by decide +kernel)
  obtain ⟨h2, h3⟩ := of_decide_eq_true h2
  refine ⟨d, h1, ⟨by intro x hx; cases hx; exact h2, by simp, by simp⟩, fun h => ?_⟩
  have := h.1 _ rfl
  rw [h3] at this; cases this

/-! ## C36: removed nodes -/

theorem removed_stored (d : Dom) (h : Reachable d) (n : Nat) (hn : HasParent d n) :
    ∃ d', removeNode n d = .ok d' ∧ DomI d' (kids d') ∧ d'.tagReg = d.tagReg ∧ d'.keyReg = d.keyReg ∧ d'.valReg = d.valReg ∧
      d'.boolReg = d.boolReg ∧
      ∀ m, m ∈ preorder d n → IsNode d' m ∧ (∀ pun, storedTag pun d' m = none) ∧ pairs d' m = pairs d m ∧ bools d' m = bools d m := by
  obtain ⟨hi, h0⟩ := reach_domI h
  obtain ⟨p, l₁, l₂, hp, he⟩ := hasParent_split h hn
  have hmem : n ∈ kids d p := by rw [he]; simp
  have hr := hi.linked.range _ _ hmem
  have hpre := preorder_kids hi (p := n) ⟨by omega, hr.2.2⟩
  obtain ⟨d', e, D, L⟩ := removeNode_spec hi.linked hmem
  obtain ⟨d'', e', i, _⟩ := dropAll hi hmem
  rw [e] at e'; cases e'
  have hk := i.kidsFun (dropTree_nil h0)
  obtain ⟨ns, fc, pc, nn, ed⟩ := D.same
  refine ⟨d', e, hk ▸ i, by rw [ed], by rw [ed], by rw [ed], by rw [ed], fun m hm => ?_⟩
  rw [hpre] at hm
  have hm0 := pre_ge hi.linked.up n hr.2.2 m hm
  refine ⟨⟨by omega, by rw [D.len]; omega⟩, fun pun => ?_, by rw [ed]; rfl, by rw [ed]; rfl⟩
  simp [storedTag, D.gone m hm hm0.2, tagName]

/-- C36 (partial): exactly which compound selectors still answer a node that was removed by `removeNode` (it or an ancestor
of it): those without a tag name whose conditions hold of the attributes the node had. -/
theorem C36_removed_exact_partial (d : Dom) (h : Reachable d) (n : Nat) (hn : HasParent d n) (pun : Nat → Nat) (t : Option Str)
    (cs : List Cond) (fin : Option Final) (lead trail : Str) (hl : Blanks lead) (ht : Blanks trail)
    (hw : Compound.WF true (.mk t cs fin)) (hk : Compound.known d (.mk t cs fin)) (hs : Compound.size (.mk t cs fin) ≤ 8) :
    ∃ d' L, removeNode n d = .ok d' ∧
      querySelectorAll pun (lead ++ (Compound.text (.mk t cs fin) ++ trail)) d' = .ok (.go L) ∧
      ∀ m, m ∈ preorder d n →
        (m ∈ L ↔ t = none ∧ (∀ c ∈ cs, c.holds d m) ∧ ∀ f, fin = some f → f.holds d m) := by
  obtain ⟨d', e, hi, r1, r2, r3, r4, hm⟩ := removed_stored d h n hn
  have hkn : ∀ c : Cond, c.known d' ↔ c.known d := by intro c; cases c <;> simp [Cond.known, r2, r3, r4]
  have hfk : ∀ f : Final, f.known d' ↔ f.known d := by intro f; cases f <;> simp [Final.known, r2, r3]
  have hk' : Compound.known d' (.mk t cs fin) := by
    obtain ⟨k1, k2, k3⟩ := hk
    exact ⟨by rw [r1]; exact k1, fun c hc => (hkn c).mpr (k2 c hc), fun f hf => (hfk f).mpr (k3 f hf)⟩
  obtain ⟨L, e1, _, e3⟩ := compound_all (pun := pun) hi (lead := lead) (trail := trail) ⟨hl, ht, hw, trivial⟩ hk' hs
  refine ⟨d', L, e, e1, fun m hmm => ?_⟩
  obtain ⟨hin, hst, hp, hb⟩ := hm m hmm
  rw [e3]
  have hch : ∀ c : Cond, c.holds d' m ↔ c.holds d m := by intro c; cases c <;> simp [Cond.holds, hp, hb]
  have hfh : ∀ f : Final, f.holds d' m ↔ f.holds d m := by intro f; cases f <;> simp [Final.holds, hp]
  show IsNode d' m ∧ ((∀ x, t = some x → storedTag pun d' m = some x) ∧ _ ∧ _) ↔ _
  rw [hst pun]
  simp only [hch, hfh]
  constructor
  · rintro ⟨_, h1, h2, h3⟩
    refine ⟨?_, h2, h3⟩
    cases t with
    | none => rfl
    | some x => cases h1 x rfl
  · rintro ⟨rfl, h2, h3⟩
    exact ⟨hin, by simp, h2, h3⟩

/-- In particular a selector with a tag name never answers a removed node. -/
theorem C36_removed_tag_partial (d : Dom) (h : Reachable d) (n : Nat) (hn : HasParent d n) (pun : Nat → Nat) (x : Str)
    (cs : List Cond) (fin : Option Final)
    (hw : Compound.WF true (.mk (some x) cs fin)) (hk : Compound.known d (.mk (some x) cs fin))
    (hs : Compound.size (.mk (some x) cs fin) ≤ 8) :
    ∃ d' L, removeNode n d = .ok d' ∧ querySelectorAll pun (Compound.text (.mk (some x) cs fin)) d' = .ok (.go L) ∧
      ∀ m, m ∈ preorder d n → m ∉ L := by
  have hb : Blanks [] := by intro c hc; cases hc
  obtain ⟨d', L, e, e1, e2⟩ := C36_removed_exact_partial d h n hn pun (some x) cs fin [] [] hb hb hw hk hs
  simp only [List.nil_append, List.append_nil] at e1
  refine ⟨d', L, e, e1, fun m hm hL => ?_⟩
  have := ((e2 m hm).mp hL).1
  cases this

/-- Both cases occur: after the removal of `p` with a child `b`, `[k=v]` finds the `b`, `b` does not. -/
example : ∃ d d', createDom b!"<div><p><b k=v></b></p></div><b></b>" = .ok (some d) ∧ HasParent d 3 ∧ removeNode 3 d = .ok d' ∧
    decide (preorder d 3 = [3, 4] ∧ querySelectorAll (fun _ => 0) b!"[k=v]" d' = .ok (.go [4]) ∧
      querySelectorAll (fun _ => 0) b!"b" d' = .ok (.go [5])) = true := by
  obtain ⟨d, h1, h2⟩ := someAnd_ex (x := createDom b!"<div><p><b k=v></b></p></div><b></b>")
    (p := fun d => decide (kids d 2 = [3]) && okAnd (removeNode 3 d) (fun d' =>
      decide (preorder d 3 = [3, 4] ∧ querySelectorAll (fun _ => 0) b!"[k=v]" d' = .ok (.go [4]) ∧
      querySelectorAll (fun _ => 0) b!"b" d' = .ok (.go [5])))) (by decide +kernel)
  rw [Bool.and_eq_true] at h2
  obtain ⟨d', h3, h4⟩ := okAnd_ex h2.2
  exact ⟨d, d', h1, ⟨2, by rw [of_decide_eq_true h2.1]; simp⟩, h3, h4⟩

/-! ## C26: replaced nodes -/

theorem stored_doc {d : Dom} (hg : ∀ (i : Nat) (nd : Node), d.nodes[i]? = some nd → NodeGood d.tagReg nd) {n : Nat} {x : Str}
    (h : tagOf d n = some x) : ∃ t, d.nodes[n]? = some ⟨.document, .tag t⟩ ∧ tagName d t = some x := by
  unfold tagOf at h
  split at h
  · rename_i t e
    obtain ⟨t', h1, h2, _⟩ := (hg n _ e).doc rfl
    cases h1
    exact ⟨t, e, by rw [tagName, if_neg h2]; exact h⟩
  · cases h

/-- What a selector sees of the replaced node after the replacement is what it saw before. -/
theorem replaced_stored (d : Dom) (h : Reachable d) (p old : Nat) (l₁ l₂ : List Nat) (he : kids d p = l₁ ++ old :: l₂)
    (doc : DocNode) (id : Nat) (d' : Dom) (hr : replaceWithDocumentNode old doc d = .ok (id, d')) :
    pairs d' old = pairs d old ∧ bools d' old = bools d old ∧
      ∀ x, tagOf d old = some x → ∀ pun, storedTag pun d' old = some x := by
  obtain ⟨hi, h0⟩ := reach_domI h
  have hp : p ≠ 0 := by rintro rfl; rw [h0] at he; simp at he
  have key : Post NoUB (fun r : Nat × Dom => pairs r.2 old = pairs d old ∧ bools r.2 old = bools d old ∧
      ∀ x, tagOf d old = some x → ∀ pun, storedTag pun r.2 old = some x) (replaceWithDocumentNode old doc d) := by
    unfold replaceWithDocumentNode
    refine (mkDoc hi h0 doc).bindP ?_
    rintro ⟨id, d1⟩ ⟨m, h1, h2, h3⟩
    have hid := m.id
    dsimp only at hid h1 h2 h3 ⊢
    subst hid
    have htwo := hi.linked.two
    have hrg := hi.linked.range p old (by rw [he]; simp)
    rw [if_neg (by omega)]
    obtain ⟨d2, e, inv, same, hty, hn, hk, nd, g1, g2⟩ := linkReplaceK m.inv (p := p) (f0 := d.nodes.length) (F := []) (by simp) hp
      (old := old) (l₁ := l₁) (l₂ := l₂) (by rw [m.ch_p hp]; exact he) (by simp; omega)
    rw [e]
    have hs := m.others old (by omega)
    obtain ⟨ns, fc, pc, nn, ed⟩ := hk
    refine ⟨?_, ?_, fun x hx pun => ?_⟩
    · rw [← hs.pairs]; subst ed; rfl
    · rw [← hs.bools]; subst ed; rfl
    · rw [← hs.tag] at hx
      obtain ⟨t, e1, e2⟩ := stored_doc m.inv.good hx
      rw [g1] at e1; cases e1
      unfold storedTag
      dsimp only
      rw [g2]
      subst ed
      exact e2
  exact key.elim hr

/-- C26 (partial): exactly which compound selectors still answer a node that was replaced (it or an ancestor of it): the
same as before.  The full property has no such node in any answer. -/
theorem C26_exact_partial (d : Dom) (h : Reachable d) (p old : Nat) (l₁ l₂ : List Nat) (he : kids d p = l₁ ++ old :: l₂)
    (doc : DocNode) (id : Nat) (d' : Dom) (hr : replaceWithDocumentNode old doc d = .ok (id, d')) (pun : Nat → Nat)
    (c : Compound) (lead trail : Str) (hl : Blanks lead) (ht : Blanks trail) (hw : c.WF true) (hk : c.known d) (hs : c.size ≤ 8) :
    ∃ L L', querySelectorAll pun (lead ++ (c.text ++ trail)) d = .ok (.go L) ∧
      querySelectorAll pun (lead ++ (c.text ++ trail)) d' = .ok (.go L') ∧
      ∀ m, m ∈ preorder d old → typeOf d m = some .document → (m ∈ L' ↔ m ∈ L) := by
  obtain ⟨hi, h0⟩ := reach_domI h
  have hmem : old ∈ kids d p := by rw [he]; simp
  have hrg := hi.linked.range _ _ hmem
  have hpre := preorder_kids hi (p := old) ⟨by omega, hrg.2.2⟩
  have hp : p ≠ 0 := by rintro rfl; rw [h0] at he; simp at he
  obtain ⟨q1, q2, q3⟩ := replaced_stored d h p old l₁ l₂ he doc id d' hr
  have hgr : Grow d d' := (replaceWithDocumentNode_fin Grow.closed _ _ (parseDoc_grow doc d)) _ hr
  obtain ⟨f1, f2, f3, f4, f5, f6, f7⟩ := (replaceDoc_spec hi h0 hp he doc).elim hr
  dsimp only at f1 f2 f3 f4 f5 f6 f7
  have hkids := f2.inv.kidsFun (upd_nil hp h0 _)
  have hi' : DomI d' (kids d') := hkids ▸ f2.inv
  have hsub : ∀ {α : Type} {a b : List α} {x : α}, a <+: b → x ∈ a.tail → x ∈ b.tail := by
    intro α a b x hab hx
    obtain ⟨r, rfl⟩ := hab
    cases a with
    | nil => cases hx
    | cons y l => exact List.mem_append_left _ hx
  have hkc : ∀ c : Cond, c.known d → c.known d' := by
    intro c hc; cases c with
    | flag _ b _ => exact hsub hgr.bool hc
    | eq _ k _ _ v _ => exact ⟨hsub hgr.key hc.1, hsub hgr.val hc.2⟩
  have hfk : ∀ f : Final, f.known d → f.known d' := by
    intro f hf; cases f <;> exact ⟨hsub hgr.key hf.1, hsub hgr.val hf.2⟩
  have hk' : c.known d' := by
    cases c with
    | any => trivial
    | mk t cs fin =>
      obtain ⟨k1, k2, k3⟩ := hk
      exact ⟨fun x hx => hsub (hgr.tag.map _) (k1 x hx), fun c hc => hkc c (k2 c hc), fun f hf => hfk f (k3 f hf)⟩
  obtain ⟨L, e1, _, e3⟩ := compound_all (pun := pun) hi (lead := lead) (trail := trail) ⟨hl, ht, hw, trivial⟩ hk hs
  obtain ⟨L', g1, _, g3⟩ := compound_all (pun := pun) hi' (lead := lead) (trail := trail) ⟨hl, ht, hw, trivial⟩ hk' hs
  refine ⟨L, L', e1, g1, fun m hm hty => ?_⟩
  rw [hpre] at hm
  have hm0 := pre_ge hi.linked.up old hrg.2.2 m hm
  obtain ⟨nd, n1, n2⟩ := typeOf_some hty
  have hlt := lt_of_some n1
  have hnode : IsNode d m := ⟨by omega, hlt⟩
  have hnode' : IsNode d' m := ⟨by omega, by rw [f2.len]; omega⟩
  have hsame : pairs d' m = pairs d m ∧ bools d' m = bools d m := by
    by_cases hmo : m = old
    · subst hmo; exact ⟨q1, q2⟩
    · have := f3 m (by omega) hmo
      exact ⟨this.pairs, this.bools⟩
  obtain ⟨x, hx⟩ : ∃ x, tagOf d m = some x := by
    obtain ⟨ty, pl⟩ := nd
    simp only at n2
    subst n2
    obtain ⟨t, t1, _, t3⟩ := (hi.good m _ n1).doc rfl
    simp only at t1
    subst t1
    unfold tagOf
    rw [n1]
    dsimp only
    rw [List.getElem?_eq_getElem t3]
    exact ⟨_, rfl⟩
  have hst : storedTag pun d m = some x := by
    obtain ⟨t, t1, t2⟩ := stored_doc hi.good hx
    unfold storedTag; rw [t1]; exact t2
  have hst' : storedTag pun d' m = some x := by
    by_cases hmo : m = old
    · subst hmo; exact q3 x hx pun
    · obtain ⟨t, t1, t2⟩ := stored_doc hi'.good ((f3 m (by omega) hmo).tag.trans hx)
      unfold storedTag; rw [t1]; exact t2
  rw [e3, g3]
  have hch : ∀ c : Cond, c.holds d' m ↔ c.holds d m := by intro c; cases c <;> simp [Cond.holds, hsame.1, hsame.2]
  have hfh : ∀ f : Final, f.holds d' m ↔ f.holds d m := by intro f; cases f <;> simp [Final.holds, hsame.1]
  cases c with
  | any => simp [Compound.finds, hnode, hnode']
  | mk t cs fin => simp only [Compound.finds, hst, hst', hch, hfh, hnode, hnode']

/-- A case: `p` with a child `b` is replaced by an `i`; `b[k=v]` finds the `b` before and after. -/
example : ∃ d r, createDom b!"<div><p><b k=v></b></p></div>" = .ok (some d) ∧ kids d 2 = [] ++ 3 :: [] ∧
    replaceWithDocumentNode 3 ⟨b!"i", true, [], []⟩ d = .ok r ∧
    decide (preorder d 3 = [3, 4] ∧ typeOf d 4 = some .document ∧ querySelectorAll (fun _ => 0) b!"b[k=v]" d = .ok (.go [4]) ∧
      querySelectorAll (fun _ => 0) b!"b[k=v]" r.2 = .ok (.go [4])) = true := by
  obtain ⟨d, h1, h2⟩ := someAnd_ex (x := createDom b!"<div><p><b k=v></b></p></div>")
    (p := fun d => decide (kids d 2 = [3]) && okAnd (replaceWithDocumentNode 3 ⟨b!"i", true, [], []⟩ d) (fun r =>
      decide (preorder d 3 = [3, 4] ∧ typeOf d 4 = some .document ∧ querySelectorAll (fun _ => 0) b!"b[k=v]" d = .ok (.go [4]) ∧
      querySelectorAll (fun _ => 0) b!"b[k=v]" r.2 = .ok (.go [4])))) (by decide +kernel)
  rw [Bool.and_eq_true] at h2
  obtain ⟨r, h3, h4⟩ := okAnd_ex h2.2
  exact ⟨d, r, h1, of_decide_eq_true h2.1, h3, h4⟩

end Flo
