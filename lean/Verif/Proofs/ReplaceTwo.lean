import Verif.Proofs.Fragment
/-!
# Replacing a node between two texts by two texts

Both new texts are merged away; the node of the second one, already removed, is nevertheless linked in.
-/
namespace Flo
open Spec

/-- Removing a node that is linked to nothing only marks it. -/
theorem removeNode_alone {d : Dom} {ch : Nat → List Nat} (h : LinkedD d ch) {b : Nat} (hb : ch 0 = [b]) (hl : ch b = []) :
    removeNode b d = .ok { d with nodes := d.nodes.set b ⟨.removed, .tag 0⟩ } := by
  have hm : b ∈ ch 0 := by rw [hb]; simp
  have hr := h.range 0 b hm
  have hf : getFirstChild b d = 0 := by rw [h.getFirstChild_eq (by omega), hl]; rfl
  have hprev : getPreviousNode b d = none := findSnd_none.mpr (fun a ha => by
    have := h.nnOwn 0 a b ha (Or.inr hm); rw [hb] at this; simp [Adj] at this)
  have hnext : getNextNode b d = none := findFst_none.mpr (fun a ha => by
    have := h.nnOwn 0 b a ha (Or.inl hm); rw [hb] at this; simp [Adj] at this)
  have hpar : getParentNode b d = none := findSnd_none.mpr (fun a ha => by
    have := h.pcOwn 0 a b ha hm
    have := (h.pcNz a b ha).1 this
    omega)
  unfold removeNode
  simp only [removeNodeF, removeChildrenLoop, hf, Nat.lt_irrefl, if_false, Out.bind_ok, gt_iff_lt]
  unfold unlinkNode
  rw [if_neg (by omega)]
  unfold unlinkParent unlinkNext unlinkPrev
  rw [hpar, hnext, hprev]
  rfl

section
variable {d : Dom} {ch : Nat → List Nat}

theorem replaceHTML_two {html : Str} {t u : Str} (h : DomI d ch) (h0 : ch 0 = [])
    {junk : Nat → Out Bool} (hf : FParse junk html d ch [.text t, .text u]) {p n a b : Nat} {l₁ l₂ : List Nat} (hp : p ≠ 0) (he : ch p = l₁ ++ a :: n :: b :: l₂)
    {ta tb : Str} (ha : textOf d a = some ta) (hb : textOf d b = some tb) :
    ∃ d', replaceWithHTML junk n html d = .ok (d.nodes.length + 1, d') ∧
      kids d' p = l₁ ++ a :: (d.nodes.length + 1) :: b :: l₂ ∧
      typeOf d' (d.nodes.length + 1) = some .removed ∧ typeOf d' d.nodes.length = some .removed ∧
      textOf d' a = some (ta ++ [32] ++ t) ∧ textOf d' b = some (u ++ [32] ++ tb) ∧
      typeOf d' n = some .removed ∧
      (∀ q, q ≠ p → kids d' q = ch q) ∧
      (∀ m, m < d.nodes.length → m ≠ n → m ≠ a → m ≠ b → SameNode d d' m) := by
  obtain ⟨r, c1, ids, hr, ho, P, hleaf, hF, rep⟩ := hf
  have hnr := h.linked.range p n (by rw [he]; simp)
  have har := h.linked.range p a (by rw [he]; simp)
  have hbr := h.linked.range p b (by rw [he]; simp)
  have hlt : p < d.nodes.length := by omega
  have he1 : c1 p = (l₁ ++ [a]) ++ n :: (b :: l₂) := by rw [P.at hp hlt]; simpa using he
  have hnd := h.linked.nodup p
  rw [he] at hnd
  have hab : a ≠ b ∧ a ≠ n ∧ b ≠ n := by
    have := (List.nodup_append.1 hnd).2.1
    simp only [List.nodup_cons, List.mem_cons, not_or] at this
    exact ⟨this.1.2.1, this.1.1, Ne.symm this.2.1.1⟩
  rw [hF] at rep
  obtain ⟨rep1, rep2⟩ : RepC _ _ _ _ _ _ ∧ RepCL _ _ _ _ _ _ := by simpa only [RepCL] using rep
  obtain ⟨x, rfl⟩ : ∃ x, ids = [x] := by
    cases ids with
    | nil => simp [RepCL] at rep2
    | cons x xs =>
      cases xs with
      | nil => exact ⟨x, rfl⟩
      | cons => simp [RepCL] at rep2
  simp only [RepCL, and_true] at rep2
  have hx0 := P.mem0 (c := x) (by rw [hF]; simp)
  have hxN := P.later hF (c := x) (by simp)
  have hxt := rep2.text_some
  have hNt := rep1.text_some
  have hlx := hleaf x hx0.1 (typeOf_of_text hxt)
  -- the two nodes are the only new ones
  have hord : x = d.nodes.length + 1 ∧ r.dom.nodes.length = d.nodes.length + 2 := by
    have ho := P.order
    have hle := P.le
    have htwo := P.inv.linked.two
    have hm0 := P.mem0 (c := d.nodes.length) (by rw [hF]; simp)
    rw [pre_eq P.inv.linked.up (by omega), hF, List.flatMap_cons, List.flatMap_cons, List.flatMap_nil,
      pre_eq P.inv.linked.up hm0.2, pre_eq P.inv.linked.up hx0.2,
      hleaf _ (Nat.le_refl _) (typeOf_of_text hNt), hlx] at ho
    have hl := congrArg List.length ho
    simp at hl
    have : r.dom.nodes.length = d.nodes.length + 2 := by omega
    refine ⟨?_, this⟩
    omega
  unfold replaceWithHTML
  rw [hr]
  simp only [Out.bind_ok, ho, Bool.not_true, Bool.false_eq_true, if_false]
  rw [lastNew P.inv.linked hF]
  simp only [Out.bind_ok]
  rw [if_pos ((P.lastNew_gt hF).mpr (by simp))]
  -- the first text is merged
  obtain ⟨L, d2, e2, fs⟩ := replaceMergeFirst_spec P.inv hF hp he1 (hleaf _ (Nat.le_refl _)) (by simp)
  have ha1 : textOf r.dom ((l₁ ++ [a]).getLastD 0) = some ta := by
    rw [show (l₁ ++ [a]).getLastD 0 = a by simp, (P.old a har.2.2).text]; exact ha
  rcases fs with ⟨tk, tg, f1, f2, rfl, m⟩ | ⟨f1, _⟩
  swap
  · rw [ha1, hNt] at f1; simp at f1
  rw [ha1] at f1
  rw [hNt] at f2
  cases f1; cases f2
  rw [show (l₁ ++ [a]).getLastD 0 = a by simp] at m
  rw [e2]
  simp only [Out.bind_ok, List.headD_cons]
  have hlastx : (d.nodes.length :: [x]).getLastD 0 = x := by simp [List.getLastD]
  rw [hlastx]
  -- the second text is merged
  have hx2 : textOf d2 x = some u := by rw [(m.others x (by omega) (by omega)).text]; exact hxt
  obtain ⟨ndx, hndx, hndxt⟩ := typeOf_some (typeOf_of_text hx2)
  have hb2 : textOf d2 b = some tb := by
    rw [(m.others b (Ne.symm hab.1) (by omega)).text, (P.old b hbr.2.2).text]; exact hb
  have hmrg : ∃ d3, tryMergeNext n x d2 = .ok (true, d3) ∧ Merged d2 (upd c1 0 [x]) b (u ++ [32] ++ tb) d3 := by
    rcases tryMergeNext_spec m.inv (p := p) (old := n) (l₁ := l₁ ++ [a]) (l₂ := b :: l₂)
      (by rw [upd_ne hp]; exact he1) hx2 with ⟨tk, d3, h1, h2, h3⟩ | ⟨h1, _⟩
    · rw [List.headD_cons, hb2] at h1
      cases h1
      exact ⟨d3, h2, h3⟩
    · rw [List.headD_cons, hb2] at h1; cases h1
  obtain ⟨d3, e3, m3⟩ := hmrg
  have e4 := removeNode_alone m3.inv.linked (b := x) (by simp) (by rw [upd_ne (by omega)]; exact hlx)
  unfold replaceMergeLast
  simp only [Dom.node, hndx, Out.bind_ok, hndxt, if_true]
  rw [e3]
  simp only [Out.bind_ok, if_true]
  rw [e4]
  simp only [Out.bind_ok]
  -- the removed node is linked in
  have hlen3 : d3.nodes.length = d.nodes.length + 2 := by rw [m3.len, m.len, hord.2]
  have l4 : LinkedD { d3 with nodes := d3.nodes.set x ⟨.removed, .tag 0⟩ } (upd c1 0 [x]) := by
    have := m3.inv.linked
    unfold LinkedD at this ⊢
    simpa using this
  have hn3 : n < d3.nodes.length := by omega
  obtain ⟨d5, e5, ⟨fc, pc, nn, hd5⟩, l5⟩ := replaceUpdate_spec l4 (p := p) (old := n) (f0 := x) (F := []) (by simp) hp
    (l₁ := l₁ ++ [a]) (l₂ := b :: l₂) (by rw [upd_ne hp]; exact he1)
    (by intro c hc; simp at hc; omega) (nd := d3.nodes[n])
    (by show (d3.nodes.set x _)[n]? = _
        rw [List.getElem?_set_ne (by omega), List.getElem?_eq_getElem hn3])
  rw [e5]
  have hkids := fun q (hq : q ≠ 0) => l5.kids_eq hq
  have hnode : ∀ q, q ≠ n → d5.nodes[q]? = (d3.nodes.set x ⟨.removed, .tag 0⟩)[q]? := by
    intro q hq
    rw [hd5]
    exact List.getElem?_set_ne (Ne.symm hq)
  have hsame : ∀ q, q ≠ n → q ≠ x → SameNode d3 d5 q := by
    intro q hq hqx
    have : Kept d3 d5 := ⟨_, _, _, _, by rw [hd5]⟩
    exact this.same (by rw [hnode q hq, List.getElem?_set_ne (Ne.symm hqx)])
  refine ⟨d5, by rw [hord.1]; rfl, ?_, ?_, ?_, ?_, ?_, ?_, ?_, ?_⟩
  · rw [hkids p hp, upd_same, hord.1]; simp
  · rw [← hord.1, typeOf, hnode x (by omega), List.getElem?_set_self (by omega)]; rfl
  · rw [(hsame _ (by omega) (by omega)).type, (m3.others _ (by omega)).type]
    exact m.gone
  · rw [(hsame a hab.2.1 (by omega)).text, (m3.others a hab.1).text]; exact m.text
  · rw [(hsame b hab.2.2 (by omega)).text]; exact m3.text
  · rw [hd5]; simp [typeOf, hn3]
  · intro q hq
    by_cases hq0 : q = 0
    · subst hq0; rw [l5.kids_zero, h0]
    rw [hkids q hq0, upd_ne hq, upd_ne hq0, upd_ne hq0]
    by_cases hql : q < d.nodes.length
    · exact P.at hq0 hql
    · have e1 : ch q = [] := by
        rw [List.eq_nil_iff_forall_not_mem]
        intro c hc; have := h.linked.range q c hc; omega
      rw [e1]
      have hlN := hleaf _ (Nat.le_refl _) (typeOf_of_text hNt)
      by_cases h1 : q = d.nodes.length
      · rw [h1]; exact hlN
      · by_cases h2 : q = x
        · rw [h2]; exact hlx
        · rw [List.eq_nil_iff_forall_not_mem]
          intro c hc
          have := P.inv.linked.range q c hc; omega
  · intro q hq h1 h2 h3
    exact (((P.old q hq).trans (m.others q h2 (by omega))).trans (m3.others q h3)).trans (hsame q h1 (by omega))

end
end Flo
