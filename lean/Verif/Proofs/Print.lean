import Verif.Model.Write
import Verif.Spec.Print
import Verif.Proofs.Source
import Verif.Proofs.Kids
/-!
# Printing
-/
namespace Flo
open Spec

section
variable {d : Dom}

theorem regAt_ok {α : Type} {reg : List α} {i : Nat} {x : α} (h : reg[i]? = some x) : regAt reg i = .ok x := by
  unfold regAt; rw [h]

theorem printBools_eq (n : Nat) : ∀ (rs : List Row), (∀ r ∈ rs, r.2 < d.boolReg.length) →
    printBools n d rs = .ok (boolsText ((rs.filter (fun r => r.1 == n)).map (fun r => d.boolReg.getD r.2 []))) := by
  intro rs
  induction rs with
  | nil => intro _; rfl
  | cons r rs ih =>
    intro h
    have ih := ih (fun r hr => h r (by simp [hr]))
    unfold printBools
    by_cases hr : r.1 = n
    · have hlt := h r (by simp)
      rw [if_pos hr, regAt_ok (List.getElem?_eq_getElem hlt)]
      simp only [Out.bind_ok, ih]
      simp [hr, boolsText, hlt]
    · rw [if_neg hr, ih]
      simp [hr]

theorem printProps_eq (n : Nat) : ∀ (rs : List PropRow), (∀ r ∈ rs, r.key < d.keyReg.length ∧ r.value < d.valReg.length) →
    printProps n d rs = .ok (pairsText ((rs.filter (fun r => r.node == n)).map
      (fun r => (d.keyReg.getD r.key [], d.valReg.getD r.value [])))) := by
  intro rs
  induction rs with
  | nil => intro _; rfl
  | cons r rs ih =>
    intro h
    have ih := ih (fun r hr => h r (by simp [hr]))
    unfold printProps
    by_cases hr : r.node = n
    · obtain ⟨h1, h2⟩ := h r (by simp)
      rw [if_pos hr, regAt_ok (List.getElem?_eq_getElem h1), regAt_ok (List.getElem?_eq_getElem h2)]
      simp only [Out.bind_ok, ih]
      simp [hr, pairsText, h1, h2]
    · rw [if_neg hr, ih]
      simp [hr]

/-- Registered names are different. -/
theorem tagReg_find (h : NamesOK d) {t : Nat} (ht : t ≠ 0) {r : Str × Bool} (hr : d.tagReg[t]? = some r) :
    pairedTag d r.1 = r.2 := by
  unfold pairedTag
  obtain ⟨k, rfl⟩ : ∃ k, t = k + 1 := ⟨t - 1, by omega⟩
  have hk : (d.tagReg.drop 1)[k]? = some r := by rw [List.getElem?_drop, Nat.add_comm]; exact hr
  have : (d.tagReg.drop 1).find? (fun x => x.1 == r.1) = some r := by
    rw [List.find?_eq_some_iff_getElem]
    refine ⟨by simp, k, lt_of_some hk, ?_, ?_⟩
    · rw [List.getElem?_eq_getElem (lt_of_some hk)] at hk; exact Option.some.inj hk
    · intro j hj
      have hjl : j < (d.tagReg.drop 1).length := Nat.lt_trans hj (lt_of_some hk)
      simp only [Bool.not_eq_true', beq_eq_false_iff_ne]
      intro e
      have e1 := (h.tag.iff r.1 (k + 1) (by omega)).mpr (by rw [List.getElem?_map, hr]; rfl)
      have hjl' : j + 1 < d.tagReg.length := by simp at hjl; omega
      have e2 := (h.tag.iff r.1 (j + 1) (by omega)).mpr (by
        rw [List.getElem?_map, List.getElem?_eq_getElem hjl']
        have : (d.tagReg.drop 1)[j] = d.tagReg[j + 1] := by simp [Nat.add_comm]
        rw [this] at e
        simp [e])
      omega
  rw [this]

theorem printChildren_eq {ch : Nat → List Nat} (h : LinkedD d ch) {p : Nat} {pr : Nat → Out Str} {out : Nat → Str} :
    ∀ (l₂ l₁ : List Nat) (f : Nat), ch p = l₁ ++ l₂ → (∀ c ∈ l₂, pr c = .ok (out c)) → l₂.length < f →
    printChildren pr d f (l₂.headD 0) = .ok (l₂.flatMap out) := by
  intro l₂
  induction l₂ with
  | nil =>
    intro l₁ f _ _ hf
    obtain ⟨f, rfl⟩ : ∃ g, f = g + 1 := ⟨f - 1, by simp at hf; omega⟩
    simp [printChildren]
  | cons c l ih =>
    intro l₁ f he hpr hf
    obtain ⟨f, rfl⟩ : ∃ g, f = g + 1 := ⟨f - 1, by simp at hf; omega⟩
    have hc : c ≠ 0 := h.pos (p := p) (by rw [he]; simp)
    rw [List.headD_cons, printChildren, if_pos hc, hpr c (by simp)]
    have hn := (h.chain p he).getNext_head
    rw [hn, Out.bind_ok, ih (l₁ ++ [c]) f (by rw [he]; simp) (fun x hx => hpr x (by simp [hx])) (by simp at hf; omega)]
    simp

mutual
theorem printNode_tree (h : DomI d ch) : ∀ (t : Tree) (n : Nat), RepC d ch 0 d.nodes.length t n → ∀ f, d.nodes.length < f + n →
    printNodeF d f n = .ok (t.print (pairedTag d))
  | .text raw, n, hr, f, hf => by
    obtain ⟨h1, h2, h3, h4⟩ := hr
    obtain ⟨f, rfl⟩ : ∃ g, f = g + 1 := ⟨f - 1, by omega⟩
    rw [textOf_eq] at h3
    rw [printNodeF, node_ok h2]
    rw [List.getElem?_eq_getElem h2] at h3
    rw [Option.some.inj h3]
    rfl
  | .elem tag ps bs ts, n, hr, f, hf => by
    obtain ⟨h1, h2, h3, h4, h5, h6⟩ := hr
    obtain ⟨f, rfl⟩ : ∃ g, f = g + 1 := ⟨f - 1, by omega⟩
    have hnd := List.getElem?_eq_getElem h2
    unfold tagOf at h3
    split at h3
    · rename_i t hget
      rw [printNodeF, node_ok h2]
      have e : d.nodes[n] = ⟨.document, .tag t⟩ := by rw [hnd] at hget; exact Option.some.inj hget
      rw [e]
      rw [Option.map_eq_some_iff] at h3
      obtain ⟨r, hreg, hname⟩ := h3
      subst hname
      obtain ⟨t', e1, e2, e3⟩ := (h.good n _ hget).doc rfl
      cases e1
      have hp := tagReg_find h.names e2 hreg
      simp only [Out.bind_ok, Node.docTag]
      rw [regAt_ok hreg]
      simp only [Out.bind_ok]
      rw [printBools_eq n _ h.names.boolsLt, printProps_eq n _ h.names.propsLt]
      simp only [Out.bind_ok]
      unfold pairs at h4
      unfold bools at h5
      rw [h4, h5]
      rw [Tree.print, hp]
      cases hb : r.2 with
      | false =>
        simp [closing, strEq]
      | true =>
        rw [if_neg (by simp), if_pos rfl]
        have := printKids h ts n (ch n) h6 [] rfl f (by omega) (d.nn.length + 2) (by have := h.linked.length_nn n; omega)
        rw [h.linked.getFirstChild_eq (by omega), this]
        simp
    · cases h3
theorem printKids (h : DomI d ch) : ∀ (ts : List Tree) (p : Nat) (l₂ : List Nat), RepCL d ch 0 d.nodes.length ts l₂ →
    ∀ (l₁ : List Nat), ch p = l₁ ++ l₂ → ∀ f, d.nodes.length < f + p + 1 → ∀ g, l₂.length < g →
    printChildren (printNodeF d f) d g (l₂.headD 0) = .ok (printAll (pairedTag d) ts)
  | [], p, [], _, l₁, he, f, hf, g, hg => by
    obtain ⟨g, rfl⟩ : ∃ k, g = k + 1 := ⟨g - 1, by simp at hg; omega⟩
    simp [printChildren, printAll]
  | [], p, _ :: _, hr, _, _, _, _, _, _ => False.elim hr
  | _ :: _, p, [], hr, _, _, _, _, _, _ => False.elim hr
  | t :: ts, p, c :: l, hr, l₁, he, f, hf, g, hg => by
    obtain ⟨g, rfl⟩ : ∃ k, g = k + 1 := ⟨g - 1, by simp at hg; omega⟩
    have hm : c ∈ ch p := by rw [he]; simp
    have hc : c ≠ 0 := h.linked.pos hm
    have hlt := (h.linked.range p c hm).1
    rw [List.headD_cons, printChildren, if_pos hc, printNode_tree h t c hr.1 f (by omega), (h.linked.chain p he).getNext_head,
      Out.bind_ok, printKids h ts p l hr.2 (l₁ ++ [c]) (by rw [he]; simp) f hf g (by simp at hg; omega)]
    simp [printAll]
end

/-! ## From `RepL` to the bounded form -/

mutual
theorem Rep.repC (h : DomI d (kids d)) : ∀ (t : Tree) (n : Nat), Rep d t n → n ≠ 0 → n < d.nodes.length →
    RepC d (kids d) 0 d.nodes.length t n
  | .text raw, n, hr, h1, h2 => ⟨by omega, h2, hr.1, hr.2⟩
  | .elem tag ps bs ts, n, hr, h1, h2 => ⟨by omega, h2, hr.1, hr.2.1, hr.2.2.1,
      RepL.repCL h ts (kids d n) hr.2.2.2 (fun c hc => ⟨h.linked.pos hc, (h.linked.range n c hc).2.2⟩)⟩
theorem RepL.repCL (h : DomI d (kids d)) : ∀ (ts : List Tree) (ns : List Nat), RepL d ts ns →
    (∀ c ∈ ns, c ≠ 0 ∧ c < d.nodes.length) → RepCL d (kids d) 0 d.nodes.length ts ns
  | [], [], _, _ => trivial
  | [], _ :: _, hr, _ => False.elim hr
  | _ :: _, [], hr, _ => False.elim hr
  | t :: ts, n :: ns, hr, hc => ⟨Rep.repC h t n hr.1 (hc n (by simp)).1 (hc n (by simp)).2,
      RepL.repCL h ts ns hr.2 (fun c h => hc c (by simp [h]))⟩
end

theorem printHTML_forest (h : DomI d (kids d)) {F : List Tree} (hF : RepL d F (kids d 1)) :
    printHTML d = .ok (printAll (pairedTag d) F) := by
  have h2 := h.linked.two
  have hrep := RepL.repCL h F _ hF (fun c hc => ⟨h.linked.pos hc, (h.linked.range 1 c hc).2.2⟩)
  unfold printHTML
  rw [printChildren, if_pos (by decide), printNodeF]
  have hroot := h.root
  obtain ⟨nd, hnd, hty⟩ := typeOf_some hroot
  have hn : d.node rootID = .ok nd := by unfold Dom.node; show (match d.nodes[1]? with | _ => _) = _; rw [hnd]
  rw [hn]
  simp only [Out.bind_ok, hty]
  have := printKids h F 1 (kids d 1) hrep [] rfl d.nodes.length (by omega) (d.nn.length + 2)
    (by have := h.linked.length_nn 1; omega)
  show (printChildren (printNodeF d d.nodes.length) d (d.nn.length + 2) (getFirstChild 1 d) >>= _) = _
  rw [h.linked.getFirstChild_eq (by decide), this, Out.bind_ok]
  show (printChildren _ d (d.nn.length + 1) (getNext 1 d) >>= _) = _
  rw [h.linked.getNext_root]
  simp [printChildren]

/-- Every document whose texts are leaves is a forest. -/
theorem exists_forest (h : DomI d (kids d)) (ht : TextLeaves d) : ∀ k n, d.nodes.length ≤ n + k → n ≠ 0 → IsKid d n →
    ∃ t, Rep d t n := by
  intro k
  induction k with
  | zero =>
    intro n hk h0 hn
    exfalso
    rcases hn with hn | hn <;> obtain ⟨nd, h1, _⟩ := typeOf_some hn <;> have := lt_of_some h1 <;> omega
  | succ k ih =>
    intro n hk h0 hn
    rcases hn with hn | hn
    · obtain ⟨s, hs⟩ := h.text hn
      exact ⟨.text s, hs, ht n s hs⟩
    · obtain ⟨nd, h1, h2⟩ := typeOf_some hn
      obtain ⟨t, e1, e2, e3⟩ := (h.good n nd h1).doc h2
      have hl : ∀ l : List Nat, (∀ c ∈ l, c ∈ kids d n) → ∃ ts, RepL d ts l := by
        intro l
        induction l with
        | nil => intro _; exact ⟨[], trivial⟩
        | cons c l ihl =>
          intro hc
          have hcn := hc c (by simp)
          obtain ⟨ts, h3⟩ := ihl (fun x hx => hc x (by simp [hx]))
          obtain ⟨t, h4⟩ := ih c (by have := h.linked.range n c hcn; omega) (h.linked.pos hcn) (h.kind n c hcn)
          exact ⟨t :: ts, h4, h3⟩
      obtain ⟨ts, hts⟩ := hl _ (fun _ h => h)
      refine ⟨.elem (d.tagReg[t]).1 (pairs d n) (bools d n) ts, ?_, rfl, rfl, hts⟩
      unfold tagOf
      cases nd
      simp only at h2 e1
      subst h2 e1
      rw [h1]
      simp [e3]

theorem exists_forest_root (h : DomI d (kids d)) (ht : TextLeaves d) (p : Nat) : ∃ F, RepL d F (kids d p) := by
  have hl : ∀ l : List Nat, (∀ c ∈ l, c ∈ kids d p) → ∃ ts, RepL d ts l := by
    intro l
    induction l with
    | nil => intro _; exact ⟨[], trivial⟩
    | cons c l ihl =>
      intro hc
      have hcn := hc c (by simp)
      obtain ⟨ts, h3⟩ := ihl (fun x hx => hc x (by simp [hx]))
      obtain ⟨t, h4⟩ := exists_forest h ht d.nodes.length c (by omega) (h.linked.pos hcn) (h.kind p c hcn)
      exact ⟨t :: ts, h4, h3⟩
  exact hl _ (fun _ h => h)

end
end Flo
