import Verif.Proofs.Kids
import Verif.Proofs.Sat
/-!
# Navigation in reachable DOMs (C14, C15, C16)
-/
namespace Flo
open Spec

/-! ## C14: the navigation functions agree with one tree -/

/-- The property fails for one kind of edit: inserting an empty fragment below a childless node hangs an
identifier that no node has into the tree, so afterwards `getFirstChild` returns a node that does not exist. -/
theorem C14_violated : ∃ d r, createDom b!"<p></p>" = .ok (some d) ∧
    appendHTML (fun _ => .ok false) 2 b!"" d = .ok r ∧
    decide (getFirstChild 2 r.2 = 3 ∧ r.2.nodes.length = 3 ∧ ¬ getFirstChild 2 r.2 < r.2.nodes.length) = true := by
  obtain ⟨d, h1, h2⟩ := someAnd_ex (x := createDom b!"<p></p>")
    (p := fun d => okAnd (appendHTML (fun _ => .ok false) 2 b!"" d) (fun r =>
      decide (getFirstChild 2 r.2 = 3 ∧ r.2.nodes.length = 3 ∧ ¬ getFirstChild 2 r.2 < r.2.nodes.length))) (by decide +kernel)
  obtain ⟨r, h3, h4⟩ := okAnd_ex h2
  exact ⟨d, r, h1, h3, h4⟩

/-- In every DOM reached by parsing and then any sequence of edits whose preconditions hold, the navigation
functions agree with one forest of child lists (`NavOK`), and every node of the document other than the root
is a text or an element.  Missing from the full property: empty fragments and the two unsafe situations of
`replaceWithHTMLFromString` (see `Allowed`). -/
theorem C14_navigation_partial (d : Dom) (h : Reachable d) :
    NavOK d ∧ ∀ n, Live d n → n = rootID ∨ typeOf d n = some .text ∨ typeOf d n = some .document := by
  obtain ⟨hi, h0⟩ := reach_domI h
  refine ⟨hi.linked.navOK, fun n hn => ?_⟩
  cases hn with
  | root => exact Or.inl rfl
  | child _ hc => exact Or.inr (hi.kind _ _ hc)

/-- Such an edit always comes back: it neither runs forever nor leaves the tables, except that a fragment that
ends in a quote can make the parser build a negative length (C02). -/
theorem C14_edits_are_safe_partial (d : Dom) (h : Reachable d) (junk : Nat → Out Bool) (hj : Reads junk) (op : Op)
    (ha : Allowed junk d op) : runOp junk op d ≠ .hang ∧
      ∀ w, runOp junk op d = .ub w → w = .negLen ∧ ∃ t, Op.html op = t ++ [34] ∨ Op.html op = t ++ [39] := by
  have := runOp_inv hj (Reachable.inv h) ha
  refine ⟨this.ne_hang, fun w hw => ?_⟩
  rw [hw] at this
  obtain ⟨h1, p, q, h2, h3⟩ := this
  refine ⟨h1, p, ?_⟩
  rcases h3 with rfl | rfl
  · exact Or.inr h2
  · exact Or.inl h2

/-- A concrete history for the non-vacuity examples: parse, remove a node, append an element, prepend a text. -/
def exampleRun : Out Dom := do
  match ← createDom b!"<p><b></b>x</p>" with
  | none => .hang
  | some d0 =>
    if HasB d0 4 2 then do
      let d1 ← runOp (fun _ => .ok false) (.removeNode 4) d0
      let d2 ← runOp (fun _ => .ok false) (.appendDoc 1 ⟨b!"em", true, [], [(b!"k", b!"v")]⟩) d1
      if 2 < d1.nodes.length ∧ 2 < d2.nodes.length then
        runOp (fun _ => .ok false) (.prependText 2 b!"hi") d2
      else .hang
    else .hang
where HasB (d : Dom) (n p : Nat) : Bool := (kids d p).contains n

theorem exampleRun_reachable {d : Dom} (h : exampleRun = .ok d) : Reachable d := by
  unfold exampleRun at h
  rw [Out.bind_eq_ok] at h
  obtain ⟨o, h0, h⟩ := h
  cases o with
  | none => cases h
  | some d0 =>
    dsimp only at h
    split at h
    · rename_i hb
      simp only [Out.bind_eq_ok] at h
      obtain ⟨d1, h1, d2, h2, h⟩ := h
      split at h
      · rename_i hl
        have hj : Reads (fun _ => .ok false) := fun i => ⟨false, rfl⟩
        refine .edited hj (.edited hj (.edited hj (.parsed h0) ?_ h1) ?_ h2) ?_ h
        · exact ⟨2, by simpa [exampleRun.HasB] using hb⟩
        · exact ⟨by omega, by omega⟩
        · exact ⟨by omega, by omega⟩
      · cases h
    · cases h

/-- non-vacuity: that history returns, and the document has an interesting shape. -/
example : ∃ d, Reachable d ∧ decide (kids d 1 = [2, 5] ∧ kids d 2 = [6, 3] ∧ typeOf d 4 = some .removed) = true := by
  obtain ⟨d, h, hd⟩ := okAnd_ex (x := exampleRun)
    (p := fun d => decide (kids d 1 = [2, 5] ∧ kids d 2 = [6, 3] ∧ typeOf d 4 = some .removed)) (by decide +kernel)
  exact ⟨d, exampleRun_reachable h, hd⟩

/-! ## C15: `flo_html_traverseDom` is a preorder walk -/

/-- In every reachable DOM, starting at the root and applying `traverseDom` until it answers 0 visits exactly
`preorder d rootID`; this list has no repetitions and consists of the nodes of the document. -/
theorem C15_traverseDom_preorder (d : Dom) (h : Reachable d) (f : Nat) (hf : d.nodes.length ≤ f) :
    walkFrom (fun c => traverseDom c d) f rootID = .ok (preorder d rootID) ∧
    (preorder d rootID).Nodup ∧ ∀ n, n ∈ preorder d rootID ↔ Live d n := by
  obtain ⟨hi, h0⟩ := reach_domI h
  have hl := hi.linked
  have h2 := hl.two
  have hpre := preorder_eq hl (p := rootID) (by decide) (by show 1 < _; omega)
  refine ⟨walkDom hl hf, ?_, fun n => ?_⟩
  · rw [hpre]; exact pre_nodup' hl.up hl.uniq hl.nodup _ (by show 1 < _; omega)
  · rw [hpre, live_iff hl]
    exact (LiveC.mem_pre hl.up (show 1 < _ by omega)).symm

example : ∃ d, Reachable d ∧ decide (preorder d rootID = [1, 2, 6, 3, 5] ∧
    walkFrom (fun c => traverseDom c d) 7 rootID = .ok [1, 2, 6, 3, 5]) = true := by
  obtain ⟨d, h, hd⟩ := okAnd_ex (x := exampleRun)
    (p := fun d => decide (preorder d rootID = [1, 2, 6, 3, 5] ∧
      walkFrom (fun c => traverseDom c d) 7 rootID = .ok [1, 2, 6, 3, 5])) (by decide +kernel)
  exact ⟨d, exampleRun_reachable h, hd⟩

/-! ## C16: `flo_html_traverseNode` and `flo_html_getTextContent` -/

/-- The property fails for a node without children: the text content of an empty element is the text that
follows it. -/
theorem C16_violated : ∃ d, createDom b!"<div><p></p>after</div>" = .ok (some d) ∧
    decide (kids d 3 = [] ∧ getTextContent 3 d = .ok [b!"after"]) = true :=
  someAnd_ex (by decide +kernel)

/-- What holds: from a start node that has children, or has no next sibling, the walk visits exactly the
subtree of the start node in preorder.  Missing: a childless start node with a next sibling. -/
theorem C16_traverseNode_subtree_partial (d : Dom) (h : Reachable d) (n : Nat) (hn : IsNode d n)
    (hk : kids d n ≠ [] ∨ getNext n d = 0) (f : Nat) (hf : d.nodes.length ≤ f) :
    walkFrom (fun c => traverseNode c n d) f n = .ok (preorder d n) ∧ (preorder d n).Nodup := by
  obtain ⟨hi, h0⟩ := reach_domI h
  have hl := hi.linked
  refine ⟨walkNode hl hn.1 hn.2 hk hf, ?_⟩
  rw [preorder_kids hi hn]
  exact pre_nodup' hl.up hl.uniq hl.nodup _ hn.2

theorem textContent_walk {d : Dom} (hi : DomI d (kids d)) (n : Nat) : ∀ (f c : Nat) (l : List Nat) (acc : List Str), c ≠ 0 →
    walkFrom (fun c => traverseNode c n d) f c = .ok l → (∀ x ∈ l.tail, IsKid d x) →
    textContentLoop d n f c acc = .ok (acc ++ l.tail.filterMap (textOf d)) := by
  intro f
  induction f with
  | zero => intro c l acc _ hw _; simp [walkFrom] at hw
  | succ f ih =>
    intro c l acc hc hw hkid
    simp only [walkFrom, if_neg hc, Out.bind_eq_ok] at hw
    obtain ⟨c', h1, l', h2, h3⟩ := hw
    cases h3
    simp only [textContentLoop, h1, Out.bind_ok]
    by_cases hc' : c' = 0
    · subst hc'
      have : l' = [] := by
        cases f with
        | zero => simp [walkFrom] at h2
        | succ f => simp [walkFrom] at h2; exact h2
      subst this
      simp
    · rw [if_neg hc']
      obtain ⟨l'', e⟩ : ∃ l'', l' = c' :: l'' := by
        cases f with
        | zero => simp [walkFrom] at h2
        | succ f =>
          simp only [walkFrom, if_neg hc', Out.bind_eq_ok] at h2
          obtain ⟨_, _, l2, _, h3⟩ := h2
          cases h3; exact ⟨l2, rfl⟩
      subst e
      have hcs := hkid c' (by simp)
      have hrest := fun acc => ih c' _ acc hc' h2 (fun x hx => hkid x (by simp at hx ⊢; exact Or.inr hx))
      simp only [List.tail_cons] at hrest ⊢
      rcases hcs with ht | ht
      · obtain ⟨s, hs⟩ := hi.text ht
        have hnd := textOf_eq.mp hs
        simp only [Dom.node, hnd, Out.bind_ok, if_true, Node.getText, hrest]
        simp [hs]
      · obtain ⟨nd, hnd, hty⟩ := typeOf_some ht
        have hs : textOf d c' = none := by
          cases hx : textOf d c' with
          | none => rfl
          | some s => have := typeOf_of_text hx; rw [ht] at this; cases this
        simp only [Dom.node, hnd, Out.bind_ok, hty]
        rw [if_neg (by simp), hrest]
        simp [hs]

/-- For the same nodes `getTextContent` returns exactly the texts below the node, in document order. -/
theorem C16_textContent_partial (d : Dom) (h : Reachable d) (n : Nat) (hn : IsNode d n)
    (hk : kids d n ≠ [] ∨ getNext n d = 0) :
    getTextContent n d = .ok ((preorder d n).tail.filterMap (textOf d)) := by
  obtain ⟨hi, h0⟩ := reach_domI h
  have hl := hi.linked
  have hkid : ∀ x ∈ (preorder d n).tail, IsKid d x := by
    intro x hx
    rw [preorder_kids hi hn, pre_eq hl.up hn.2] at hx
    simp only [List.tail_cons, List.mem_flatMap] at hx
    obtain ⟨c, hc, hx⟩ := hx
    have hcl := hl.range _ _ hc
    rw [← LiveC.mem_pre hl.up hcl.2.2] at hx
    cases hx with
    | root => exact hi.kind _ _ hc
    | child _ hc' => exact hi.kind _ _ hc'
  have hw' := walkNode hl hn.1 hn.2 hk (Nat.le_succ d.nodes.length)
  have := textContent_walk hi n (d.nodes.length + 1) n _ [] hn.1 hw' hkid
  unfold getTextContent
  rw [this]; simp

/-- The remaining nodes of the document: from a childless node with a next sibling the walk does not stop at the end of
its (empty) subtree but visits everything that follows it in the document. -/
theorem C16_traverseNode_leaf (d : Dom) (h : Reachable d) (n : Nat) (hn : Live d n)
    (hk : kids d n = []) (hx : getNext n d ≠ 0) (f : Nat) (hf : d.nodes.length ≤ f) :
    walkFrom (fun c => traverseNode c n d) f n = .ok ((preorder d rootID).dropWhile (· ≠ n)) := by
  obtain ⟨hi, h0⟩ := reach_domI h
  exact walkNode_leaf hi.linked hk hx ((live_iff hi.linked).mp hn) hf

/-- And `getTextContent` of such a node returns all texts behind it in the document. -/
theorem C16_textContent_leaf (d : Dom) (h : Reachable d) (n : Nat) (hn : Live d n)
    (hk : kids d n = []) (hx : getNext n d ≠ 0) :
    getTextContent n d = .ok (((preorder d rootID).dropWhile (· ≠ n)).tail.filterMap (textOf d)) := by
  obtain ⟨hi, h0⟩ := reach_domI h
  have hl := hi.linked
  have hlive := (live_iff hl).mp hn
  have hw := walkNode_leaf hl hk hx hlive (Nat.le_succ d.nodes.length)
  have hn0 : n ≠ 0 := by have := hlive.ge hl.up; omega
  unfold getTextContent
  rw [textContent_walk hi n (d.nodes.length + 1) n _ [] hn0 hw ?_, List.nil_append]
  intro x hxm
  have hxl : x ∈ (preorder d rootID).tail := by
    have h2 := hl.two
    rw [preorder_kids hi (p := rootID) ⟨by decide, by show 1 < _; omega⟩, pre_eq hl.up (by show 1 < _; omega)] at hxm ⊢
    rw [List.tail_cons]
    by_cases e : rootID = n
    · subst e
      rw [List.dropWhile_cons_of_neg (by simp)] at hxm
      exact hxm
    · rw [List.dropWhile_cons_of_pos (by simpa using e)] at hxm
      exact (List.dropWhile_sublist _).subset (List.mem_of_mem_tail hxm)
  rw [preorder_kids hi (p := rootID) ⟨by decide, by have := hl.two; show 1 < _; omega⟩, pre_eq hl.up (by have := hl.two; show 1 < _; omega)] at hxl
  simp only [List.tail_cons, List.mem_flatMap] at hxl
  obtain ⟨c, hc, hxl⟩ := hxl
  have hcl := hl.range _ _ hc
  rw [← LiveC.mem_pre hl.up hcl.2.2] at hxl
  cases hxl with
  | root => exact hi.kind _ _ hc
  | child _ hc' => exact hi.kind _ _ hc'

/-- non-vacuity: node 6 of the example document is childless and has the next sibling 3. -/
example : ∃ d, Reachable d ∧ decide (kids d 6 = [] ∧ getNext 6 d = 3 ∧ (preorder d rootID).dropWhile (· ≠ 6) = [6, 3, 5]) = true := by
  obtain ⟨d, h, hd⟩ := okAnd_ex (x := exampleRun)
    (p := fun d => decide (kids d 6 = [] ∧ getNext 6 d = 3 ∧ (preorder d rootID).dropWhile (· ≠ 6) = [6, 3, 5])) (by decide +kernel)
  exact ⟨d, exampleRun_reachable h, hd⟩

example : ∃ d, Reachable d ∧ decide (kids d 2 ≠ [] ∧ getTextContent 2 d = .ok [b!"hi"] ∧ 2 < d.nodes.length) = true := by
  obtain ⟨d, h, hd⟩ := okAnd_ex (x := exampleRun)
    (p := fun d => decide (kids d 2 ≠ [] ∧ getTextContent 2 d = .ok [b!"hi"] ∧ 2 < d.nodes.length)) (by decide +kernel)
  exact ⟨d, exampleRun_reachable h, hd⟩

end Flo
