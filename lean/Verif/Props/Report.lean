import Verif.Proofs.Report
import Verif.Props.Compare
/-!
# What the comparison reports (C41) and how a difference is printed (C79)
-/
namespace Flo
open Spec

/-- Exactly when documents are reported equal, and what is reported otherwise: the first nodes, in document order, at which
they differ, with a status that says how.  `SameLabel` is what the comparison looks at in a node (`Spec/Report.lean`). -/
theorem C41_exact_partial (d₁ d₂ : Dom) (h₁ : Reachable d₁) (h₂ : Reachable d₂) (r : CResult) (h : equals d₁ d₂ = .ok r) :
    (r.status = .success ↔ SameTree (SameLabel d₁ d₂) d₁ d₂ rootID rootID) ∧
    (r.status ≠ .success → FirstDiff (SameLabel d₁ d₂) d₁ d₂ rootID rootID r.node1 r.node2 ∧
      Verdict d₁ d₂ r.node1 r.node2 r.status ∧ Live d₁ r.node1 ∧ Live d₂ r.node2) := by
  obtain ⟨hd₁, _⟩ := reach_domI h₁
  obtain ⟨hd₂, _⟩ := reach_domI h₂
  rw [equals_eq hd₁ hd₂ (f := d₁.nodes.length) (by omega)] at h
  cases hc : cmpT d₁ d₂ d₁.nodes.length 1 1 with
  | ok r' =>
    rw [hc, Out.bind_ok] at h
    rcases cmpT_cases hd₁ _ _ _ _ .root .root hc with ⟨hs, hT⟩ | ⟨hs, l1, l2, _, hF, hV⟩
    · rw [if_neg (not_not.mpr hs)] at h
      cases h
      exact ⟨⟨fun _ => hT, fun _ => rfl⟩, fun h => absurd rfl h⟩
    · rw [if_pos hs] at h
      cases h
      exact ⟨⟨fun h => absurd h hs, fun hT => absurd hT hF.ne⟩, fun _ => ⟨hF, hV, l1, l2⟩⟩
  | longjmp => rw [hc] at h; cases h
  | ub w => rw [hc] at h; cases h
  | hang => rw [hc] at h; cases h

/-- Non-vacuity: the first difference is below the root, the second child of the first element. -/
example : ∃ d e, createDom b!"<p>a<b x></b></p><i></i>" = .ok (some d) ∧ createDom b!"<p>a<b y></b></p>" = .ok (some e) ∧
    decide (equals d e = .ok ⟨.differentContent, 4, 4⟩ ∧ kids d 2 = [3, 4] ∧ kids e 2 = [3, 4]) = true := by
  obtain ⟨d, h1, h2⟩ := someAnd_ex (x := createDom b!"<p>a<b x></b></p><i></i>")
    (p := fun d => someAnd (createDom b!"<p>a<b y></b></p>") (fun e =>
      decide (equals d e = .ok ⟨.differentContent, 4, 4⟩ ∧ kids d 2 = [3, 4] ∧ kids e 2 = [3, 4]))) (by decide +kernel)
  obtain ⟨e, h3, h4⟩ := someAnd_ex h2
  exact ⟨d, e, h1, h3, h4⟩

/-- **C79** (violated) For two elements with different tags the report names the tag of the first one for both. -/
theorem C79_violated : ∃ d e, createDom b!"<p></p>" = .ok (some d) ∧ createDom b!"<b></b>" = .ok (some e) ∧
    decide (equals d e = .ok ⟨.differentContent, 2, 2⟩ ∧ tagOf d 2 = some b!"p" ∧ tagOf e 2 = some b!"b" ∧
      printFirstDifference 2 d 2 e ⟨100, [], [], []⟩ =
        .ok ⟨100, [], b!"Nodes have different tags.\nnode 1 tag: p\nnode 2 tag: p\n", []⟩) = true := by
  obtain ⟨d, h1, h2⟩ := someAnd_ex (x := createDom b!"<p></p>")
    (p := fun d => someAnd (createDom b!"<b></b>") (fun e =>
      decide (equals d e = .ok ⟨.differentContent, 2, 2⟩ ∧ tagOf d 2 = some b!"p" ∧ tagOf e 2 = some b!"b" ∧
      printFirstDifference 2 d 2 e ⟨100, [], [], []⟩ =
        .ok ⟨100, [], b!"Nodes have different tags.\nnode 1 tag: p\nnode 2 tag: p\n", []⟩))) (by decide +kernel)
  obtain ⟨e, h3, h4⟩ := someAnd_ex h2
  exact ⟨d, e, h1, h3, h4⟩

/-- **C79** (violated) When the nodes reported by the comparison differ in the number of children, the report says that there
is no difference. -/
theorem C79_violated_children : ∃ d e, createDom b!"<p></p>" = .ok (some d) ∧ createDom b!"<p><b></b></p>" = .ok (some e) ∧
    decide (equals d e = .ok ⟨.differentSizes, 2, 2⟩ ∧
      printFirstDifference 2 d 2 e ⟨100, [], [], []⟩ =
        .ok ⟨100, [], b!"Could not find any differences for the supplied nodes & documents combination.\n", []⟩) = true := by
  obtain ⟨d, h1, h2⟩ := someAnd_ex (x := createDom b!"<p></p>")
    (p := fun d => someAnd (createDom b!"<p><b></b></p>") (fun e =>
      decide (equals d e = .ok ⟨.differentSizes, 2, 2⟩ ∧
      printFirstDifference 2 d 2 e ⟨100, [], [], []⟩ =
        .ok ⟨100, [], b!"Could not find any differences for the supplied nodes & documents combination.\n", []⟩))) (by decide +kernel)
  obtain ⟨e, h3, h4⟩ := someAnd_ex h2
  exact ⟨d, e, h1, h3, h4⟩

/-- The exact text of the report on any two nodes (`DiffReport` in `Spec/Report.lean`): it names the first difference in kind,
text, tag, boolean attributes, keys and values, in this order, and has been flushed when the function returns, or the failure
handler is taken because one of the nodes has more than 64 attributes of one kind.  Missing: the two cases above. -/
theorem C79_report_partial (d₁ d₂ : Dom) (h₁ : Reachable d₁) (h₂ : Reachable d₂) (a b : Nat) (ha : a < d₁.nodes.length)
    (hb : b < d₂.nodes.length) :
    (∃ s, DiffReport d₁ d₂ a b s ∧ ∀ w : WBuf, 0 < w.cap → w.data.length ≤ w.cap → NoErrors w.sched →
      ∃ w', printFirstDifference a d₁ b d₂ w = .ok w' ∧ w'.data = [] ∧ w'.sink = w.sink ++ w.data ++ s) ∨
    ((∀ w, printFirstDifference a d₁ b d₂ w = .longjmp) ∧ (TooMany d₁ a ∨ TooMany d₂ b)) := by
  obtain ⟨hd₁, _⟩ := reach_domI h₁
  obtain ⟨hd₂, _⟩ := reach_domI h₂
  rcases printFirstDifference_reports hd₁ hd₂ ha hb with ⟨s, hD, hR⟩ | ⟨h, _, ho⟩
  · exact Or.inl ⟨s, hD, fun w h1 h2 h3 => hR.flushed w h1 h2 h3⟩
  · exact Or.inr ⟨h, ho⟩

theorem live_lt {d : Dom} {c : Nat → List Nat} (h : DomI d c) {n : Nat} (hn : Live d n) : n < d.nodes.length := by
  cases hn with
  | root => have := h.linked.two; show 1 < _; omega
  | child _ hc => exact (h.linked.range _ _ (h.linked.mem_kids hc).2).2.2

set_option maxRecDepth 8000 in
/-- Calling the report for the nodes the comparison reports, after it found a difference: the report is printed, and it says
that there are no differences exactly if the nodes differ in nothing but the number of children. -/
theorem C79_after_equals_partial (d₁ d₂ : Dom) (h₁ : Reachable d₁) (h₂ : Reachable d₂) (r : CResult) (h : equals d₁ d₂ = .ok r)
    (hr : r.status ≠ .success) :
    ∃ s, DiffReport d₁ d₂ r.node1 r.node2 s ∧
      (s = b!"Could not find any differences for the supplied nodes & documents combination.\n" ↔ SameLabel d₁ d₂ r.node1 r.node2) ∧
      (SameLabel d₁ d₂ r.node1 r.node2 → (kids d₁ r.node1).length ≠ (kids d₂ r.node2).length) ∧
      ∀ w : WBuf, 0 < w.cap → w.data.length ≤ w.cap → NoErrors w.sched →
        ∃ w', printFirstDifference r.node1 d₁ r.node2 d₂ w = .ok w' ∧ w'.data = [] ∧ w'.sink = w.sink ++ w.data ++ s := by
  obtain ⟨hd₁, _⟩ := reach_domI h₁
  obtain ⟨hd₂, _⟩ := reach_domI h₂
  rw [equals_eq hd₁ hd₂ (f := d₁.nodes.length) (by omega)] at h
  cases hc : cmpT d₁ d₂ d₁.nodes.length 1 1 with
  | ok r' =>
    rw [hc, Out.bind_ok] at h
    rcases cmpT_cases hd₁ _ _ _ _ .root .root hc with ⟨hs, hT⟩ | ⟨hs, l1, l2, ⟨st, hl⟩, hF, hV⟩
    · rw [if_neg (not_not.mpr hs)] at h
      cases h
      exact absurd rfl hr
    · rw [if_pos hs] at h
      cases h
      rcases printFirstDifference_reports hd₁ hd₂ (live_lt hd₁ l1) (live_lt hd₂ l2) with ⟨s, hD, hR⟩ | ⟨_, hj, _⟩
      · refine ⟨s, hD, ?_, ?_, fun w h1 h2 h3 => hR.flushed w h1 h2 h3⟩
        · constructor
          · intro e
            cases hD with
            | none _ _ h => exact h
            | bools h1 h2 h3 h4 h5 h6 =>
              unfold namesReport at e
              split at e <;> simp at e
            | keys h1 h2 h3 h4 h5 h6 =>
              unfold namesReport at e
              split at e <;> simp at e
            | values h1 h2 h3 h4 h5 h6 =>
              unfold namesReport at e
              split at e <;> simp at e
            | _ => simp at e
          · intro hS
            cases hD with
            | none _ _ h => rfl
            | types h1 h2 h3 => exact absurd (Option.some.inj (h1.symm.trans (hS.type.trans h2))) h3
            | texts h1 h2 h3 => exact absurd (Option.some.inj (h1.symm.trans (hS.text.trans h2))) h3
            | single h1 h2 h3 h4 =>
              have := Option.some.inj (h3.symm.trans (hS.paired.trans h4))
              simp at this
            | tags h1 h2 h3 h4 => exact absurd (Option.some.inj (h1.symm.trans (hS.tag.trans h2))) h4
            | bools h1 h2 h3 h4 h5 h6 => exact absurd (hS.bools (typeOf_tag h1)) h4
            | keys h1 h2 h3 h4 h5 h6 => exact absurd (hS.keys (typeOf_tag h1)) h5
            | values h1 h2 h3 h4 h5 h6 => exact absurd (hS.values (typeOf_tag h1)) h6
            | unknown h1 h2 h3 =>
              rcases live_known hd₁ l1 with k | k | k <;> rw [k] at h1 <;> cases h1 <;> simp at h3
        · intro hS
          obtain ⟨rs, n1, n2⟩ := r
          dsimp only at hV hS hs
          cases hV with
          | children _ h => exact h
          | kind h => exact absurd h (by rw [hS.type, hS.paired]; simp)
          | text _ _ h => exact absurd h (by rw [hS.text, hS.tag]; simp)
          | bools h1 h2 h3 h4 => exact absurd (hS.bools (typeOf_tag h1)) h4
          | keys h1 h2 h3 h4 h5 => exact absurd (hS.keys (typeOf_tag h1)) h5
          | values h1 h2 h3 h4 h5 h6 => exact absurd (hS.values (typeOf_tag h1)) h6
      · rw [hl] at hj; cases hj
  | longjmp => rw [hc] at h; cases h
  | ub w => rw [hc] at h; cases h
  | hang => rw [hc] at h; cases h

/-- Non-vacuity: a report on attributes (through a buffer of 16 bytes). -/
example : ∃ d e, createDom b!"<p a b=c></p>" = .ok (some d) ∧ createDom b!"<p a b=d e=f></p>" = .ok (some e) ∧
    decide (equals d e = .ok ⟨.differentSizes, 2, 2⟩ ∧
      printFirstDifference 2 d 2 e ⟨16, b!"> ", [], []⟩ =
        .ok ⟨16, [], b!"> Collections have different sizes\nNodes contain different key props\nPrinting certain attributes of node 1 with tag p\nb\nPrinting certain attributes of node 2 with tag p\ne\nb\n", []⟩) = true := by
  obtain ⟨d, h1, h2⟩ := someAnd_ex (x := createDom b!"<p a b=c></p>")
    (p := fun d => someAnd (createDom b!"<p a b=d e=f></p>") (fun e =>
      decide (equals d e = .ok ⟨.differentSizes, 2, 2⟩ ∧
      printFirstDifference 2 d 2 e ⟨16, b!"> ", [], []⟩ =
        .ok ⟨16, [], b!"> Collections have different sizes\nNodes contain different key props\nPrinting certain attributes of node 1 with tag p\nb\nPrinting certain attributes of node 2 with tag p\ne\nb\n", []⟩))) (by decide +kernel)
  obtain ⟨e, h3, h4⟩ := someAnd_ex h2
  exact ⟨d, e, h1, h3, h4⟩

end Flo
