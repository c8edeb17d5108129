import Verif.Proofs.Reparse
import Verif.Props.Source
/-!
# Printing (C54, C55)

`RepL d F (kids d 1)`: the root of `d` has exactly the trees `F`.  `printAll paired F` (in `Spec/Print.lean`) is their
text.  The buffer the text goes through is the subject of C43.
-/
namespace Flo
open Spec

/-! ## C54 -/

/-- The property fails: whether an element has an end tag is recorded only when its tag name is first used, so the
second element loses its content. -/
theorem C54_violated : ∃ d, createDom b!"<a/><a>x</a>" = .ok (some d) ∧ kids d 3 = [4] ∧ textOf d 4 = some b!"x" ∧
    printHTML d = .ok b!"<a/><a/>" := by
  obtain ⟨d, h, hd⟩ := someAnd_ex (x := createDom b!"<a/><a>x</a>") (p := fun d => decide
    (kids d 3 = [4] ∧ textOf d 4 = some b!"x" ∧ printHTML d = .ok b!"<a/><a/>")) (by decide +kernel)
  exact ⟨d, h, of_decide_eq_true hd⟩

/-- What holds: a reachable document whose root has the trees `F` prints exactly the text of `F`: every element with
its tag, boolean attributes, pairs, and, if its tag name is registered as paired, its content and end tag, in document
order.  Missing: pairedness is per tag name, not per element. -/
theorem C54_print_partial (d : Dom) (h : Reachable d) (F : List Tree) (hF : RepL d F (kids d 1)) :
    printHTML d = .ok (printAll (pairedTag d) F) := printHTML_forest (reach_domI h).1 hF

/-- Every reachable document in which no text node was given children is such a list of trees, so it prints, without
undefined behaviour and in finitely many steps. -/
theorem C54_prints_partial (d : Dom) (h : Reachable d) (ht : TextLeaves d) :
    ∃ F, RepL d F (kids d 1) ∧ printHTML d = .ok (printAll (pairedTag d) F) := by
  obtain ⟨F, hF⟩ := exists_forest_root (reach_domI h).1 ht 1
  exact ⟨F, hF, C54_print_partial d h F hF⟩

/-- For documents parsed from clean source that writes each tag name consistently with or without end tag, the full
property holds: what is printed is the text of the trees with exactly the end tags of the source. -/
theorem C54_print_of_source_partial (lead : Str) (ks : Srcs) (hl : Blank lead) (hk : ks.Clean) (hd : ks.depth ≤ 255)
    (P : Str → Bool) (hu : ks.Uses P) (d : Dom) (h : createDom (lead ++ ks.render) = .ok (some d)) :
    printHTML d = .ok (printAll P ks.trees) := print_source hl hk hd hu h

/-- non-vacuity: a DOM reached by parsing and editing. -/
example : ∃ d, Reachable d ∧ ∃ F, RepL d F (kids d 1) ∧ F.length = 1 ∧
    printHTML d = .ok b!"<div id=\"n\"><b>hi</b><br/></div>" := by
  obtain ⟨d, h, hd⟩ := someAnd_ex (x := createDom b!"<div id=n><b>hi</b><br></div>")
    (p := fun d => repLB d 10 [.elem b!"div" [(b!"id", b!"n")] [] [.elem b!"b" [] [] [.text b!"hi"], .elem b!"br" [] [] []]] (kids d 1)
      && decide (printHTML d = .ok b!"<div id=\"n\"><b>hi</b><br/></div>")) (by decide +kernel)
  rw [Bool.and_eq_true] at hd
  exact ⟨d, .parsed h, _, repLB_rep hd.1, rfl, of_decide_eq_true hd.2⟩

example : exampleSrc.Uses (fun t => t = b!"ul" ∨ t = b!"li") := by
  simp [exampleSrc, Srcs.Uses, Src.Uses]

/-! ## C55 -/

/-- The property fails: `/>` after a boolean attribute becomes part of its name, so every round of printing and
parsing changes the document. -/
theorem C55_violated : ∃ d d', createDom b!"<input required>" = .ok (some d) ∧ printHTML d = .ok b!"<input required/>" ∧
    createDom b!"<input required/>" = .ok (some d') ∧ bools d 2 = [b!"required"] ∧ bools d' 2 = [b!"required/"] := by
  obtain ⟨d, h, hd⟩ := someAnd_ex (x := createDom b!"<input required>") (p := fun d => decide
    (printHTML d = .ok b!"<input required/>" ∧ bools d 2 = [b!"required"])) (by decide +kernel)
  obtain ⟨d', h', hd'⟩ := someAnd_ex (x := createDom b!"<input required/>") (p := fun d => decide
    (bools d 2 = [b!"required/"])) (by decide +kernel)
  have := of_decide_eq_true hd
  exact ⟨d, d', h, this.1, h', this.2, of_decide_eq_true hd'⟩

/-- Two texts separated by a stray end tag are printed without separator and become one. -/
theorem C55_texts_violated : ∃ d d', createDom b!"x</p>y" = .ok (some d) ∧ printHTML d = .ok b!"xy" ∧
    createDom b!"xy" = .ok (some d') ∧ kids d 1 = [2, 3] ∧ kids d' 1 = [2] := by
  obtain ⟨d, h, hd⟩ := someAnd_ex (x := createDom b!"x</p>y") (p := fun d => decide
    (printHTML d = .ok b!"xy" ∧ kids d 1 = [2, 3])) (by decide +kernel)
  obtain ⟨d', h', hd'⟩ := someAnd_ex (x := createDom b!"xy") (p := fun d' => decide (kids d' 1 = [2])) (by decide +kernel)
  have := of_decide_eq_true hd
  exact ⟨d, d', h, this.1, h', this.2, of_decide_eq_true hd'⟩

/-- What holds: if the trees of a reachable document are `Printable` (names well formed, texts normalised and not
adjacent, no `"` in values, elements without end tag empty and not ending in a boolean attribute), not nested too deep
and the text is not longer than 65533 bytes, then parsing the printed form yields a document with the same trees, and
printing that yields the same text again.  Missing: documents that are not `Printable`. -/
theorem C55_print_parse_partial (d : Dom) (h : Reachable d) (F : List Tree) (hF : RepL d F (kids d 1))
    (hp : PrintableAll (pairedTag d) F) (hn : nestingAll (pairedTag d) F ≤ 255) (t : Str) (ht : printHTML d = .ok t)
    (hlen : t.length ≤ 65533) :
    ∃ d', createDom t = .ok (some d') ∧ RepL d' F (kids d' 1) ∧ printHTML d' = .ok t := by
  rw [C54_print_partial d h F hF] at ht
  cases ht
  exact reparse hp hn hlen

example : PrintableAll (fun t => decide (t = b!"div")) [.elem b!"!DOCTYPE" [] [b!"html"] [],
    .elem b!"div" [(b!"id", b!"n")] [b!"hidden"] [.text b!"hi", .elem b!"br" [] [] []]] := by
  have hk : ∀ k, (k = b!"html" ∨ k = b!"hidden" ∨ k = b!"id") → KeyName k := by
    rintro k (rfl | rfl | rfl) <;> exact keyName _ (by decide)
  refine ⟨⟨⟨⟨_, _, rfl, by decide⟩, by decide, by decide, by decide⟩, ?_, by simp, by simp, by simp, trivial⟩, ⟨⟨?_, ?_, ?_, ?_, ?_, ?_⟩, trivial, ?_⟩, ?_⟩
  · intro b hb; simp only [List.mem_singleton] at hb; exact hk b (Or.inl hb)
  · exact ⟨⟨_, _, rfl, by decide⟩, by decide, by decide, by decide⟩
  · intro b hb; simp only [List.mem_singleton] at hb; exact hk b (Or.inr (Or.inl hb))
  · intro p hp; simp only [List.mem_singleton] at hp; subst hp; exact ⟨hk _ (Or.inr (Or.inr rfl)), by decide⟩
  · intro _; decide
  · simp
  · refine ⟨⟨normal_word _ (by decide), _, _, rfl, by decide⟩, ⟨⟨⟨⟨_, _, rfl, by decide⟩, by decide, by decide, by decide⟩, by simp, by simp,
      by simp, by simp, trivial⟩, trivial, by simp⟩, ?_⟩
    intro _ t' ts' e
    cases e; rfl
  · simp
  · simp [Tree.isText]

end Flo
