import Verif.Proofs.RefFrag
import Verif.Props.Source
/-!
# What every inserted HTML string means (C94)

`fragOutcome answer html` (`Spec/Reference.lean`): the answer of the reference reader for a fragment.  `answer i` is what the
program finds outside its nesting stack when it asks whether `</` at position `i`, outside of every element, is an end tag
(`hj`); the answer matters for no other input.  `Room d html.length`: the DOM has as many identifiers left as the fragment has
bytes.
-/
namespace Flo
open Spec

theorem fragRef {junk : Nat → Out Bool} {answer : Nat → Bool} (hj : ∀ i, junk i = .ok (answer i)) {d : Dom} (h : Reachable d)
    {html : Str} (hr : Room d html.length) : match fragOutcome answer html with
    | .document F => ∃ d1, parseExtra junk html d = .ok ⟨true, d1⟩ ∧ (F ≠ [] → FParse junk html d (kids d) F) ∧ (F = [] → d1 = d) ∧
        Used d (tokenForms (fragTokens answer html).1) d1
    | .null => ∃ d1 c1, parseExtra junk html d = .ok ⟨false, d1⟩ ∧ Parsed d (kids d) d1 c1
    | .outside => parseExtra junk html d = .ub .negLen := by
  obtain ⟨hi, h0⟩ := reach_domI h
  rcases parseExtra_ref hj hi h0 html with h1 | h1
  · exact absurd h1 (C59_fragment_identifiers_last junk (fun i => by rw [hj]; cases answer i <;> simp) html d hr)
  · exact h1

theorem fragRef_doc {junk : Nat → Out Bool} {answer : Nat → Bool} (hj : ∀ i, junk i = .ok (answer i)) {d : Dom} (h : Reachable d)
    {html : Str} (hr : Room d html.length) {F : List Tree} (ho : fragOutcome answer html = .document F) (hF : F ≠ []) :
    FParse junk html d (kids d) F := by
  have := fragRef hj h hr
  rw [ho] at this
  obtain ⟨_, _, h2, _⟩ := this
  exact h2 hF

/-- `appendHTMLFromString` with any string that stands for at least one tree: see `C23_appendHTML`. -/
theorem C94_append (d : Dom) (h : Reachable d) (p : Nat) (hp : IsNode d p) (html : Str) (junk : Nat → Out Bool) (answer : Nat → Bool)
    (hj : ∀ i, junk i = .ok (answer i)) (hr : Room d html.length) (F : List Tree) (ho : fragOutcome answer html = .document F)
    (hF : F ≠ []) :
    ∃ id d' F1 new, appendHTML junk p html d = .ok (id, d') ∧ MergeFirst d d' ((kids d p).getLastD 0) F F1 ∧
      kids d' p = kids d p ++ new ∧ RepL d' F1 new ∧ (∀ n ∈ new, d.nodes.length ≤ n) ∧
      id = new.headD ((kids d p).getLastD 0) ∧
      (∀ q, q < d.nodes.length → q ≠ p → kids d' q = kids d q) ∧
      (∀ m, m < d.nodes.length → m ≠ (kids d p).getLastD 0 → SameNode d d' m) := by
  obtain ⟨hi, h0⟩ := reach_domI h
  exact appendHTML_frag hi h0 (fragRef_doc hj h hr ho hF) hp.1 hp.2

/-- `prependHTMLFromString` with any string that stands for at least one tree: see `C24_prependHTML`. -/
theorem C94_prepend (d : Dom) (h : Reachable d) (p : Nat) (hp : IsNode d p) (html : Str) (junk : Nat → Out Bool) (answer : Nat → Bool)
    (hj : ∀ i, junk i = .ok (answer i)) (hr : Room d html.length) (F : List Tree) (ho : fragOutcome answer html = .document F)
    (hF : F ≠ []) :
    ∃ id d' F1 new, prependHTML junk p html d = .ok (id, d') ∧ MergeLast d d' ((kids d p).headD 0) F F1 ∧
      kids d' p = new ++ kids d p ∧ RepL d' F1 new ∧ (∀ n ∈ new, d.nodes.length ≤ n) ∧
      id = new.headD ((kids d p).headD 0) ∧
      (∀ q, q < d.nodes.length → q ≠ p → kids d' q = kids d q) ∧
      (∀ m, m < d.nodes.length → m ≠ (kids d p).headD 0 → SameNode d d' m) := by
  obtain ⟨hi, h0⟩ := reach_domI h
  exact prependHTML_frag hi h0 (fragRef_doc hj h hr ho hF) hp.1 hp.2

/-- `replaceWithHTMLFromString` with any string of which something is left after merging: see `C27_replaceHTML_partial`. -/
theorem C94_replace (d : Dom) (h : Reachable d) (p n : Nat) (l₁ l₂ : List Nat) (he : kids d p = l₁ ++ n :: l₂) (html : Str)
    (junk : Nat → Out Bool) (answer : Nat → Bool) (hj : ∀ i, junk i = .ok (answer i)) (hr : Room d html.length) (F : List Tree)
    (ho : fragOutcome answer html = .document F) (hF : F ≠ [])
    (hone : ∀ t, F = [.text t] → textOf d (l₁.getLastD 0) = none ∧ textOf d (l₂.headD 0) = none)
    (htwo : ∀ t u, F = [.text t, .text u] → textOf d (l₁.getLastD 0) = none ∨ textOf d (l₂.headD 0) = none) :
    ∃ id d' F1 F2 new, replaceWithHTML junk n html d = .ok (id, d') ∧
      MergeFirst d d' (l₁.getLastD 0) F F1 ∧ MergeLast d d' (l₂.headD 0) F1 F2 ∧
      kids d' p = l₁ ++ new ++ l₂ ∧ RepL d' F2 new ∧ new ≠ [] ∧ (∀ m ∈ new, d.nodes.length ≤ m) ∧
      id = new.headD 0 ∧ typeOf d' n = some .removed ∧
      (∀ q, q < d.nodes.length → q ≠ p → kids d' q = kids d q) ∧
      (∀ m, m < d.nodes.length → m ≠ n → m ≠ l₁.getLastD 0 → m ≠ l₂.headD 0 → SameNode d d' m) := by
  obtain ⟨hi, h0⟩ := reach_domI h
  have hp : p ≠ 0 := by
    rintro rfl; rw [h0] at he; simp at he
  exact replaceHTML_frag hi h0 (fragRef_doc hj h hr ho hF) hp he hone htwo

/-- A string that stands for a single text, between two siblings one of which is a text: see
`C27_replaceHTML_single_text_partial`. -/
theorem C94_replace_single_text (d : Dom) (h : Reachable d) (p n a b : Nat) (l₁ l₂ : List Nat)
    (he : kids d p = l₁ ++ a :: n :: b :: l₂) (html : Str) (t : Str)
    (junk : Nat → Out Bool) (answer : Nat → Bool) (hj : ∀ i, junk i = .ok (answer i)) (hr : Room d html.length)
    (ho : fragOutcome answer html = .document [.text t]) (hm : textOf d a ≠ none ∨ textOf d b ≠ none) :
    ∃ d' k tx, replaceWithHTML junk n html d = .ok (a, d') ∧
      ((∃ tk, textOf d a = some tk ∧ k = a ∧ tx = tk ++ [32] ++ t) ∨
       (textOf d a = none ∧ ∃ tk, textOf d b = some tk ∧ k = b ∧ tx = t ++ [32] ++ tk)) ∧
      textOf d' k = some tx ∧ pairs d' k = pairs d k ∧ bools d' k = bools d k ∧
      kids d' p = l₁ ++ a :: b :: l₂ ∧
      (∀ q, q ≠ p → q ∉ preorder d n → kids d' q = kids d q) ∧
      (∀ m ∈ preorder d n, typeOf d' m = some .removed) ∧
      (∀ m, m < d.nodes.length → m ≠ k → m ∉ preorder d n → SameNode d d' m) :=
  replaceSingle_frag d h p n a b l₁ l₂ he html t (fragRef_doc hj h hr ho (by simp)) hm

/-- A string that stands for a single text, in place of a first or last child: see `C27_single_text_exact_partial`. -/
theorem C94_replace_single_text_ends (d : Dom) (h : Reachable d) (p n : Nat) (l₁ l₂ : List Nat)
    (he : kids d p = l₁ ++ n :: l₂) (html : Str) (t : Str)
    (junk : Nat → Out Bool) (answer : Nat → Bool) (hj : ∀ i, junk i = .ok (answer i)) (hr : Room d html.length)
    (ho : fragOutcome answer html = .document [.text t]) :
    (∀ b l tb, l₁ = [] → l₂ = b :: l → textOf d b = some tb → replaceWithHTML junk n html d = .ub .nullDeref) ∧
    (∀ a l ta, l₁ = l ++ [a] → l₂ = [] → textOf d a = some ta →
      ∃ d', replaceWithHTML junk n html d = .ok (0, d') ∧ textOf d' a = some (ta ++ [32] ++ t) ∧
        pairs d' a = pairs d a ∧ bools d' a = bools d a ∧ kids d' p = l ++ [a] ∧
        (∀ q, q ≠ p → q ∉ preorder d n → kids d' q = kids d q) ∧
        (∀ m ∈ preorder d n, typeOf d' m = some .removed) ∧
        (∀ m, m < d.nodes.length → m ≠ a → m ∉ preorder d n → SameNode d d' m)) :=
  replaceSingleEnds_frag d h p n l₁ l₂ he html t (fragRef_doc hj h hr ho (by simp))

/-- A string that stands for two texts, between two texts: see `C27_two_texts_exact_partial`. -/
theorem C94_replace_two_texts (d : Dom) (h : Reachable d) (p n a b : Nat) (l₁ l₂ : List Nat)
    (he : kids d p = l₁ ++ a :: n :: b :: l₂) (html : Str) (t u : Str)
    (junk : Nat → Out Bool) (answer : Nat → Bool) (hj : ∀ i, junk i = .ok (answer i)) (hr : Room d html.length)
    (ho : fragOutcome answer html = .document [.text t, .text u])
    (ta tb : Str) (ha : textOf d a = some ta) (hb : textOf d b = some tb) :
    ∃ d', replaceWithHTML junk n html d = .ok (d.nodes.length + 1, d') ∧
      kids d' p = l₁ ++ a :: (d.nodes.length + 1) :: b :: l₂ ∧
      typeOf d' (d.nodes.length + 1) = some .removed ∧ typeOf d' d.nodes.length = some .removed ∧
      textOf d' a = some (ta ++ [32] ++ t) ∧ textOf d' b = some (u ++ [32] ++ tb) ∧
      typeOf d' n = some .removed ∧
      (∀ q, q ≠ p → kids d' q = kids d q) ∧
      (∀ m, m < d.nodes.length → m ≠ n → m ≠ a → m ≠ b → SameNode d d' m) := by
  obtain ⟨hi, h0⟩ := reach_domI h
  have hp : p ≠ 0 := by
    rintro rfl; rw [h0] at he; simp at he
  exact replaceHTML_two hi h0 (fragRef_doc hj h hr ho (by simp)) hp he ha hb

/-- Every string without a tree behaves like the empty one: see `C28_exact_partial`. -/
theorem C94_nothing (d : Dom) (h : Reachable d) (html : Str) (junk : Nat → Out Bool) (answer : Nat → Bool)
    (hj : ∀ i, junk i = .ok (answer i)) (hr : Room d html.length) (ho : fragOutcome answer html = .document []) :
    (∀ p, IsNode d p → kids d p = [] →
      (∃ d', appendHTML junk p html d = .ok (d.nodes.length, d') ∧ prependHTML junk p html d = .ok (d.nodes.length, d') ∧
        d'.nodes = d.nodes ∧ kids d' p = [d.nodes.length] ∧ ∀ q, q ≠ p → kids d' q = kids d q)) ∧
    (∀ p, IsNode d p → kids d p ≠ [] →
      appendHTML junk p html d = .ub .oobIndex ∧ prependHTML junk p html d = .ub .oobIndex) ∧
    (∀ n, replaceWithHTML junk n html d = .ub .oobIndex) := by
  refine emptyFrag_exact html d h junk ?_
  have := fragRef hj h hr
  rw [ho] at this
  obtain ⟨d1, h1, _, h3, _⟩ := this
  rw [h1, h3 rfl]

/-- A string that opens an element within 256 others is refused: 0 is returned, and the document is as it was. -/
theorem C94_too_deep (d : Dom) (h : Reachable d) (html : Str) (junk : Nat → Out Bool) (answer : Nat → Bool)
    (hj : ∀ i, junk i = .ok (answer i)) (hr : Room d html.length) (ho : fragOutcome answer html = .null) :
    ∃ d', (∀ p, appendHTML junk p html d = .ok (0, d') ∧ prependHTML junk p html d = .ok (0, d') ∧
        replaceWithHTML junk p html d = .ok (0, d')) ∧
      (∀ q, IsNode d q → kids d' q = kids d q) ∧ (∀ m, m < d.nodes.length → SameNode d d' m) := by
  obtain ⟨hi, h0⟩ := reach_domI h
  have := fragRef hj h hr
  rw [ho] at this
  obtain ⟨d1, c1, h1, P⟩ := this
  refine ⟨d1, fun p => ⟨?_, ?_, ?_⟩, fun q hq => ?_, P.old⟩
  · unfold appendHTML; rw [h1]; rfl
  · unfold prependHTML; rw [h1]; rfl
  · unfold replaceWithHTML; rw [h1]; rfl
  · rw [P.inv.linked.kids_eq hq.1]
    exact P.frame q hq.1 hq.2

/-- A string that ends in a quote that opens an attribute is read beyond its end. -/
theorem C94_outside (d : Dom) (h : Reachable d) (html : Str) (junk : Nat → Out Bool) (answer : Nat → Bool)
    (hj : ∀ i, junk i = .ok (answer i)) (hr : Room d html.length) (ho : fragOutcome answer html = .outside) (p : Nat) :
    appendHTML junk p html d = .ub .negLen ∧ prependHTML junk p html d = .ub .negLen ∧
      replaceWithHTML junk p html d = .ub .negLen := by
  have := fragRef hj h hr
  rw [ho] at this
  have h1 : parseExtra junk html d = .ub .negLen := this
  refine ⟨?_, ?_, ?_⟩
  · unfold appendHTML; rw [h1]; rfl
  · unfold prependHTML; rw [h1]; rfl
  · unfold replaceWithHTML; rw [h1]; rfl

/-- C74 for every fragment: a name that had no form gets the one of its first use in the fragment. -/
theorem C74_every_fragment (d : Dom) (h : Reachable d) (html : Str) (junk : Nat → Out Bool) (answer : Nat → Bool)
    (hj : ∀ i, junk i = .ok (answer i)) (F : List Tree) (ho : fragOutcome answer html = .document F) (p id : Nat) (d' : Dom)
    (hr : appendHTML junk p html d = .ok (id, d') ∨ prependHTML junk p html d = .ok (id, d') ∨
      replaceWithHTML junk p html d = .ok (id, d')) (tag : Str) :
    formOf d' tag = (formOf d tag).or (firstForm (tokenForms (fragTokens answer html).1) tag) := by
  obtain ⟨hi, h0⟩ := reach_domI h
  have hu : Ok (fun r => Used d (tokenForms (fragTokens answer html).1) r.dom) (parseExtra junk html d) := by
    intro r hr
    rcases parseExtra_ref hj hi h0 html with h1 | h1
    · rw [hr] at h1; cases h1
    · rw [ho, hr] at h1
      obtain ⟨d1, e, _, _, h4⟩ := h1
      cases e
      exact h4
  rcases hr with hr | hr | hr
  · exact (appendHTML_fin Used.closed _ _ hu _ hr).2 tag
  · exact (prependHTML_fin Used.closed _ _ hu _ hr).2 tag
  · exact (replaceWithHTML_fin Used.closed _ _ hu _ hr).2 tag

/-! ## Concrete fragments -/

example : fragOutcome (fun _ => true) b!"a<b>c</p>d</b>" = .document [.text b!"a", .elem b!"b" [] [] [.text b!"c", .text b!"/p>d"]] := rfl
example : fragOutcome (fun _ => true) b!"a</p>d" = .document [.text b!"a", .text b!"d"] ∧
    fragOutcome (fun _ => false) b!"a</p>d" = .document [.text b!"a", .text b!"/p>d"] := ⟨rfl, rfl⟩
example : fragOutcome (fun _ => true) b!" <!-- c --> </p> " = .document [] := rfl
example : fragOutcome (fun _ => true) b!"<i k='" = .outside := rfl
example : ∃ d, Reachable d ∧ IsNode d 2 ∧ Room d 60000 := by
  obtain ⟨d, h, hd⟩ := okAnd_ex (x := exampleRun) (p := fun d => decide
    (d.nodes.length + 60000 ≤ 65535 ∧ d.tagMap.identity + 60000 ≤ 65535 ∧ d.boolMap.identity + 60000 ≤ 65535 ∧
      d.keyMap.identity + 60000 ≤ 65535 ∧ d.valMap.identity + 60000 ≤ 65535 ∧ 2 < d.nodes.length)) (by decide +kernel)
  have := of_decide_eq_true hd
  exact ⟨d, exampleRun_reachable h, ⟨by omega, by omega⟩, ⟨by omega, by omega, ⟨by omega, by omega, by omega⟩⟩⟩

end Flo
