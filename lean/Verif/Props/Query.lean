import Verif.Proofs.QuerySem
import Verif.Props.Parse
import Verif.Props.Nav
/-!
# CSS queries (C31 - C38)

The written form (`Compound.text`, `Part.text`, `Query.text`) and the meaning (`holds`, `rel`, `selects`) of
queries are defined in `Spec/Query.lean`.  `pun` is what reading the tag of a text node yields: the library reads
the union member `tagID` of every node, text nodes included.
-/
namespace Flo
open Spec

/-! ## C31: compound selectors -/

/-- The property fails because tag selectors read `tagID` of text nodes, where the union holds a pointer: if its
low bytes happen to be the identifier of `p`, the text is returned as an answer to `p`. -/
theorem C31_violated_union : ∃ d, createDom b!"<p>x</p>" = .ok (some d) ∧
    decide (querySelectorAll (fun _ => 1) b!"p" d = .ok (.go [3, 2]) ∧ typeOf d 3 = some .text ∧
      querySelectorAll (fun _ => 0) b!"p" d = .ok (.go [2])) = true :=
  someAnd_ex (by decide +kernel)

/-- The property fails for `*` followed by conditions: they are ignored. -/
theorem C31_violated_star : ∃ d, createDom b!"<p k=v></p><b></b>" = .ok (some d) ∧
    decide (querySelectorAll (fun _ => 0) b!"*[k=v]" d = .ok (.go [1, 3, 2]) ∧
      pairs d 2 = [(b!"k", b!"v")] ∧ pairs d 3 = []) = true :=
  someAnd_ex (by decide +kernel)

/-- On every reachable DOM, a compound selector (a tag name, conditions in brackets, a class or id at the end; or
`*` alone) with known names and at most eight filters is answered without repetitions, and a node of the document
is in the answer iff it satisfies every condition.  If the node is a text, it is assumed that the bytes read as
its tag are not the identifier of a registered tag.  Missing from the full property: that assumption, conditions
after `*`, and nodes outside the document (C36). -/
theorem C31_compound_partial (d : Dom) (h : Reachable d) (pun : Nat → Nat) (n : Nat) (hn : Live d n)
    (hp : ∀ t, textOf d n = some t → pun n = 0 ∨ d.tagReg.length ≤ pun n) (c : Compound) (lead trail : Str)
    (hl : Blanks lead) (ht : Blanks trail) (hw : c.WF true) (hk : c.known d) (hs : c.size ≤ 8) :
    ∃ L, querySelectorAll pun (lead ++ (c.text ++ trail)) d = .ok (.go L) ∧ L.Nodup ∧ (n ∈ L ↔ c.holds d n) :=
  compound_live (reach_domI h).1 hn hp ⟨hl, ht, hw, trivial⟩ hk hs

/-- non-vacuity: a selector with all kinds of conditions, selecting one of two candidates. -/
example : Compound.text (.mk (some b!"p") [.flag [] b!"x" b!" ", .eq b!" " b!"k" [] b!" " b!"v" []] (some (.cls b!"m"))) =
    b!"p[x ][ k= v].m" := by decide

example : ∃ d, createDom b!"<p x k=v class=m></p><p x k=v></p>" = .ok (some d) ∧
    decide (querySelectorAll (fun _ => 0) b!"p[x ][ k= v].m" d = .ok (.go [2])) = true :=
  someAnd_ex (by decide +kernel)

example : Compound.WF true (.mk (some b!"p") [.flag [] b!"x" b!" ", .eq b!" " b!"k" [] b!" " b!"v" []] (some (.cls b!"m"))) := by
  have hb : Blanks b!" " := by intro c hc; simp at hc; exact Or.inl hc
  have hz : Blanks [] := by intro c hc; cases hc
  have hw : ∀ c, NameStart c → ¬WordStop c → Word [c] := fun c h1 h2 =>
    ⟨⟨c, [], rfl, h1⟩, by intro x hx; simp at hx; exact hx ▸ h2⟩
  refine ⟨?_, ?_, ?_, Or.inl (by simp)⟩
  · intro x hx; cases hx
    exact ⟨⟨112, [], rfl, Or.inl ⟨by decide, by decide⟩⟩, by intro x hx; simp at hx; subst hx; unfold TagStop; decide⟩
  · intro c hc
    simp only [List.mem_cons, List.not_mem_nil, or_false] at hc
    rcases hc with rfl | rfl
    · exact ⟨hz, hw _ (Or.inl ⟨by decide, by decide⟩) (by unfold WordStop; decide), hb⟩
    · exact ⟨hb, hw _ (Or.inl ⟨by decide, by decide⟩) (by unfold WordStop; decide), hz, hb,
        hw _ (Or.inl ⟨by decide, by decide⟩) (by unfold WordStop; decide), hz⟩
  · intro f hf; cases hf
    exact ⟨rfl, hw _ (Or.inl ⟨by decide, by decide⟩) (by unfold WordStop; decide)⟩

/-! ## C32: combinators -/

/-- The property fails for `*` after a combinator: it is skipped, so that `div > *` answers the `div`s. -/
theorem C32_violated : ∃ d, createDom b!"<div><p></p></div>" = .ok (some d) ∧
    decide (kids d 2 = [3] ∧ querySelectorAll (fun _ => 0) b!"div > *" d = .ok (.go [2])) = true :=
  someAnd_ex (by decide +kernel)

/-- On every reachable DOM, a query (compound selectors joined by combinators, parts separated by commas) with
known names and at most eight filters per compound selector is answered without repetitions, and a node of the
document is in the answer iff it is selected: reading each part from left to right, the nodes selected by the
next compound selector are those that satisfy it and stand in the combinator's relation to a node selected so
far (`restSelects`, `CombKind.rel`).  Missing from the full property: `*` after a combinator, a class or id that
is not at the end (C37), the assumption on the bytes read as tags of texts, and nodes outside the document. -/
theorem C32_combinators_partial (d : Dom) (h : Reachable d) (pun : Nat → Nat) (hp : PunFree pun d) (q : Query)
    (hw : ∀ p ∈ q.parts, p.WF) (hk : ∀ p ∈ q.parts, p.known d) (hs : ∀ p ∈ q.parts, p.Small) :
    ∃ L, querySelectorAll pun q.text d = .ok (.go L) ∧ L.Nodup ∧ ∀ n, Live d n → (n ∈ L ↔ q.selects d n) := by
  obtain ⟨hd, h0⟩ := reach_domI h
  obtain ⟨L, e1, e2, _, e4⟩ := query_live hd h0 hp hw hk hs
  exact ⟨L, e1, e2, e4⟩

/-- The four combinators between two tag names, spelled out.  Results of `>` and of the blank are elements;
`+` and `~` count sibling nodes, texts included. -/
theorem C32_two_tags_partial (d : Dom) (h : Reachable d) (pun : Nat → Nat) (hp : PunFree pun d) (t u : Str)
    (ht : TagWord t) (hu : TagWord u) (hkt : t ∈ (d.tagReg.map (·.1)).tail) (hku : u ∈ (d.tagReg.map (·.1)).tail)
    (k : CombKind) : ∃ L, querySelectorAll pun (t ++ (b!" " ++ (k.text ++ (b!" " ++ u)))) d = .ok (.go L) ∧ L.Nodup ∧
      ∀ n, Live d n → (n ∈ L ↔ tagOf d n = some u ∧ ∃ v, tagOf d v = some t ∧ k.rel d v n) := by
  obtain ⟨hd, h0⟩ := reach_domI h
  have hb : Blanks b!" " := by intro c hc; simp at hc; exact Or.inl hc
  let p : Part := ⟨[], .mk (some t) [] none, [(⟨k, b!" ", b!" "⟩, .mk (some u) [] none)], []⟩
  have hcw : ∀ (x : Str) (b : Bool), TagWord x → Compound.WF b (.mk (some x) [] none) := fun x b hx =>
    ⟨by intro y hy; cases hy; exact hx, by simp, by simp, Or.inl (by simp)⟩
  have hpw : p.WF := ⟨(by intro c hc; cases hc), (by intro c hc; cases hc), hcw t _ ht,
    ⟨⟨hb, hb, by simp⟩, hcw u _ hu, by simp, trivial⟩⟩
  have hck : ∀ x : Str, x ∈ (d.tagReg.map (·.1)).tail → Compound.known d (.mk (some x) [] none) := fun x hx =>
    ⟨by intro y hy; cases hy; exact hx, by simp, by simp⟩
  have hpk : p.known d := by
    intro c hc
    simp only [p, Part.compounds, List.map_cons, List.map_nil, List.mem_cons, List.not_mem_nil, or_false] at hc
    rcases hc with rfl | rfl
    · exact hck t hkt
    · exact hck u hku
  have hps : p.Small := by
    intro c hc
    simp only [p, Part.compounds, List.map_cons, List.map_nil, List.mem_cons, List.not_mem_nil, or_false] at hc
    rcases hc with rfl | rfl <;> simp [Compound.size]
  obtain ⟨L, e1, e2, _, e4⟩ := query_live (q := ⟨p, []⟩) hd h0 hp (by simpa [Query.parts] using hpw)
    (by simpa [Query.parts] using hpk) (by simpa [Query.parts] using hps)
  have htext : Query.text ⟨p, []⟩ = t ++ (b!" " ++ (k.text ++ (b!" " ++ u))) := by
    simp [Query.text, Part.text, restText, p, Comb.text, Compound.text]
  rw [htext] at e1
  refine ⟨L, e1, e2, fun n hn => (e4 n hn).trans ?_⟩
  have htag : ∀ x m, Compound.holds d m (.mk (some x) [] none) ↔ tagOf d m = some x := by
    intro x m
    simp [Compound.holds]
  simp only [Query.selects, Query.parts, List.mem_singleton, exists_eq_left, Part.selects, p, restSelects, htag]
  refine and_congr_right fun _ => exists_congr fun v => ?_
  constructor
  · rintro ⟨⟨_, h1⟩, h2⟩; exact ⟨h1, h2⟩
  · rintro ⟨h1, h2⟩
    refine ⟨⟨?_, h1⟩, h2⟩
    unfold tagOf at h1
    split at h1
    · rename_i x hx
      refine ⟨?_, lt_of_some hx⟩
      rintro rfl
      have := hd.zero
      simp [typeOf, hx] at this
    · cases h1

/-- non-vacuity: the four relations differ on one small document. -/
example : ∃ d, createDom b!"<div><p></p><b><p></p></b></div><p></p>x<p></p>" = .ok (some d) ∧
    decide (querySelectorAll (fun _ => 0) b!"div > p" d = .ok (.go [3]) ∧
      querySelectorAll (fun _ => 0) b!"div   p" d = .ok (.go [3, 5]) ∧
      querySelectorAll (fun _ => 0) b!"div + p" d = .ok (.go [6]) ∧
      querySelectorAll (fun _ => 0) b!"div ~ p" d = .ok (.go [8, 6]) ∧
      querySelectorAll (fun _ => 0) b!"p + p" d = .ok (.go [])) = true :=
  someAnd_ex (by decide +kernel)

/-! ## C33: querySelector -/

/-- On every reachable DOM and for every query string: `querySelector` fails exactly when `querySelectorAll` does,
with the same status; if the result set is empty it answers 0; otherwise it answers the first node of the result
set in the preorder walk from the root (and leaves the answer unwritten if no node of the result set is in the
document, which happens only after removals, see C36). -/
theorem C33_querySelector_first (d : Dom) (h : Reachable d) (pun : Nat → Nat) (css : Str) :
    (∃ st, querySelectorAll pun css d = .ok (.fail st) ∧ querySelector pun css d = .ok (.fail st)) ∨
    (∃ L, querySelectorAll pun css d = .ok (.go L) ∧
      ((L = [] ∧ querySelector pun css d = .ok (.go (some 0))) ∨
       (∃ l₁ n l₂, preorder d rootID = l₁ ++ n :: l₂ ∧ n ∈ L ∧ (∀ m ∈ l₁, m ∉ L) ∧
          querySelector pun css d = .ok (.go (some n))) ∨
       (L ≠ [] ∧ (∀ m, Live d m → m ∉ L) ∧ querySelector pun css d = .ok (.go none)))) := by
  obtain ⟨hd, _⟩ := reach_domI h
  rcases querySelector_eval (pun := pun) hd css with e | ⟨L, e1, e2⟩
  · exact Or.inl e
  · refine Or.inr ⟨L, e1, ?_⟩
    by_cases hL : L = []
    · rw [if_pos hL] at e2; exact Or.inl ⟨hL, e2⟩
    · rw [if_neg hL] at e2
      cases hf : (preorder d rootID).find? (fun x => L.contains x) with
      | none =>
        rw [hf] at e2
        refine Or.inr (Or.inr ⟨hL, fun m hm => ?_, e2⟩)
        have := List.find?_eq_none.mp hf m (((C15_traverseDom_preorder d h _ (Nat.le_refl _)).2.2 m).mpr hm)
        simpa using this
      | some n =>
        rw [hf] at e2
        rw [List.find?_eq_some_iff_append] at hf
        obtain ⟨hn, l₁, l₂, e, hl⟩ := hf
        refine Or.inr (Or.inl ⟨l₁, n, l₂, e, by simpa using hn, fun m hm => ?_, e2⟩)
        have := hl m hm
        simpa using this

example : ∃ d, createDom b!"<div><b></b><p></p></div><p></p>" = .ok (some d) ∧
    decide (querySelector (fun _ => 0) b!"p" d = .ok (.go (some 4)) ∧
      querySelector (fun _ => 0) b!"p > p" d = .ok (.go (some 0)) ∧
      querySelector (fun _ => 0) b!"i" d = .ok (.fail .notSeenBefore)) = true :=
  someAnd_ex (by decide +kernel)

/-! ## C34: every query string is answered -/

/-- On every reachable DOM and for every query string and whatever the bytes read as tags of texts are,
`querySelectorAll` returns: either one of the three error statuses, or a list without repetitions of identifiers
of existing nodes. -/
theorem C34_total (d : Dom) (h : Reachable d) (pun : Nat → Nat) (css : Str) :
    (∃ st, (st = .invalidElement ∨ st = .tooManyFilters ∨ st = .notSeenBefore) ∧
      querySelectorAll pun css d = .ok (.fail st)) ∨
    (∃ L, querySelectorAll pun css d = .ok (.go L) ∧ L.Nodup ∧ ∀ n ∈ L, IsNode d n) := by
  obtain ⟨hd, _⟩ := reach_domI h
  rcases querySelectorAll_eval hd pun css with ⟨st, e1, e2⟩ | ⟨_, L, e1, e2, _, e3⟩
  · left
    refine ⟨st, ?_, e2⟩
    rcases firstFail_status e1 with h | h | h
    · exact Or.inr (Or.inl h)
    · exact Or.inr (Or.inr h)
    · exact Or.inl h
  · exact Or.inr ⟨L, e1, e2, e3⟩

/-- A well-formed query with a name that never occurred is refused as such, and one with more than eight filters
in a compound selector is refused as such. -/
theorem C34_errors (d : Dom) (h : Reachable d) (pun : Nat → Nat) (q : Query) (hw : ∀ p ∈ q.parts, p.WF) :
    ((∀ p ∈ q.parts, p.Small) → (∃ p ∈ q.parts, ¬p.known d) →
      querySelectorAll pun q.text d = .ok (.fail .notSeenBefore)) ∧
    ((∀ p ∈ q.parts, p.known d) → (∃ p ∈ q.parts, ¬p.Small) →
      querySelectorAll pun q.text d = .ok (.fail .tooManyFilters)) :=
  query_fail (reach_domI h).1 hw

/-- Reading a bracket after which no name starts. -/
theorem partSteps_bracket (d : Dom) {lead w : Str}
    (hlead : ∀ c ∈ lead, ¬ NameStart c ∧ c ∉ b!".#[*,") (hw : ∀ c ∈ w, ¬ NameStart c ∧ c ≠ 44) :
    partSteps (lead ++ b!"[" ++ w) d = .ok (.fail .invalidElement) := by
  have e0 : scanUntil (fun ch => isElementStartChar ch || ch == 91 || ch == 42) (lead ++ b!"[" ++ w) 0 = lead.length := by
    have := scanUntil_at (p := fun ch => isElementStartChar ch || ch == 91 || ch == 42) (s := lead ++ b!"[" ++ w)
      (i := 0) (X := lead) (R := b!"[" ++ w) (by simp)
      (fun c hc => by
        obtain ⟨h1, h2⟩ := hlead c hc
        rw [nameStart_iff] at h1
        simp at h2
        simp [isElementStartChar, h1, h2])
      (fun c r hr => by
        have : c = 91 := by
          have := congrArg List.head? hr
          simpa using this.symm
        subst this; rfl)
    simpa using this
  have hlen : (lead ++ b!"[" ++ w).length = lead.length + 1 + w.length := by simp; omega
  have hdrop : (lead ++ b!"[" ++ w).drop lead.length = b!"[" ++ w := by simp
  have hget : (lead ++ b!"[" ++ w)[lead.length]? = some 91 := by simp
  have hcur : currentChar (lead ++ b!"[" ++ w) lead.length = 91 := by simp [currentChar]
  have e1 : scanUntil isTagStartChar ((lead ++ b!"[" ++ w).drop lead.length) lead.length
      = (lead ++ b!"[" ++ w).length := by
    have := scanUntil_at (p := isTagStartChar) (s := lead ++ b!"[" ++ w) (i := lead.length) (X := b!"[" ++ w) (R := [])
      (by simp) (fun c hc => by
        simp only [List.mem_append] at hc
        rcases hc with hc | hc
        · have : c = 91 := by simpa using hc
          subst this; rfl
        · obtain ⟨h1, h2⟩ := hw c hc
          rw [nameStart_iff] at h1
          simpa using h1) (fun c r hr => by cases hr)
    rw [this]; simp
  generalize lead ++ b!"[" ++ w = s at *
  unfold partSteps
  rw [e0]
  rw [parseSteps, if_pos (by omega)]
  have el : leadFilter s d lead.length = .ok (.go (lead.length, [])) := by
    unfold leadFilter
    rw [hcur]; rfl
  have et : parseToken s s.length = .ok ([], s.length) := by
    unfold parseToken
    simp [scanUntil, scanWhile, subStr]
    rw [if_neg (by omega)]; rfl
  have ea : attrFilters s d (s.length + 1) lead.length [] = .ok (.go (s.length, [])) := by
    rw [show s.length + 1 = (s.length - 1 + 1) + 1 by omega]
    simp only [attrFilters, hget]
    simp [e1, et, currentChar, maxFilters, cEq]
  rw [el]; simp only [Out.bind_ok]
  rw [ea]; simp

/-- A selector that starts with a `[` after which no name follows selects by nothing at all; it is refused as
invalid on every DOM, whatever bytes without letters and commas surround the bracket. -/
theorem C34_empty_compound (d : Dom) (h : Reachable d) (pun : Nat → Nat) (lead w : Str)
    (hlead : ∀ c ∈ lead, ¬ NameStart c ∧ c ∉ b!".#[*,") (hw : ∀ c ∈ w, ¬ NameStart c ∧ c ≠ 44) :
    querySelectorAll pun (lead ++ b!"[" ++ w) d = .ok (.fail .invalidElement) := by
  obtain ⟨hd, _⟩ := reach_domI h
  have hcomma : 44 ∉ lead ++ b!"[" ++ w := by
    intro hm
    simp only [List.mem_append] at hm
    rcases hm with (hm | hm) | hm
    · exact (hlead _ hm).2 (by decide)
    · revert hm; decide
    · exact (hw _ hm).2 (by decide)
  have hfail : firstFail d (splitComma (lead ++ b!"[" ++ w)) = some .invalidElement := by
    rw [splitComma_none hcomma]
    simp only [firstFail]
    rw [partSteps_bracket d hlead hw]
  rcases querySelectorAll_eval hd pun (lead ++ b!"[" ++ w) with ⟨st, e1, e2⟩ | ⟨e1, _⟩
  · rw [hfail] at e1; cases e1; exact e2
  · rw [hfail] at e1; cases e1

example : ∃ d, createDom b!"<p a></p>" = .ok (some d) ∧
    decide (querySelectorAll (fun _ => 0) b!" > [ 1 = 2 ]" d = .ok (.fail .invalidElement)) = true :=
  someAnd_ex (by decide +kernel)

example : ∃ d, createDom b!"<p a></p>" = .ok (some d) ∧
    decide (querySelectorAll (fun _ => 0) b!"p[a][a][a][a][a][a][a]" d = .ok (.go [2]) ∧
      querySelectorAll (fun _ => 0) b!"p[a][a][a][a][a][a][a][a]" d = .ok (.fail .tooManyFilters) ∧
      querySelectorAll (fun _ => 0) b!"p > em" d = .ok (.fail .notSeenBefore) ∧
      querySelectorAll (fun _ => 0) b!"p[b]" d = .ok (.fail .notSeenBefore) ∧
      querySelectorAll (fun _ => 0) b!"[" d = .ok (.fail .invalidElement) ∧
      querySelectorAll (fun _ => 0) b!" " d = .ok (.go [])) = true :=
  someAnd_ex (by decide +kernel)

/-! ## C35: comma is union -/

/-- On every reachable DOM and for any two query strings: if the first is refused, so is `first,second`, with the
same status; if only the second is refused, `first,second` is refused with that status; otherwise the answer is
the union of both answers, without repetitions. -/
theorem C35_union (d : Dom) (h : Reachable d) (pun : Nat → Nat) (a b : Str) :
    (∀ st, querySelectorAll pun a d = .ok (.fail st) → querySelectorAll pun (a ++ 44 :: b) d = .ok (.fail st)) ∧
    (∀ la st, querySelectorAll pun a d = .ok (.go la) → querySelectorAll pun b d = .ok (.fail st) →
      querySelectorAll pun (a ++ 44 :: b) d = .ok (.fail st)) ∧
    (∀ la lb, querySelectorAll pun a d = .ok (.go la) → querySelectorAll pun b d = .ok (.go lb) →
      ∃ l, querySelectorAll pun (a ++ 44 :: b) d = .ok (.go l) ∧ l.Nodup ∧ ∀ n, n ∈ l ↔ n ∈ la ∨ n ∈ lb) := by
  obtain ⟨hd, _⟩ := reach_domI h
  have happ : ∀ xs ys : List Str, firstFail d (xs ++ ys) = match firstFail d xs with
      | some st => some st
      | none => firstFail d ys := by
    intro xs ys
    induction xs with
    | nil => rfl
    | cons x xs ih =>
      rw [List.cons_append]
      have e1 : ∀ l, firstFail d (x :: l) = match partSteps x d with
        | .ok (.fail st) => some st
        | _ => firstFail d l := fun l => rfl
      rw [e1, e1]
      split
      · rfl
      · exact ih
  have hps : ∀ (xs ys : List Str) n, partsSem pun d (xs ++ ys) n ↔ partsSem pun d xs n ∨ partsSem pun d ys n := by
    intro xs ys n
    unfold partsSem
    constructor
    · rintro ⟨p, hp, h⟩
      rcases List.mem_append.mp hp with hp | hp
      · exact Or.inl ⟨p, hp, h⟩
      · exact Or.inr ⟨p, hp, h⟩
    · rintro (⟨p, hp, h⟩ | ⟨p, hp, h⟩)
      · exact ⟨p, List.mem_append_left _ hp, h⟩
      · exact ⟨p, List.mem_append_right _ hp, h⟩
  have hab := querySelectorAll_eval hd pun (a ++ 44 :: b)
  rw [splitComma_append, happ] at hab
  have ha := querySelectorAll_eval hd pun a
  have hb := querySelectorAll_eval hd pun b
  refine ⟨?_, ?_, ?_⟩
  · intro st e
    rcases ha with ⟨st', e1, e2⟩ | ⟨_, L, e2, _⟩
    · rw [e] at e2; cases e2
      rw [e1] at hab
      rcases hab with ⟨st', e3, e4⟩ | ⟨e3, _⟩
      · cases e3; exact e4
      · cases e3
    · rw [e] at e2; cases e2
  · intro la st e e'
    rcases ha with ⟨st', e1, e2⟩ | ⟨e1, _⟩
    · rw [e] at e2; cases e2
    · rcases hb with ⟨st', e3, e4⟩ | ⟨_, L, e4, _⟩
      · rw [e'] at e4; cases e4
        rw [e1, e3] at hab
        rcases hab with ⟨st', e5, e6⟩ | ⟨e5, _⟩
        · cases e5; exact e6
        · cases e5
      · rw [e'] at e4; cases e4
  · intro la lb e e'
    rcases ha with ⟨st', e1, e2⟩ | ⟨e1, L, e2, _, e3, _⟩
    · rw [e] at e2; cases e2
    · rw [e] at e2; cases e2
      rcases hb with ⟨st', f1, f2⟩ | ⟨f1, L, f2, _, f3, _⟩
      · rw [e'] at f2; cases f2
      · rw [e'] at f2; cases f2
        rw [e1, f1] at hab
        rcases hab with ⟨st', g1, _⟩ | ⟨_, L, g1, g2, g3, _⟩
        · cases g1
        · exact ⟨L, g1, g2, fun n => by rw [g3, hps, e3, f3]⟩

example : ∃ d, createDom b!"<p></p><b></b><i></i>" = .ok (some d) ∧
    decide (querySelectorAll (fun _ => 0) b!"b, p,b" d = .ok (.go [3, 2])) = true :=
  someAnd_ex (by decide +kernel)

/-! ## C36: removed nodes -/

/-- The property fails: removal leaves the attribute rows of a node, and attribute conditions are evaluated for
every identifier. -/
theorem C36_violated : ∃ d d', createDom b!"<p k=v></p>" = .ok (some d) ∧ removeNode 2 d = .ok d' ∧
    decide (kids d' 1 = [] ∧ typeOf d' 2 = some .removed ∧
      querySelectorAll (fun _ => 0) b!"[k=v]" d' = .ok (.go [2])) = true := by
  obtain ⟨d, h1, h2⟩ := someAnd_ex (x := createDom b!"<p k=v></p>")
    (p := fun d => okAnd (removeNode 2 d) (fun d' => decide (kids d' 1 = [] ∧ typeOf d' 2 = some .removed ∧
      querySelectorAll (fun _ => 0) b!"[k=v]" d' = .ok (.go [2])))) (by decide +kernel)
  obtain ⟨r, h3, h4⟩ := okAnd_ex h2
  exact ⟨d, r, h1, h3, h4⟩

/-- Before the first edit every answer of every query is a node of the document. -/
theorem C36_parsed_partial (s : Str) (d : Dom) (h : createDom s = .ok (some d)) (pun : Nat → Nat) (css : Str)
    (L : List Nat) (hL : querySelectorAll pun css d = .ok (.go L)) : ∀ n ∈ L, Live d n := by
  rcases C34_total d (.parsed h) pun css with ⟨_, _, e⟩ | ⟨L', e, _, e'⟩
  · rw [hL] at e; cases e
  · rw [hL] at e; cases e
    intro n hn
    obtain ⟨h1, h2⟩ := e' n hn
    by_cases hn1 : n = 1
    · subst hn1; exact .root
    · exact ((C04_parsed_tree s d h).2 n (by omega) h2).1

theorem stepsRes_cons (d : Dom) (k : Combinator) (c : Compound) (r : List (Combinator × Compound)) :
    stepsRes d ((k, c) :: r) = match compFilters d c with
    | .fail st => .fail st
    | .go fs =>
      match stepsRes d r with
      | .fail st => .fail st
      | .go l => .go ((k, fs) :: l) := rfl

theorem evalSteps_append {pun : Nat → Nat} {d : Dom} (l l' : List QStep) (S : Nat → Prop) :
    evalSteps pun d (l ++ l') S = evalSteps pun d l' (evalSteps pun d l S) := by
  induction l generalizing S with
  | nil => rfl
  | cons a l ih => obtain ⟨c, fs⟩ := a; exact ih _

/-- On every reachable DOM a query that ends in a child or descendant step answers elements only; in particular no
node marked as removed. -/
theorem C36_below_partial (d : Dom) (h : Reachable d) (pun : Nat → Nat) (p : Part) (hw : p.WF)
    (r : List (Comb × Compound)) (k : Comb) (c : Compound) (hr : p.rest = r ++ [(k, c)])
    (hkind : k.kind = .child ∨ k.kind = .descendant) (L : List Nat)
    (hL : querySelectorAll pun p.text d = .ok (.go L)) : ∀ n ∈ L, typeOf d n = some .document := by
  obtain ⟨hd, _⟩ := reach_domI h
  rcases querySelectorAll_eval hd pun p.text with ⟨st, _, e⟩ | ⟨_, L', e1, _, e3, _⟩
  · rw [hL] at e; cases e
  · rw [hL] at e1; cases e1
    intro n hn
    rw [e3, splitComma_none (part_noComma hw)] at hn
    obtain ⟨x, hx, l, hl, he⟩ := hn
    simp only [List.mem_singleton] at hx
    subst hx
    rw [part_text hw] at hl
    have key : ∀ (r : List (Combinator × Compound)) (kk : Combinator) (l : List QStep),
        stepsRes d (r ++ [(kk, c)]) = .go l → ∃ l' fs, l = l' ++ [(kk, fs)] := by
      intro r kk
      induction r with
      | nil =>
        intro l hl
        rw [List.nil_append, stepsRes_cons] at hl
        cases hcf : compFilters d c with
        | fail st => rw [hcf] at hl; cases hl
        | go fs => rw [hcf] at hl; cases hl; exact ⟨[], fs, rfl⟩
      | cons a r ih =>
        obtain ⟨k', c'⟩ := a
        intro l hl
        rw [List.cons_append, stepsRes_cons] at hl
        cases hcf : compFilters d c' with
        | fail st => rw [hcf] at hl; cases hl
        | go fs =>
          rw [hcf] at hl
          cases hl1 : stepsRes d (r ++ [(kk, c)]) with
          | fail st => rw [hl1] at hl; cases hl
          | go l1 =>
            rw [hl1] at hl; cases hl
            obtain ⟨l', fs', e⟩ := ih l1 hl1
            exact ⟨(k', fs) :: l', fs', by rw [e]; rfl⟩
    have hl' : partRes d p = .go l := by simpa using hl
    unfold partRes at hl'
    rw [hr, List.map_append, ← List.cons_append] at hl'
    obtain ⟨l', fs, rfl⟩ := key _ (kindOf k.kind) l hl'
    rw [evalSteps_append] at he
    change sem pun d (kindOf k.kind) fs _ n at he
    rcases hkind with hk | hk
    · rw [hk] at he
      obtain ⟨_, v, _, hv⟩ := he
      exact hv.2
    · rw [hk] at he
      obtain ⟨_, v, _, hv⟩ := he
      obtain ⟨w, _, hv⟩ := Relation.TransGen.tail'_iff.mp hv
      exact hv.2

/-! ## C37: class and id selectors before a combinator -/

/-- The property fails: after a class or id selector everything up to the next `=`, `]`, `.` or `#` is skipped, so
that `.a > p` answers the nodes with class `a`, and `.a .b` asks for one node with both classes. -/
theorem C37_violated : ∃ d, createDom b!"<div class=a><p class=b></p></div>" = .ok (some d) ∧
    decide (querySelectorAll (fun _ => 0) b!".a > p" d = .ok (.go [2]) ∧ kids d 2 = [3] ∧
      querySelectorAll (fun _ => 0) b!".a .b" d = .ok (.go [])) = true :=
  someAnd_ex (by decide +kernel)

/-- What works: a class or id selector at the end, after a combinator.  Here for `t > u.v`: exactly the elements
with tag `u` and class `v` whose parent has tag `t`. -/
theorem C37_class_at_end_partial (d : Dom) (h : Reachable d) (pun : Nat → Nat) (hp : PunFree pun d) (t u v : Str)
    (ht : TagWord t) (hu : TagWord u) (hv : Word v) (hkt : t ∈ (d.tagReg.map (·.1)).tail)
    (hku : u ∈ (d.tagReg.map (·.1)).tail) (hkc : b!"class" ∈ d.keyReg.tail) (hkv : v ∈ d.valReg.tail) :
    ∃ L, querySelectorAll pun (t ++ (b!" > " ++ (u ++ (b!"." ++ v)))) d = .ok (.go L) ∧ L.Nodup ∧
      ∀ n, Live d n → (n ∈ L ↔ tagOf d n = some u ∧ (b!"class", v) ∈ pairs d n ∧ tagOf d (getParent n d) = some t) := by
  obtain ⟨hd, h0⟩ := reach_domI h
  have hb : Blanks b!" " := by intro c hc; simp at hc; exact Or.inl hc
  let p : Part := ⟨[], .mk (some t) [] none, [(⟨.child, b!" ", b!" "⟩, .mk (some u) [] (some (.cls v)))], []⟩
  have hpw : p.WF := ⟨(by intro c hc; cases hc), (by intro c hc; cases hc),
    ⟨by intro y hy; cases hy; exact ht, by simp, by simp, Or.inl (by simp)⟩,
    ⟨⟨hb, hb, by simp⟩, ⟨by intro y hy; cases hy; exact hu, by simp, by intro f hf; cases hf; exact ⟨rfl, hv⟩, Or.inl (by simp)⟩,
      by simp, trivial⟩⟩
  have hpk : p.known d := by
    intro c hc
    simp only [p, Part.compounds, List.map_cons, List.map_nil, List.mem_cons, List.not_mem_nil, or_false] at hc
    rcases hc with rfl | rfl
    · exact ⟨by intro y hy; cases hy; exact hkt, by simp, by simp⟩
    · exact ⟨by intro y hy; cases hy; exact hku, by simp, by intro f hf; cases hf; exact ⟨hkc, hkv⟩⟩
  have hps : p.Small := by
    intro c hc
    simp only [p, Part.compounds, List.map_cons, List.map_nil, List.mem_cons, List.not_mem_nil, or_false] at hc
    rcases hc with rfl | rfl <;> simp [Compound.size]
  obtain ⟨L, e1, e2, _, e4⟩ := query_live (q := ⟨p, []⟩) hd h0 hp (by simpa [Query.parts] using hpw)
    (by simpa [Query.parts] using hpk) (by simpa [Query.parts] using hps)
  have htext : Query.text ⟨p, []⟩ = t ++ (b!" > " ++ (u ++ (b!"." ++ v))) := by
    simp [Query.text, Part.text, restText, p, Comb.text, Compound.text, CombKind.text, Final.text]
  rw [htext] at e1
  refine ⟨L, e1, e2, fun n hn => (e4 n hn).trans ?_⟩
  have htag : ∀ m, Compound.holds d m (.mk (some t) [] none) ↔ tagOf d m = some t := by
    intro m
    simp [Compound.holds]
  have htag2 : ∀ m, Compound.holds d m (.mk (some u) [] (some (.cls v))) ↔ tagOf d m = some u ∧ (b!"class", v) ∈ pairs d m := by
    intro m
    simp [Compound.holds, Final.holds]
  simp only [Query.selects, Query.parts, List.mem_singleton, exists_eq_left, Part.selects, p, restSelects, htag, htag2,
    CombKind.rel, and_assoc]
  refine and_congr_right fun hu' => and_congr_right fun _ => ?_
  have hdoc : ∀ m x, tagOf d m = some x → typeOf d m = some .document ∧ IsNode d m := by
    intro m x hm
    unfold tagOf at hm
    split at hm
    · rename_i y hy
      refine ⟨by simp [typeOf, hy], ?_, lt_of_some hy⟩
      rintro rfl
      have := hd.zero
      simp [typeOf, hy] at this
    · cases hm
  have hnav := hd.linked.navOK
  constructor
  · rintro ⟨w, _, h1, h2⟩
    rw [hnav.parent w n h2.1]; exact h1
  · intro h1
    have hn1 : n ≠ 1 := by
      rintro rfl
      have := (hdoc 1 u hu').1
      rw [hd.root] at this; cases this
    obtain ⟨w, hw⟩ := live_hasParent hd hn hn1
    rw [hnav.parent w n hw] at h1
    exact ⟨w, (hdoc w t h1).2, h1, hw, (hdoc n u hu').1⟩

example : ∃ d, createDom b!"<div><p class=a></p><p></p></div><p class=a></p>" = .ok (some d) ∧
    decide (querySelectorAll (fun _ => 0) b!"div > p.a" d = .ok (.go [3])) = true :=
  someAnd_ex (by decide +kernel)

/-! ## C38: edits addressed by a query -/

/-- The property fails: with a query that matches nothing, the edit is carried out below node 0 and its new
identifier is reported. -/
theorem C38_violated : ∃ d r, createDom b!"<p></p>" = .ok (some d) ∧
    withQuery (fun _ => 0) b!"p p" (fun n d => appendTextNode n b!"x" d) d = .ok r ∧
    decide (querySelectorAll (fun _ => 0) b!"p p" d = .ok (.go []) ∧ r.1 = 3 ∧ r.2.nodes.length = d.nodes.length + 1) = true := by
  obtain ⟨d, h1, h2⟩ := someAnd_ex (x := createDom b!"<p></p>")
    (p := fun d => okAnd (withQuery (fun _ => 0) b!"p p" (fun n d => appendTextNode n b!"x" d) d) (fun r =>
      decide (querySelectorAll (fun _ => 0) b!"p p" d = .ok (.go []) ∧ r.1 = 3 ∧ r.2.nodes.length = d.nodes.length + 1)))
    (by decide +kernel)
  obtain ⟨r, h3, h4⟩ := okAnd_ex h2
  exact ⟨d, r, h1, h3, h4⟩

/-- What holds: a query that is refused makes the edit report 0 and leaves the DOM as it is; and if some node of
the document is in the answer, the edit is applied to the first of them in document order. -/
theorem C38_withQuery_partial (d : Dom) (h : Reachable d) (pun : Nat → Nat) (css : Str)
    (edit : Nat → Dom → Out (Nat × Dom)) :
    (∀ st, querySelectorAll pun css d = .ok (.fail st) → withQuery pun css edit d = .ok (0, d)) ∧
    (∀ L l₁ n l₂, querySelectorAll pun css d = .ok (.go L) → preorder d rootID = l₁ ++ n :: l₂ → n ∈ L →
      (∀ m ∈ l₁, m ∉ L) → withQuery pun css edit d = edit n d) := by
  obtain ⟨hd, _⟩ := reach_domI h
  have hq := querySelector_eval (pun := pun) hd css
  constructor
  · intro st e
    rcases hq with ⟨st', _, e2⟩ | ⟨L, e1, _⟩
    · unfold withQuery; rw [e2]; rfl
    · rw [e] at e1; cases e1
  · intro L l₁ n l₂ e ep hn hl
    rcases hq with ⟨st', e1, _⟩ | ⟨L', e1, e2⟩
    · rw [e] at e1; cases e1
    · rw [e] at e1; cases e1
      have hL : L ≠ [] := by rintro rfl; cases hn
      have hf : (preorder d rootID).find? (fun x => L.contains x) = some n := by
        rw [List.find?_eq_some_iff_append]
        refine ⟨by simpa using hn, l₁, l₂, ep, ?_⟩
        intro m hm
        have := hl m hm
        simpa using this
      rw [if_neg hL, hf] at e2
      unfold withQuery
      rw [e2]; rfl

example : ∃ d r, createDom b!"<b></b><p></p>" = .ok (some d) ∧
    withQuery (fun _ => 0) b!"p" (fun n d => appendTextNode n b!"x" d) d = .ok r ∧ decide (kids r.2 3 = [4]) = true := by
  obtain ⟨d, h1, h2⟩ := someAnd_ex (x := createDom b!"<b></b><p></p>")
    (p := fun d => okAnd (withQuery (fun _ => 0) b!"p" (fun n d => appendTextNode n b!"x" d) d) (fun r =>
      decide (kids r.2 3 = [4]))) (by decide +kernel)
  obtain ⟨r, h3, h4⟩ := okAnd_ex h2
  exact ⟨d, r, h1, h3, h4⟩

/-- Without a matching node in the document the edit is carried out with node 0: `withQuery` answers exactly what the
edit answers for node 0.  Together with `C38_withQuery_partial` this says what happens on every query. -/
theorem C38_no_match_partial (d : Dom) (h : Reachable d) (pun : Nat → Nat) (css : Str)
    (edit : Nat → Dom → Out (Nat × Dom)) (L : List Nat) (hq : querySelectorAll pun css d = .ok (.go L))
    (hl : ∀ m, Live d m → m ∉ L) : withQuery pun css edit d = edit 0 d := by
  rcases C33_querySelector_first d h pun css with ⟨st, e, _⟩ | ⟨L', e, h'⟩
  · rw [hq] at e; cases e
  · rw [hq] at e; cases e
    rcases h' with ⟨_, e2⟩ | ⟨l₁, n, l₂, ep, hn, _, _⟩ | ⟨_, _, e2⟩
    · unfold withQuery; rw [e2]; rfl
    · refine False.elim (hl n (((C15_traverseDom_preorder d h _ (Nat.le_refl _)).2.2 n).mp ?_) hn)
      rw [ep]; simp
    · unfold withQuery; rw [e2]; rfl

example : ∃ d r, createDom b!"<p></p>" = .ok (some d) ∧
    withQuery (fun _ => 0) b!"p p" (fun n d => appendTextNode n b!"x" d) d = .ok r ∧
    decide (appendTextNode 0 b!"x" d = .ok r) = true := by
  obtain ⟨d, h1, h2⟩ := someAnd_ex (x := createDom b!"<p></p>")
    (p := fun d => okAnd (withQuery (fun _ => 0) b!"p p" (fun n d => appendTextNode n b!"x" d) d) (fun r =>
      decide (appendTextNode 0 b!"x" d = .ok r))) (by decide +kernel)
  obtain ⟨r, h3, h4⟩ := okAnd_ex h2
  exact ⟨d, r, h1, h3, h4⟩

end Flo
