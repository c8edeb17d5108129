import Verif.Proofs.Compare
import Verif.Props.Parse
/-!
# C39 - C41: comparing documents

`SameTree R d₁ d₂ a b` (`Spec/Compare.lean`): the subtrees of `a` in `d₁` and `b` in `d₂`, as seen through the
navigation functions, have the same shape, and `R` relates the nodes at corresponding places.
-/
namespace Flo
open Spec

/-- **C39** Comparing a DOM with itself reports equality, or takes the failure handler because an element of the
document has more than 64 attributes of one kind. -/
theorem C39_reflexive (d : Dom) (h : Reachable d) :
    (∃ r, equals d d = .ok r ∧ r.status = .success) ∨ (equals d d = .longjmp ∧ ∃ n, Live d n ∧ TooMany d n) := by
  obtain ⟨hd, _⟩ := reach_domI h
  have hc := cmpT_complete (d2 := d) hd (R := SameContent d d) (P := ∃ n, Live d n ∧ TooMany d n)
    (fun a b hr ha => (labelSpec_same (live_known hd ha) hr).imp id (fun e => ⟨e.1, a, ha, e.2⟩))
    (sameTree_refl hd (fun a => ⟨rfl, rfl, rfl, rfl, rfl, rfl⟩) rfl (d.nodes.length + 1) 1 (by omega)) .root
    (d.nodes.length + 1) (by omega)
  rw [equals_eq hd hd (f := d.nodes.length + 1) (by omega)]
  rcases hc with e | ⟨e, hP⟩
  · left; rw [e]; exact ⟨_, rfl, rfl⟩
  · right; rw [e]; exact ⟨rfl, hP⟩

/-- **C39** Duplicating a DOM succeeds; the duplicate has the same nodes, links, names and attributes, is itself
a DOM all theorems about reachable DOMs apply to, and comparing the original with it (in either order) reports
equality or takes the failure handler as above. -/
theorem C39_duplicate (d : Dom) (h : Reachable d) : ∃ d', duplicateDom d = .ok d' ∧ Reachable d' ∧
    (∀ n, SameContent d d' n n ∧ kids d' n = kids d n) ∧ d'.nodes.length = d.nodes.length ∧
    (((∃ r, equals d d' = .ok r ∧ r.status = .success) ∧ (∃ r, equals d' d = .ok r ∧ r.status = .success)) ∨
     (equals d d' = .longjmp ∧ equals d' d = .longjmp ∧ ∃ n, Live d n ∧ TooMany d n)) := by
  obtain ⟨hd, h0⟩ := reach_domI h
  obtain ⟨tm, bm, km, vm, e, hd'⟩ := duplicate_inv hd
  have hk := hd'.kidsFun h0
  refine ⟨_, e, .duplicated h e, fun n => ⟨⟨rfl, rfl, rfl, rfl, rfl, rfl⟩, by rw [hk]⟩, rfl, ?_⟩
  have hc := cmpT_complete (d2 := { d with tagMap := tm, boolMap := bm, keyMap := km, valMap := vm }) hd
    (R := SameContent d { d with tagMap := tm, boolMap := bm, keyMap := km, valMap := vm })
    (P := ∃ n, Live d n ∧ TooMany d n)
    (fun a b hr ha => (labelSpec_same (live_known hd ha) hr).imp id (fun e => ⟨e.1, a, ha, e.2⟩))
    (sameTree_refl hd (fun a => ⟨rfl, rfl, rfl, rfl, rfl, rfl⟩) hk (d.nodes.length + 1) 1 (by omega)) .root
    (d.nodes.length + 1) (by omega)
  rw [equals_eq hd hd' (f := d.nodes.length + 1) (by omega),
    equals_eq hd' hd (f := d.nodes.length + 1) (by show d.nodes.length ≤ _; omega),
    cmpT_swap (d1 := d) (d2 := { d with tagMap := tm, boolMap := bm, keyMap := km, valMap := vm })]
  rcases hc with e | ⟨e, hP⟩
  · left; rw [e]; exact ⟨⟨_, rfl, rfl⟩, ⟨_, rfl, rfl⟩⟩
  · right; rw [e]; exact ⟨rfl, rfl, hP⟩

/-- Non-vacuity of both alternatives: a small document, and one with 65 boolean attributes on an element. -/
example : ∃ d, createDom b!"<p a=b c>x</p><br/>" = .ok (some d) ∧
    okAnd (equals d d) (fun r => decide (r.status = .success)) = true :=
  someAnd_ex (by decide +kernel)

example : ∃ d, createDom b!"<p a b c d e f g h i j k l m n o p q r s t u v w x y z A B C D E F G H I J K L M N O P Q R S T U V W X Y Z 0 1 2 3 4 5 6 7 8 9 _ - :></p>" = .ok (some d) ∧
    decide (equals d d = .longjmp ∧ (bools d 2).length = 65) = true :=
  someAnd_ex (by decide +kernel)

/-- **C40** Comparison is symmetric: exchanging the two DOMs gives the same outcome, with the two node identifiers
of the result exchanged. -/
theorem C40_symmetric (d₁ d₂ : Dom) (h₁ : Reachable d₁) (h₂ : Reachable d₂) :
    ((∃ r, equals d₁ d₂ = .ok r ∧ equals d₂ d₁ = .ok ⟨r.status, r.node2, r.node1⟩) ∨
     (equals d₁ d₂ = .longjmp ∧ equals d₂ d₁ = .longjmp ∧
      ((∃ n, Live d₁ n ∧ TooMany d₁ n) ∨ (∃ n, Live d₂ n ∧ TooMany d₂ n)))) := by
  obtain ⟨hd₁, _⟩ := reach_domI h₁
  obtain ⟨hd₂, _⟩ := reach_domI h₂
  let f := d₁.nodes.length + d₂.nodes.length + 1
  rw [equals_eq hd₁ hd₂ (f := f) (by omega), equals_eq hd₂ hd₁ (f := f) (by omega),
    cmpT_swap (d1 := d₁) (d2 := d₂)]
  rcases cmpT_total (d1 := d₁) (d2 := d₂) hd₁ f 1 1 (by omega) .root .root with ⟨r, e⟩ | ⟨e, hP⟩
  · left
    rw [e, Out.bind_ok]
    by_cases hs : r.status = .success
    · rw [if_neg (not_not.mpr hs)]
      refine ⟨_, rfl, ?_⟩
      show (if r.swap.status ≠ .success then _ else _) = _
      rw [if_neg (not_not.mpr (by exact hs))]
    · rw [if_pos hs]
      refine ⟨_, rfl, ?_⟩
      show (if r.swap.status ≠ .success then _ else _) = _
      rw [if_pos (by exact hs)]; rfl
  · right
    rw [e]; exact ⟨rfl, rfl, hP⟩

example : ∃ d e, createDom b!"<p><b></b></p>" = .ok (some d) ∧ createDom b!"<i></i><p><i></i></p>" = .ok (some e) ∧
    decide (equals d e = .ok ⟨.differentContent, 2, 2⟩) = true := by
  obtain ⟨d, h1, h2⟩ := someAnd_ex (x := createDom b!"<p><b></b></p>")
    (p := fun d => someAnd (createDom b!"<i></i><p><i></i></p>") (fun e =>
      decide (equals d e = .ok ⟨.differentContent, 2, 2⟩))) (by decide +kernel)
  obtain ⟨e, h3, h4⟩ := someAnd_ex h2
  exact ⟨d, e, h1, h3, h4⟩

/-- **C41** The property fails: keys and values are compared as two separate sets. -/
theorem C41_violated : ∃ d e, createDom b!"<p a=x b=y></p>" = .ok (some d) ∧
    createDom b!"<p a=y b=x></p>" = .ok (some e) ∧
    decide (pairs d 2 = [(b!"a", b!"x"), (b!"b", b!"y")] ∧ pairs e 2 = [(b!"a", b!"y"), (b!"b", b!"x")] ∧
      (equals d e = .ok ⟨.success, 0, 0⟩)) = true := by
  obtain ⟨d, h1, h2⟩ := someAnd_ex (x := createDom b!"<p a=x b=y></p>")
    (p := fun d => someAnd (createDom b!"<p a=y b=x></p>") (fun e =>
      decide (pairs d 2 = [(b!"a", b!"x"), (b!"b", b!"y")] ∧ pairs e 2 = [(b!"a", b!"y"), (b!"b", b!"x")] ∧
      (equals d e = .ok ⟨.success, 0, 0⟩)))) (by decide +kernel)
  obtain ⟨e, h3, h4⟩ := someAnd_ex h2
  exact ⟨d, e, h1, h3, h4⟩

/-- What a reported equality does mean: the two documents have the same shape, and at every place the same kind of
node, the same text or tag name, the same set of boolean attributes, the same set of keys and the same set of
values.  Missing from the full property: that each key has the same value. -/
theorem C41_sound_partial (d₁ d₂ : Dom) (h₁ : Reachable d₁) (h₂ : Reachable d₂) (r : CResult)
    (h : equals d₁ d₂ = .ok r) (hs : r.status = .success) : SameTree (SimilarContent d₁ d₂) d₁ d₂ rootID rootID := by
  obtain ⟨hd₁, _⟩ := reach_domI h₁
  obtain ⟨hd₂, _⟩ := reach_domI h₂
  rw [equals_eq hd₁ hd₂ (f := d₁.nodes.length) (by omega)] at h
  have weaken : ∀ {a b : Nat}, SameTree (fun a b => labelSpec d₁ a d₂ b = .ok .success) d₁ d₂ a b →
      SameTree (SimilarContent d₁ d₂) d₁ d₂ a b := by
    intro a b hab
    induction hab with
    | node hr hl _ ih => exact .node (labelSpec_success hr) hl ih
  cases hc : cmpT d₁ d₂ d₁.nodes.length 1 1 with
  | ok r' =>
    rw [hc, Out.bind_ok] at h
    by_cases hs' : r'.status = .success
    · exact weaken (cmpT_sound _ _ _ _ hc hs')
    · rw [if_pos hs'] at h; cases h; exact absurd hs hs'
  | longjmp => rw [hc] at h; cases h
  | ub w => rw [hc] at h; cases h
  | hang => rw [hc] at h; cases h

/-- The converse direction: documents that are the same (shape, kinds, texts, tags, attributes) are reported equal,
unless the failure handler is taken because of an element with more than 64 attributes of one kind. -/
theorem C41_complete_partial (d₁ d₂ : Dom) (h₁ : Reachable d₁) (h₂ : Reachable d₂)
    (h : SameTree (SameContent d₁ d₂) d₁ d₂ rootID rootID) :
    (∃ r, equals d₁ d₂ = .ok r ∧ r.status = .success) ∨ (equals d₁ d₂ = .longjmp ∧ ∃ n, Live d₁ n ∧ TooMany d₁ n) := by
  obtain ⟨hd₁, _⟩ := reach_domI h₁
  obtain ⟨hd₂, _⟩ := reach_domI h₂
  have hc := cmpT_complete (d2 := d₂) hd₁ (R := SameContent d₁ d₂) (P := ∃ n, Live d₁ n ∧ TooMany d₁ n)
    (fun a b hr ha => (labelSpec_same (live_known hd₁ ha) hr).imp id (fun e => ⟨e.1, a, ha, e.2⟩)) h .root
    (d₁.nodes.length + 1) (by show d₁.nodes.length - 1 < _; omega)
  rw [equals_eq hd₁ hd₂ (f := d₁.nodes.length + 1) (by omega)]
  rcases hc with e | ⟨e, hP⟩
  · left
    have e : cmpT d₁ d₂ (d₁.nodes.length + 1) 1 1 = _ := e
    rw [e]; exact ⟨_, rfl, rfl⟩
  · right
    have e : cmpT d₁ d₂ (d₁.nodes.length + 1) 1 1 = _ := e
    rw [e]; exact ⟨rfl, hP⟩

/-- Non-vacuity: two different texts with the same document. -/
example : ∃ d e, createDom b!"<p  a='b' c > x </p>" = .ok (some d) ∧ createDom b!"<p c a=b>x</p><!-- -->" = .ok (some e) ∧
    okAnd (equals d e) (fun r => decide (r.status = .success)) = true := by
  obtain ⟨d, h1, h2⟩ := someAnd_ex (x := createDom b!"<p  a='b' c > x </p>")
    (p := fun d => someAnd (createDom b!"<p c a=b>x</p><!-- -->") (fun e =>
      okAnd (equals d e) (fun r => decide (r.status = .success)))) (by decide +kernel)
  obtain ⟨e, h3, h4⟩ := someAnd_ex h2
  exact ⟨d, e, h1, h3, h4⟩

end Flo
