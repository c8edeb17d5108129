import Verif.Proofs.QuerySkip
import Verif.Props.Query
/-!
# C37: exactly what a class or id does to the rest of a query
-/
namespace Flo
open Spec

theorem moreText_noComma {more : List (Str × Final)} (h : ∀ x ∈ more, Skip x.1 ∧ Word x.2.word) : (44 : UInt8) ∉ moreText more := by
  intro hc
  obtain ⟨x, hx, hc⟩ := List.mem_flatMap.1 hc
  obtain ⟨h1, h2⟩ := h x hx
  rcases List.mem_append.1 hc with hc | hc
  · exact (h1.2 44 hc).2.2.2.2 rfl
  · have := word_noComma h2
    cases hf : x.2 with
    | cls v => rw [hf] at hc this; simp [Final.text] at hc; exact this hc
    | ident v => rw [hf] at hc this; simp [Final.text] at hc; exact this hc

/-- **C37** (partial, exact) A class or id ends the query: behind it everything up to the next `.` or `#` is passed over, and what that
introduces is one more condition on the same node.  So `.a > p` has the same answer as `[class=a]`, and `div > .a p#b ~ i` the same as
`div > [class=a][id=b]`, errors included.  (The full property would have the meaning of the combinators in between.) -/
theorem C37_exact_partial (d : Dom) (h : Reachable d) (pun : Nat → Nat) (p : Part) (hw : p.WF) (hend : p.endsInFinal) (htr : p.trail = [])
    (more : List (Str × Final)) (hmore : ∀ x ∈ more, Skip x.1 ∧ Word x.2.word) (tail : Str) (htail : tail = [] ∨ Skip tail) :
    SameAnswer pun d (p.text ++ (moreText more ++ tail)) (p.mapLast (Compound.both (more.map (·.2)))).text := by
  have hm : ∀ x ∈ more.map (·.2), Word x.word := by
    intro x hx
    obtain ⟨y, hy, rfl⟩ := List.mem_map.1 hx
    exact (hmore y hy).2
  have hw' := mapLast_wf hm hw
  refine sameAnswer_of_steps (reach_domI h).1 pun ?_ (part_noComma hw') ?_
  · intro hc
    rcases List.mem_append.1 hc with hc | hc
    · exact part_noComma hw hc
    · rcases List.mem_append.1 hc with hc | hc
      · exact moreText_noComma hmore hc
      · rcases htail with rfl | htail
        · cases hc
        · exact (htail.2 44 hc).2.2.2.2 rfl
  · rw [part_end hw hend htr htail hmore, part_text hw']

theorem both_finds (pun : Nat → Nat) (d : Dom) (n : Nat) (more : List Final) (t : Option Str) (cs : List Cond) (fin : Option Final) :
    (Compound.both more (.mk t cs fin)).finds pun d n ↔ Compound.finds pun d n (.mk t cs fin) ∧ ∀ f ∈ more, f.holds d n := by
  have hc : ∀ f : Final, f.cond.holds d n ↔ f.holds d n := by intro f; cases f <;> rfl
  constructor
  · rintro ⟨h1, h2, _⟩
    refine ⟨⟨h1, fun c hc => h2 c (by simp [hc]), fun f hf => (hc f).1 (h2 _ ?_)⟩, fun f hf => (hc f).1 (h2 _ ?_)⟩
    · rw [hf]; simp
    · exact List.mem_append_right _ (List.mem_map_of_mem (List.mem_append_right _ hf))
  · rintro ⟨⟨h1, h2, h3⟩, h4⟩
    refine ⟨h1, fun c hc' => ?_, (by intro f hf; cases hf)⟩
    rcases List.mem_append.1 hc' with hc' | hc'
    · exact h2 c hc'
    · obtain ⟨f, hf, rfl⟩ := List.mem_map.1 hc'
      rcases List.mem_append.1 hf with hf | hf
      · exact (hc f).2 (h3 f (by simpa using hf))
      · exact (hc f).2 (h4 f hf)

theorem restLast_selects (pun : Nat → Nat) (d : Dom) (n : Nat) (more : List Final) : ∀ (r : List (Comb × Compound)) (S : Nat → Prop),
    r ≠ [] → (∃ t cs f, (r.map (·.2)).getLast? = some (.mk t cs (some f))) →
    (restSelects (fun c n => c.finds pun d n) d (restLast (Compound.both more) r) S n ↔
      restSelects (fun c n => c.finds pun d n) d r S n ∧ ∀ f ∈ more, f.holds d n) := by
  intro r
  induction r with
  | nil => intro _ h; exact absurd rfl h
  | cons a r ih =>
    obtain ⟨k, c⟩ := a
    intro S _ hend
    cases r with
    | nil =>
      obtain ⟨t, cs, f, he⟩ := hend
      have he : c = .mk t cs (some f) := by simpa using he
      subst he
      simp only [restLast, restSelects, both_finds]
      constructor
      · rintro ⟨⟨h1, h2⟩, h3⟩; exact ⟨⟨h1, h3⟩, h2⟩
      · rintro ⟨⟨h1, h3⟩, h2⟩; exact ⟨⟨h1, h2⟩, h3⟩
    | cons b r =>
      exact ih _ (by simp) (by
        obtain ⟨t, cs, f, he⟩ := hend
        exact ⟨t, cs, f, by simpa using he⟩)

theorem mapLast_finds (pun : Nat → Nat) (d : Dom) (n : Nat) (more : List Final) {p : Part} (hend : p.endsInFinal) :
    (p.mapLast (Compound.both more)).finds pun d n ↔ p.finds pun d n ∧ ∀ f ∈ more, f.holds d n := by
  obtain ⟨t, cs, f, he⟩ := hend
  by_cases hr : p.rest = []
  · have : p.mapLast (Compound.both more) = { p with first := p.first.both more } := by unfold Part.mapLast; rw [hr]
    rw [this]
    have he : p.first = .mk t cs (some f) := by simpa [Part.compounds, hr] using he
    simp only [Part.finds, hr, restSelects, he, both_finds, and_assoc]
  · have : p.mapLast (Compound.both more) = { p with rest := restLast (Compound.both more) p.rest } := by
      unfold Part.mapLast; split; exacts [absurd ‹_› hr, rfl]
    rw [this]
    refine restLast_selects pun d n more p.rest _ hr ⟨t, cs, f, ?_⟩
    cases hrr : p.rest with
    | nil => exact absurd hrr hr
    | cons a r => simpa [Part.compounds, hrr] using he

/-- **C37** (partial, exact) In terms of the document: the nodes of the document that are found are those that the query up to the
first class or id finds and that have the other classes and ids as well. -/
theorem C37_finds_partial (d : Dom) (h : Reachable d) (pun : Nat → Nat) (p : Part) (hw : p.WF) (hend : p.endsInFinal) (htr : p.trail = [])
    (more : List (Str × Final)) (hmore : ∀ x ∈ more, Skip x.1 ∧ Word x.2.word) (tail : Str) (htail : tail = [] ∨ Skip tail)
    (hk : (p.mapLast (Compound.both (more.map (·.2)))).known d) (hs : (p.mapLast (Compound.both (more.map (·.2)))).Small) :
    ∃ L, querySelectorAll pun (p.text ++ (moreText more ++ tail)) d = .ok (.go L) ∧
      ∀ n, Live d n → (n ∈ L ↔ p.finds pun d n ∧ ∀ x ∈ more, x.2.holds d n) := by
  have hm : ∀ x ∈ more.map (·.2), Word x.word := by
    intro x hx
    obtain ⟨y, hy, rfl⟩ := List.mem_map.1 hx
    exact (hmore y hy).2
  obtain ⟨hd, h0⟩ := reach_domI h
  obtain ⟨L', e1, _, _, e4⟩ := query_finds (pun := pun) (q := ⟨p.mapLast (Compound.both (more.map (·.2))), []⟩) hd h0
    (by simpa [Query.parts] using mapLast_wf hm hw) (by simpa [Query.parts] using hk) (by simpa [Query.parts] using hs)
  have htext : Query.text ⟨p.mapLast (Compound.both (more.map (·.2))), []⟩ = (p.mapLast (Compound.both (more.map (·.2)))).text := rfl
  rw [htext] at e1
  rcases C37_exact_partial d h pun p hw hend htr more hmore tail htail with ⟨st, _, f2⟩ | ⟨L, L'', f1, f2, f3⟩
  · rw [e1] at f2; cases f2
  · rw [e1] at f2; cases f2
    refine ⟨L, f1, fun n hn => ?_⟩
    rw [f3.mem_iff, e4 n hn]
    simp only [Query.finds, Query.parts, List.mem_singleton, exists_eq_left]
    rw [mapLast_finds pun d n _ hend]
    refine and_congr_right fun _ => ⟨fun hh x hx => hh _ (List.mem_map_of_mem hx), fun hh f hf => ?_⟩
    obtain ⟨x, hx, rfl⟩ := List.mem_map.1 hf
    exact hh x hx

/-- `div > .a p#b ~ i`: node 3 has both, its child 4 is passed over. -/
example : ∃ p : Part, ∃ more tail, p.WF ∧ p.endsInFinal ∧ p.trail = [] ∧ (∀ x ∈ more, Skip x.1 ∧ Word x.2.word) ∧ Skip tail ∧
    p.text ++ (moreText more ++ tail) = b!"div > .a p#b ~ i" ∧
    (p.mapLast (Compound.both (more.map (·.2)))).text = b!"div > [class=a][id=b]" ∧
    ∃ d, createDom b!"<div><u class=a id=b><p id=b></p></u></div>" = .ok (some d) ∧
      decide (querySelectorAll (fun _ => 0) b!"div > .a p#b ~ i" d = .ok (.go [3]) ∧
        querySelectorAll (fun _ => 0) b!"div > [class=a][id=b]" d = .ok (.go [3])) = true := by
  have hb : ∀ c ∈ b!" ", c = 32 ∨ c = 9 ∨ c = 10 ∨ c = 13 := by decide
  refine ⟨⟨[], .mk (some b!"div") [] none, [(⟨.child, b!" ", b!" "⟩, .mk none [] (some (.cls b!"a")))], []⟩,
    [(b!" p", .ident b!"b")], b!" ~ i", ?_, ⟨none, [], .cls b!"a", rfl⟩, rfl, ?_, ?_, rfl, rfl, someAnd_ex (by decide +kernel)⟩
  · refine ⟨(by intro c hc; cases hc), (by intro c hc; cases hc), ⟨?_, by simp, by simp, by simp⟩, ⟨hb, hb, by simp⟩, ⟨by simp, by simp, ?_, by simp⟩,
      by simp, trivial⟩
    · intro x hx
      cases hx
      exact ⟨⟨100, _, rfl, by unfold NameStart; decide⟩, by unfold TagStop; decide⟩
    · intro f hf
      cases hf
      exact ⟨rfl, ⟨97, _, rfl, by unfold NameStart; decide⟩, by unfold WordStop; decide⟩
  · intro x hx
    rw [List.mem_singleton] at hx
    subst hx
    exact ⟨⟨⟨32, _, rfl, by decide⟩, by decide⟩, ⟨98, _, rfl, by unfold NameStart; decide⟩, by unfold WordStop; decide⟩
  · exact ⟨⟨32, _, rfl, by decide⟩, by decide⟩

end Flo
