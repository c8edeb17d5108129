import Verif.Props.Inject
/-!
# The printed text determines the document (C122)
-/
namespace Flo
open Spec
namespace PInj

theorem form_paired (d : Dom) (tag : Str) : (formOf d tag).getD false = pairedTag d tag := by
  unfold formOf firstForm pairedTag
  cases (d.tagReg.drop 1).find? (fun r => r.1 == tag) <;> rfl

theorem form_some {d : Dom} (hi : DomI d (kids d)) {n : Nat} {tag : Str} (ht : tagOf d n = some tag) : formOf d tag = some (pairedTag d tag) := by
  have hs : ((d.tagReg.drop 1).find? (fun r => r.1 == tag)).isSome := by
    unfold tagOf at ht
    split at ht
    · rename_i t hget
      rw [Option.map_eq_some_iff] at ht
      obtain ⟨r, hr, rfl⟩ := ht
      obtain ⟨t', e1, e2, e3⟩ := (hi.good n _ hget).doc rfl
      cases e1
      rw [List.find?_isSome]
      refine ⟨r, List.mem_of_getElem? (i := t - 1) ?_, by simp⟩
      rw [List.getElem?_drop, show 1 + (t - 1) = t by omega]; exact hr
    · cases ht
  unfold formOf firstForm pairedTag
  cases h : (d.tagReg.drop 1).find? (fun r => r.1 == tag) with
  | none => rw [h] at hs; cases hs
  | some r => rfl

mutual
theorem rep_labels {d : Dom} {tag : Str} {ps : List (Str × Str)} {bs : List Str} : ∀ (t : Tree) (n : Nat), Spec.Rep d t n →
    .elem tag ps bs ∈ t.labels → ∃ m, tagOf d m = some tag
  | .text raw, n, _, hm => by simp [Tree.labels] at hm
  | .elem tag' ps' bs' ts, n, hr, hm => by
    rw [Tree.labels, List.mem_cons] at hm
    rcases hm with e | hm
    · cases e; exact ⟨n, hr.1⟩
    · exact repL_labels ts _ hr.2.2.2 hm
theorem repL_labels {d : Dom} {tag : Str} {ps : List (Str × Str)} {bs : List Str} : ∀ (ts : List Tree) (ns : List Nat), RepL d ts ns →
    .elem tag ps bs ∈ labelsAll ts → ∃ m, tagOf d m = some tag
  | [], _, _, hm => by simp [labelsAll] at hm
  | _ :: _, [], hr, _ => False.elim hr
  | t :: ts, n :: ns, hr, hm => by
    rw [labelsAll, List.mem_append] at hm
    rcases hm with hm | hm
    · exact rep_labels t n hr.1 hm
    · exact repL_labels ts ns hr.2 hm
end

mutual
theorem entry_label {d : Dom} {n : Nat} {tag : Str} {ps : List (Str × Str)} {bs : List Str} : ∀ t : PTree, t.Shown d → (n, .elem tag ps bs) ∈ t.entries →
    .elem tag ps bs ∈ t.plain.labels
  | .node m l ks, hs, hm => by
    rw [PTree.Shown] at hs
    rw [PTree.entries, List.mem_cons] at hm
    cases l with
    | text raw =>
      rw [hs.2.2.1 rfl] at hm
      rcases hm with e | hm
      · cases e
      · cases hm
    | elem tag' ps' bs' =>
      rw [PTree.plain, Tree.labels]
      rcases hm with e | hm
      · cases e; exact .head _
      · exact .tail _ (entries_label ks hs.2.2.2 hm)
    | root =>
      rw [PTree.plain, Tree.labels]
      rcases hm with e | hm
      · cases e
      · exact .tail _ (entries_label ks hs.2.2.2 hm)
theorem entries_label {d : Dom} {n : Nat} {tag : Str} {ps : List (Str × Str)} {bs : List Str} : ∀ ts : List PTree, ShownAll d ts →
    (n, .elem tag ps bs) ∈ entriesAll ts → .elem tag ps bs ∈ labelsAll (plainAll ts)
  | [], _, hm => by cases hm
  | t :: ts, hs, hm => by
    rw [ShownAll] at hs
    rw [entriesAll, List.mem_append] at hm
    rw [plainAll, labelsAll, List.mem_append]
    rcases hm with hm | hm
    · exact .inl (entry_label t hs.1 hm)
    · exact .inr (entries_label ts hs.2 hm)
end

theorem mem_elementsOf {tag : Str} {ps : List (Str × Str)} {bs : List Str} {ls : List Label} :
    Label.elem tag ps bs ∈ ls ↔ (tag, ps, bs) ∈ elementsOf ls := by
  unfold elementsOf
  rw [List.mem_filterMap]
  constructor
  · intro h; exact ⟨_, h, rfl⟩
  · rintro ⟨l, h1, h2⟩
    cases l with
    | elem a b c => cases h2; exact h1
    | text r => cases h2
    | root => cases h2

/-- The parse of a printed forest: the trees, and the forms of the names in it. -/
theorem reparse_forms {P : Str → Bool} {F : List Tree} (hp : PrintableAll P F) (hn : nestingAll P F ≤ 255)
    (hlen : (printAll P F).length ≤ 65533) :
    ∃ d', createDom (printAll P F) = .ok (some d') ∧ RepL d' F (kids d' 1) ∧
      ∀ tag ps bs, .elem tag ps bs ∈ labelsAll F → pairedTag d' tag = P tag := by
  have hk := toSrcs_clean F hp
  have he : [] ++ (toSrcs P F).render = printAll P F := by rw [toSrcs_render]; rfl
  obtain ⟨d', h1, h2, _⟩ := reparse hp hn hlen
  refine ⟨d', h1, h2, fun tag ps bs hm => ?_⟩
  obtain ⟨m, ht⟩ := repL_labels _ _ h2 hm
  exact paired_eq (reach_domI (.parsed h1)).1 (createDom_regUses .nil hk (toSrcs_uses F) (by rw [he]; exact h1)) ht

end PInj

/-- Printing loses nothing: two documents with harmless strings that print the same text have the same elements with the same
attributes in the same nesting and the same text, up to texts that are next to each other; and every element name is printed in the
same form.  Missing: documents with other strings (`C122_violated`), with forms that do not fit (C54, C55), too deep or too long
to be read. -/
theorem C122_injective_partial (d₁ d₂ : Dom) (h₁ : Reachable d₁) (h₂ : Reachable d₂) (pg₁ pg₂ : Page) (s₁ : Shows d₁ pg₁) (s₂ : Shows d₂ pg₂)
    (g₁ : pg₁.Harmless) (g₂ : pg₂.Harmless) (f₁ : pg₁.FormsFit) (f₂ : pg₂.FormsFit)
    (n₁ : nestingAll (fun tag => (pg₁.form tag).getD false) pg₁.trees ≤ 255)
    (n₂ : nestingAll (fun tag => (pg₂.form tag).getD false) pg₂.trees ≤ 255)
    (t : Str) (p₁ : printHTML d₁ = .ok t) (p₂ : printHTML d₂ = .ok t) (hlen : t.length ≤ 65533) :
    joinTextsAll pg₁.trees = joinTextsAll pg₂.trees ∧
      ∀ n tag ps bs, (n, Label.elem tag ps bs) ∈ pg₁.root.entries → pg₁.form tag = pg₂.form tag := by
  have q₁ := (C95_print d₁ h₁ pg₁ s₁).1
  have q₂ := (C95_print d₂ h₂ pg₂ s₂).1
  rw [p₁] at q₁
  rw [p₂] at q₂
  have e₁ : t = pg₁.print := by injection q₁
  have e₂ : t = pg₂.print := by injection q₂
  have l₁ : printAll (fun tag => (pg₁.form tag).getD false) (joinTextsAll pg₁.trees) = t := by rw [e₁]; exact Inj.printAll_join _
  have l₂ : printAll (fun tag => (pg₂.form tag).getD false) (joinTextsAll pg₂.trees) = t := by rw [e₂]; exact Inj.printAll_join _
  obtain ⟨d', c₁, r₁, w₁⟩ := PInj.reparse_forms (harmless_printable h₁ s₁ g₁ f₁) (by rw [Inj.nestingAll_join]; exact n₁) (by rw [l₁]; exact hlen)
  obtain ⟨d'', c₂, r₂, w₂⟩ := PInj.reparse_forms (harmless_printable h₂ s₂ g₂ f₂) (by rw [Inj.nestingAll_join]; exact n₂) (by rw [l₂]; exact hlen)
  rw [l₁] at c₁
  rw [l₂, c₁] at c₂
  cases c₂
  have he := RepL.unique _ _ _ r₁ r₂
  refine ⟨he, fun n tag ps bs hm => ?_⟩
  have hi₁ := (reach_domI h₁).1
  have hi₂ := (reach_domI h₂).1
  obtain ⟨ks, ek⟩ := s₁.root
  have hl : .elem tag ps bs ∈ labelsAll pg₁.trees := by
    have hsh := s₁.tree
    unfold Page.trees
    rw [ek] at hm hsh ⊢
    rw [PTree.Shown] at hsh
    rw [PTree.entries, List.mem_cons] at hm
    rcases hm with e | hm
    · cases e
    · exact PInj.entries_label ks hsh.2.2.2 hm
  have hj : .elem tag ps bs ∈ labelsAll (joinTextsAll pg₁.trees) := by
    rw [PInj.mem_elementsOf, (Inj.labelsAll_join _).1, ← PInj.mem_elementsOf]; exact hl
  have hl₂ : .elem tag ps bs ∈ labelsAll pg₂.trees := by
    rw [PInj.mem_elementsOf, ← (Inj.labelsAll_join _).1, ← PInj.mem_elementsOf, ← he]; exact hj
  obtain ⟨m₁, x₁⟩ := PInj.repL_labels _ _ (C95_print d₁ h₁ pg₁ s₁).2 hl
  obtain ⟨m₂, x₂⟩ := PInj.repL_labels _ _ (C95_print d₂ h₂ pg₂ s₂).2 hl₂
  have y₁ := PInj.form_some hi₁ x₁
  have y₂ := PInj.form_some hi₂ x₂
  have z₁ : pg₁.form tag = some (pairedTag d₁ tag) := (s₁.forms tag).symm.trans y₁
  have z₂ : pg₂.form tag = some (pairedTag d₂ tag) := (s₂.forms tag).symm.trans y₂
  have v₁ := w₁ tag ps bs hj
  have v₂ := w₂ tag ps bs (by rw [← he]; exact hj)
  rw [z₁] at v₁
  rw [z₂] at v₂
  rw [z₁, z₂]
  congr 1
  exact v₁.symm.trans v₂

/-- Documents with harmless strings and no two texts next to each other that print the same are reported equal by the comparison,
unless it takes the failure handler because an element has too many attributes. -/
theorem C122_equal_partial (d₁ d₂ : Dom) (h₁ : Proper d₁) (h₂ : Proper d₂) (pg₁ pg₂ : Page) (s₁ : Shows d₁ pg₁) (s₂ : Shows d₂ pg₂)
    (g₁ : pg₁.Harmless) (g₂ : pg₂.Harmless) (f₁ : pg₁.FormsFit) (f₂ : pg₂.FormsFit)
    (n₁ : nestingAll (fun tag => (pg₁.form tag).getD false) pg₁.trees ≤ 255)
    (n₂ : nestingAll (fun tag => (pg₂.form tag).getD false) pg₂.trees ≤ 255)
    (j₁ : joinTextsAll pg₁.trees = pg₁.trees) (j₂ : joinTextsAll pg₂.trees = pg₂.trees)
    (t : Str) (p₁ : printHTML d₁ = .ok t) (p₂ : printHTML d₂ = .ok t) (hlen : t.length ≤ 65533) :
    (∃ r, equals d₁ d₂ = .ok r ∧ r.status = .success) ∨
    (equals d₁ d₂ = .longjmp ∧ ((∃ n l cs, pg₁.Has n l cs ∧ l.tooMany) ∨ ∃ n l cs, pg₂.Has n l cs ∧ l.tooMany)) := by
  obtain ⟨e, hf⟩ := C122_injective_partial d₁ d₂ h₁.reachable h₂.reachable pg₁ pg₂ s₁ s₂ g₁ g₂ f₁ f₂ n₁ n₂ t p₁ p₂ hlen
  rw [j₁, j₂] at e
  exact C103_same d₁ d₂ h₁ h₂ pg₁ pg₂ s₁ s₂ e hf

/-- Not every document is determined by what it prints: a text with markup in it prints like the element, and the
comparison tells them apart. -/
theorem C122_violated : ∃ d d' e, createDom b!"<p></p>" = .ok (some d) ∧ runEach [(.appendText 2 b!"<b>x</b>", fun _ => true)] d = .ok d' ∧
    createDom b!"<p><b>x</b></p>" = .ok (some e) ∧
    decide (printHTML d' = .ok b!"<p><b>x</b></p>" ∧ printHTML e = .ok b!"<p><b>x</b></p>" ∧ equals d' e = .ok ⟨.differentNodeType, 3, 3⟩) = true := by
  obtain ⟨d, h1, h2⟩ := someAnd_ex (x := createDom b!"<p></p>")
    (p := fun d => okAnd (runEach [(.appendText 2 b!"<b>x</b>", fun _ => true)] d) fun d' => someAnd (createDom b!"<p><b>x</b></p>") fun e =>
      decide (printHTML d' = .ok b!"<p><b>x</b></p>" ∧ printHTML e = .ok b!"<p><b>x</b></p>" ∧ equals d' e = .ok ⟨.differentNodeType, 3, 3⟩)) (by decide +kernel)
  obtain ⟨d', h3, h4⟩ := okAnd_ex h2
  obtain ⟨e, h5, h6⟩ := someAnd_ex h4
  exact ⟨d, d', e, h1, h3, h5, h6⟩

/-! ## The hypotheses can be met -/

private theorem sample {s : Str} (e : (Page.load s).root = .node 1 .root [.node 2 (.elem b!"p" [(b!"k", b!"v")] []) [.node 3 (.text b!"x a") []]])
    (f : (Page.load s).form b!"p" = some true) :
    (Page.load s).Harmless ∧ (Page.load s).FormsFit ∧ nestingAll (fun tag => ((Page.load s).form tag).getD false) (Page.load s).trees ≤ 255 ∧
      joinTextsAll (Page.load s).trees = (Page.load s).trees := by
  refine ⟨?_, ?_, ?_, ?_⟩
  · intro x hx
    rw [e] at hx
    simp only [PTree.entries, entriesAll, List.append_nil, List.mem_cons, List.not_mem_nil, or_false] at hx
    rcases hx with rfl | rfl | rfl
    · trivial
    · exact ⟨⟨⟨_, _, rfl, by decide⟩, by decide, by decide, by decide⟩, by simp, by
        intro p hp; rw [List.mem_singleton] at hp; subst hp
        exact ⟨⟨by decide, (by intro c hc; revert c; decide), (by decide), by decide⟩, by decide⟩⟩
    · refine ⟨⟨by decide, fun a b h => ?_, fun a h => ?_⟩, ⟨_, _, rfl, by decide⟩⟩
      · have : List.IsInfix b!"  " b!"x a" := ⟨a, b, h.symm⟩
        revert this; decide
      · have := congrArg List.getLast? h
        simp at this
  · intro n tag ps bs cs h
    unfold Page.Has at h
    rw [e] at h
    simp only [PTree.rows, rowsAll, List.append_nil, List.map, PTree.id, List.mem_cons, List.not_mem_nil, or_false, Prod.mk.injEq, reduceCtorEq,
      false_and, and_false, false_or] at h
    obtain ⟨_, h, _⟩ := h
    cases h
    exact ⟨fun _ => by decide, fun x => absurd f x⟩
  · unfold Page.trees
    rw [e]
    dsimp only [plainAll, PTree.plain]
    rw [show (fun tag => ((Page.load s).form tag).getD false) = fun tag => ((Page.load s).form tag).getD false from rfl]
    simp only [nestingAll, Tree.nesting, f]
    decide
  · unfold Page.trees
    rw [e]
    rfl

/-- Two ways to write the same document. -/
example : ∃ d₁ d₂ t, Proper d₁ ∧ Proper d₂ ∧ Shows d₁ (Page.load b!"<p k='v'>x a</p>") ∧ Shows d₂ (Page.load b!"<p  k=v >x   a </p>") ∧
    printHTML d₁ = .ok t ∧ printHTML d₂ = .ok t ∧ t = b!"<p k=\"v\">x a</p>" := by
  have hc := C93_every_input b!"<p k='v'>x a</p>" (by decide)
  have hc' := C93_every_input b!"<p  k=v >x   a </p>" (by decide)
  obtain ⟨d, hd, _⟩ : ∃ d, createDom b!"<p k='v'>x a</p>" = .ok (some d) ∧ _ := hc
  obtain ⟨d', hd', _⟩ : ∃ d, createDom b!"<p  k=v >x   a </p>" = .ok (some d) ∧ _ := hc'
  refine ⟨d, d', _, .parsed hd, .parsed hd', C95_load _ d hd, C95_load _ d' hd', (C95_print d (.parsed hd) _ (C95_load _ d hd)).1, ?_, ?_⟩
  · rw [(C95_print d' (.parsed hd') _ (C95_load _ d' hd')).1]
    have : (Page.load b!"<p  k=v >x   a </p>").print = (Page.load b!"<p k='v'>x a</p>").print := by decide +kernel
    rw [this]
  · decide +kernel
example := sample (s := b!"<p k='v'>x a</p>") rfl (by decide +kernel)
example := sample (s := b!"<p  k=v >x   a </p>") rfl (by decide +kernel)

end Flo
