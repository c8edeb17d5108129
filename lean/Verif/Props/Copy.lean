import Verif.Spec.Copy
import Verif.Proofs.Copy
import Verif.Props.Inject
/-!
# HTML as a way of handing over nodes (C116)

A document that is printed and whose text is then inserted into another document (or into itself) arrives there as a copy; and a
node handed over as a structure, or a text as a string of its own, does the same as its HTML.
-/
namespace Flo
open Spec

/-! ## Copying a document into another one -/

/-- What the printed text of a page of harmless strings is when it is read as an HTML string: the trees of the page. -/
theorem printed_fragment {d : Dom} (h : Reachable d) {pg : Page} (hs : Shows d pg) (hh : pg.Harmless) (hf : pg.FormsFit)
    (hn : nestingAll (fun tag => (pg.form tag).getD false) pg.trees ≤ 256) (answer : Nat → Bool) :
    fragOutcome answer pg.print = .document (joinTextsAll pg.trees) ∧
    tokenForms (fragTokens answer pg.print).1 = namesOf (fun tag => (pg.form tag).getD false) (joinTextsAll pg.trees) := by
  have := Copy.frag_printed answer (harmless_printable h hs hh hf) (by rw [Inj.nestingAll_join]; exact hn)
  rw [Inj.printAll_join] at this
  exact this

theorem namesOf_join (P : Str → Bool) (ts : List Tree) : namesOf P (joinTextsAll ts) = namesOf P ts := by
  unfold namesOf
  rw [(Inj.labelsAll_join ts).1]

/-- Append, prepend or put in place of a node the printed text of another document (or of the same one).  `at` is the function that
is called with the text. -/
theorem C116_copy (d₁ d₂ : Dom) (h₁ : Reachable d₁) (h₂ : Reachable d₂) (pg₁ pg₂ : Page) (hs₁ : Shows d₁ pg₁) (hs₂ : Shows d₂ pg₂)
    (hh : pg₁.Harmless) (hf : pg₁.FormsFit) (hn : nestingAll (fun tag => (pg₁.form tag).getD false) pg₁.trees ≤ 256)
    (hne : pg₁.trees ≠ []) (answer : Nat → Bool) :
    ∃ t, printHTML d₁ = .ok t ∧
      (Room d₂ t.length →
        (∀ p l, (p, l) ∈ pg₂.root.entries → l.isText = false →
          (∃ v d', appendHTML (fun i => .ok (answer i)) p t d₂ = .ok (v, d') ∧ Reachable d' ∧
            Shows d' ⟨pg₂.next + sizeAll (joinTextsAll pg₁.trees), pg₂.forms ++ namesOf (fun tag => (pg₁.form tag).getD false) pg₁.trees,
              pg₂.root.within p fun ks => between ks (numberAll pg₂.next (joinTextsAll pg₁.trees)) []⟩) ∧
          (∃ v d', prependHTML (fun i => .ok (answer i)) p t d₂ = .ok (v, d') ∧ Reachable d' ∧
            Shows d' ⟨pg₂.next + sizeAll (joinTextsAll pg₁.trees), pg₂.forms ++ namesOf (fun tag => (pg₁.form tag).getD false) pg₁.trees,
              pg₂.root.within p fun ks => between [] (numberAll pg₂.next (joinTextsAll pg₁.trees)) ks⟩)) ∧
        (∀ n x, pg₂.root.siblings n = some x → NotClashing (joinTextsAll pg₁.trees) x.1 x.2 →
          ∃ v d', replaceWithHTML (fun i => .ok (answer i)) n t d₂ = .ok (v, d') ∧ Reachable d' ∧
            Shows d' ⟨pg₂.next + sizeAll (joinTextsAll pg₁.trees), pg₂.forms ++ namesOf (fun tag => (pg₁.form tag).getD false) pg₁.trees,
              pg₂.root.instead n fun before behind => between before (numberAll pg₂.next (joinTextsAll pg₁.trees)) behind⟩)) := by
  obtain ⟨ho, hm⟩ := printed_fragment h₁ hs₁ hh hf hn answer
  rw [namesOf_join] at hm
  have hF : joinTextsAll pg₁.trees ≠ [] := fun e => hne (Inj.joinText_nil e)
  have hfr : fragTrees answer pg₁.print = joinTextsAll pg₁.trees := by unfold fragTrees; rw [ho]
  have hok : FragmentOK answer pg₁.print := ⟨_, ho, hF⟩
  refine ⟨pg₁.print, (C95_print d₁ h₁ pg₁ hs₁).1, fun hr => ⟨fun p l hp hl => ⟨?_, ?_⟩, fun n x hx hcl => ?_⟩⟩
  · obtain ⟨v, d', e, h', s', _⟩ := C104_value d₂ h₂ pg₂ hs₂ answer (.appendHTML p pg₁.print) ⟨⟨l, hp, hl⟩, hok⟩ hr
    refine ⟨v, d', e, h', ?_⟩
    simp only [Page.step, Op.brings, Op.names, Op.on, hfr, hm] at s'
    exact s'
  · obtain ⟨v, d', e, h', s', _⟩ := C104_value d₂ h₂ pg₂ hs₂ answer (.prependHTML p pg₁.print) ⟨⟨l, hp, hl⟩, hok⟩ hr
    refine ⟨v, d', e, h', ?_⟩
    simp only [Page.step, Op.brings, Op.names, Op.on, hfr, hm] at s'
    exact s'
  · obtain ⟨v, d', e, h', s', _⟩ := C104_value d₂ h₂ pg₂ hs₂ answer (.replaceHTML n pg₁.print) ⟨x, hx, hok, by rw [hfr]; exact hcl⟩ hr
    refine ⟨v, d', e, h', ?_⟩
    simp only [Page.step, Op.brings, Op.names, Op.on, hfr, hm] at s'
    exact s'

/-- The copy: the elements with their attributes and the text are those of the document that was printed. -/
theorem C116_content (ts : List Tree) : elementsOf (labelsAll (joinTextsAll ts)) = elementsOf (labelsAll ts) ∧
    textOfLabels (labelsAll (joinTextsAll ts)) = textOfLabels (labelsAll ts) := Inj.labelsAll_join ts

/-! ## Structures, texts and HTML -/

theorem doc_fragment {doc : DocNode} (h : DocPlain doc) (answer : Nat → Bool) :
    fragOutcome answer (docHTML doc) = .document [.elem doc.tag doc.props doc.boolProps []] ∧
    tokenForms (fragTokens answer (docHTML doc)).1 = [(doc.tag, doc.isPaired)] := by
  obtain ⟨⟨h1, h2, h3⟩, h4, h5⟩ := h
  have hp : PrintableAll (fun _ => doc.isPaired) [.elem doc.tag doc.props doc.boolProps []] :=
    ⟨⟨h1, h2, h3, h4, fun e => ⟨rfl, h5 e⟩, trivial⟩, trivial, fun e => by cases e⟩
  have := Copy.frag_printed answer hp (by simp only [nestingAll, Tree.nesting]; split <;> decide)
  simp only [printAll, List.append_nil] at this
  exact this

theorem text_fragment {t : Str} (h : Stretch t) (answer : Nat → Bool) :
    fragOutcome answer t = .document [.text t] ∧ tokenForms (fragTokens answer t).1 = [] := by
  have hp : PrintableAll (fun _ => false) [.text t] := ⟨h, trivial, fun _ t' ts' e => by cases e⟩
  have := Copy.frag_printed answer hp (by simp [nestingAll, Tree.nesting])
  simp only [printAll, Tree.print, List.append_nil] at this
  exact this

/-- What a call brings is what its HTML brings. -/
theorem viaHTML_step {pg : Page} {op op' : Op} (hv : op.viaHTML = some op') (hp : op.Plain pg) (answer : Nat → Bool) :
    pg.step answer op' = pg.step answer op ∧ (pg.Allows answer op → pg.Allows answer op') := by
  have hd : ∀ doc, DocPlain doc → fragTrees answer (docHTML doc) = [.elem doc.tag doc.props doc.boolProps []] := fun doc h => by
    unfold fragTrees; rw [(doc_fragment h answer).1]
  have ht : ∀ t, Stretch t → fragTrees answer t = [.text t] := fun t h => by unfold fragTrees; rw [(text_fragment h answer).1]
  cases op <;> simp only [Op.viaHTML, Option.some.injEq, reduceCtorEq] at hv <;> subst hv <;> simp only [Op.Plain] at hp <;>
    (constructor
     · first
       | (have e1 := hd _ hp; have e2 := (doc_fragment hp answer).2; simp [Page.step, Op.brings, Op.names, Op.on, e1, e2])
       | (have e1 := ht _ hp; have e2 := (text_fragment hp answer).2; simp [Page.step, Op.brings, Op.names, Op.on, e1, e2])
       | (have e1 := ht _ hp.1; have e2 := (text_fragment hp.1 answer).2; simp [Page.step, Op.brings, Op.names, Op.on, e1, e2]))
  · exact fun ha => ⟨ha, _, (doc_fragment hp answer).1, by simp⟩
  · exact fun ha => ⟨ha, _, (text_fragment hp answer).1, by simp⟩
  · exact fun ha => ⟨ha, _, (doc_fragment hp answer).1, by simp⟩
  · exact fun ha => ⟨ha, _, (text_fragment hp answer).1, by simp⟩
  · rintro ⟨x, hx⟩
    refine ⟨x, hx, ⟨_, (doc_fragment hp answer).1, by simp⟩, ?_⟩
    rw [hd _ hp]
    constructor <;> rintro ⟨e, _⟩ <;> simp [Tree.isText] at e
  · rintro ⟨x, hx⟩
    refine ⟨x, hx, ⟨_, (text_fragment hp.1 answer).1, by simp⟩, ?_⟩
    rw [ht _ hp.1]
    exact ⟨fun ⟨_, e1, e2⟩ => hp.2 x hx ⟨e1, e2⟩, fun ⟨e, _⟩ => by simp at e⟩

theorem has_unique {d : Dom} (h : Reachable d) {pg : Page} (hs : Shows d pg) {n : Nat} {l l' : Label} {cs cs' : List Nat} (h1 : pg.Has n l cs)
    (h2 : pg.Has n l' cs') : cs = cs' := by
  obtain ⟨hi, _⟩ := reach_domI h
  have a := hs.has hi h1
  have b := hs.has hi h2
  exact a.2.symm.trans b.2

theorem append_value {d d₁ : Dom} {pg pg' : Page} {p v v' : Nat} (h1 : Reachable d₁) (hs : Shows d pg) (h : Reachable d) (s1 : Shows d₁ pg')
    (g1 : ∃ l cs new, pg.Has p l cs ∧ pg'.Has p l (cs ++ new) ∧ v = new.headD (cs.getLastD 0))
    (g2 : ∃ l cs new, pg.Has p l cs ∧ pg'.Has p l (cs ++ new) ∧ v' = new.headD (cs.getLastD 0)) : v = v' := by
  obtain ⟨_, cs, new, a1, a2, a3⟩ := g1
  obtain ⟨_, cs', new', b1, b2, b3⟩ := g2
  have := has_unique h hs a1 b1
  subst this
  have := List.append_cancel_left (has_unique h1 s1 a2 b2)
  rw [a3, b3, this]

theorem prepend_value {d₁ : Dom} {pg pg' : Page} {p v v' : Nat} (h1 : Reachable d₁) (s1 : Shows d₁ pg')
    (g1 : ∃ l cs new, pg.Has p l cs ∧ pg'.Has p l (new ++ cs) ∧ v = (new ++ cs).headD 0)
    (g2 : ∃ l cs new, pg.Has p l cs ∧ pg'.Has p l (new ++ cs) ∧ v' = (new ++ cs).headD 0) : v = v' := by
  obtain ⟨_, cs, new, a1, a2, a3⟩ := g1
  obtain ⟨_, cs', new', b1, b2, b3⟩ := g2
  rw [a3, b3, has_unique h1 s1 a2 b2]

/-- A node handed over as a structure and its HTML, a text and the same text as HTML: both calls succeed and lead to documents that
show the same page and print the same; and they return the same value, but for the functions that return the number of a new text
even if that was merged away. -/
theorem C116_interchangeable (d : Dom) (h : Reachable d) (pg : Page) (hs : Shows d pg) (answer : Nat → Bool) (op op' : Op)
    (hv : op.viaHTML = some op') (hp : op.Plain pg) (ha : pg.Allows answer op) (hr : Room d (max op.cost op'.cost)) :
    ∃ v d₁ v' d₂ pg', callOp (fun i => .ok (answer i)) op d = .ok (v, d₁) ∧ callOp (fun i => .ok (answer i)) op' d = .ok (v', d₂) ∧
      Reachable d₁ ∧ Reachable d₂ ∧ Shows d₁ pg' ∧ Shows d₂ pg' ∧ printHTML d₁ = printHTML d₂ ∧ (¬ op.ownNumber → v = v') := by
  obtain ⟨es, hal⟩ := viaHTML_step hv hp answer
  obtain ⟨v, d₁, e1, h1, s1, g1, _⟩ := C104_value d h pg hs answer op ha (hr.le (by omega))
  obtain ⟨v', d₂, e2, h2, s2, g2, _⟩ := C104_value d h pg hs answer op' (hal ha) (hr.le (by omega))
  rw [es] at s2 g2
  refine ⟨v, d₁, v', d₂, _, e1, e2, h1, h2, s1, s2, ?_, ?_⟩
  · rw [(C95_print d₁ h1 _ s1).1, (C95_print d₂ h2 _ s2).1]
  · intro ho
    cases op <;> simp only [Op.viaHTML, Option.some.injEq, reduceCtorEq] at hv <;> subst hv <;> simp only [Op.ownNumber, not_true, not_false_iff] at ho
    · exact append_value h1 hs h s1 g1 g2
    · exact append_value h1 hs h s1 g1 g2
    · exact prepend_value h1 s1 g1 g2
    · rename_i n doc _ _
      have g1 : v = pg.next := g1
      rw [g1]
      obtain ⟨x, hx⟩ := ha
      obtain ⟨q, hq, _⟩ := hs.siblings_of hx
      have hF := (doc_fragment hp answer).1
      obtain ⟨id, d', F1, F2, new, c1, _, _, c2, _, c3, c4, c5, _⟩ := C94_replace d h q n _ _ hq (docHTML doc) (fun i => .ok (answer i)) answer
        (fun _ => rfl) (hr.le (Nat.le_max_right _ _)) _ hF (by simp) (fun t e => by cases e) (fun t u e => by cases e)
      have c1 : callOp (fun i => .ok (answer i)) (.replaceHTML n (docHTML doc)) d = .ok (id, d') := c1
      rw [e2] at c1
      cases c1
      cases new with
      | nil => exact absurd rfl c3
      | cons m new =>
        rw [c5]
        have hm := c4 m (by simp)
        obtain ⟨hi2, _⟩ := reach_domI h2
        have hl := hi2.linked.range q m (by rw [c2]; simp)
        have hnx := s2.next
        have hnx0 := hs.next
        simp only [Page.step, Op.brings, sizeAll, Tree.size] at hnx
        show pg.next = m
        omega

/-! ## The hypotheses can be met -/

private theorem copyP : (Page.load b!"<p id=\"a\">x</p>").root.rows =
    [(1, .root, [2]), (2, .elem b!"p" [(b!"id", b!"a")] [], [3]), (3, .text b!"x", [])] := by rfl

private theorem stretchX : Stretch b!"x" :=
  ⟨⟨by decide, fun a b e => absurd (congrArg List.length e) (by simp; omega), fun a e => absurd (congrArg List.getLast? e) (by simp)⟩, _, _, rfl, by decide⟩

private theorem labelP (tag : Str) (h : tag = b!"p" ∨ tag = b!"br") : (Label.elem tag [(b!"id", b!"a")] []).Harmless := by
  rcases h with rfl | rfl
  · refine ⟨⟨⟨_, _, rfl, by decide⟩, by decide, by decide, by decide⟩, by simp, ?_⟩
    intro p hp
    simp only [List.mem_singleton] at hp
    subst hp
    exact ⟨⟨by decide, (by intro c hc; revert c; decide), (by decide), by decide⟩, by decide⟩
  · refine ⟨⟨⟨_, _, rfl, by decide⟩, by decide, by decide, by decide⟩, by simp, ?_⟩
    intro p hp
    simp only [List.mem_singleton] at hp
    subst hp
    exact ⟨⟨by decide, (by intro c hc; revert c; decide), (by decide), by decide⟩, by decide⟩

/-- A document that meets the hypotheses of `C116_copy`, copied into itself. -/
example : ∃ d, createDom b!"<p id=\"a\">x</p>" = .ok (some d) ∧ Shows d (Page.load b!"<p id=\"a\">x</p>") ∧
    (Page.load b!"<p id=\"a\">x</p>").Harmless ∧ (Page.load b!"<p id=\"a\">x</p>").FormsFit ∧
    nestingAll (fun tag => ((Page.load b!"<p id=\"a\">x</p>").form tag).getD false) (Page.load b!"<p id=\"a\">x</p>").trees ≤ 256 ∧
    (Page.load b!"<p id=\"a\">x</p>").trees ≠ [] ∧ Room d (Page.load b!"<p id=\"a\">x</p>").print.length := by
  obtain ⟨d, hd, _⟩ : ∃ d, createDom b!"<p id=\"a\">x</p>" = .ok (some d) ∧ RepL d [.elem b!"p" [(b!"id", b!"a")] [] [.text b!"x"]] (kids d 1) :=
    C93_every_input b!"<p id=\"a\">x</p>" (by decide)
  refine ⟨d, hd, C95_load _ d hd, ?_, ?_, by decide +kernel, by decide +kernel, ?_⟩
  · intro e he
    rw [Inj.rows_entries, copyP] at he
    simp only [List.map_cons, List.map_nil, List.mem_cons, List.not_mem_nil, or_false] at he
    rcases he with rfl | rfl | rfl
    · trivial
    · exact labelP _ (Or.inl rfl)
    · exact stretchX
  · intro n tag ps bs cs h
    unfold Page.Has at h
    rw [copyP] at h
    simp only [List.mem_cons, List.not_mem_nil, or_false, Prod.mk.injEq, reduceCtorEq, false_and, and_false, false_or] at h
    obtain ⟨_, h, _⟩ := h
    cases h
    have e2 : (Page.load b!"<p id=\"a\">x</p>").form b!"p" = some true := by decide +kernel
    exact ⟨fun _ => by decide, fun x => absurd e2 x⟩
  · exact (createDom_room (s := b!"<p id=\"a\">x</p>") (k := 16) (by decide)).elim hd d rfl |>.le (by decide +kernel)

/-- What comes of it. -/
example : (Page.mk (4 + 2) ((Page.load b!"<p id=\"a\">x</p>").forms ++ [(b!"p", true)])
    ((Page.load b!"<p id=\"a\">x</p>").root.within 2 fun ks => between ks (numberAll 4 (joinTextsAll (Page.load b!"<p id=\"a\">x</p>").trees)) [])).print =
    b!"<p id=\"a\">x<p id=\"a\">x</p></p>" := by decide +kernel

/-- Calls that meet the hypotheses of `C116_interchangeable`. -/
example : (Op.replaceDoc 3 ⟨b!"br", false, [], [(b!"id", b!"a")]⟩).Plain (Page.load b!"<p id=\"a\">x</p>") :=
  ⟨labelP _ (Or.inr rfl), (by intro e; cases e), fun _ => Or.inr (Or.inl rfl)⟩
example : (Op.replaceDoc 3 ⟨b!"br", false, [], [(b!"id", b!"a")]⟩).viaHTML = some (.replaceHTML 3 b!"<br id=\"a\"/>") := by rfl
example : (Op.appendText 2 b!"x").Plain (Page.load b!"<p id=\"a\">x</p>") := stretchX
example : (Page.load b!"<p id=\"a\">x</p>").Allows (fun _ => true) (.appendText 2 b!"x") := ⟨.elem b!"p" [(b!"id", b!"a")] [], .tail _ (.head _), rfl⟩

end Flo
