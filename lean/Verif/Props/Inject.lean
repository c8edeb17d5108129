import Verif.Spec.Inject
import Verif.Proofs.Inject
import Verif.Proofs.Reparse
import Verif.Proofs.Sat
import Verif.Props.PageCompare
import Verif.Props.PageRefuse
/-!
# Strings given as data stay data (C115)

Nothing is escaped on output, so a text or a value that contains markup becomes markup when the printed page is read again
(`C115_violated`).  Proved here: if every string is harmless (texts without `<` and with normalised white space, values without
`"`, well-formed names), then the printed page is read back with exactly the same elements, attributes and text, and harmless
strings handed to the editing functions keep every page of a session harmless.
-/
namespace Flo
open Spec

theorem harmless_printable {d : Dom} (h : Reachable d) {pg : Page} (hs : Shows d pg) (hh : pg.Harmless) (hf : pg.FormsFit) :
    PrintableAll (fun tag => (pg.form tag).getD false) (joinTextsAll pg.trees) := by
  obtain ⟨hi, _⟩ := reach_domI h
  obtain ⟨ks, e⟩ := hs.root
  have noRoot : ∀ n, (n, Label.root) ∉ entriesAll ks := by
    intro n hm
    have hnd := hs.nodup hi
    have hn : n = rootID := (hs.entry hi (l := .root) (n := n) (by rw [e, PTree.entries]; exact .tail _ hm)).1
    subst hn
    rw [e, ids_node, List.nodup_cons] at hnd
    exact hnd.1 (List.mem_map.mpr ⟨_, hm, rfl⟩)
  have rows : ∀ r ∈ rowsAll ks, Inj.RowOK pg.form r ∧ r.2.1 ≠ .root := by
    intro r hr
    have hr' : r ∈ pg.root.rows := by rw [e, PTree.rows]; exact .tail _ hr
    refine ⟨⟨hh (r.1, r.2.1) ?_, fun tag ps bs er => ?_⟩, fun er => ?_⟩
    · rw [Inj.rows_entries]; exact List.mem_map.2 ⟨r, hr', rfl⟩
    · refine hf r.1 tag ps bs r.2.2 ?_
      show (r.1, Label.elem tag ps bs, r.2.2) ∈ pg.root.rows
      rw [← er]; exact hr'
    · refine noRoot r.1 ?_
      rw [← rowsAll_entries]
      exact List.mem_map.2 ⟨r, hr, by rw [← er]⟩
  have ht : pg.trees = plainAll ks := by unfold Page.trees; rw [e]
  have ha := Inj.plainAll_almost ks rows
  have hp := Inj.joinAll_printable _ ha
  rw [← ht] at hp
  exact hp

/-- A page of harmless strings is read back as it is: the same elements with the same attributes in the same nesting, and the same
text; only texts that are next to each other become one.  Missing: pages with other strings, see `C115_violated`; elements printed
in a form that does not fit them, see C54 and C55. -/
theorem C115_page_partial (d : Dom) (h : Reachable d) (pg : Page) (hs : Shows d pg) (hh : pg.Harmless) (hf : pg.FormsFit)
    (hn : nestingAll (fun tag => (pg.form tag).getD false) pg.trees ≤ 255) (hlen : pg.print.length ≤ 65533) :
    ∃ t d', printHTML d = .ok t ∧ createDom t = .ok (some d') ∧ RepL d' (joinTextsAll pg.trees) (kids d' 1) ∧
      elementsOf (labelsAll (joinTextsAll pg.trees)) = elementsOf (labelsAll pg.trees) ∧
      textOfLabels (labelsAll (joinTextsAll pg.trees)) = textOfLabels (labelsAll pg.trees) ∧ printHTML d' = .ok t := by
  have hp := harmless_printable h hs hh hf
  have el : printAll (fun tag => (pg.form tag).getD false) (joinTextsAll pg.trees) = pg.print := Inj.printAll_join _
  obtain ⟨d', h1, h2, h3⟩ := reparse hp (by rw [Inj.nestingAll_join]; exact hn) (by rw [el]; exact hlen)
  rw [el] at h1 h3
  exact ⟨pg.print, d', (C95_print d h pg hs).1, h1, h2, (Inj.labelsAll_join _).1, (Inj.labelsAll_join _).2, h3⟩

/-- A call to which harmless strings are handed leaves a page of harmless strings harmless.  Missing: other strings. -/
theorem C115_call_partial (d : Dom) (h : Reachable d) (pg : Page) (hs : Shows d pg) (answer : Nat → Bool) (op : Op)
    (ha : pg.Permits answer op) (hr : Room d op.cost) (hh : pg.Harmless) (ho : op.Harmless answer) :
    ∃ v d' pg', callOp (fun i => .ok (answer i)) op d = .ok (v, d') ∧ Reachable d' ∧ Shows d' pg' ∧ pg'.Harmless := by
  obtain ⟨v, d', h1, h2, h3, _⟩ := C106_call d h pg hs answer op ha hr
  exact ⟨v, d', _, h1, h2, h3, Inj.call_all ho hh⟩

/-- A whole session with harmless strings: what is printed in the end is read back with the elements, attributes and text of the
page.  Missing: other strings; pages that are too deep or too long to be read; forms that do not fit. -/
theorem C115_session_partial (s : Str) (ts : List Tree) (ho : outcome s = .document ts) (ops : List (Op × (Nat → Bool)))
    (ha : (Page.load s).PermitsAll ops) (hlen : s.length + (ops.map fun o => o.1.cost).sum ≤ 65533)
    (hh : ∀ l ∈ labelsAll ts, l.Harmless) (hop : ∀ o ∈ ops, o.1.Harmless o.2) :
    ∃ d vs d' pg t, createDom s = .ok (some d) ∧ callEach ops d = .ok (vs, d') ∧ Shows d' pg ∧ pg.Harmless ∧ printHTML d' = .ok t ∧
      (pg.FormsFit → nestingAll (fun tag => (pg.form tag).getD false) pg.trees ≤ 255 → t.length ≤ 65533 →
        ∃ d'', createDom t = .ok (some d'') ∧ RepL d'' (joinTextsAll pg.trees) (kids d'' 1) ∧
          elementsOf (labelsAll (joinTextsAll pg.trees)) = elementsOf (labelsAll pg.trees) ∧
          textOfLabels (labelsAll (joinTextsAll pg.trees)) = textOfLabels (labelsAll pg.trees)) := by
  obtain ⟨d, vs, d', h1, h2, h3, h4, h5, _⟩ := C106_session s ts ho ops ha hlen
  have hl : (Page.load s).Harmless := by
    have et : treesOf (docTokens s).1 = ts := by
      unfold outcome at ho
      split at ho
      · cases ho
      · split at ho
        · cases ho
        · cases ho; rfl
    show Inj.TreeAll (.node 1 .root (numberAll 2 (treesOf (docTokens s).1)))
    rw [et]
    exact Inj.treeAll_node.2 ⟨trivial, Inj.numberAll_all ts 2 hh⟩
  have hq : ((Page.load s).calls ops).Harmless := Inj.calls_all ops hop hl
  refine ⟨d, vs, d', _, _, h1, h2, h4, hq, h5, fun hf hn ht => ?_⟩
  obtain ⟨t, d'', g1, g2, g3, g4, g5, _⟩ := C115_page_partial d' h3 _ h4 hq hf hn ht
  rw [h5] at g1
  cases g1
  exact ⟨d'', g2, g3, g4, g5⟩

/-- Not every string stays data.  A text that is appended as text becomes an element when the printed page is read again, and a
value becomes a second attribute. -/
theorem C115_violated :
    (∃ d d' t d'', createDom b!"<p></p>" = .ok (some d) ∧ runEach [(.appendText 2 b!"<b>x</b>", fun _ => true)] d = .ok d' ∧
      RepL d' [.elem b!"p" [] [] [.text b!"<b>x</b>"]] (kids d' 1) ∧ printHTML d' = .ok t ∧ createDom t = .ok (some d'') ∧
      RepL d'' [.elem b!"p" [] [] [.elem b!"b" [] [] [.text b!"x"]]] (kids d'' 1)) ∧
    ∃ d d' t d'', createDom b!"<p></p>" = .ok (some d) ∧
      runEach [(.attr (.add 2 b!"title" b!"a\" onclick=\"f"), fun _ => true)] d = .ok d' ∧
      RepL d' [.elem b!"p" [(b!"title", b!"a\" onclick=\"f")] [] []] (kids d' 1) ∧ printHTML d' = .ok t ∧
      createDom t = .ok (some d'') ∧
      RepL d'' [.elem b!"p" [(b!"title", b!"a"), (b!"onclick", b!"f")] [] []] (kids d'' 1) := by
  constructor
  · obtain ⟨d, d', h1, h2, h3, h4, h5⟩ := C95_session b!"<p></p>" _ rfl [(.appendText 2 b!"<b>x</b>", fun _ => true)]
      ⟨⟨.elem b!"p" [] [], .tail _ (.head _), rfl⟩, trivial⟩ (by decide +kernel)
    have e : ((Page.load b!"<p></p>").run [(.appendText 2 b!"<b>x</b>", fun _ => true)]).print = b!"<p><b>x</b></p>" := by decide +kernel
    rw [e] at h5
    obtain ⟨d'', h6, h7⟩ : ∃ d'', createDom b!"<p><b>x</b></p>" = .ok (some d'') ∧
      RepL d'' [.elem b!"p" [] [] [.elem b!"b" [] [] [.text b!"x"]]] (kids d'' 1) :=
      C93_every_input b!"<p><b>x</b></p>" (by decide)
    exact ⟨d, d', _, d'', h1, h2, (C95_print d' h3 _ h4).2, h5, h6, h7⟩
  · obtain ⟨d, d', h1, h2, h3, h4, h5⟩ := C95_session b!"<p></p>" _ rfl [(.attr (.add 2 b!"title" b!"a\" onclick=\"f"), fun _ => true)]
      ⟨⟨.elem b!"p" [] [], .tail _ (.head _)⟩, trivial⟩ (by decide +kernel)
    have e : ((Page.load b!"<p></p>").run [(.attr (.add 2 b!"title" b!"a\" onclick=\"f"), fun _ => true)]).print =
      b!"<p title=\"a\" onclick=\"f\"></p>" := by decide +kernel
    rw [e] at h5
    obtain ⟨d'', h6, h7⟩ : ∃ d'', createDom b!"<p title=\"a\" onclick=\"f\"></p>" = .ok (some d'') ∧
      RepL d'' [.elem b!"p" [(b!"title", b!"a"), (b!"onclick", b!"f")] [] []] (kids d'' 1) :=
      C93_every_input b!"<p title=\"a\" onclick=\"f\"></p>" (by decide)
    exact ⟨d, d', _, d'', h1, h2, (C95_print d' h3 _ h4).2, h5, h6, h7⟩

/-! ## The hypotheses can be met -/

private def dataOps : List (Op × (Nat → Bool)) :=
  [(.attr (.add 2 b!"title" b!"1 > 0 & 'a'"), fun _ => true), (.appendText 2 b!"a > b & \"c\"", fun _ => true)]

private theorem harmlessText (t : Str) (h : (∀ c ∈ t, c ≠ 60 ∧ c ≠ 9 ∧ c ≠ 10 ∧ c ≠ 13) ∧ ¬List.IsInfix b!"  " t ∧ t.getLast? ≠ some 32 ∧
    t ≠ [] ∧ t.head? ≠ some 32) : Stretch t := by
  obtain ⟨h1, h2, h3, h4, h5⟩ := h
  refine ⟨⟨h1, fun a b e => h2 ⟨a, b, e.symm⟩, fun a e => h3 (by rw [e]; simp)⟩, ?_⟩
  cases t with
  | nil => exact absurd rfl h4
  | cons c r => exact ⟨c, r, rfl, fun e => h5 (by rw [e]; rfl)⟩

example : outcome b!"<p>x</p>" = .document [.elem b!"p" [] [] [.text b!"x"]] := rfl
example : (Page.load b!"<p>x</p>").PermitsAll dataOps :=
  ⟨Or.inl ⟨.elem b!"p" [] [], .tail _ (.head _)⟩, Or.inl ⟨.elem b!"p" [(b!"title", b!"1 > 0 & 'a'")] [], .tail _ (.head _), rfl⟩, trivial⟩
example : (b!"<p>x</p>").length + (dataOps.map fun o => o.1.cost).sum ≤ 65533 := by decide +kernel
example : ∀ l ∈ labelsAll [.elem b!"p" [] [] [.text b!"x"]], l.Harmless := by
  intro l hl
  simp only [labelsAll, Tree.labels, List.append_nil, List.mem_cons, List.not_mem_nil, or_false] at hl
  rcases hl with rfl | rfl
  · exact ⟨⟨⟨_, _, rfl, by decide⟩, by decide, by decide, by decide⟩, by simp, by simp⟩
  · exact harmlessText _ (by decide)
example : ∀ o ∈ dataOps, o.1.Harmless o.2 := by
  intro o ho
  simp only [dataOps, List.mem_cons, List.not_mem_nil, or_false] at ho
  rcases ho with rfl | rfl
  · exact ⟨⟨by decide, (by intro c hc; revert c; decide), (by decide), by decide⟩, by decide⟩
  · exact harmlessText _ (by decide)

/-- The page of this session and what is printed. -/
example : ((Page.load b!"<p>x</p>").calls dataOps).print = b!"<p title=\"1 > 0 & 'a'\">x a > b & \"c\"</p>" := by decide +kernel
example : ((Page.load b!"<p>x</p>").calls dataOps).FormsFit := by
  intro n tag ps bs cs h
  have e : ((Page.load b!"<p>x</p>").calls dataOps).root.rows =
    [(1, .root, [2]), (2, .elem b!"p" [(b!"title", b!"1 > 0 & 'a'")] [], [3]), (3, .text b!"x a > b & \"c\"", [])] := by rfl
  unfold Page.Has at h
  rw [e] at h
  simp only [List.mem_cons, List.not_mem_nil, or_false, Prod.mk.injEq, reduceCtorEq, false_and, and_false, false_or] at h
  obtain ⟨_, h, _⟩ := h
  cases h
  have e2 : ((Page.load b!"<p>x</p>").calls dataOps).form b!"p" = some true := by decide +kernel
  exact ⟨fun _ => by decide, fun x => absurd e2 x⟩

end Flo
