import Verif.Proofs.PageUtf8
import Verif.Props.PageRefuse
/-!
# UTF-8 in, UTF-8 out (C112)

`Utf8 s`: the bytes `s` are the UTF-8 encoding of some text (`Spec/Utf8.lean`).
-/
namespace Flo
open Spec

/-- **C112** A source in UTF-8 that ends in an ASCII character (or is empty) gives a document all of whose names, values and
texts are UTF-8.  Missing: sources that end in another character, see `C112_violated`. -/
theorem C112_parse_partial (s : Str) (hu : Utf8 s) (he : AsciiEnd s) (d : Dom) (h : createDom s = .ok (some d)) (ts : List Tree)
    (ht : RepL d ts (kids d 1)) : ∀ x ∈ stringsAll ts, Utf8 x := by
  obtain ⟨ts', ho, hts⟩ := C93_returned s d h
  rw [(hts ts).1 ht]
  unfold outcome at ho
  split at ho
  · cases ho
  · split at ho
    · cases ho
    · cases ho
      exact trees_utf8 hu he _ _

/-- Whatever character the source ends in, there is only one way in which a string that is not UTF-8 can come about: the source
ends within quotes that are not closed, and the last byte is lost. -/
theorem C112_exact_partial (s : Str) (hu : Utf8 s) (d : Dom) (h : createDom s = .ok (some d)) (ts : List Tree)
    (ht : RepL d ts (kids d 1)) : ∀ x ∈ stringsAll ts, Utf8 x ∨ HalfCut s x := by
  obtain ⟨ts', ho, hts⟩ := C93_returned s d h
  rw [(hts ts).1 ht]
  unfold outcome at ho
  split at ho
  · cases ho
  · split at ho
    · cases ho
    · cases ho
      exact trees_cut hu _ _

/-- What is printed for the document of such a source is UTF-8. -/
theorem C112_print_partial (s : Str) (hu : Utf8 s) (he : AsciiEnd s) (d : Dom) (h : createDom s = .ok (some d)) (t : Str)
    (ht : printHTML d = .ok t) : Utf8 t := by
  have hs := C95_load s d h
  rw [(C95_print d (.parsed h) _ hs).1] at ht
  cases ht
  exact page_print_utf8 (load_utf8 hu he)

/-- A call with strings in UTF-8 (fragments that end in an ASCII character) keeps a page in UTF-8. -/
theorem C112_call_partial (answer : Nat → Bool) (op : Op) (ho : op.InUtf8) (pg : Page) (hp : pg.InUtf8) : (pg.call answer op).InUtf8 :=
  call_utf8 ho hp

/-- What a DOM that shows a page in UTF-8 prints is UTF-8, and so are the names, values and texts of its nodes. -/
theorem C112_shown_partial (d : Dom) (h : Reachable d) (pg : Page) (hs : Shows d pg) (hp : pg.InUtf8) :
    (∃ t, printHTML d = .ok t ∧ Utf8 t) ∧ RepL d pg.trees (kids d 1) ∧ ∀ x ∈ stringsAll pg.trees, Utf8 x := by
  obtain ⟨h1, h2⟩ := C95_print d h pg hs
  refine ⟨⟨_, h1, page_print_utf8 hp⟩, h2, ?_⟩
  unfold Page.trees
  cases hr : pg.root with
  | node n l ks =>
    have hp : TreeOK pg.root := hp
    rw [hr] at hp
    exact plainAll_utf8 ks (treeOK_node.1 hp).2

/-- A whole session (see C106) with sources, fragments, names and texts in UTF-8, sources and fragments ending in ASCII
characters: the page it ends with is in UTF-8, the DOM shows it, and what is printed is UTF-8. -/
theorem C112_session_partial (s : Str) (ts : List Tree) (ho : outcome s = .document ts) (ops : List (Op × (Nat → Bool)))
    (ha : (Page.load s).PermitsAll ops) (hlen : s.length + (ops.map fun o => o.1.cost).sum ≤ 65533)
    (hu : Utf8 s) (he : AsciiEnd s) (hops : ∀ o ∈ ops, o.1.InUtf8) :
    ∃ d vs d' t, createDom s = .ok (some d) ∧ callEach ops d = .ok (vs, d') ∧ Shows d' ((Page.load s).calls ops) ∧
      ((Page.load s).calls ops).InUtf8 ∧ printHTML d' = .ok t ∧ Utf8 t := by
  obtain ⟨d, vs, d', h1, h2, _, h4, h5, _⟩ := C106_session s ts ho ops ha hlen
  have hp := calls_utf8 ops hops (load_utf8 hu he)
  exact ⟨d, vs, d', _, h1, h2, h4, hp, h5, page_print_utf8 hp⟩

/-- `<a b="é`, in UTF-8. -/
def openQuote : Str := b!"<a b=\"" ++ [0xC3, 0xA9]

/-- Without the last hypothesis the property fails: a value whose closing quote is missing loses the last byte of the source, which
may be half of a character. -/
theorem C112_violated : Utf8 openQuote ∧ ∃ d ts, createDom openQuote = .ok (some d) ∧ RepL d ts (kids d 1) ∧ ∃ x ∈ stringsAll ts, ¬ Utf8 x := by
  have hc : Utf8 openQuote := (Utf8.ofAscii (m := b!"<a b=\"") (by decide)).append
    (.cons (c := [0xC3, 0xA9]) (.two (by decide) (by decide) ⟨by decide, by decide⟩) .nil)
  refine ⟨hc, ?_⟩
  obtain ⟨d, h1, h2⟩ : ∃ d, createDom openQuote = .ok (some d) ∧ RepL d [.elem b!"a" [(b!"b", [0xC3])] [] []] (kids d 1) :=
    C93_every_input openQuote (by decide)
  refine ⟨d, _, h1, h2, [0xC3], by simp [stringsAll, Tree.strings], ?_⟩
  intro h
  generalize e : ([0xC3] : Str) = x at h
  cases h with
  | nil => cases e
  | cons hc _ =>
    cases hc with
    | one ha => cases e; revert ha; decide
    | two => cases e
    | three => cases e
    | four => cases e

/-! ## A concrete case -/

/-- `<p title="é">€ 𝄞</p>` and a new line. -/
def utf8Page : Str := b!"<p title=\"" ++ [0xC3, 0xA9] ++ b!"\">" ++ [0xE2, 0x82, 0xAC] ++ b!" " ++ [0xF0, 0x9D, 0x84, 0x9E] ++ b!"</p>\n"

theorem utf8Page_ok : Utf8 utf8Page ∧ AsciiEnd utf8Page := by
  refine ⟨?_, by intro c hc; cases hc; decide⟩
  refine (((((Utf8.ofAscii (by decide)).append (?_ : Utf8 [0xC3, 0xA9])).append (Utf8.ofAscii (by decide))).append
    (?_ : Utf8 [0xE2, 0x82, 0xAC])).append (Utf8.ofAscii (by decide))).append (?_ : Utf8 [0xF0, 0x9D, 0x84, 0x9E]) |>.append (Utf8.ofAscii (by decide))
  · exact .cons (c := [0xC3, 0xA9]) (.two (by decide) (by decide) ⟨by decide, by decide⟩) .nil
  · exact .cons (c := [0xE2, 0x82, 0xAC]) (.three (by decide) (by decide) (by decide) (by decide) ⟨by decide, by decide⟩ ⟨by decide, by decide⟩) .nil
  · exact .cons (c := [0xF0, 0x9D, 0x84, 0x9E]) (.four (by decide) (by decide) (by decide) (by decide) ⟨by decide, by decide⟩ ⟨by decide, by decide⟩
      ⟨by decide, by decide⟩) .nil

example : ∃ d, createDom utf8Page = .ok (some d) ∧ RepL d [.elem b!"p" [(b!"title", [0xC3, 0xA9])] []
    [.text [0xE2, 0x82, 0xAC, 32, 0xF0, 0x9D, 0x84, 0x9E]]] (kids d 1) := C93_every_input utf8Page (by decide)

/-- A session in which a text in UTF-8 is appended, and a fragment. -/
example : (∀ o ∈ [((Op.appendText 2 [0xC3, 0xA9], fun _ => true) : Op × (Nat → Bool)), (.appendHTML 1 b!"<i>x</i>", fun _ => true)], o.1.InUtf8) ∧
    (Page.load utf8Page).PermitsAll [(.appendText 2 [0xC3, 0xA9], fun _ => true), (.appendHTML 1 b!"<i>x</i>", fun _ => true)] := by
  constructor
  · intro o ho
    simp only [List.mem_cons, List.not_mem_nil, or_false] at ho
    rcases ho with rfl | rfl
    · exact .cons (c := [0xC3, 0xA9]) (.two (by decide) (by decide) ⟨by decide, by decide⟩) .nil
    · exact ⟨.ofAscii (by decide), by intro c hc; cases hc; decide⟩
  · refine ⟨.inl ⟨.elem b!"p" [(b!"title", [0xC3, 0xA9])] [], ?_, rfl⟩, .inl ⟨⟨.root, .head _, rfl⟩, _, rfl, List.cons_ne_nil _ _⟩, trivial⟩
    exact .tail _ (.head _)

end Flo
