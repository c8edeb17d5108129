import Verif.Proofs.Source
import Verif.Proofs.Words
import Verif.Props.Fragment
/-!
# Parsing source text with a known tree (C06, C07, C09, C10, C28, C59)

`Src`, `Srcs` (in `Spec/Source.lean`) are HTML as an author writes it; `render` is its text, `trees` the document it
stands for, `Clean` its well-formedness; none of these refers to the parser.
-/
namespace Flo
open Spec

/-! ## C59: identifiers last -/

/-- Documents of at most 65533 bytes never exhaust the 16-bit node and name identifiers: `createDom` does not take
the failure exit. -/
theorem C59_identifiers_last (s : Str) (h : s.length ≤ 65533) : createDom s ≠ .longjmp := createDom_nj h

/-- The same for fragments: if the DOM has room for as many more nodes and names as the fragment has bytes, parsing
the fragment into it does not take the failure exit. -/
theorem C59_fragment_identifiers_last (junk : Nat → Out Bool) (hj : ∀ i, junk i = .ok true ∨ junk i = .ok false)
    (html : Str) (d : Dom) (h : Room d html.length) : parseExtra junk html d ≠ .longjmp :=
  parse_nj (fun i => by rcases hj i with h | h <;> rw [h] <;> simp) (fun i => by rcases hj i with h | h <;> rw [h] <;> simp) h _ _

example : ∃ d, createDom b!"<p a=b c>x</p>" = .ok (some d) ∧ Room d 60000 := by
  obtain ⟨d, h, hd⟩ := someAnd_ex (x := createDom b!"<p a=b c>x</p>") (p := fun d => decide
    (d.nodes.length + 60000 ≤ 65535 ∧ d.tagMap.identity + 60000 ≤ 65535 ∧ d.boolMap.identity + 60000 ≤ 65535 ∧
     d.keyMap.identity + 60000 ≤ 65535 ∧ d.valMap.identity + 60000 ≤ 65535)) (by decide +kernel)
  obtain ⟨h1, h2, h3, h4, h5⟩ := of_decide_eq_true hd
  exact ⟨d, h, h1, h2, h3, h4, h5⟩

/-! ## C09: parsing inverts rendering -/

/-- A clean document with at most 255 open elements at a time and at most 65533 bytes parses, and the root has
exactly the trees the document stands for: same elements, nesting, order, attributes (in order, duplicates
included) and texts; white space between tags, quoting styles and comments make no difference. -/
theorem C09_parse_render (lead : Str) (ks : Srcs) (hl : Blank lead) (hk : ks.Clean) (hd : ks.depth ≤ 255)
    (hlen : (lead ++ ks.render).length ≤ 65533) :
    ∃ d, createDom (lead ++ ks.render) = .ok (some d) ∧ RepL d ks.trees (kids d 1) := by
  rcases createDom_src hl hk hd with h | h
  · exact absurd h (createDom_nj hlen)
  · exact h

/-- Without the bound on the size, the only other outcome is the failure exit for lack of identifiers. -/
theorem C09_parse_render_any_size (lead : Str) (ks : Srcs) (hl : Blank lead) (hk : ks.Clean) (hd : ks.depth ≤ 255) :
    createDom (lead ++ ks.render) = .longjmp ∨
    ∃ d, createDom (lead ++ ks.render) = .ok (some d) ∧ RepL d ks.trees (kids d 1) := createDom_src hl hk hd

/-- Clean source also satisfies the hypothesis `Fragment` of the theorems about inserting HTML (C23, C24, C27), for
every DOM with enough identifiers left. -/
theorem C09_clean_fragment (lead : Str) (ks : Srcs) (hl : Blank lead) (hk : ks.Clean) (hd : ks.depth ≤ 255)
    (hne : ks ≠ .nil) (hlen : (lead ++ ks.render).length ≤ 65533) (d : Dom) (hr : Room d (lead ++ ks.render).length) :
    Fragment (lead ++ ks.render) d ks.trees :=
  fragment_src hl hk hd (by cases ks with
    | nil => exact absurd rfl hne
    | cons t b r => simp [Srcs.trees]) hlen hr

/-- `<!DOCTYPE html><ul id="a b" hidden  class='c' x=y ><!-- note --> <li>one\n<!-- c -->and a  half</li>\n<li>two <br/></li></ul>` -/
def exampleSrc : Srcs :=
  .cons (.single b!"!DOCTYPE" [.bool b!" " b!"html"] [] false) []
    (.cons (.paired b!"ul" [.dquoted b!" " b!"id" b!"a b", .bool b!" " b!"hidden", .squoted b!"  " b!"class" b!"c",
        .bare b!" " b!"x" b!"y"] b!" " b!"<!-- note --> "
      (.cons (.paired b!"li" [] [] [] (.cons (.text b!"one" [(b!"\n<!-- c -->", b!"and a"), (b!"  ", b!"half")]) [] .nil) []) b!"\n"
        (.cons (.paired b!"li" [] [] [] (.cons (.text b!"two" []) b!" " (.cons (.single b!"br" [] [] true) [] .nil)) []) [] .nil))
      []) [] .nil)

theorem normal_word (t : Str) (h : ∀ c ∈ t, c ≠ 60 ∧ c ≠ 9 ∧ c ≠ 10 ∧ c ≠ 13 ∧ c ≠ 32) : NormalText t := by
  refine ⟨fun c hc => ?_, ?_, ?_⟩
  · obtain ⟨a, b, c, d, e⟩ := h c hc; exact ⟨a, b, c, d⟩
  · rintro a b rfl; exact (h 32 (by simp)).2.2.2.2 rfl
  · rintro a rfl; exact (h 32 (by simp)).2.2.2.2 rfl

theorem not_infix_of_decide {a b : Str} (h : decide (a <:+: b) = false) : ¬ a <:+: b := of_decide_eq_false h

theorem stretch_word {t : Str} (c : UInt8) (r : Str) (e : t = c :: r)
    (h : ∀ c ∈ t, c ≠ 60 ∧ c ≠ 9 ∧ c ≠ 10 ∧ c ≠ 13 ∧ c ≠ 32) : Stretch t :=
  ⟨normal_word t h, c, r, e, (h c (by rw [e]; simp)).2.2.2.2⟩

instance : DecidablePred IsBlankChar := fun c => by unfold IsBlankChar; infer_instance
instance : DecidablePred Spaces := fun g => by unfold Spaces; infer_instance
instance : DecidablePred Bare := fun g => by unfold Bare; infer_instance
instance : DecidablePred NeverContent := fun g => by unfold NeverContent; infer_instance
instance : DecidablePred NoQuoteStart := fun g => by unfold NoQuoteStart; infer_instance

theorem keyName (k : Str) (h : k ≠ [] ∧ Bare k ∧ NoQuoteStart k ∧ k.head? ≠ some 47) : KeyName k := ⟨h.1, h.2.1, h.2.2.1, h.2.2.2⟩

theorem exampleSrc_clean : exampleSrc.Clean := by
  refine ⟨⟨⟨⟨_, _, rfl, by decide⟩, by decide, by decide, by decide⟩, ?_, by decide, (fun h => by cases h), Or.inr (Or.inr rfl)⟩, .nil,
    ⟨⟨⟨⟨_, _, rfl, by decide⟩, by decide, by decide, by decide⟩, ?_, by decide, by decide, ?_, ?_, by decide⟩, .nil, trivial, trivial⟩, trivial⟩
  · intro a ha
    simp only [List.mem_singleton] at ha
    subst ha
    exact ⟨by decide, by decide, keyName _ (by decide)⟩
  · intro a ha
    simp only [List.mem_cons, List.not_mem_nil, or_false] at ha
    rcases ha with rfl | rfl | rfl | rfl
    · exact ⟨by decide, by decide, keyName _ (by decide), by decide⟩
    · exact ⟨by decide, by decide, keyName _ (by decide)⟩
    · exact ⟨by decide, by decide, keyName _ (by decide), by decide⟩
    · exact ⟨by decide, by decide, keyName _ (by decide), by decide, by decide⟩
  · exact Blank.comment (body := b!" note ") (by decide) (.space (by decide) .nil)
  · have hli : TagName b!"li" := ⟨⟨_, _, rfl, by decide⟩, by decide, by decide, by decide⟩
    refine ⟨⟨hli, by simp, by decide, by decide, .nil, ⟨⟨stretch_word _ _ rfl (by decide), ?_⟩, .nil, trivial, by simp [Srcs.StartsText]⟩,
        by decide⟩, .space (by decide) .nil,
      ⟨⟨hli, by simp, by decide, by decide, .nil, ⟨⟨stretch_word _ _ rfl (by decide), by simp⟩, .space (by decide) .nil,
        ⟨⟨⟨⟨_, _, rfl, by decide⟩, by decide, by decide, by decide⟩, by simp, by decide, by simp [SlashOK], by decide⟩, .nil,
          trivial, trivial⟩, by simp [Srcs.StartsText]⟩, by decide⟩, .nil, trivial, trivial⟩, trivial⟩
    intro m hm
    simp only [List.mem_cons, List.not_mem_nil, or_false] at hm
    rcases hm with rfl | rfl
    · refine ⟨.space (by decide) (.comment (body := b!" c ") (by decide) .nil), by decide, ⟨⟨by decide, ?_, ?_⟩, _, _, rfl, by decide⟩⟩
      · intro a b e
        have hin : List.IsInfix b!"  " b!"and a" := ⟨a, b, e.symm⟩
        exact absurd hin (not_infix_of_decide (by decide))
      · intro a e
        have := congrArg List.getLast? e
        simp at this
    · exact ⟨.space (by decide) (.space (by decide) .nil), by decide, stretch_word _ _ rfl (by decide)⟩

/-- non-vacuity: a document with a doctype, comments, all four kinds of attributes, nesting and a void element. -/
example : exampleSrc.Clean ∧ exampleSrc.depth = 2 ∧
    exampleSrc.render = b!"<!DOCTYPE html><ul id=\"a b\" hidden  class='c' x=y ><!-- note --> <li>one\n<!-- c -->and a  half</li>\n<li>two <br/></li></ul>" ∧
    exampleSrc.trees = [.elem b!"!DOCTYPE" [] [b!"html"] [],
      .elem b!"ul" [(b!"id", b!"a b"), (b!"class", b!"c"), (b!"x", b!"y")] [b!"hidden"]
        [.elem b!"li" [] [] [.text b!"one and a half"], .elem b!"li" [] [] [.text b!"two", .elem b!"br" [] [] []]]] :=
  ⟨exampleSrc_clean, rfl, rfl, rfl⟩

/-! ## C10: comments and white space create no nodes -/

/-- An input of white space and comments only yields a document without any node except the error node and the
root, and the root has no children. -/
theorem C10_blank_document (s : Str) (h : Blank s) :
    ∃ d, createDom s = .ok (some d) ∧ d.nodes.length = 2 ∧ kids d 1 = [] :=
  ⟨_, createDom_blank h, rfl, rfl⟩

/-- Inserting comments and white space between the parts of a clean document changes nothing in the tree: two clean
documents that stand for the same trees parse to DOMs with the same trees. -/
theorem C10_blanks_irrelevant (l l' : Str) (ks ks' : Srcs) (hl : Blank l) (hl' : Blank l') (hk : ks.Clean) (hk' : ks'.Clean)
    (hd : ks.depth ≤ 255) (hd' : ks'.depth ≤ 255) (hlen : (l ++ ks.render).length ≤ 65533)
    (hlen' : (l' ++ ks'.render).length ≤ 65533) (he : ks.trees = ks'.trees) :
    ∃ d d' F, createDom (l ++ ks.render) = .ok (some d) ∧ createDom (l' ++ ks'.render) = .ok (some d') ∧
      RepL d F (kids d 1) ∧ RepL d' F (kids d' 1) := by
  obtain ⟨d, h1, h2⟩ := C09_parse_render l ks hl hk hd hlen
  obtain ⟨d', h3, h4⟩ := C09_parse_render l' ks' hl' hk' hd' hlen'
  exact ⟨d, d', ks.trees, h1, h3, h2, by rw [he]; exact h4⟩

example : Blank b!" \n<!-- a < b --><!---->\t" :=
  .space (by decide) (.space (by decide) (.comment (body := b!" a < b ") (by decide) (.comment (body := []) (by decide)
    (.space (by decide) .nil))))

/-! ## C06: a text keeps its words -/

/-- Text without `<` between two tags becomes one text node that holds its words, in order, separated by single spaces;
if there are no words, there is no node. -/
theorem C06_words (tag : Str) (as : List AttrSrc) (gap raw gap' : Str) (ht : TagName tag) (ha : ∀ a ∈ as, a.Clean) (hg : Spaces gap)
    (hnc : ¬NeverContent tag) (hraw : ∀ c ∈ raw, c ≠ 60) (hg' : Spaces gap')
    (hlen : (b!"<" ++ tag ++ as.flatMap AttrSrc.render ++ gap ++ b!">" ++ raw ++ b!"</" ++ tag ++ gap' ++ b!">").length ≤ 65533) :
    ∃ d, createDom (b!"<" ++ tag ++ as.flatMap AttrSrc.render ++ gap ++ b!">" ++ raw ++ b!"</" ++ tag ++ gap' ++ b!">") = .ok (some d) ∧
      RepL d [.elem tag (as.filterMap AttrSrc.pair) (as.filterMap AttrSrc.flag) (wordTrees raw)] (kids d 1) := by
  obtain ⟨lead, ks, e, h1, h2, h3, h4⟩ := words_src raw hraw
  have hrender : (Srcs.cons (.paired tag as gap lead ks gap') [] .nil).render =
      b!"<" ++ tag ++ as.flatMap AttrSrc.render ++ gap ++ b!">" ++ raw ++ b!"</" ++ tag ++ gap' ++ b!">" := by
    simp [Srcs.render, Src.render, e]
  have := C09_parse_render [] (.cons (.paired tag as gap lead ks gap') [] .nil) .nil
    ⟨⟨ht, ha, hg, hnc, h1, h2, hg'⟩, .nil, trivial, trivial⟩ (by simp [Srcs.depth, Src.depth, h3])
    (by rw [hrender]; simpa using hlen)
  rw [hrender, List.nil_append] at this
  simpa [Srcs.trees, Src.tree, h4] using this

/-- A document that is just text. -/
theorem C06_words_document (raw : Str) (hraw : ∀ c ∈ raw, c ≠ 60) (hlen : raw.length ≤ 65533) :
    ∃ d, createDom raw = .ok (some d) ∧ RepL d (wordTrees raw) (kids d 1) := by
  obtain ⟨lead, ks, e, h1, h2, h3, h4⟩ := words_src raw hraw
  have := C09_parse_render lead ks h1 h2 (by omega) (by rw [← e]; exact hlen)
  rw [← e, h4] at this
  exact this

example : wordTrees b!" hello \t\n world " = [.text b!"hello world"] ∧ wordTrees b!" \n " = [] := ⟨rfl, rfl⟩

/-! ## C07: script and style content is raw text -/

/-- The property fails: a `<` followed by a letter inside a script starts an element, which swallows the rest
(including the script's end tag). -/
theorem C07_violated : ∃ d, createDom b!"<script>if(a<b)c</script>" = .ok (some d) ∧
    tagOf d 2 = some b!"script" ∧ kids d 2 = [3, 4] ∧ textOf d 3 = some b!"if(a" ∧ tagOf d 4 = some b!"b)c</script" := by
  obtain ⟨d, h, hd⟩ := someAnd_ex (x := createDom b!"<script>if(a<b)c</script>") (p := fun d => decide
    (tagOf d 2 = some b!"script" ∧ kids d 2 = [3, 4] ∧ textOf d 3 = some b!"if(a" ∧ tagOf d 4 = some b!"b)c</script"))
    (by decide +kernel)
  exact ⟨d, h, of_decide_eq_true hd⟩

/-- It also fails without any `<`: line breaks are lost, so a line comment swallows the code after it. -/
theorem C07_linebreak_violated : ∃ d, createDom b!"<script>//x\ny()</script>" = .ok (some d) ∧
    textOf d 3 = some b!"//x y()" := by
  obtain ⟨d, h, hd⟩ := someAnd_ex (x := createDom b!"<script>//x\ny()</script>") (p := fun d => decide
    (textOf d 3 = some b!"//x y()")) (by decide +kernel)
  exact ⟨d, h, of_decide_eq_true hd⟩

/-- What holds: content without `<` becomes one text that holds its words in order, or no child if it has none.  Missing:
content with `<`; the white space between the words is not kept. -/
theorem C07_raw_text_partial (tag raw : Str) (ht : tag = b!"script" ∨ tag = b!"style") (hn : ∀ c ∈ raw, c ≠ 60)
    (hlen : raw.length ≤ 65000) :
    ∃ d, createDom (b!"<" ++ tag ++ b!">" ++ raw ++ b!"</" ++ tag ++ b!">") = .ok (some d) ∧
      RepL d [.elem tag [] [] (wordTrees raw)] (kids d 1) := by
  have htag : TagName tag := by
    rcases ht with rfl | rfl <;> exact ⟨⟨_, _, rfl, by decide⟩, by decide, by decide, by decide⟩
  have hnc : ¬NeverContent tag := by rcases ht with rfl | rfl <;> decide
  have hlt : tag.length ≤ 6 := by rcases ht with rfl | rfl <;> decide
  have := C06_words tag [] [] raw [] htag (by simp) (by decide) hnc hn (by decide) (by simp; omega)
  simpa using this

/-- In particular, content without `<` that is already white-space normalised is kept as it is. -/
theorem C07_normal_text_partial (tag raw : Str) (ht : tag = b!"script" ∨ tag = b!"style") (hn : NormalText raw)
    (hs : ∃ c r, raw = c :: r ∧ c ≠ 32) (hlen : raw.length ≤ 65000) :
    ∃ d, createDom (b!"<" ++ tag ++ b!">" ++ raw ++ b!"</" ++ tag ++ b!">") = .ok (some d) ∧
      RepL d [.elem tag [] [] [.text raw]] (kids d 1) := by
  have htag : TagName tag := by
    rcases ht with rfl | rfl <;> exact ⟨⟨_, _, rfl, by decide⟩, by decide, by decide, by decide⟩
  have hnc : ¬NeverContent tag := by rcases ht with rfl | rfl <;> decide
  have hlt : tag.length ≤ 6 := by rcases ht with rfl | rfl <;> decide
  have := C09_parse_render [] (.cons (.paired tag [] [] [] (.cons (.text raw []) [] .nil) []) [] .nil) .nil
    ⟨⟨htag, by simp, by decide, hnc, .nil, ⟨⟨⟨hn, hs⟩, by simp⟩, .nil, trivial, by simp [Srcs.StartsText]⟩, by decide⟩, .nil, trivial, trivial⟩
    (by simp [Srcs.depth, Src.depth]) (by simp [Srcs.render, Src.render, List.length_append, stretches]; omega)
  simpa [Srcs.render, Src.render, Srcs.trees, Src.tree, stretches, joined] using this

example : NormalText b!"if(a){b}" := normal_word _ (by decide)
example : wordTrees b!"\n  if (a) {\n\t b }\r\n" = [.text b!"if (a) { b }"] := rfl

/-! ## C28: inserting a fragment without nodes -/

/-- The property fails: appending the empty string to an element with content reads a node that does not exist. -/
theorem C28_violated : ∃ d, createDom b!"<p>x</p>" = .ok (some d) ∧ Reachable d ∧
    appendHTML (fun _ => .ok false) 2 [] d = .ub .oobIndex := by
  obtain ⟨d, h, hd⟩ := someAnd_ex (x := createDom b!"<p>x</p>")
    (p := fun d => decide (appendHTML (fun _ => .ok false) 2 [] d = .ub .oobIndex)) (by decide +kernel)
  exact ⟨d, h, .parsed h, of_decide_eq_true hd⟩

/-- On an element without content, it links a node that does not exist. -/
theorem C28_dangling_violated : ∃ d r, createDom b!"<p></p>" = .ok (some d) ∧
    appendHTML (fun _ => .ok false) 2 [] d = .ok r ∧ kids r.2 2 = [3] ∧ r.2.nodes.length = 3 := by
  obtain ⟨d, h, hd⟩ := someAnd_ex (x := createDom b!"<p></p>")
    (p := fun d => okAnd (appendHTML (fun _ => .ok false) 2 [] d) (fun r => decide (kids r.2 2 = [3] ∧ r.2.nodes.length = 3)))
    (by decide +kernel)
  obtain ⟨r, h1, h2⟩ := okAnd_ex hd
  have := of_decide_eq_true h2
  exact ⟨d, r, h, h1, this.1, this.2⟩

/-- What holds: parsing such a fragment is accepted and leaves the DOM as it is.  Missing: the linking step that
follows, which uses a node that was never created. -/
theorem C28_empty_fragment_parse_partial (html : Str) (h : Blank html) (junk : Nat → Out Bool) (d : Dom) :
    parseExtra junk html d = .ok ⟨true, d⟩ := parseExtra_blank h junk d

/-- The links the insertion functions make below a childless node for a fragment without nodes. -/
def dangling (p : Nat) (d : Dom) : Dom :=
  { d with fc := d.fc ++ [(p, d.nodes.length)], pc := d.pc ++ [(p, d.nodes.length)] }

theorem emptyFrag_exact (html : Str) (d : Dom) (h : Reachable d) (junk : Nat → Out Bool)
    (hb : parseExtra junk html d = .ok ⟨true, d⟩) :
    (∀ p, IsNode d p → kids d p = [] →
      (∃ d', appendHTML junk p html d = .ok (d.nodes.length, d') ∧ prependHTML junk p html d = .ok (d.nodes.length, d') ∧
        d'.nodes = d.nodes ∧ kids d' p = [d.nodes.length] ∧ ∀ q, q ≠ p → kids d' q = kids d q)) ∧
    (∀ p, IsNode d p → kids d p ≠ [] →
      appendHTML junk p html d = .ub .oobIndex ∧ prependHTML junk p html d = .ub .oobIndex) ∧
    (∀ n, replaceWithHTML junk n html d = .ub .oobIndex) := by
  obtain ⟨hi, h0⟩ := reach_domI h
  have hN : ∀ a c, (a, c) ∈ d.nn → a ≠ d.nodes.length := by
    intro a c hm e
    have := hi.linked.two
    have := hi.linked.nnLt a c hm (by omega)
    omega
  have hnext : getNextNode d.nodes.length d = none := findFst_none.mpr (fun c hc => hN _ c hc rfl)
  have hlast : getLastNext d.nodes.length d = .ok d.nodes.length := by
    unfold getLastNext
    simp only [lastNextLoop, hnext]
  have hnode : d.node d.nodes.length = .ub .oobIndex := by simp [Dom.node]
  refine ⟨?_, ?_, ?_⟩
  · intro p hp hk
    have hf0 : getFirstChildNode p d = none := hi.linked.firstNode_none hp.1 hk
    have hfc : getFirstChild p d = 0 := by unfold getFirstChild; rw [hf0]
    have hz : getNext d.nodes.length d = 0 := by unfold getNext; rw [hnext]
    refine ⟨dangling p d, ?_, ?_, rfl, ?_, ?_⟩
    · unfold appendHTML
      rw [hb]
      simp only [Out.bind_ok, Bool.not_true, Bool.false_eq_true, if_false, hfc, Nat.lt_irrefl, gt_iff_lt]
      unfold appendUpdateReferences connectOthers
      rw [hf0]
      simp only [connectLoop]
      rw [if_neg]
      · rfl
      · show ¬ getNext d.nodes.length d > 0
        omega
    · unfold prependHTML
      rw [hb]
      simp only [Out.bind_ok, Bool.not_true, Bool.false_eq_true, if_false, hfc, Nat.lt_irrefl, gt_iff_lt]
      unfold prependUpdateReferences connectOthers
      rw [hf0]
      simp only [connectLoop]
      rw [if_neg]
      · rfl
      · show ¬ getNext d.nodes.length d > 0
        omega
    · have hfst : getFirstChild p (dangling p d) =
          d.nodes.length := by
        unfold getFirstChild getFirstChildNode dangling
        have hf0 : d.fc.findIdx? (·.1 == p) = none := hf0
        rw [show (d.fc ++ [(p, d.nodes.length)]).findIdx? (·.1 == p) = some d.fc.length by
          rw [List.findIdx?_append, hf0]; simp]
        simp [rowAt]
      obtain ⟨k, hkl⟩ : ∃ k, d.nodes.length = k + 2 := ⟨d.nodes.length - 2, by have := hi.linked.two; omega⟩
      unfold kids
      rw [hfst]
      show chainFrom _ d.nodes.length _ = _
      have hz' : getNext d.nodes.length (dangling p d) = 0 := hz
      generalize dangling p d = g at hz' ⊢
      rw [hkl] at hz' ⊢
      simp [chainFrom, hz']
    · intro q hq
      have hfst : getFirstChild q (dangling p d) =
          getFirstChild q d := by
        unfold getFirstChild getFirstChildNode dangling
        dsimp only
        rw [List.findIdx?_append]
        cases hx : d.fc.findIdx? (·.1 == q) with
        | none => simp [Ne.symm hq]
        | some i =>
          have hlt := (List.findIdx?_eq_some_iff_getElem.1 hx).1
          simp [rowAt, List.getD, hlt, List.getElem?_append_left hlt]
      have hchain : ∀ f c, chainFrom (dangling p d) f c = chainFrom d f c := by
        intro f
        induction f with
        | zero => intro c; rfl
        | succ f ih =>
          intro c
          simp only [chainFrom]
          split
          · rfl
          · rw [ih]; rfl
      unfold kids
      rw [hfst, hchain]
      rfl
  · intro p hp hk
    obtain ⟨c, l, hc⟩ := List.exists_cons_of_ne_nil hk
    have hfc : getFirstChild p d = c := by rw [hi.linked.getFirstChild_eq hp.1, hc]; rfl
    have hcr := hi.linked.range p c (by rw [hc]; simp)
    refine ⟨?_, ?_⟩
    · unfold appendHTML
      rw [hb]
      simp only [Out.bind_ok, Bool.not_true, Bool.false_eq_true, if_false, hfc]
      rw [if_pos (by omega), hlast]
      simp only [Out.bind_ok]
      rw [hnode]; rfl
    · unfold prependHTML
      rw [hb]
      simp only [Out.bind_ok, Bool.not_true, Bool.false_eq_true, if_false, hfc]
      rw [if_pos (by omega), hlast]
      simp only [Out.bind_ok]
      rw [hnode]; rfl
  · intro n
    unfold replaceWithHTML
    rw [hb]
    simp only [Out.bind_ok, Bool.not_true, Bool.false_eq_true, if_false]
    rw [hlast]
    simp only [Out.bind_ok, gt_iff_lt, Nat.lt_irrefl, if_false]
    unfold tryMergeBothSides
    rw [hnode]; rfl

/-- C28 exactly: below a node without children the insertion functions link the identifier the next created node
will get and return it, although no such node exists; the nodes and all other child lists are unchanged.  Below a node
with children, and as a replacement, they read a node beyond the end of the node table. -/
theorem C28_exact_partial (html : Str) (hb : Blank html) (d : Dom) (h : Reachable d) (junk : Nat → Out Bool) :
    (∀ p, IsNode d p → kids d p = [] →
      (∃ d', appendHTML junk p html d = .ok (d.nodes.length, d') ∧ prependHTML junk p html d = .ok (d.nodes.length, d') ∧
        d'.nodes = d.nodes ∧ kids d' p = [d.nodes.length] ∧ ∀ q, q ≠ p → kids d' q = kids d q)) ∧
    (∀ p, IsNode d p → kids d p ≠ [] →
      appendHTML junk p html d = .ub .oobIndex ∧ prependHTML junk p html d = .ub .oobIndex) ∧
    (∀ n, replaceWithHTML junk n html d = .ub .oobIndex) :=
  emptyFrag_exact html d h junk (parseExtra_blank hb junk d)

/-- non-vacuity: a comment and spaces, in a document with a childless and a non-childless element. -/
example : Blank b!" <!-- no --> " ∧ ∃ d, Reachable d ∧ IsNode d 2 ∧ kids d 2 = [3] ∧ IsNode d 3 ∧ kids d 3 = [] := by
  obtain ⟨d, h, hd⟩ := someAnd_ex (x := createDom b!"<p><b></b></p>")
    (p := fun d => decide (d.nodes.length = 4 ∧ kids d 2 = [3] ∧ kids d 3 = [])) (by decide +kernel)
  have := of_decide_eq_true hd
  refine ⟨?_, d, .parsed h, ⟨by omega, by omega⟩, this.2.1, ⟨by omega, by omega⟩, this.2.2⟩
  exact .space (Or.inl rfl) (.comment (body := b!" no ") (by decide) (.space (Or.inl rfl) .nil))

end Flo
