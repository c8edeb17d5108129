import Verif.Proofs.Broken
import Verif.Props.Source
/-!
# Markup errors (C76)

`Item`, `Items`, `Tail` (Spec/Broken.lean) are HTML with the errors authors make; `render` is its text, `trees` the document that
comes out, `Clean` says which texts are meant; none of these refers to the parser.
-/
namespace Flo
open Spec

/-- C76: source with stray `<`, wrong end tags, end tags outside of elements and missing end tags parses, and the document is
the one described by `trees`. -/
theorem C76_parse_broken (lead : Str) (ks : Items) (tl : Tail) (hl : Blank lead) (hk : ks.Clean none) (ht : tl.Clean)
    (hd : max ks.depth tl.depth ≤ 255) (hlen : (lead ++ ks.render ++ tl.render).length ≤ 65533) :
    ∃ d, createDom (lead ++ ks.render ++ tl.render) = .ok (some d) ∧ RepL d (ks.trees ++ tl.trees) (kids d 1) := by
  rcases createDom_broken hl hk ht hd with h | h
  · exact absurd h (createDom_nj hlen)
  · exact h

/-- C76, without the bound on the size: the only other outcome is the failure exit for lack of identifiers. -/
theorem C76_parse_broken_any_size (lead : Str) (ks : Items) (tl : Tail) (hl : Blank lead) (hk : ks.Clean none) (ht : tl.Clean)
    (hd : max ks.depth tl.depth ≤ 255) :
    createDom (lead ++ ks.render ++ tl.render) = .longjmp ∨
    ∃ d, createDom (lead ++ ks.render ++ tl.render) = .ok (some d) ∧ RepL d (ks.trees ++ tl.trees) (kids d 1) :=
  createDom_broken hl hk ht hd

/-- C76, a special case spelled out: an end tag `</name>` inside an element of another name does not close it; it becomes text,
together with the word behind it, and the element goes on up to its own end tag. -/
theorem C76_mismatched_end_tag (tag name word : Str) (ht : TagName tag) (hn : ¬NeverContent tag) (hname : ∀ c ∈ name, c ≠ 60 ∧ c ≠ 9 ∧ c ≠ 10 ∧ c ≠ 13 ∧ c ≠ 32)
    (hword : ∀ c ∈ word, c ≠ 60 ∧ c ≠ 9 ∧ c ≠ 10 ∧ c ≠ 13 ∧ c ≠ 32) (hdf : Differs tag (name ++ b!">")) (hlen : 2 * tag.length + name.length + word.length ≤ 65000) :
    ∃ d, createDom (b!"<" ++ tag ++ b!"></" ++ name ++ b!">" ++ word ++ b!"</" ++ tag ++ b!">") = .ok (some d) ∧
      RepL d [.elem tag [] [] [.text (b!"/" ++ name ++ b!">" ++ word)]] (kids d 1) := by
  have hst : Stretch (b!"/" ++ name ++ b!">" ++ word) := by
    refine stretch_word 47 (name ++ b!">" ++ word) (by simp) fun c hc => ?_
    simp at hc
    rcases hc with rfl | hc | rfl | hc
    · decide
    · exact hname c hc
    · decide
    · exact hword c hc
  have := C76_parse_broken [] (.cons (.paired tag [] [] [] (.cons (.stray [] (b!"/" ++ name ++ b!">" ++ word) []) [] .nil) []) [] .nil) .done
    .nil ?_ trivial (by simp [Items.depth, Item.depth, Tail.depth]) ?_
  · simpa [Items.render, Item.render, Tail.render, Items.trees, Item.trees, Tail.trees, stretches, joined] using this
  · simp only [Items.Clean, Item.Clean]
    refine ⟨⟨ht, by simp, by simp [Spaces], hn, .nil, ⟨⟨by simp [Spaces], hst, by simp, fun _ => ?_⟩, .nil, trivial, fun _ => id⟩, by simp⟩,
      .nil, trivial, fun h => h.elim⟩
    refine ⟨47, name ++ b!">" ++ word, by simp, by decide, by decide, fun _ => ⟨tag, rfl, ?_⟩⟩
    obtain ⟨p, x, y, r, r', h1, h2, h3⟩ := hdf
    exact ⟨p, x, y, r, r' ++ word, h1, h2, by rw [h3]; simp⟩
  · simp [Items.render, Item.render, Tail.render, stretches]; omega

/-- The general case at work: `</q>a < b<div><p>x</b> y<!--c--></p z></q> <<i/></div ><ul><li>1<li>2` -/
def brokenSrc : Items :=
  .cons (.skipped b!"q") []
  (.cons (.text b!"a" []) b!" "
  (.cons (.stray b!" " b!"b" []) []
  (.cons (.paired b!"div" [] [] []
    (.cons (.paired b!"p" [] [] [] (.cons (.text b!"x" []) [] (.cons (.stray [] b!"/b>" [(b!" ", b!"y")]) b!"<!--c-->" .nil)) b!" z") []
    (.cons (.stray [] b!"/q>" []) b!" " (.cons .lone [] (.cons (.single b!"i" [] [] true) [] .nil)))) b!" ") [] .nil)))

def brokenTail : Tail :=
  .opened b!"ul" [] [] [] .nil (.opened b!"li" [] [] [] (.cons (.text b!"1" []) [] .nil)
    (.opened b!"li" [] [] [] (.cons (.text b!"2" []) [] .nil) .done))

theorem tagName_of (t : Str) (c : UInt8) (r : Str) (e : t = c :: r)
    (h : (isAlphabetical c = true ∨ c = 33) ∧ (∀ c ∈ t, c ≠ 32 ∧ c ≠ 9 ∧ c ≠ 10 ∧ c ≠ 13 ∧ c ≠ 62) ∧ t.getLast? ≠ some 47 ∧ (b!"!--").isPrefixOf t = false) :
    TagName t := by
  refine ⟨⟨c, r, e, h.1⟩, fun x hx => ?_, h.2.2.1, fun hp => ?_⟩
  · have := h.2.1 x hx
    exact ⟨by rintro (e | e | e | e) <;> subst e <;> simp at this, this.2.2.2.2⟩
  · have := List.isPrefixOf_iff_prefix.mpr hp
    rw [h.2.2.2] at this; cases this

theorem never_of (t : Str) (h : (∀ x ∈ [b!"area", b!"base", b!"br", b!"col", b!"embed", b!"hr", b!"img", b!"input", b!"link", b!"meta",
   b!"source", b!"track", b!"wbr"], t ≠ x) ∧ t.head? ≠ some 33) : ¬NeverContent t := by
  rintro (hm | hm)
  · exact h.1 t hm rfl
  · exact h.2 hm

theorem brokenSrc_clean : brokenSrc.Clean none ∧ brokenTail.Clean := by
  have w : ∀ (t : Str) (c : UInt8) (r : Str), t = c :: r → (∀ c ∈ t, c ≠ 60 ∧ c ≠ 9 ∧ c ≠ 10 ∧ c ≠ 13 ∧ c ≠ 32) → Stretch t :=
    fun t c r => stretch_word c r
  have sp : Blank b!" " := .space (Or.inl rfl) .nil
  have s0 : Spaces [] := by simp [Spaces]
  have hdiv : TagName b!"div" := tagName_of _ _ _ rfl (by decide)
  have hp : TagName b!"p" := tagName_of _ _ _ rfl (by decide)
  have hi : TagName b!"i" := tagName_of _ _ _ rfl (by decide)
  have hul : TagName b!"ul" := tagName_of _ _ _ rfl (by decide)
  have hli : TagName b!"li" := tagName_of _ _ _ rfl (by decide)
  constructor
  · simp only [brokenSrc, Items.Clean, Item.Clean]
    refine ⟨⟨trivial, by decide⟩, .nil, ⟨⟨w _ _ _ rfl (by decide), by simp⟩, sp, ⟨⟨by intro c hc; simp at hc; exact Or.inl hc, w _ _ _ rfl (by decide), by simp,
      by simp⟩, .nil, ⟨⟨hdiv, by simp, s0, never_of _ (by decide), .nil, ⟨⟨hp, by simp, s0, never_of _ (by decide), .nil, ⟨⟨w _ _ _ rfl (by decide), by simp⟩, .nil,
        ⟨⟨s0, w _ _ _ rfl (by decide), ?_, ?_⟩, ?_, trivial, fun _ => id⟩, fun _ => id⟩, by decide⟩, .nil,
        ⟨⟨s0, w _ _ _ rfl (by decide), by simp, ?_⟩, sp, ⟨trivial, .nil, ⟨⟨hi, by simp, s0, fun _ => Or.inr (by simp), by simp⟩, .nil, trivial, fun h => h.elim⟩,
          fun _ => id⟩, fun _ => id⟩, fun h => h.elim⟩, by decide⟩, .nil, trivial, fun h => h.elim⟩, fun _ => id⟩, fun _ => id⟩, fun h => h.elim⟩
    · intro m hm
      simp at hm; subst hm
      exact ⟨sp, by simp, w _ _ _ rfl (by decide)⟩
    · intro _
      exact ⟨47, b!"b>", rfl, by decide, by decide, fun _ => ⟨_, rfl, [], 112, 98, [], b!">", by decide, rfl, rfl⟩⟩
    · exact .comment (body := b!"c") (not_infix_of_decide (by decide)) .nil
    · intro _
      exact ⟨47, b!"q>", rfl, by decide, by decide, fun _ => ⟨_, rfl, [], 100, 113, b!"iv", b!">", by decide, rfl, rfl⟩⟩
  · simp only [brokenTail, Tail.Clean, Items.Clean, Item.Clean]
    exact ⟨hul, by simp, s0, never_of _ (by decide), .nil, trivial, hli, by simp, s0, never_of _ (by decide), .nil,
      ⟨⟨w _ _ _ rfl (by decide), by simp⟩, .nil, trivial, fun _ => id⟩, hli, by simp, s0, never_of _ (by decide), .nil,
      ⟨⟨w _ _ _ rfl (by decide), by simp⟩, .nil, trivial, fun _ => id⟩, trivial⟩

example : brokenSrc.Clean none ∧ brokenTail.Clean ∧ max brokenSrc.depth brokenTail.depth = 3 ∧
    brokenSrc.render ++ brokenTail.render = b!"</q>a < b<div><p>x</b> y<!--c--></p z></q> <<i/></div ><ul><li>1<li>2" ∧
    brokenSrc.trees ++ brokenTail.trees =
      [.text b!"a", .text b!" b", .elem b!"div" [] [] [.elem b!"p" [] [] [.text b!"x", .text b!"/b> y"], .text b!"/q>", .text [], .elem b!"i" [] [] []],
       .elem b!"ul" [] [] [.elem b!"li" [] [] [.text b!"1", .elem b!"li" [] [] [.text b!"2"]]]] :=
  ⟨brokenSrc_clean.1, brokenSrc_clean.2, rfl, rfl, rfl⟩

end Flo
