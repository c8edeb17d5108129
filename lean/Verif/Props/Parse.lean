import Verif.Proofs.CreateDom
import Verif.Proofs.Sat
/-!
# Properties of `flo_html_createDom`
-/
namespace Flo
open Spec

/-! ## C01: parsing terminates -/

/-- `createDom` never runs out of the loop fuel it is given: every loop of the parser finishes, on every
input.  (The fuel of each loop is the length of the input plus one.) -/
theorem C01_createDom_terminates (s : Str) : createDom s ≠ .hang := (createDom_post s).ne_hang

/-- The same for the fragment parser, on every DOM and whatever the out-of-bounds stack read yields. -/
theorem C01_parseExtra_terminates (junk : Nat → Out Bool) (hj : ∀ i, junk i ≠ .hang) (s : Str) (d : Dom) :
    parseExtra junk s d ≠ .hang := by
  refine (parse_trace (E := AnyUB) (fun _ i => ?_) (fun _ _ => trivial)).ne_hang
  have := hj i
  cases h : junk i <;> simp_all [AnyUB]

/-- non-vacuity: a run that returns a document with nested elements, attributes, text and a comment. -/
example : ∃ d, createDom b!"<div a=\"b\"><!-- c --><p>x</p>y</div>" = .ok (some d) ∧ decide (d.nodes.length = 6) = true :=
  someAnd_ex (by decide +kernel)

/-! ## C02: reads stay inside the input -/

/-- The property fails: a quote that opens an attribute as the very last byte makes the parser build a
string of length -1. -/
theorem C02_violated : createDom b!"<a \"" = .ub .negLen := by decide +kernel

/-- What holds: the only undefined behaviour of `createDom` is that negative length, and it needs the input to
end in a quote character.  Missing from the full property: inputs ending in a quote. -/
theorem C02_createDom_reads_in_bounds_partial (s : Str) (w : Why) (h : createDom s = .ub w) :
    w = .negLen ∧ ∃ t, s = t ++ [34] ∨ s = t ++ [39] := by
  have := createDom_post s
  rw [h] at this
  obtain ⟨h1, p, q, h2, h3⟩ := this
  refine ⟨h1, p, ?_⟩
  rcases h3 with rfl | rfl
  · exact Or.inr h2
  · exact Or.inl h2

/-- In particular nothing is read outside the input when it does not end in a quote. -/
theorem C02_no_ub_partial (s : Str) (hs : s.getLast? ≠ some 34 ∧ s.getLast? ≠ some 39) (w : Why) :
    createDom s ≠ .ub w := by
  intro h
  obtain ⟨_, t, e | e⟩ := C02_createDom_reads_in_bounds_partial s w h
  · exact hs.1 (by rw [e]; simp)
  · exact hs.2 (by rw [e]; simp)

example : (b!"<a b=\"c\">").getLast? ≠ some 34 ∧ (b!"<a b=\"c\">").getLast? ≠ some 39 := by decide

/-! ## C03: NULL on excessive nesting -/

/-- If `createDom` returns NULL then the document built so far contains an element 256 levels below the root. -/
theorem C03_null_means_too_deep (s : Str) (h : createDom s = .ok none) :
    ∃ d n, parseRoot (fun _ => .ub .oobIndex) s Dom.init = .ok ⟨false, d⟩ ∧ Depth d n 256 := by
  obtain ⟨d, ch, h1, h2⟩ := createDom_null h
  obtain ⟨n, hn⟩ := h2.deep
  exact ⟨d, n, h1, (depth_iff h2.linked).mpr hn⟩

/-- If it returns a document, no node is more than 256 levels below the root and no node with children more
than 255. -/
theorem C03_success_bounds_depth (s : Str) (d : Dom) (h : createDom s = .ok (some d)) (n k : Nat)
    (hd : Depth d n k) : k ≤ 256 ∧ (kids d n ≠ [] → k ≤ 255) := by
  obtain ⟨b, ch, rfl, hb⟩ := createDom_ok h
  have hle : ∀ m j, Depth b.dom m j → j ≤ 256 := fun m j hm => by
    have := hb.depLe m j ((depth_iff hb.linked).mp hm); omega
  refine ⟨hle n k hd, fun hk => ?_⟩
  obtain ⟨c, hc⟩ := List.exists_mem_of_ne_nil _ hk
  have := hle c (k + 1) (.child hd hc)
  omega

/-- States at the head of the parser's main loop when `createDom` parses `s`. -/
inductive ParseReach (s : Str) : PState → Prop
  | start : ParseReach s { idx := skipSpace s 0, dom := Dom.init, stack := [(rootID, [])], prev := rootID }
  | step {st st' : PState} : ParseReach s st → st.idx < s.length →
      parseStep (fun _ => .ub .oobIndex) s 1 st = .ok (.next st') → ParseReach s st'

/-- The nesting stack always has between 1 and 256 entries: its 256 slots are never exceeded and the read of
its top is never outside. -/
theorem C03_stack_in_bounds (s : Str) (st : PState) (h : ParseReach s st) :
    1 ≤ st.stack.length ∧ st.stack.length ≤ 256 := by
  induction h with
  | start => simp
  | @step st st' _ hlt hs ih =>
    obtain ⟨h1, h2⟩ := ih
    unfold parseStep at hs
    have htext : ∀ i, parseText s i st = .ok (.next st') → st'.stack = st.stack := by
      intro i hh
      simp only [parseText, Out.bind_eq_ok] at hh
      obtain ⟨⟨a, b, c⟩, _, hh⟩ := hh
      cases hh; rfl
    split at hs
    · simp only [Out.bind_eq_ok] at hs
      obtain ⟨cmt, _, hs⟩ := hs
      split at hs
      · simp only [Out.bind_eq_ok] at hs
        obtain ⟨i, _, hs⟩ := hs
        cases hs; exact ⟨h1, h2⟩
      · simp only [Out.bind_eq_ok] at hs
        obtain ⟨e, _, hs⟩ := hs
        split at hs
        · unfold parseEndTag at hs
          dsimp only at hs
          split at hs
          · rename_i id tg rest hst
            rw [hst] at h1 h2 hs
            split at hs
            · rename_i hl
              cases hs; simp at hl h2 ⊢; omega
            · cases hs; exact ⟨h1, h2⟩
          · cases hs; exact ⟨h1, h2⟩
        · split at hs
          · simp only [parseElement, Out.bind_eq_ok] at hs
            obtain ⟨r, _, hs⟩ := hs
            split at hs
            · split at hs
              · cases hs
              · rename_i hl
                cases hs
                refine ⟨by simp, Nat.lt_of_not_le hl⟩
            · cases hs; exact ⟨h1, h2⟩
          · rw [htext _ hs]; exact ⟨h1, h2⟩
    · rw [htext _ hs]; exact ⟨h1, h2⟩

/-- non-vacuity of the NULL case: 256 nested elements. -/
example : createDom (List.replicate 256 b!"<b>").flatten = .ok none := by decide +kernel
example : ∃ d, createDom b!"<a><b>x</b></a>" = .ok (some d) ∧ decide (kids d 2 = [3]) = true :=
  someAnd_ex (by decide +kernel)

/-! ## C04: the parsed document is a tree -/

/-- After a successful parse the navigation functions agree with one forest of child lists (see `NavOK`), every
node created hangs in the document, and it is in the child list of exactly one node. -/
theorem C04_parsed_tree (s : Str) (d : Dom) (h : createDom s = .ok (some d)) :
    NavOK d ∧ ∀ n, 2 ≤ n → n < d.nodes.length → Live d n ∧ ∃ p, n ∈ kids d p ∧ ∀ q, n ∈ kids d q → q = p := by
  obtain ⟨b, ch, rfl, hb⟩ := createDom_ok h
  have hl := hb.linked
  have hnav := hl.navOK
  refine ⟨hnav, fun n h2 hn => ?_⟩
  have hN := hl.two
  have hlive : LiveC ch 1 n := by
    rw [LiveC.mem_pre hl.up (N := b.dom.nodes.length) (by omega), hb.order, List.mem_cons, List.mem_range'_1]
    right
    simp [Dom.init]; omega
  refine ⟨(live_iff hl).mpr hlive, ?_⟩
  cases hlive with
  | root => omega
  | child hp hc =>
    rename_i p
    have hpge := hp.ge hl.up
    have hk : n ∈ kids b.dom p := by rw [hl.kids_eq (by omega)]; exact hc
    exact ⟨p, hk, fun q hq => hnav.disjoint q p n hq hk⟩

/-! ## C05: identifiers are document order -/

/-- Iterating `traverseDom` from the root visits 1, 2, 3, ..., in this order, and every identifier. -/
theorem C05_document_order (s : Str) (d : Dom) (h : createDom s = .ok (some d)) :
    walkFrom (fun c => traverseDom c d) d.nodes.length rootID = .ok (List.range' 1 (d.nodes.length - 1)) := by
  obtain ⟨b, ch, rfl, hb⟩ := createDom_ok h
  have hl := hb.linked
  have hN := hl.two
  rw [walkDom hl (Nat.le_refl _), preorder_eq hl (p := 1) (by omega) (by omega), hb.order]
  simp [Dom.init]
  rw [show b.dom.nodes.length - 1 = (b.dom.nodes.length - 2) + 1 by omega, List.range'_succ]

example : ∃ d, createDom b!"<a><b>x</b>y</a><!doctype>z" = .ok (some d) ∧ decide (d.nodes.length = 8) = true :=
  someAnd_ex (by decide +kernel)

/-! ## C06: parsed text is normalised -/

theorem C06_text_normal (s : Str) (d : Dom) (h : createDom s = .ok (some d)) (n : Nat) (t : Str)
    (ht : textOf d n = some t) : NormalText t := by
  obtain ⟨b, ch, rfl, hb⟩ := createDom_ok h
  have hn : n < b.dom.nodes.length := by
    unfold textOf at ht
    split at ht
    · rename_i h1; exact lt_of_some h1
    · cases ht
  have h2 : 2 ≤ n := by
    by_contra hlt
    have hpre := hb.old
    obtain ⟨x, hx⟩ := hpre
    have : b.dom.nodes[n]? = Dom.init.nodes[n]? := by
      rw [← hx, List.getElem?_append_left (by simp [Dom.init]; omega)]
    unfold textOf at ht
    rw [this] at ht
    have : n = 0 ∨ n = 1 := by omega
    rcases this with rfl | rfl <;> simp [Dom.init] at ht
  rcases hb.new n h2 hn with ⟨raw, h1, h3⟩ | ⟨name, h1, _⟩
  · rw [ht] at h1; cases h1; exact h3.normal
  · unfold textOf at ht
    unfold tagOf at h1
    split at ht
    · rename_i h4; rw [h4] at h1; simp at h1
    · cases ht

example : ∃ d, createDom b!"<a>  x\n\n y  z </a>" = .ok (some d) ∧ decide (textOf d 3 = some b!"x y z") = true :=
  someAnd_ex (by decide +kernel)

/-! ## C08: void elements get no children -/

/-- The void element names (HTML syntax). -/
def Spec.voidNames : List Str :=
  [b!"area", b!"base", b!"br", b!"col", b!"embed", b!"hr", b!"img", b!"input", b!"link", b!"meta",
   b!"source", b!"track", b!"wbr"]

theorem C08_void_no_children (s : Str) (d : Dom) (h : createDom s = .ok (some d)) (n : Nat) (name : Str)
    (hn : tagOf d n = some name) (hv : name ∈ Spec.voidNames ∨ name.head? = some 33) : kids d n = [] := by
  obtain ⟨b, ch, rfl, hb⟩ := createDom_ok h
  have hl := hb.linked
  by_cases hn0 : n = 0
  · subst hn0; exact hl.kids_zero
  rw [hl.kids_eq hn0]
  by_contra hne
  have h2 : 2 ≤ n := by
    by_contra hlt
    have : n = 1 := by omega
    subst this
    obtain ⟨x, hx⟩ := hb.old
    have : b.dom.nodes[1]? = Dom.init.nodes[1]? := by
      rw [← hx, List.getElem?_append_left (by simp [Dom.init])]
    unfold tagOf at hn
    rw [this] at hn
    simp [Dom.init] at hn
  obtain ⟨nm, h3, h4⟩ := hb.inner n h2 hne
  rw [hn] at h3; cases h3
  obtain ⟨h5, c, rest, h6, h7⟩ := h4
  rcases hv with hv | hv
  · have : isVoidElement name = true := by
      simp only [isVoidElement, List.any_eq_true]
      exact ⟨name, hv, by simp [strEq]⟩
    rw [this] at h5; cases h5
  · rw [h6] at hv
    simp at hv
    rw [hv] at h7
    revert h7; decide

example : ∃ d, createDom b!"<br>x<img a=b/>y" = .ok (some d) ∧ decide (tagOf d 2 = some b!"br" ∧
    tagOf d 4 = some b!"img") = true :=
  someAnd_ex (by decide +kernel)

end Flo
