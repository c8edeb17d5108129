import Verif.Proofs.Reference
import Verif.Props.Forms
import Verif.Props.Print
import Verif.Props.Broken
/-!
# What every input means (C93; C02, C03, C54, C55, C74 for every input)

`outcome s` (`Spec/Reference.lean`) is the answer of a second, independent reader of HTML that is defined on every string.
-/
namespace Flo
open Spec

/-- Every input of at most 65533 bytes, well formed or not, yields what the reference reader says: a document with exactly
these trees, NULL, or a read outside the input. -/
theorem C93_every_input (s : Str) (hlen : s.length ≤ 65533) :
    match outcome s with
    | .document ts => ∃ d, createDom s = .ok (some d) ∧ RepL d ts (kids d 1)
    | .null => createDom s = .ok none
    | .outside => createDom s = .ub .negLen := by
  rcases createDom_ref s with h | h
  · exact absurd h (createDom_nj hlen)
  · cases ho : outcome s with
    | document ts =>
      rw [ho] at h
      obtain ⟨d, h1, h2, _⟩ := h
      exact ⟨d, h1, h2⟩
    | null => rw [ho] at h; exact h
    | outside => rw [ho] at h; exact h

/-- The same for inputs of any size, unless the failure exit is taken because a table is full. -/
theorem C93_any_size (s : Str) : createDom s = .longjmp ∨
    match outcome s with
    | .document ts => ∃ d, createDom s = .ok (some d) ∧ RepL d ts (kids d 1)
    | .null => createDom s = .ok none
    | .outside => createDom s = .ub .negLen := by
  rcases createDom_ref s with h | h
  · exact Or.inl h
  · right
    cases ho : outcome s with
    | document ts =>
      rw [ho] at h
      obtain ⟨d, h1, h2, _⟩ := h
      exact ⟨d, h1, h2⟩
    | null => rw [ho] at h; exact h
    | outside => rw [ho] at h; exact h

/-- Whatever document is returned, it has the trees of the reference reader and no others. -/
theorem C93_returned (s : Str) (d : Dom) (h : createDom s = .ok (some d)) :
    ∃ ts, outcome s = .document ts ∧ ∀ ts', RepL d ts' (kids d 1) ↔ ts' = ts := by
  rcases C93_any_size s with h' | h'
  · rw [h] at h'; cases h'
  · cases ho : outcome s with
    | document ts =>
      rw [ho] at h'
      obtain ⟨d', h1, h2⟩ := h'
      rw [h] at h1
      cases h1
      exact ⟨ts, rfl, fun ts' => ⟨fun hr => RepL.unique _ _ _ hr h2, fun e => e ▸ h2⟩⟩
    | null => rw [ho, h] at h'; cases h'
    | outside => rw [ho, h] at h'; cases h'

/-- Two inputs that mean the same to the reference reader give documents with the same trees. -/
theorem C93_same_meaning (s s' : Str) (he : (docTokens s).1 = (docTokens s').1) (d d' : Dom) (h : createDom s = .ok (some d))
    (h' : createDom s' = .ok (some d')) (ts : List Tree) : RepL d ts (kids d 1) ↔ RepL d' ts (kids d' 1) := by
  obtain ⟨t1, e1, g1⟩ := C93_returned s d h
  obtain ⟨t2, e2, g2⟩ := C93_returned s' d' h'
  have : t1 = t2 := by
    unfold outcome at e1 e2
    split at e1
    · cases e1
    · split at e1
      · cases e1
      · split at e2
        · cases e2
        · split at e2
          · cases e2
          · cases e1; cases e2; rw [he]
  rw [g1, g2, this]

/-- C02, exactly: the inputs on which `createDom` reads outside the input are those that end, within a start tag, in a quote
that opens an attribute name or value (and do not nest too deeply before). -/
theorem C02_exact_partial (s : Str) (hlen : s.length ≤ 65533) :
    (∃ w, createDom s = .ub w) ↔ nestsBeyond 255 0 (docTokens s).1 = false ∧ (docTokens s).2 = true := by
  have hc := C93_every_input s hlen
  unfold outcome at hc
  cases h1 : nestsBeyond 255 0 (docTokens s).1 with
  | true =>
    rw [h1, if_pos rfl] at hc
    have hc : createDom s = .ok none := hc
    rw [hc]; simp
  | false =>
    rw [h1, if_neg (by simp)] at hc
    cases h2 : (docTokens s).2 with
    | true =>
      rw [h2, if_pos rfl] at hc
      have hc : createDom s = .ub .negLen := hc
      rw [hc]; simp
    | false =>
      rw [h2, if_neg (by simp)] at hc
      obtain ⟨d, hc, _⟩ : ∃ d, createDom s = .ok (some d) ∧ RepL d _ (kids d 1) := hc
      rw [hc]; simp

/-- C03, exactly: NULL is returned for the inputs in which a start tag of an element with content stands within 255 open
elements. -/
theorem C03_exact (s : Str) (hlen : s.length ≤ 65533) :
    createDom s = .ok none ↔ nestsBeyond 255 0 (docTokens s).1 = true := by
  have hc := C93_every_input s hlen
  unfold outcome at hc
  cases h1 : nestsBeyond 255 0 (docTokens s).1 with
  | true =>
    rw [h1, if_pos rfl] at hc
    have hc : createDom s = .ok none := hc
    rw [hc]; simp
  | false =>
    rw [h1, if_neg (by simp)] at hc
    cases h2 : (docTokens s).2 with
    | true =>
      rw [h2, if_pos rfl] at hc
      have hc : createDom s = .ub .negLen := hc
      rw [hc]; simp
    | false =>
      rw [h2, if_neg (by simp)] at hc
      obtain ⟨d, hc, _⟩ : ∃ d, createDom s = .ok (some d) ∧ RepL d _ (kids d 1) := hc
      rw [hc]; simp

/-- C74 for every input: the form on record for a name is the one of its first use. -/
theorem C74_every_input (s : Str) (d : Dom) (h : createDom s = .ok (some d)) (tag : Str) :
    formOf d tag = firstForm (tokenForms (docTokens s).1) tag := by
  rcases createDom_ref s with h' | h'
  · rw [h] at h'; cases h'
  · cases ho : outcome s with
    | document ts =>
      rw [ho] at h'
      obtain ⟨d', h1, _, h2⟩ := h'
      rw [h] at h1
      cases h1
      rw [h2.2]
      rfl
    | null => rw [ho, h] at h'; cases h'
    | outside => rw [ho, h] at h'; cases h'

/-- C54 for every input: what is printed for the document it yields. -/
theorem C54_every_input_partial (s : Str) (d : Dom) (h : createDom s = .ok (some d)) :
    printHTML d = .ok (printAll (fun tag => (firstForm (tokenForms (docTokens s).1) tag).getD false) (treesOf (docTokens s).1)) := by
  obtain ⟨ts, ho, hts⟩ := C93_returned s d h
  have hi := (reach_domI (.parsed h)).1
  have e : pairedTag d = fun tag => (firstForm (tokenForms (docTokens s).1) tag).getD false := by
    funext tag
    rw [← C74_every_input s d h tag]
    unfold pairedTag formOf firstForm
    cases (d.tagReg.drop 1).find? (fun r => r.1 == tag) <;> rfl
  have ht : ts = treesOf (docTokens s).1 := by
    unfold outcome at ho
    split at ho
    · cases ho
    · split at ho
      · cases ho
      · cases ho; rfl
  rw [printHTML_forest hi ((hts ts).mpr rfl), e, ht]

/-- C55 for every input: printing the document of `s` and parsing the text again gives the same trees exactly when the
reference reader reads them in the printed text; otherwise, what it reads there. -/
theorem C55_exact_partial (s : Str) (d : Dom) (h : createDom s = .ok (some d)) (t : Str) (ht : printHTML d = .ok t)
    (hlen : t.length ≤ 65533) :
    (∃ d', createDom t = .ok (some d') ∧ RepL d' (treesOf (docTokens s).1) (kids d' 1)) ↔
      outcome t = .document (treesOf (docTokens s).1) := by
  have hc := C93_every_input t hlen
  constructor
  · rintro ⟨d', h1, h2⟩
    obtain ⟨ts, ho, hts⟩ := C93_returned t d' h1
    rw [ho, (hts _).mp h2]
  · intro ho
    rw [ho] at hc
    exact hc

/-! ## Concrete inputs -/

example : outcome b!"<p>a<!-- c -->b<br>\n</q> c</p><" = .document
    [.elem b!"p" [] [] [.text b!"a b", .elem b!"br" [] [] [], .text b!"/q> c"], .text []] := rfl
example : outcome b!"<a b=\"1\" c d='>' / e>x < 2" = .document
    [.elem b!"a" [(b!"b", b!"1"), (b!"d", b!">")] [b!"c", b!"e"] [], .text b!"x", .text b!" 2"] := rfl
example : outcome b!"</x>y<script>if(a<b)c</script>" = .document
    [.text b!"y", .elem b!"script" [] [] [.text b!"if(a", .elem b!"b)c</script" [] [] []]] := rfl
example : outcome b!"<a \"" = .outside := rfl
example : outcome b!"<a b=\"x" = .document [.elem b!"a" [(b!"b", [])] [] []] := rfl
example : ∃ d, createDom b!"<p>a<!-- c -->b<br>\n</q> c</p><" = .ok (some d) := by
  obtain ⟨d, h, _⟩ := C93_every_input b!"<p>a<!-- c -->b<br>\n</q> c</p><" (by decide)
  exact ⟨d, h⟩
/-- 256 nested elements are too many, 255 are not. -/
example : nestsBeyond 255 0 (docTokens ((List.replicate 256 b!"<a>").flatten)).1 = true ∧
    nestsBeyond 255 0 (docTokens ((List.replicate 255 b!"<a>").flatten)).1 = false := by decide +kernel

end Flo
