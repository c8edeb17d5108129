import Verif.Proofs.Concat
import Verif.Props.PageValue
import Verif.Props.Undo
/-!
# Strings one after the other (C117)

`ks` is well-formed source (`Srcs.Clean`), `r` is any string; `outcome` and `fragOutcome` are what comes of a string (C93, C94).
-/
namespace Flo
open Spec

/-- Well-formed source in front of any other input: the document is that of the source followed by that of the other input, and if
the other input is refused or ends in a quote, so is (or does) the whole.  If the source ends in a text, the other input must begin at
a `<`, otherwise the text goes on. -/
theorem C117_outcome (lead : Str) (ks : Srcs) (r : Str) (hl : Blank lead) (hk : ks.Clean) (hd : ks.depth ≤ 255)
    (hr : ks.endsInText = true → AtMarkup r) :
    ((docTokens r).2 = false → outcome (lead ++ ks.render ++ r) = (outcome r).after ks.trees) ∧
    ((docTokens r).2 = true → ∀ ts, outcome (lead ++ ks.render ++ r) ≠ .document ts) := by
  obtain ⟨h1, h2⟩ := Cat.doc_concat hl hk hd hr
  refine ⟨fun h => (h2 h).1, fun h ts e => ?_⟩
  unfold outcome at e
  rw [h1, h] at e
  split at e
  · cases e
  · cases e

/-- The same about the parser: `createDom` of both strings together. -/
theorem C117_parse (lead : Str) (ks : Srcs) (r : Str) (hl : Blank lead) (hk : ks.Clean) (hd : ks.depth ≤ 255)
    (hr : ks.endsInText = true → AtMarkup r) (hlen : (lead ++ ks.render ++ r).length ≤ 65533) (d : Dom) (hp : createDom r = .ok (some d)) :
    ∃ F d', RepL d F (kids d 1) ∧ createDom (lead ++ ks.render ++ r) = .ok (some d') ∧ RepL d' (ks.trees ++ F) (kids d' 1) := by
  obtain ⟨ts, ho, hts⟩ := C93_returned r d hp
  have h0 : (docTokens r).2 = false := by
    unfold outcome at ho
    split at ho
    · cases ho
    · split at ho
      · cases ho
      · rename_i h; simpa using h
  have hc := C93_every_input _ hlen
  rw [(C117_outcome lead ks r hl hk hd hr).1 h0, ho] at hc
  obtain ⟨d', h1, h2⟩ := hc
  exact ⟨ts, d', (hts ts).mpr rfl, h1, h2⟩

/-- A refused input stays refused behind well-formed source. -/
theorem C117_refused (lead : Str) (ks : Srcs) (r : Str) (hl : Blank lead) (hk : ks.Clean) (hd : ks.depth ≤ 255)
    (hr : ks.endsInText = true → AtMarkup r) (hlen : (lead ++ ks.render ++ r).length ≤ 65533) (h0 : (docTokens r).2 = false)
    (hp : createDom r = .ok none) : createDom (lead ++ ks.render ++ r) = .ok none := by
  have ho : outcome r = .null := by
    have hlr : r.length ≤ 65533 := by
      rw [List.length_append] at hlen; omega
    have := C93_every_input r hlr
    cases he : outcome r with
    | null => rfl
    | document ts => rw [he] at this; obtain ⟨d, h1, _⟩ := this; rw [hp] at h1; cases h1
    | outside => rw [he] at this; rw [hp] at this; cases this
  have hc := C93_every_input _ hlen
  rw [(C117_outcome lead ks r hl hk hd hr).1 h0, ho] at hc
  exact hc

/-! ## HTML strings -/

/-- The same about the HTML strings of the editing functions; `answer` as in C94. -/
theorem C117_fragment (answer : Nat → Bool) (lead : Str) (ks : Srcs) (r : Str) (hl : Blank lead) (hk : ks.Clean) (hd : ks.depth ≤ 256)
    (hr : ks.endsInText = true → AtMarkup r) (h0 : (fragTokens (fun i => answer ((lead ++ ks.render).length + i)) r).2 = false) :
    fragOutcome answer (lead ++ ks.render ++ r) = (fragOutcome (fun i => answer ((lead ++ ks.render).length + i)) r).after ks.trees :=
  ((Cat.frag_concat answer hl hk hd hr).2 h0).1

theorem numberAll_isText_last : ∀ (ts : List Tree) (k : Nat), ((numberAll k ts).getLast?.any PTree.isText) = (ts.getLast?.any Tree.isText)
  | [], _ => rfl
  | [t], k => by cases t <;> rfl
  | t :: u :: ts, k => by
    rw [numberAll, numberAll, List.getLast?_cons_cons, List.getLast?_cons_cons, ← numberAll_isText_last (u :: ts) (k + t.size), numberAll]

theorem numberAll_isText_head (ts : List Tree) (k : Nat) : ((numberAll k ts).head?.any PTree.isText) = (ts.head?.any Tree.isText) := by
  cases ts with
  | nil => rfl
  | cons t ts => cases t <;> rfl

/-- Appending two strings together is appending the first and then the second: both ways succeed and lead to documents that show the
same page and print the same, and the value is that of the first call (if that adds a child at all; a single text may be merged into
the last child).  The boundary must not be between two texts. -/
theorem C117_append (d : Dom) (h : Reachable d) (pg : Page) (hs : Shows d pg) (answer : Nat → Bool) (p : Nat) (l : Label)
    (hp : (p, l) ∈ pg.root.entries) (hl : l.isText = false) (lead : Str) (ks : Srcs) (r : Str) (hb : Blank lead) (hk : ks.Clean)
    (hd : ks.depth ≤ 256) (hm : ks.endsInText = true → AtMarkup r) (hne : ks.trees ≠ []) (F : List Tree) (hF : F ≠ [])
    (hrF : fragOutcome (fun i => answer ((lead ++ ks.render).length + i)) r = .document F)
    (hbd : ¬((ks.trees.getLast?.any Tree.isText) = true ∧ (F.head?.any Tree.isText) = true))
    (hroom : Room d (lead ++ ks.render ++ r).length) :
    ∃ v d₁ v₁ d₂ v₂ d₃ pg', appendHTML (fun i => .ok (answer i)) p (lead ++ ks.render ++ r) d = .ok (v, d₁) ∧
      appendHTML (fun i => .ok (answer i)) p (lead ++ ks.render) d = .ok (v₁, d₂) ∧
      appendHTML (fun i => .ok (answer ((lead ++ ks.render).length + i))) p r d₂ = .ok (v₂, d₃) ∧
      Reachable d₁ ∧ Reachable d₃ ∧ Shows d₁ pg' ∧ Shows d₃ pg' ∧ printHTML d₁ = printHTML d₃ ∧
      (kids d₂ p ≠ kids d p → v = v₁) := by
  obtain ⟨o1, n1⟩ := Copy.frag_src answer hb hk hd
  have h0 : (fragTokens (fun i => answer ((lead ++ ks.render).length + i)) r).2 = false := by
    unfold fragOutcome at hrF
    split at hrF
    · cases hrF
    · split at hrF
      · cases hrF
      · rename_i h; simpa using h
  obtain ⟨o2, n2⟩ := (Cat.frag_concat answer (R := r) hb hk hd hm).2 h0
  rw [hrF] at o2
  have o2 : fragOutcome answer (lead ++ ks.render ++ r) = .document (ks.trees ++ F) := o2
  have hroom' : Room d ((lead ++ ks.render).length + r.length) := by rw [← List.length_append]; exact hroom
  obtain ⟨v, d₁, e1, h1, s1, w1, _⟩ := C104_value d h pg hs answer (.appendHTML p (lead ++ ks.render ++ r))
    ⟨⟨l, hp, hl⟩, _, o2, by simp [hne]⟩ hroom
  obtain ⟨v₁, d₂, e2, h2, s2, w2, r2⟩ := C104_value d h pg hs answer (.appendHTML p (lead ++ ks.render))
    ⟨⟨l, hp, hl⟩, _, o1, hne⟩ (hroom'.le (by show List.length _ ≤ _; omega))
  have hp2 : ∃ l, (p, l) ∈ (pg.step answer (.appendHTML p (lead ++ ks.render))).root.entries ∧ l.isText = false := by
    obtain ⟨l', cs, cs', g1, g2⟩ := rows_within p (fun ks' => between ks' (numberAll pg.next (Op.brings answer (.appendHTML p (lead ++ ks.render)))) [])
      pg.root l hp
    obtain ⟨hi, _⟩ := reach_domI h
    refine ⟨l', ?_, ?_⟩
    · rw [Inj.rows_entries]; exact List.mem_map.2 ⟨_, g2, rfl⟩
    · have hm' : (p, l') ∈ pg.root.entries := by rw [Inj.rows_entries]; exact List.mem_map.2 ⟨_, g1, rfl⟩
      have := List.inj_on_of_nodup_map (hs.nodup hi) hp hm' rfl
      cases this
      exact hl
  obtain ⟨v₂, d₃, e3, h3, s3, w3, _⟩ := C104_value d₂ h2 _ s2 (fun i => answer ((lead ++ ks.render).length + i)) (.appendHTML p r)
    ⟨hp2, _, hrF, hF⟩ (r2 _ hroom')
  have key : (pg.step answer (.appendHTML p (lead ++ ks.render))).step (fun i => answer ((lead ++ ks.render).length + i)) (.appendHTML p r) =
      pg.step answer (.appendHTML p (lead ++ ks.render ++ r)) := by
    have t1 : fragTrees answer (lead ++ ks.render) = ks.trees := by unfold fragTrees; rw [o1]
    have t2 : fragTrees answer (lead ++ ks.render ++ r) = ks.trees ++ F := by unfold fragTrees; rw [o2]
    have t3 : fragTrees (fun i => answer ((lead ++ ks.render).length + i)) r = F := by unfold fragTrees; rw [hrF]
    simp only [Page.step, Op.brings, Op.names, Op.on, t1, t2, t3, n1, n2, Page.mk.injEq]
    refine ⟨by rw [sizeAll_append]; omega, by rw [List.append_assoc], ?_⟩
    rw [Cat.within_within, numberAll_append]
    congr 1
    funext ks'
    exact Cat.between_twice (by cases hx : ks.trees with | nil => exact absurd hx hne | cons t ts => simp [numberAll]) (by
      rw [numberAll_isText_last, numberAll_isText_head]; exact hbd)
  rw [key] at s3 w3
  refine ⟨v, d₁, v₁, d₂, v₂, d₃, _, e1, e2, e3, h1, h3, s1, s3, by rw [(C95_print d₁ h1 _ s1).1, (C95_print d₃ h3 _ s3).1], fun hnew => ?_⟩
  obtain ⟨hi, _⟩ := reach_domI h
  obtain ⟨hi1, _⟩ := reach_domI h1
  obtain ⟨hi2, _⟩ := reach_domI h2
  obtain ⟨_, cs, new, a1, a2, a3⟩ := w1
  obtain ⟨_, cs', new', b1, b2, b3⟩ := w2
  obtain ⟨_, cs'', new'', c1, c2, _⟩ := w3
  have x1 := (hs.has hi a1).2
  have x2 := (hs.has hi b1).2
  have x3 := (s2.has hi2 b2).2
  have x4 := (s2.has hi2 c1).2
  have x5 := (s1.has hi1 a2).2
  have x6 := (s1.has hi1 c2).2
  rw [x1] at x2; subst x2
  rw [x3] at x4; subst x4
  rw [x5, List.append_assoc] at x6
  have x6 := List.append_cancel_left x6
  cases new' with
  | nil => rw [x3, x1, List.append_nil] at hnew; exact absurd rfl hnew
  | cons m new' => rw [a3, b3, x6]; rfl

/-! ## The hypotheses can be met -/

private def firstP : Srcs := .cons (.paired b!"p" [] [] [] (.cons (.text b!"a" []) [] .nil) []) [] .nil

private theorem firstP_clean : firstP.Clean := by
  refine ⟨⟨⟨⟨_, _, rfl, by decide⟩, by decide, by decide, by decide⟩, by simp, by simp [Spaces], by decide, .nil, ?_, by simp [Spaces]⟩, .nil, trivial, trivial⟩
  refine ⟨⟨⟨⟨by decide, fun a b e => absurd (congrArg List.length e) (by simp; omega), fun a e => absurd (congrArg List.getLast? e) (by simp)⟩,
    _, _, rfl, by decide⟩, by simp⟩, .nil, trivial, ?_⟩
  exact fun h => h

/-- Well-formed source in front of input that is not: an element that is not closed, a stray end tag, a stray `<`. -/
example : ∃ d', createDom b!"<p>a</p></i>b<c x=1>< d" = .ok (some d') ∧
    RepL d' [.elem b!"p" [] [] [.text b!"a"], .text b!"b", .elem b!"c" [(b!"x", b!"1")] [] [.text b!" d"]] (kids d' 1) := by
  obtain ⟨d, hd, hF⟩ : ∃ d, createDom b!"</i>b<c x=1>< d" = .ok (some d) ∧
      RepL d [.text b!"b", .elem b!"c" [(b!"x", b!"1")] [] [.text b!" d"]] (kids d 1) := C93_every_input b!"</i>b<c x=1>< d" (by decide)
  obtain ⟨F, d', h1, h2, h3⟩ := C117_parse [] firstP b!"</i>b<c x=1>< d" .nil firstP_clean (by decide) (fun e => by cases e) (by decide) d hd
  obtain ⟨ts, _, hts⟩ := C93_returned _ d hd
  have e := ((hts _).mp h1).trans ((hts _).mp hF).symm
  subst e
  exact ⟨d', h2, h3⟩

example : fragOutcome (fun _ => false) b!"<p>a</p><b>c" = .document [.elem b!"p" [] [] [.text b!"a"], .elem b!"b" [] [] [.text b!"c"]] := by
  rw [show b!"<p>a</p><b>c" = [] ++ firstP.render ++ b!"<b>c" from rfl,
    C117_fragment (fun _ => false) [] firstP b!"<b>c" .nil firstP_clean (by decide) (fun e => by cases e) (by decide)]
  rfl

/-- The condition on the boundary is needed: a text goes on. -/
example : outcome b!"ab" = .document [.text b!"ab"] ∧ outcome b!"a" = .document [.text b!"a"] ∧ outcome b!"b" = .document [.text b!"b"] := ⟨rfl, rfl, rfl⟩

end Flo
