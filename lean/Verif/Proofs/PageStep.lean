import Verif.Proofs.PageAdd
import Verif.Props.Forms
/-!
# One edit, on the page (C95)
-/
namespace Flo
open Spec

section
variable {d d' : Dom}

theorem dropValue_some {x : Out (Nat × Dom)} {d' : Dom} (h : dropValue x = .ok d') : ∃ id, x = .ok (id, d') := by
  cases x with
  | ok r => obtain ⟨id, d1⟩ := r; cases h; exact ⟨id, rfl⟩
  | longjmp => cases h
  | ub w => cases h
  | hang => cases h

theorem within_root {p : Nat} {f : List PTree → List PTree} {t : PTree} (h : ∃ ks, t = .node rootID .root ks) :
    ∃ ks, t.within p f = .node rootID .root ks := by
  obtain ⟨ks, rfl⟩ := h
  exact ⟨_, by rw [PTree.within]⟩

theorem instead_root {n : Nat} {f : List PTree → List PTree → List PTree} {t : PTree} (h : ∃ ks, t = .node rootID .root ks) :
    ∃ ks, t.instead n f = .node rootID .root ks := by
  obtain ⟨ks, rfl⟩ := h
  exact ⟨_, by rw [PTree.instead]⟩

theorem relabel_root {n : Nat} {f : Label → Label} (hf : f .root = .root) {t : PTree} (h : ∃ ks, t = .node rootID .root ks) :
    ∃ ks, t.relabel n f = .node rootID .root ks := by
  obtain ⟨ks, rfl⟩ := h
  refine ⟨relabelAll n f ks, ?_⟩
  rw [PTree.relabel]
  split
  · rw [hf]
  · rfl

theorem on_root (op : Op) (new : List PTree) {t : PTree} (h : ∃ ks, t = .node rootID .root ks) : ∃ ks, op.on new t = .node rootID .root ks := by
  cases op <;> first
    | exact within_root h
    | exact instead_root h
    | exact relabel_root rfl h

theorem Spec.Shows.id {pg : Page} (hs : Shows d pg) : pg.root.id = rootID := by
  obtain ⟨ks, e⟩ := hs.root
  rw [e]; rfl

theorem Spec.Shows.entry {pg : Page} (hi : DomI d (kids d)) (hs : Shows d pg) {n : Nat} {l : Label} (h : (n, l) ∈ pg.root.entries) :
    NodeIs d n l ∧ IsNode d n := by
  have := hi.linked.two
  exact shown_entry hi _ hs.tree (by rw [Shows.id hs]; exact ⟨by decide, (by show 1 < _; omega)⟩) _ _ h

theorem Spec.NodeIs.never_text (hi : DomI d (kids d)) {n : Nat} {l : Label} (h : NodeIs d n l) (hl : l.isText = false) :
    ∀ l', NodeIs d n l' → l'.isText = false := by
  intro l' h'
  by_contra hc
  obtain ⟨s, h1, h2⟩ := (h'.isText hi).mp (by simpa using hc)
  have := h.ofText hi h1
  rw [this] at hl; cases hl

theorem Spec.NodeIs.unique (hi : DomI d (kids d)) {n : Nat} {l l' : Label} (h : NodeIs d n l) (h' : NodeIs d n l') : l = l' := by
  have hroot : tagOf d rootID = none := by
    cases ht : tagOf d rootID with
    | none => rfl
    | some t =>
      have := typeOf_tag ht
      rw [show rootID = 1 from rfl, hi.root] at this; cases this
  cases l with
  | text raw => exact (h'.ofText hi h).symm
  | root =>
    have h : n = rootID := h
    subst h
    cases l' with
    | root => rfl
    | text raw => exact (NodeIs.ofText hi (l := .root) rfl h').trans rfl
    | elem tag ps bs => have := h'.1; rw [hroot] at this; cases this
  | elem tag ps bs =>
    cases l' with
    | text raw => exact h.ofText hi h'
    | root =>
      have h' : n = rootID := h'
      subst h'
      have := h.1; rw [hroot] at this; cases this
    | elem tag' ps' bs' =>
      obtain ⟨h1, h2, h3⟩ := h
      obtain ⟨g1, g2, g3⟩ := h'
      rw [h1] at g1; cases g1
      rw [← h2, ← h3, ← g2, ← g3]

/-! ## A fragment the reference reader accepts is allowed -/

theorem FParse.nonEmptyFrag {junk : Nat → Out Bool} {html : Str} {F : List Tree} (hf : FParse junk html d (kids d) F) :
    NonEmptyFrag junk html d := by
  obtain ⟨r, c1, ids, e1, e2, P, _, e0, _⟩ := hf
  intro r' hr _
  rw [e1] at hr; cases hr
  have := P.mem0 (c := d.nodes.length) (by rw [e0]; simp)
  omega

theorem FParse.replaceSafe {junk : Nat → Out Bool} {html : Str} {F : List Tree} (hi : DomI d (kids d)) (hf : FParse junk html d (kids d) F)
    {p n : Nat} {l₁ l₂ : List Nat} (he : kids d p = l₁ ++ n :: l₂)
    (hone : ∀ t, F = [.text t] → l₁ = [] → textOf d (l₂.headD 0) = none)
    (htwo : ∀ t u, F = [.text t, .text u] → textOf d (l₁.getLastD 0) = none ∨ textOf d (l₂.headD 0) = none) :
    ReplaceSafe junk n html d := by
  obtain ⟨r, c1, ids, e1, e2, P, _, e0, rep⟩ := hf
  intro r' hr _
  rw [e1] at hr; cases hr
  rw [P.fragTop e0, (prev_of hi he).1, (next_of hi he).1]
  rw [e0] at rep
  constructor
  · intro a ha hp
    cases ha
    have hl : l₁ = [] := by
      rcases List.eq_nil_or_concat' l₁ with rfl | ⟨m, a, rfl⟩
      · rfl
      · exfalso
        have := hi.linked.range p a (by rw [he]; simp)
        simp at hp; omega
    cases ht : textOf r.dom d.nodes.length with
    | none => exact Or.inl rfl
    | some s =>
      right
      have hlen := rep.length
      match F, rep, hlen with
      | [t], rep, _ =>
        simp only [RepCL, and_true] at rep
        have := rep.textOf ht
        subst this
        exact hone s rfl hl
  · intro a b hab
    obtain ⟨rfl, rfl⟩ : d.nodes.length = a ∧ ids = [b] := by simpa using hab
    cases ht : textOf r.dom d.nodes.length with
    | none => exact Or.inl rfl
    | some s =>
      cases hu : textOf r.dom b with
      | none => exact Or.inr (Or.inl rfl)
      | some u =>
        right; right
        have hlen := rep.length
        match F, rep, hlen with
        | [t, t'], rep, _ =>
          simp only [RepCL, and_true] at rep
          have h1 := rep.1.textOf ht
          have h2 := rep.2.textOf hu
          subst h1 h2
          exact htwo s u rfl

/-! ## One edit -/

variable {pg : Page} {junk : Nat → Out Bool} {answer : Nat → Bool}

theorem Spec.Shows.siblings_of (hs : Shows d pg) {n : Nat} {x : List PTree × List PTree} (hx : pg.root.siblings n = some x) :
    ∃ q, kids d q = x.1.map PTree.id ++ n :: x.2.map PTree.id ∧ ShownAll d x.1 ∧ ShownAll d x.2 :=
  shown_siblings _ hs.tree _ _ hx

theorem step_forms (hs : Shows d pg) {us : List (Str × Bool)} (h : ∀ tag, formOf d' tag = (formOf d tag).or (firstForm us tag)) (tag : Str) :
    formOf d' tag = firstForm (pg.forms ++ us) tag := by
  rw [h, hs.forms, firstForm_append]

/-- What is left to show for one operation: that it is allowed, and what it does to the tree. -/
theorem step_of (h : Reachable d) (hs : Shows d pg) (hj : ∀ i, junk i = .ok (answer i)) (op : Op) (ha : Allowed junk d op)
    (hx : ∃ d', runOp junk op d = .ok d')
    (ht : ∀ d', runOp junk op d = .ok d' → (op.on (numberAll d.nodes.length (op.brings answer)) pg.root).Shown d' ∧
      d'.nodes.length = d.nodes.length + sizeAll (op.brings answer))
    (hf : ∀ d', runOp junk op d = .ok d' → ∀ tag, formOf d' tag = (formOf d tag).or (firstForm (op.names answer) tag)) :
    ∃ d', runOp junk op d = .ok d' ∧ Reachable d' ∧ Shows d' (pg.step answer op) ∧ ∀ k, Room d (op.cost + k) → Room d' k := by
  obtain ⟨d', hr⟩ := hx
  have hjr : Reads junk := fun i => ⟨_, hj i⟩
  obtain ⟨t1, t2⟩ := ht d' hr
  refine ⟨d', hr, .edited hjr h ha hr, ⟨?_, step_forms hs (hf d' hr), on_root op _ hs.root, ?_⟩, fun k hk => (runOp_room hjr op hk).elim hr⟩
  · rw [t2, hs.next]; rfl
  · rw [hs.next] at t1; exact t1

/-- An operation that takes no fragment. -/
theorem plain_step (h : Reachable d) (hs : Shows d pg) (hj : ∀ i, junk i = .ok (answer i)) (op : Op) (ha : Allowed junk d op)
    (hr : Room d op.cost) (hu : OpUses op (op.names answer)) (hq : Op.html op = [])
    (ht : ∀ d', runOp junk op d = .ok d' → (op.on (numberAll d.nodes.length (op.brings answer)) pg.root).Shown d' ∧
      d'.nodes.length = d.nodes.length + sizeAll (op.brings answer)) :
    ∃ d', runOp junk op d = .ok d' ∧ Reachable d' ∧ Shows d' (pg.step answer op) ∧ ∀ k, Room d (op.cost + k) → Room d' k := by
  obtain ⟨d', hx, _⟩ := C72_edits_succeed d h junk (fun i => ⟨_, hj i⟩) op ha hr (fun t => by rw [hq]; simp)
  exact step_of h hs hj op ha ⟨d', hx⟩ ht (fun d' hd tag => C74_edit d d' h junk op _ hu hd tag)

theorem page_step (h : Reachable d) (hs : Shows d pg) (hj : ∀ i, junk i = .ok (answer i)) (op : Op) (ha : pg.Allows answer op)
    (hr : Room d op.cost) :
    ∃ d', runOp junk op d = .ok d' ∧ Reachable d' ∧ Shows d' (pg.step answer op) ∧ ∀ k, Room d (op.cost + k) → Room d' k := by
  obtain ⟨hi, h0⟩ := reach_domI h
  have hid := Shows.id hs
  have ht := hs.tree
  cases op <;> simp only [Page.Allows] at ha
  case attr op =>
    obtain ⟨l, hl⟩ := ha
    have hn := (hs.entry hi hl).2
    exact plain_step h hs hj _ hn hr .attr rfl fun d' hx => page_attr hi h0 op hn hx ht hid
  case addText n t e =>
    obtain ⟨l, hl⟩ := ha
    have hn : textOf d n = some l := (hs.entry hi hl).1
    exact plain_step h hs hj _ ⟨_, hn⟩ hr .addText rfl fun d' hx => page_addText hi h0 hn t e hx ht
  case setTag t n c =>
    obtain ⟨tag, ps, bs, hl⟩ := ha
    have hn := (hs.entry hi hl).1.1
    exact plain_step h hs hj _ (typeOf_tag hn) hr .setTag rfl fun d' hx => page_setTag hi h0 hn t c hx ht
  case setText n t =>
    obtain ⟨l, hl, h2⟩ := ha
    obtain ⟨h1, hn⟩ := hs.entry hi hl
    exact plain_step h hs hj _ hn hr .setText rfl fun d' hx => page_setText hi h0 hn t hx ht hid (h1.never_text hi h2)
  case removeChildren n =>
    obtain ⟨l, hl, h2⟩ := ha
    obtain ⟨h1, hn⟩ := hs.entry hi hl
    exact plain_step h hs hj _ hn hr .removeChildren rfl fun d' hx => page_removeChildren hi h0 hn hx ht hid (h1.never_text hi h2)
  case removeNode n =>
    obtain ⟨x, hx⟩ := ha
    obtain ⟨q, hq, _⟩ := Shows.siblings_of hs hx
    have hn : n ∈ kids d q := by rw [hq]; simp
    exact plain_step h hs hj _ ⟨q, hn⟩ hr .removeNode rfl fun d' hx => page_removeNode hi h0 hn hx ht hid
  case appendDoc p doc =>
    obtain ⟨l, hl, h2⟩ := ha
    obtain ⟨h1, hn⟩ := hs.entry hi hl
    exact plain_step h hs hj _ hn hr .appendDoc rfl fun d' hx => (dropValue_some hx).elim fun id hx =>
      page_appendDoc hi h0 hn doc hx ht hid (h1.never_text hi h2)
  case prependDoc p doc =>
    obtain ⟨l, hl, h2⟩ := ha
    obtain ⟨h1, hn⟩ := hs.entry hi hl
    exact plain_step h hs hj _ hn hr .prependDoc rfl fun d' hx => (dropValue_some hx).elim fun id hx =>
      page_prependDoc hi h0 hn doc hx ht hid (h1.never_text hi h2)
  case appendText p t =>
    obtain ⟨l, hl, h2⟩ := ha
    obtain ⟨h1, hn⟩ := hs.entry hi hl
    exact plain_step h hs hj _ hn hr .appendText rfl fun d' hx => (dropValue_some hx).elim fun id hx =>
      page_appendText hi h0 hn t hx ht hid (h1.never_text hi h2)
  case prependText p t =>
    obtain ⟨l, hl, h2⟩ := ha
    obtain ⟨h1, hn⟩ := hs.entry hi hl
    exact plain_step h hs hj _ hn hr .prependText rfl fun d' hx => (dropValue_some hx).elim fun id hx =>
      page_prependText hi h0 hn t hx ht hid (h1.never_text hi h2)
  case replaceDoc n doc =>
    obtain ⟨x, hx⟩ := ha
    obtain ⟨q, hq, _⟩ := Shows.siblings_of hs hx
    exact plain_step h hs hj _ ⟨q, (by rw [hq]; simp)⟩ hr .replaceDoc rfl fun d' hx => (dropValue_some hx).elim fun id hx =>
      page_replaceDoc hi h0 hq doc hx ht hid
  case replaceText n t =>
    obtain ⟨x, hx⟩ := ha
    obtain ⟨q, hq, _⟩ := Shows.siblings_of hs hx
    exact plain_step h hs hj _ ⟨q, (by rw [hq]; simp)⟩ hr .replaceText rfl fun d' hx => (dropValue_some hx).elim fun id hx =>
      page_replaceText hi h0 hq t hx ht hid
  case appendHTML p html =>
    obtain ⟨⟨l, hl, h2⟩, F, hF, hne⟩ := ha
    obtain ⟨h1, hn⟩ := hs.entry hi hl
    have hf := fragRef_doc hj h hr hF hne
    have hb : fragTrees answer html = F := by unfold fragTrees; rw [hF]
    obtain ⟨id, d1, e1, e2⟩ := page_appendHTML hi h0 hn hf
    refine step_of h hs hj _ ⟨hn, hf.nonEmptyFrag⟩ ⟨d1, (by show dropValue _ = _; rw [e1]; rfl)⟩ (fun d' hx => ?_) (fun d' hx tag => ?_)
    · obtain ⟨id', hx⟩ := dropValue_some hx
      rw [e1] at hx; cases hx
      have := e2 _ ht hid (h1.never_text hi h2)
      rw [← hb] at this; exact this
    · obtain ⟨id', hx⟩ := dropValue_some hx
      exact C74_every_fragment d h html junk answer hj F hF p id' d' (Or.inl hx) tag
  case prependHTML p html =>
    obtain ⟨⟨l, hl, h2⟩, F, hF, hne⟩ := ha
    obtain ⟨h1, hn⟩ := hs.entry hi hl
    have hf := fragRef_doc hj h hr hF hne
    have hb : fragTrees answer html = F := by unfold fragTrees; rw [hF]
    obtain ⟨id, d1, e1, e2⟩ := page_prependHTML hi h0 hn hf
    refine step_of h hs hj _ ⟨hn, hf.nonEmptyFrag⟩ ⟨d1, (by show dropValue _ = _; rw [e1]; rfl)⟩ (fun d' hx => ?_) (fun d' hx tag => ?_)
    · obtain ⟨id', hx⟩ := dropValue_some hx
      rw [e1] at hx; cases hx
      have := e2 _ ht hid (h1.never_text hi h2)
      rw [← hb] at this; exact this
    · obtain ⟨id', hx⟩ := dropValue_some hx
      exact C74_every_fragment d h html junk answer hj F hF p id' d' (Or.inr (Or.inl hx)) tag
  case replaceHTML n html =>
    obtain ⟨x, hx, ⟨F, hF, hne⟩, hc⟩ := ha
    obtain ⟨q, hq, s1, s2⟩ := Shows.siblings_of hs hx
    have hf := fragRef_doc hj h hr hF hne
    have hb : fragTrees answer html = F := by unfold fragTrees; rw [hF]
    rw [hb] at hc
    have hone : ∀ t, F = [.text t] → x.1.map PTree.id = [] → textOf d ((x.2.map PTree.id).headD 0) = none := by
      rintro t rfl e
      by_contra hn
      obtain ⟨s, hn⟩ := Option.ne_none_iff_exists'.mp hn
      exact hc.1 ⟨rfl, by simpa using e, (head_text hi s2).mpr ⟨s, hn⟩⟩
    have htwo : ∀ t u, F = [.text t, .text u] → textOf d ((x.1.map PTree.id).getLastD 0) = none ∨ textOf d ((x.2.map PTree.id).headD 0) = none := by
      rintro t u rfl
      by_contra hn
      rw [not_or] at hn
      obtain ⟨s, h1⟩ := Option.ne_none_iff_exists'.mp hn.1
      obtain ⟨s', h2⟩ := Option.ne_none_iff_exists'.mp hn.2
      exact hc.2 ⟨rfl, (last_text hi s1).mpr ⟨s, h1⟩, (head_text hi s2).mpr ⟨s', h2⟩⟩
    obtain ⟨id, d1, e1, e2⟩ := page_replaceHTML hi h0 hq hf hone htwo
    refine step_of h hs hj _ ⟨⟨q, (by rw [hq]; simp)⟩, hf.nonEmptyFrag, hf.replaceSafe hi hq hone htwo⟩
      ⟨d1, (by show dropValue _ = _; rw [e1]; rfl)⟩ (fun d' hx => ?_) (fun d' hx tag => ?_)
    · obtain ⟨id', hx⟩ := dropValue_some hx
      rw [e1] at hx; cases hx
      have := e2 _ ht hid
      rw [← hb] at this; exact this
    · obtain ⟨id', hx⟩ := dropValue_some hx
      exact C74_every_fragment d h html junk answer hj F hF n id' d' (Or.inr (Or.inr hx)) tag

end

end Flo
