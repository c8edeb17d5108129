import Verif.Proofs.DomInv
/-!
# The editing functions on DOMs satisfying the invariant: single nodes
-/
namespace Flo
open Spec

section
variable {d : Dom} {ch : Nat → List Nat}

theorem upd_float (h0 : ch 0 = []) (N p : Nat) (L : List Nat) :
    upd (upd (upd ch 0 [N]) 0 []) p L = upd ch p L := by
  funext q
  unfold upd
  split
  · rfl
  · split
    · rename_i e; rw [e, h0]
    · rfl

theorem upd_erase (h0 : ch 0 = []) (N : Nat) :
    upd (upd ch 0 [N]) 0 ((upd ch 0 [N] 0).erase N) = ch := by
  funext q
  unfold upd
  split
  · rename_i e; simp [e, h0]
  · rfl

theorem lastChild (h : LinkedD d ch) {p c : Nat} {l : List Nat} (hc : ch p = c :: l) :
    getLastNext c d = .ok ((ch p).getLastD 0) := by
  have := (h.chain p (l₁ := []) (l₂ := c :: l) (by rw [hc]; rfl)).getLastNext
  rw [this, hc]
  congr 1

theorem getLastD_mem {l : List Nat} (h : l ≠ []) : l.getLastD 0 ∈ l := by
  rw [List.getLastD_eq_getLast?, List.getLast?_eq_some_getLast h]
  exact List.getLast_mem h

theorem kid_cases (h : DomI d ch) {p c : Nat} (hc : c ∈ ch p) :
    (∃ t, textOf d c = some t) ∨ (typeOf d c = some .document ∧ textOf d c = none) := by
  rcases h.kind p c hc with hk | hk
  · exact Or.inl (h.text hk)
  · right
    refine ⟨hk, ?_⟩
    obtain ⟨nd, h1, h2⟩ := typeOf_some hk
    cases ht : textOf d c with
    | none => rfl
    | some s => rw [textOf_eq, h1] at ht; cases ht; simp at h2

theorem typeOf_of_text {c : Nat} {t : Str} (h : textOf d c = some t) : typeOf d c = some .text :=
  typeOf_eq (textOf_eq.mp h)

/-- One new last / first / replacing child. -/
structure NewKid (d : Dom) (ch : Nat → List Nat) (p : Nat) (L : List Nat) (d' : Dom) : Prop where
  inv : DomI d' (upd ch p L)
  len : d'.nodes.length = d.nodes.length + 1

theorem Made.ch_p {id p : Nat} {d' : Dom} (_ : Made d ch id d') (hp : p ≠ 0) : upd ch 0 [d.nodes.length] p = ch p :=
  upd_ne hp

theorem appendDoc_spec (h : DomI d ch) (h0 : ch 0 = []) {p : Nat} (hp : p ≠ 0) (hlt : p < d.nodes.length) (doc : DocNode) :
    Post NoUB (fun r => r.1 = d.nodes.length ∧ NewKid d ch p (ch p ++ [d.nodes.length]) r.2 ∧
      (∀ m, m ≠ d.nodes.length → SameNode d r.2 m) ∧ tagOf r.2 d.nodes.length = some doc.tag ∧
      pairs r.2 d.nodes.length = doc.props ∧ bools r.2 d.nodes.length = doc.boolProps)
      (appendDocumentNode p doc d) := by
  unfold appendDocumentNode
  refine (mkDoc h h0 doc).bindP ?_
  rintro ⟨id, d1⟩ ⟨m, h1, h2, h3⟩
  have hid := m.id
  dsimp only at hid h1 h2 h3 ⊢
  subst hid
  have htwo := h.linked.two
  rw [if_neg (by omega)]
  obtain ⟨d2, e, inv, same, hn⟩ := linkAppend m.inv (p := p) (f0 := d.nodes.length) (F := []) (by simp) hp
    (by simpa using hlt)
  rw [e]
  rw [m.ch_p hp, upd_float h0] at inv
  have hs := same d.nodes.length
  exact ⟨rfl, ⟨inv, by rw [hn]; exact m.len⟩, fun q hq => (m.others q hq).trans (same q),
    hs.tag.trans h1, hs.pairs.trans h2, hs.bools.trans h3⟩

theorem prependDoc_spec (h : DomI d ch) (h0 : ch 0 = []) {p : Nat} (hp : p ≠ 0) (hlt : p < d.nodes.length) (doc : DocNode) :
    Post NoUB (fun r => r.1 = d.nodes.length ∧ NewKid d ch p (d.nodes.length :: ch p) r.2 ∧
      (∀ m, m ≠ d.nodes.length → SameNode d r.2 m) ∧ tagOf r.2 d.nodes.length = some doc.tag ∧
      pairs r.2 d.nodes.length = doc.props ∧ bools r.2 d.nodes.length = doc.boolProps)
      (prependDocumentNode p doc d) := by
  unfold prependDocumentNode
  refine (mkDoc h h0 doc).bindP ?_
  rintro ⟨id, d1⟩ ⟨m, h1, h2, h3⟩
  have hid := m.id
  dsimp only at hid h1 h2 h3 ⊢
  subst hid
  have htwo := h.linked.two
  rw [if_neg (by omega)]
  obtain ⟨d2, e, inv, same, hn⟩ := linkPrepend m.inv (p := p) (f0 := d.nodes.length) (F := []) (by simp) hp
    (by simpa using hlt)
  rw [e]
  rw [m.ch_p hp, upd_float h0] at inv
  have hs := same d.nodes.length
  exact ⟨rfl, ⟨inv, by rw [hn]; exact m.len⟩, fun q hq => (m.others q hq).trans (same q),
    hs.tag.trans h1, hs.pairs.trans h2, hs.bools.trans h3⟩

theorem replaceDoc_spec (h : DomI d ch) (h0 : ch 0 = []) {p old : Nat} (hp : p ≠ 0) {l₁ l₂ : List Nat}
    (he : ch p = l₁ ++ old :: l₂) (doc : DocNode) :
    Post NoUB (fun r => r.1 = d.nodes.length ∧ NewKid d ch p (l₁ ++ d.nodes.length :: l₂) r.2 ∧
      (∀ m, m ≠ d.nodes.length → m ≠ old → SameNode d r.2 m) ∧ typeOf r.2 old = some .removed ∧
      tagOf r.2 d.nodes.length = some doc.tag ∧
      pairs r.2 d.nodes.length = doc.props ∧ bools r.2 d.nodes.length = doc.boolProps)
      (replaceWithDocumentNode old doc d) := by
  unfold replaceWithDocumentNode
  refine (mkDoc h h0 doc).bindP ?_
  rintro ⟨id, d1⟩ ⟨m, h1, h2, h3⟩
  have hid := m.id
  dsimp only at hid h1 h2 h3 ⊢
  subst hid
  have htwo := h.linked.two
  have hr := h.linked.range p old (by rw [he]; simp)
  rw [if_neg (by omega)]
  obtain ⟨d2, e, inv, same, hty, hn⟩ := linkReplace m.inv (p := p) (f0 := d.nodes.length) (F := []) (by simp) hp
    (old := old) (l₁ := l₁) (l₂ := l₂) (by rw [m.ch_p hp]; exact he) (by simp; omega)
  rw [e]
  rw [upd_float h0] at inv
  have hs := same d.nodes.length (by omega)
  exact ⟨rfl, ⟨inv, by rw [hn]; exact m.len⟩, fun q hq hq' => (m.others q hq).trans (same q hq'), hty,
    hs.tag.trans h1, hs.pairs.trans h2, hs.bools.trans h3⟩

/-! ## Text -/

/-- A text merged into the neighbour `k`; the temporary node is gone. -/
structure MergedInto (d : Dom) (ch : Nat → List Nat) (k : Nat) (new : Str) (d' : Dom) : Prop where
  inv : DomI d' ch
  text : textOf d' k = some new
  attrs : pairs d' k = pairs d k ∧ bools d' k = bools d k
  gone : typeOf d' d.nodes.length = some .removed
  others : ∀ m, m ≠ k → m ≠ d.nodes.length → SameNode d d' m
  len : d'.nodes.length = d.nodes.length + 1

/-- A text as a new child. -/
structure NewText (d : Dom) (ch : Nat → List Nat) (p : Nat) (L : List Nat) (text : Str) (d' : Dom) : Prop where
  inv : DomI d' (upd ch p L)
  text : textOf d' d.nodes.length = some text
  attrs : pairs d' d.nodes.length = [] ∧ bools d' d.nodes.length = []
  others : ∀ m, m ≠ d.nodes.length → SameNode d d' m
  len : d'.nodes.length = d.nodes.length + 1

/-- The temporary text node is merged into `k` and removed again. -/
theorem mergeTemp (h : DomI d ch) (h0 : ch 0 = []) {id : Nat} {d1 : Dom} (m : Made d ch id d1) {k : Nat}
    {p : Nat} (hk : k ∈ ch p) {tk text : Str} (htk : textOf d k = some tk)
    (ht : textOf d1 d.nodes.length = some text) (app : Bool) :
    ∃ d2 d3, tryMerge k d.nodes.length app d1 = .ok (true, d2) ∧ removeNode d.nodes.length d2 = .ok d3 ∧
      MergedInto d ch k (if app then tk ++ [32] ++ text else text ++ [32] ++ tk) d3 := by
  have hr := h.linked.range p k hk
  have hkN : k ≠ d.nodes.length := by omega
  have htk1 : textOf d1 k = some tk := by rw [(m.others k hkN).text]; exact htk
  obtain ⟨d2, e2, i2, t2, s2, _, n2, a1, a2⟩ := tryMerge_text m.inv hr.2.1 htk1 ht app
  obtain ⟨d3, e3, i3, s3, g3, n3⟩ := dropLeaf i2 (p := 0) (n := d.nodes.length) (by simp) (by
    have h2 := h.linked.two
    rw [upd_ne (by omega)]
    rw [List.eq_nil_iff_forall_not_mem]
    intro c hc
    have := h.linked.range _ _ hc; omega)
  rw [upd_erase h0] at i3
  have hk3 := s3 k hkN
  have hk1 := m.others k hkN
  refine ⟨d2, d3, e2, e3, i3, hk3.text.trans t2, ⟨hk3.pairs.trans (a1.trans hk1.pairs), hk3.bools.trans (a2.trans hk1.bools)⟩,
    g3, fun q hq hq' => ((m.others q hq').trans (s2 q hq)).trans (s3 q hq'), ?_⟩
  rw [n3, n2]; exact m.len

theorem appendText_spec (h : DomI d ch) (h0 : ch 0 = []) {p : Nat} (hp : p ≠ 0) (hlt : p < d.nodes.length) (text : Str) :
    Post NoUB (fun r =>
      (∃ tk, textOf d ((ch p).getLastD 0) = some tk ∧ r.1 = (ch p).getLastD 0 ∧
        MergedInto d ch ((ch p).getLastD 0) (tk ++ [32] ++ text) r.2) ∨
      (textOf d ((ch p).getLastD 0) = none ∧ r.1 = d.nodes.length ∧
        NewText d ch p (ch p ++ [d.nodes.length]) text r.2))
      (appendTextNode p text d) := by
  unfold appendTextNode
  refine (mkText h h0 text).bindP ?_
  rintro ⟨id, d1⟩ ⟨m, h1, h2, h3⟩
  have hid := m.id
  dsimp only at hid h1 h2 h3 ⊢
  subst hid
  have htwo := h.linked.two
  rw [if_neg (by omega)]
  obtain ⟨d2, e, inv, same, hn⟩ := linkAppend m.inv (p := p) (f0 := d.nodes.length) (F := []) (by simp) hp
    (by simpa using hlt)
  rw [m.ch_p hp, upd_float h0] at inv
  have hs := same d.nodes.length
  have fin : Post NoUB (fun r => textOf d ((ch p).getLastD 0) = none → r.1 = d.nodes.length ∧
        NewText d ch p (ch p ++ [d.nodes.length]) text r.2)
      ((appendUpdateReferences p d.nodes.length d1) >>= fun d => Out.ok (d1.nodes.length - 1, d)) := by
    rw [e]
    intro _
    refine ⟨by rw [m.len]; simp, inv, hs.text.trans h1, ⟨hs.pairs.trans h2, hs.bools.trans h3⟩,
      fun q hq => (m.others q hq).trans (same q), by rw [hn]; exact m.len⟩
  have hid : d1.nodes.length - 1 = d.nodes.length := by rw [m.len]; simp
  rw [hid] at fin
  rw [m.inv.linked.getFirstChild_eq hp, m.ch_p hp]
  cases hc : ch p with
  | nil =>
    rw [hc] at fin
    have hz : textOf d 0 = none := by
      cases ht : textOf d 0 with
      | none => rfl
      | some s => have := typeOf_of_text ht; rw [h.zero] at this; cases this
    simp only [List.headD_nil, gt_iff_lt, Nat.lt_irrefl, if_false, List.getLastD_nil] at fin ⊢
    exact fin.mono (fun r hr => Or.inr ⟨hz, hr hz⟩)
  | cons c l =>
    have hcm : c ∈ ch p := by rw [hc]; simp
    have hcr := h.linked.range p c hcm
    rw [List.headD_cons, if_pos (by omega)]
    have hlast := lastChild m.inv.linked (p := p) (c := c) (l := l) (by rw [m.ch_p hp]; exact hc)
    rw [m.ch_p hp] at hlast
    rw [hlast, ← hc]
    simp only [Out.bind_ok]
    have hmem : (ch p).getLastD 0 ∈ ch p := getLastD_mem (by rw [hc]; simp)
    generalize (ch p).getLastD 0 = k at hmem fin ⊢
    have hkr := h.linked.range p k hmem
    rcases kid_cases h hmem with ⟨tk, htk⟩ | ⟨hdoc, hnone⟩
    · obtain ⟨d2, d3, e2, e3, mg⟩ := mergeTemp h h0 m hmem htk h1 true
      rw [e2]
      simp only [Out.bind_ok, if_true]
      rw [e3]
      exact Or.inl ⟨tk, htk, rfl, mg⟩
    · rw [tryMerge_other (t := .document) (by rw [(m.others k (by omega)).type]; exact hdoc) (by simp)]
      simp only [Out.bind_ok, Bool.false_eq_true, if_false]
      exact fin.mono (fun r hr => Or.inr ⟨hnone, hr hnone⟩)

theorem prependText_spec (h : DomI d ch) (h0 : ch 0 = []) {p : Nat} (hp : p ≠ 0) (hlt : p < d.nodes.length) (text : Str) :
    Post NoUB (fun r =>
      (∃ tk, textOf d ((ch p).headD 0) = some tk ∧ r.1 = d.nodes.length ∧
        MergedInto d ch ((ch p).headD 0) (text ++ [32] ++ tk) r.2) ∨
      (textOf d ((ch p).headD 0) = none ∧ r.1 = d.nodes.length ∧
        NewText d ch p (d.nodes.length :: ch p) text r.2))
      (prependTextNode p text d) := by
  unfold prependTextNode
  refine (mkText h h0 text).bindP ?_
  rintro ⟨id, d1⟩ ⟨m, h1, h2, h3⟩
  have hid := m.id
  dsimp only at hid h1 h2 h3 ⊢
  subst hid
  have htwo := h.linked.two
  rw [if_neg (by omega)]
  obtain ⟨d2, e, inv, same, hn⟩ := linkPrepend m.inv (p := p) (f0 := d.nodes.length) (F := []) (by simp) hp
    (by simpa using hlt)
  rw [m.ch_p hp, upd_float h0] at inv
  have hs := same d.nodes.length
  have fin : Post NoUB (fun r => textOf d ((ch p).headD 0) = none → r.1 = d.nodes.length ∧
        NewText d ch p (d.nodes.length :: ch p) text r.2)
      ((prependUpdateReferences p d.nodes.length d1) >>= fun d => Out.ok (d1.nodes.length - 1, d)) := by
    rw [e]
    intro _
    refine ⟨by rw [m.len]; simp, inv, hs.text.trans h1, ⟨hs.pairs.trans h2, hs.bools.trans h3⟩,
      fun q hq => (m.others q hq).trans (same q), by rw [hn]; exact m.len⟩
  have hid : d1.nodes.length - 1 = d.nodes.length := by rw [m.len]; simp
  rw [hid] at fin
  rw [m.inv.linked.getFirstChild_eq hp, m.ch_p hp]
  cases hc : ch p with
  | nil =>
    rw [hc] at fin
    have hz : textOf d 0 = none := by
      cases ht : textOf d 0 with
      | none => rfl
      | some s => have := typeOf_of_text ht; rw [h.zero] at this; cases this
    simp only [List.headD_nil, gt_iff_lt, Nat.lt_irrefl, if_false] at fin ⊢
    exact fin.mono (fun r hr => Or.inr ⟨hz, hr hz⟩)
  | cons c l =>
    have hcm : c ∈ ch p := by rw [hc]; simp
    have hcr := h.linked.range p c hcm
    rw [hc] at fin
    rw [if_pos (by rw [List.headD_cons]; omega)]
    simp only [List.headD_cons] at fin ⊢
    rcases kid_cases h hcm with ⟨tk, htk⟩ | ⟨hdoc, hnone⟩
    · obtain ⟨d2, d3, e2, e3, mg⟩ := mergeTemp h h0 m hcm htk h1 false
      rw [e2]
      simp only [Out.bind_ok, if_true]
      rw [e3]
      exact Or.inl ⟨tk, htk, rfl, mg⟩
    · rw [tryMerge_other (t := .document) (by rw [(m.others c (by omega)).type]; exact hdoc) (by simp)]
      simp only [Out.bind_ok, Bool.false_eq_true, if_false]
      exact fin.mono (fun r hr => Or.inr ⟨hnone, hr hnone⟩)

/-! ## Text content -/

theorem setText_spec (h : DomI d ch) (h0 : ch 0 = []) {n : Nat} (hn : n ≠ 0) (hlt : n < d.nodes.length) (text : Str) :
    Post NoUB (fun d' =>
      DomI d' (upd (dropBelow d.nodes.length ch n) n [d.nodes.length]) ∧
      textOf d' d.nodes.length = some text ∧
      (pairs d' d.nodes.length = [] ∧ bools d' d.nodes.length = []) ∧
      (∀ m, m ∉ (pre d.nodes.length ch n).tail → m ≠ d.nodes.length → SameNode d d' m) ∧
      (∀ m ∈ (pre d.nodes.length ch n).tail, typeOf d' m = some .removed) ∧
      d'.nodes.length = d.nodes.length + 1)
      (setTextContent n text d) := by
  unfold setTextContent
  obtain ⟨d1, e1, i1, s1, g1, n1⟩ := dropKids h hn hlt
  rw [e1]
  simp only [Out.bind_ok]
  have h01 : dropBelow d.nodes.length ch n 0 = [] := by
    unfold dropBelow; split <;> simp [h0]
  refine (mkText i1 h01 text).bindP ?_
  rintro ⟨id, d2⟩ ⟨m, h1, h2, h3⟩
  have hid := m.id
  dsimp only at hid h1 h2 h3 ⊢
  subst hid
  rw [n1] at h1 h2 h3
  have minv := m.inv
  rw [n1] at minv
  have hnil : upd (dropBelow d.nodes.length ch n) 0 [d.nodes.length] n = [] := by
    rw [upd_ne hn]
    unfold dropBelow
    rw [if_pos (mem_pre_self hlt)]
  obtain ⟨d3, e3, inv, same, hn3⟩ := linkAppend minv (p := n) (f0 := d.nodes.length) (F := []) (by simp) hn
    (by simp; omega)
  rw [hnil, List.nil_append, upd_float h01] at inv
  have e4 : appendUpdateReferences n d.nodes.length d2 =
      .ok { d2 with fc := d2.fc ++ [(n, d.nodes.length)], pc := d2.pc ++ [(n, d.nodes.length)] } := by
    unfold appendUpdateReferences
    have hi := m.inv.linked
    rw [n1] at hi
    rw [hi.firstNode_none hn hnil]
    dsimp only
    obtain ⟨l1, l2⟩ := m.inv.linked.forget
    rw [upd_same, n1] at l2
    have hchain : Chain { d2 with fc := d2.fc ++ [(n, d.nodes.length)], pc := d2.pc ++ [(n, d.nodes.length)] }
        [d.nodes.length] := (Loose.chain l1.nnG l2).congr rfl
    rw [hchain.connectOthers]
    simp
  dsimp only at e3 inv same hn3
  rw [e4] at e3
  cases e3
  rw [n1]
  simp only [Post.ok]
  have hs := same d.nodes.length
  refine ⟨inv, hs.text.trans h1, ⟨hs.pairs.trans h2, hs.bools.trans h3⟩, ?_, ?_, ?_⟩
  · intro q hq hq'
    exact ((s1 q hq).trans (m.others q (by rw [n1]; exact hq'))).trans (same q)
  · intro q hq
    have hqlt : q < d.nodes.length := by
      have := pre_ge h.linked.up n hlt q (List.mem_of_mem_tail hq)
      exact this.2
    rw [(same q).type, (m.others q (by rw [n1]; omega)).type]
    exact g1 q hq
  · rw [hn3, m.len, n1]

end
end Flo
