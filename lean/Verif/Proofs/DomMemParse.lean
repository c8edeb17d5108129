import Verif.Proofs.DomMemText
/-!
# The parser in memory follows the parser on values
-/
namespace Flo
open Spec

theorem Tok.sub {V : MEnv} {src : MStr} {s : Str} (h : Tok V src s) {off : Nat} {len : Int} {t : Str} (ht : subStr s off len = .ok t) :
    Tok V ⟨src.ptr + off, len.toNat⟩ t := by
  have hl := h.len; have hp := h.pos; have htop := h.top
  unfold subStr at ht
  split at ht
  · cases ht
  · split at ht
    · cases ht
    · split at ht
      · cases ht
      · cases ht
        refine ⟨?_, by dsimp only; omega, by dsimp only; omega, fun i c hc => ?_⟩
        · simp only [List.length_take, List.length_drop, Int.toNat_natCast]; omega
        · rw [List.getElem?_take] at hc
          split at hc
          · rw [List.getElem?_drop, Int.toNat_natCast] at hc
            have := h.out _ _ hc
            dsimp only
            rw [show src.ptr + (off : Int) + (i : Int) = src.ptr + ((off + i : Nat) : Int) by push_cast; omega]
            exact this
          · cases hc

theorem parseProp_sim {V : MEnv} {own : Int → Owner} {M : MDom} {a : Arena} {d : Dom} (h : Rep V own 0 M a d) {src : MStr} {s : Str}
    (hs : Tok V src s) (idx : Nat) (L : Str × Nat → Int) :
    SimC V L (parseProp s idx) (memParseProp src idx a.mem) (fun r b => b.2 = r.2 ∧ Tok V b.1 r.1) := by
  unfold parseProp memParseProp
  rw [h.read hs]
  dsimp only
  by_cases hc : (currentChar s idx == cQuot || currentChar s idx == cDQuot) = true
  · rw [if_pos hc, if_pos hc]
    refine SimC.same fun t ht => SimC.okR ⟨rfl, ?_⟩
    have := hs.sub (off := idx + 1) (by push_cast; exact ht)
    push_cast at this
    exact this
  · rw [if_neg hc, if_neg hc]
    exact SimC.same fun t ht => SimC.okR ⟨rfl, hs.sub ht⟩

theorem attrLoop_sim {V : MEnv} {src : MStr} {s : Str} (hs : Tok V src s) {n : Nat} (hn : n < 65536) :
    ∀ (f idx : Nat) (can : Bool) (d : Dom) (M : MDom) (a : Arena) (own : Int → Owner), Rep V own 0 M a d →
    SimC V (fun r => r.2.2.bytes) (attrLoop s n f idx can d) (memAttrLoop src n f idx can M a)
      (fun r b => b.1 = r.1 ∧ b.2.1 = r.2.1 ∧ DomR V r.2.2 b.2.2)
  | 0, _, _, _, _, _, _, _ => SimC.hang
  | f + 1, idx, can, d, M, a, own, h => by
    simp only [attrLoop, memAttrLoop]
    rw [h.read hs]
    cases hc : s[idx]? with
    | none => exact SimC.okR ⟨rfl, rfl, own, h⟩
    | some ch =>
      dsimp only
      by_cases h1 : (ch == cGt) = true
      · rw [if_pos h1, if_pos h1]; exact SimC.okR ⟨rfl, rfl, own, h⟩
      · rw [if_neg h1, if_neg h1]
        by_cases h2 : (ch == cSlash) = true
        · rw [if_pos h2, if_pos h2]; exact attrLoop_sim hs hn f _ _ _ _ _ own h
        · rw [if_neg h2, if_neg h2]
          by_cases h3 : (ch != cSp && !isFormatting ch) = true
          · rw [if_pos h3, if_pos h3]
            refine (parseProp_sim h hs idx (fun _ => d.bytes)).bind (fun r _ => ?_) fun ⟨key, i⟩ ⟨keyr, i'⟩ _ hR => ?_
            · split
              · refine Ok.triv.bind fun r2 _ => (addProperty_adds _ _ _ _).bind fun d1 h1 => ?_
                exact (attrLoop_adds s n f _ _ d1).mono fun r hr => (h1.trans hr).bytes
              · refine (addBoolProperty_adds _ _ _).bind fun d1 h1 => ?_
                exact (attrLoop_adds s n f _ _ d1).mono fun r hr => (h1.trans hr).bytes
            · obtain ⟨e1, tk⟩ := hR
              dsimp only at e1 tk ⊢
              subst e1
              by_cases h4 : (currentChar s i' == cEq) = true
              · rw [if_pos h4, if_pos h4]
                refine (parseProp_sim h hs (i' + 1) (fun _ => d.bytes)).bind (fun r _ => ?_) fun ⟨value, j⟩ ⟨valuer, j'⟩ _ hR => ?_
                · refine (addProperty_adds _ _ _ _).bind fun d1 h1 => ?_
                  exact (attrLoop_adds s n f _ _ d1).mono fun r hr => (h1.trans hr).bytes
                · obtain ⟨e2, tv⟩ := hR
                  dsimp only at e2 tv ⊢
                  subst e2
                  refine (h.property hn tk tv).bind (fun d1 _ => (attrLoop_adds s n f _ _ d1).mono fun r hr => hr.bytes)
                    fun d1 ⟨M1, a1⟩ _ hR => ?_
                  obtain ⟨own1, hR⟩ := hR
                  dsimp only at hR ⊢
                  rw [hR.read hs]
                  exact attrLoop_sim hs hn f _ _ _ _ _ own1 hR
              · rw [if_neg h4, if_neg h4]
                refine (h.boolProperty hn tk).bind (fun d1 _ => (attrLoop_adds s n f _ _ d1).mono fun r hr => hr.bytes)
                  fun d1 ⟨M1, a1⟩ _ hR => ?_
                obtain ⟨own1, hR⟩ := hR
                dsimp only at hR ⊢
                rw [hR.read hs]
                exact attrLoop_sim hs hn f _ _ _ _ _ own1 hR
          · rw [if_neg h3, if_neg h3]; exact attrLoop_sim hs hn f _ _ _ _ _ own h

theorem Rep.documentNode {V : MEnv} {own : Int → Owner} {M : MDom} {a : Arena} {d : Dom} (h : Rep V own 0 M a d) {src : MStr} {s : Str}
    (hs : Tok V src s) (idx : Nat) (ex : Bool) :
    SimC V (fun r => r.dom.bytes) (parseDocumentNode s idx ex d) (memParseDocumentNode src idx ex M a)
      (fun r b => b.id = r.id ∧ r.id < 65536 ∧ b.canHaveChildren = r.canHaveChildren ∧ Tok V b.tag r.tag ∧ b.next = r.next ∧
        DomR V r.dom (b.dom, b.arena)) := by
  unfold parseDocumentNode memParseDocumentNode
  refine (h.createNode .document).bind (fun ⟨id, d1⟩ hq => ?_) fun ⟨id, d1⟩ ⟨id', M1, a1⟩ hq hR => ?_
  · have hn := (createNode_bytes _ _ _ hq).2.2
    rw [if_neg (by decide)] at hn
    dsimp only at hn ⊢
    refine Ok.triv.bind fun _ _ => Ok.triv.bind fun _ _ => (attrLoop_adds _ _ _ _ _ _).bind fun ⟨j, can, d2⟩ h2 => ?_
    dsimp only at h2 ⊢
    refine (setTag_bytes _ _ _ _ (nd := ⟨.document, .tag 0⟩) ?_ rfl).bind fun d3 h3 => Ok.ok ?_
    · rw [h2.nodes, hn]
    · exact h2.bytes.trans h3
  · obtain ⟨e1, hid, own1, hR1⟩ := hR
    dsimp only at e1 hid hR1 ⊢
    subst e1
    have hn := (createNode_bytes _ _ _ hq).2.2
    rw [if_neg (by decide)] at hn
    dsimp only at hn
    rw [hR1.read hs]
    refine SimC.same fun slashed _ => SimC.same fun tag htag => ?_
    have tk := hs.sub htag
    rw [hR1.read tk, hs.len]
    refine (attrLoop_sim hs hid _ _ _ _ _ _ own1 hR1).bind (fun ⟨j, can, d2⟩ hq2 => ?_) fun ⟨j, can, d2⟩ ⟨j', can', M2, a2⟩ hq2 hR => ?_
    · have h2 := attrLoop_adds _ _ _ _ _ _ _ hq2
      dsimp only at h2 ⊢
      refine (setTag_bytes _ _ _ _ (nd := ⟨.document, .tag 0⟩) ?_ rfl).bind fun d3 h3 => Ok.ok h3
      rw [h2.nodes, hn]
    · have h2 := attrLoop_adds _ _ _ _ _ _ _ hq2
      obtain ⟨e2, e3, own2, hR2⟩ := hR
      dsimp only at e2 e3 hR2 h2 ⊢
      subst e2 e3
      refine (hR2.setTag (nd := ⟨.document, .tag 0⟩) (by rw [h2.nodes, hn]) rfl tk can').bind (fun d3 _ => Ok.ok (le_refl _))
        fun d3 ⟨M3, a3⟩ _ hR => ?_
      exact SimC.okR ⟨rfl, hid, rfl, tk, rfl, hR⟩

/-- The state of the parser's loop in memory. -/
structure StateR (V : MEnv) (st : PState) (b : MPState) : Prop where
  idx : b.idx = st.idx
  prev : b.prev = st.prev
  small : st.prev < 65536
  stack : StackR V st.stack b.stack
  dom : DomR V st.dom (b.dom, b.arena)

def StepR (V : MEnv) : PStep → MPStep → Prop
  | .next st, .next b => StateR V st b
  | .null d, .null M a => DomR V d (M, a)
  | _, _ => False

def PStep.bytes : PStep → Int
  | .next st => st.dom.bytes
  | .null d => d.bytes

theorem tok_empty {V : MEnv} : Tok V .empty [] := ⟨rfl, by decide, by decide, fun i c h => by simp at h⟩

theorem parseText_top {V : MEnv} (s : Str) (idx : Nat) {st : PState} {l' : List (Nat × MStr)} (h : StackR V st.stack l') :
    ∃ t, Tok V (memTopTag l') t ∧ parseText s idx st = (do
      let (id, i, d) ← parseTextNode s idx t st.dom
      .ok (.next { idx := skipSpace s i, dom := parserUpdateReferences id st.prev st.stack d, stack := st.stack, prev := id })) := by
  obtain ⟨i1, d1, l1, p1⟩ := st
  dsimp only at h
  cases h with
  | nil => exact ⟨[], tok_empty, rfl⟩
  | cons _ ht _ => exact ⟨_, ht, rfl⟩

theorem parseText_sim {V : MEnv} {src : MStr} {s : Str} (hs : Tok V src s) (idx : Nat) {st : PState} {b : MPState} (h : StateR V st b) :
    SimC V PStep.bytes (parseText s idx st) (memParseText src idx b) (StepR V) := by
  obtain ⟨own, hd⟩ := h.dom
  obtain ⟨t, ht, he⟩ := parseText_top s idx h.stack
  rw [he]
  unfold memParseText
  refine (hd.textNode hs ht idx).bind (fun r _ => Ok.ok ?_) fun ⟨id, i, d1⟩ ⟨id', i', M1, a1⟩ _ hR => ?_
  · exact parserUpdate_bytes _ _ _ _
  · obtain ⟨e1, hid, e2, own1, hR1⟩ := hR
    dsimp only at e1 hid e2 hR1 ⊢
    subst e1 e2
    rw [h.prev]
    have := (hR1.links h.stack hid h.small).bind (L2 := PStep.bytes) (f := fun d2 => .ok (.next { idx := skipSpace s i', dom := d2, stack := st.stack, prev := id' }))
      (g := fun q => .ok (.next { idx := skipSpace (src.read q.2.mem) i', dom := q.1, arena := q.2, stack := b.stack, prev := id' })) (R2 := StepR V)
      (fun r _ => Ok.ok (le_refl _)) (fun r q _ hR => by
        obtain ⟨o, hR⟩ := hR
        rw [hR.read hs]
        exact SimC.okR (R := StepR V) ⟨rfl, rfl, hid, h.stack, o, hR⟩)
    exact this

theorem parseElement_sim {V : MEnv} {src : MStr} {s : Str} (hs : Tok V src s) (idx : Nat) {st : PState} {b : MPState} (h : StateR V st b) :
    SimC V PStep.bytes (parseElement s idx st) (memParseElement src idx b) (StepR V) := by
  obtain ⟨own, hd⟩ := h.dom
  unfold parseElement memParseElement
  dsimp only at hd
  rw [hd.read hs]
  refine (hd.documentNode hs idx _).bind (fun r _ => ?_) fun r q _ hR => ?_
  · have := parserUpdate_bytes r.id st.prev st.stack r.dom
    dsimp only
    split
    · split
      · exact Ok.ok this
      · exact Ok.ok this
    · exact Ok.ok this
  · obtain ⟨e1, hid, e2, tk, e3, own1, hR1⟩ := hR
    dsimp only at hR1
    rw [e1, e2, e3, h.prev, h.stack.length]
    have := (hR1.links h.stack hid h.small).bind (L2 := PStep.bytes) (f := fun d =>
        if r.canHaveChildren then
          if st.stack.length ≥ maxDepth then .ok (.null d)
          else .ok (.next { idx := skipSpace s r.next, dom := d, stack := (r.id, r.tag) :: st.stack, prev := r.id })
        else .ok (.next { idx := skipSpace s r.next, dom := d, stack := st.stack, prev := r.id }))
      (g := fun p =>
        if r.canHaveChildren then
          if st.stack.length ≥ maxDepth then .ok (.null p.1 p.2)
          else .ok (.next { idx := skipSpace (src.read p.2.mem) r.next, dom := p.1, arena := p.2, stack := (r.id, q.tag) :: b.stack, prev := r.id })
        else .ok (.next { idx := skipSpace (src.read p.2.mem) r.next, dom := p.1, arena := p.2, stack := b.stack, prev := r.id })) (R2 := StepR V)
      (fun d _ => by
        split
        · split
          · exact Ok.ok (le_refl _)
          · exact Ok.ok (le_refl _)
        · exact Ok.ok (le_refl _)) (fun d p _ hR => by
        obtain ⟨o, hR⟩ := hR
        rw [hR.read hs]
        by_cases hcan : r.canHaveChildren = true
        · rw [if_pos hcan, if_pos hcan]
          by_cases hdp : st.stack.length ≥ maxDepth
          · rw [if_pos hdp, if_pos hdp]; exact SimC.okR (R := StepR V) ⟨o, hR⟩
          · rw [if_neg hdp, if_neg hdp]
            exact SimC.okR (R := StepR V) ⟨rfl, rfl, hid, StackR.cons hid tk h.stack, o, hR⟩
        · rw [if_neg hcan, if_neg hcan]
          exact SimC.okR (R := StepR V) ⟨rfl, rfl, hid, h.stack, o, hR⟩)
    exact this

theorem parseEndTag_sim {V : MEnv} (s : Str) (n : Nat) {st : PState} {b : MPState} (h : StateR V st b) :
    StepR V (parseEndTag s n st) (memParseEndTag s n b) := by
  obtain ⟨i1, d1, l1, p1⟩ := st
  obtain ⟨i2, M2, a2, l2, p2⟩ := b
  obtain ⟨h1, h2, h3, h4, h5⟩ := h
  dsimp only at h1 h2 h3 h4 h5
  subst h1 h2
  unfold parseEndTag memParseEndTag
  dsimp only
  have hl := h4.length
  cases h4 with
  | nil => exact ⟨rfl, rfl, h3, .nil, h5⟩
  | cons hi ht h4 =>
    dsimp only
    rename_i i st' r l l'
    rw [show ((i, r) :: l').length = ((i, st') :: l).length from hl]
    split
    · exact ⟨rfl, rfl, hi, h4, h5⟩
    · exact ⟨rfl, rfl, h3, .cons hi ht h4, h5⟩

theorem atEndTag_sim {V : MEnv} {src : MStr} {s : Str} (hs : Tok V src s) (junk : Nat → Out Bool) {st : PState} {b : MPState}
    (h : StateR V st b) : memAtEndTag junk src b.idx b.stack b.arena.mem = atEndTag junk s st.idx st.stack := by
  obtain ⟨own, hd⟩ := h.dom
  dsimp only at hd
  have hst := h.stack
  unfold memAtEndTag atEndTag
  rw [h.idx, hd.read hs]
  revert hst
  generalize st.stack = l
  generalize b.stack = l'
  intro hst
  cases hst with
  | nil => rfl
  | cons _ ht _ => dsimp only; rw [hd.read ht]

theorem parseStep_mono (junk : Nat → Out Bool) (s : Str) (n : Nat) (st : PState) : Ok (fun r => st.dom.bytes ≤ r.bytes) (parseStep junk s n st) := by
  have htext : ∀ idx, Ok (fun r => st.dom.bytes ≤ r.bytes) (parseText s idx st) := by
    intro idx
    unfold parseText
    refine (parseTextNode_bytes _ _ _ _).bind fun r hr => Ok.ok ?_
    exact hr.trans (parserUpdate_bytes _ _ _ _)
  unfold parseStep
  split
  · refine Ok.triv.bind fun c _ => ?_
    split
    · exact Ok.triv.bind fun i _ => Ok.ok (le_refl _)
    · refine Ok.triv.bind fun e _ => ?_
      split
      · refine Ok.ok ?_
        unfold parseEndTag
        dsimp only
        split
        · split <;> exact le_refl _
        · exact le_refl _
      · dsimp only
        split
        · unfold parseElement
          refine (parseDocumentNode_bytes _ _ _ _).bind fun r hr => ?_
          have := hr.trans (parserUpdate_bytes r.id st.prev st.stack r.dom)
          dsimp only
          split
          · split
            · exact Ok.ok this
            · exact Ok.ok this
          · exact Ok.ok this
        · exact htext _
  · exact htext _

theorem parseStep_sim {V : MEnv} {src : MStr} {s : Str} (hs : Tok V src s) (junk : Nat → Out Bool) (n : Nat) {st : PState} {b : MPState}
    (h : StateR V st b) : SimC V PStep.bytes (parseStep junk s n st) (memParseStep junk src n b) (StepR V) := by
  have hend := atEndTag_sim hs junk h
  have hend2 := parseEndTag_sim s n h
  have htx := fun i => parseText_sim hs i h
  have hel := fun i => parseElement_sim hs i h
  obtain ⟨own, hd⟩ := h.dom
  dsimp only at hd
  unfold parseStep memParseStep
  rw [hend, hd.read hs, h.idx]
  dsimp only
  by_cases h1 : (currentChar s st.idx == cLt) = true
  · rw [if_pos h1, if_pos h1]
    refine SimC.same fun c _ => ?_
    by_cases h2 : c = true
    · rw [if_pos h2, if_pos h2]
      exact SimC.same fun i _ => SimC.okR (R := StepR V) ⟨rfl, h.prev, h.small, h.stack, h.dom⟩
    · rw [if_neg h2, if_neg h2]
      refine SimC.same fun e _ => ?_
      by_cases h3 : e = true
      · rw [if_pos h3, if_pos h3]
        exact SimC.okR hend2
      · rw [if_neg h3, if_neg h3]
        by_cases h4 : (isAlphabetical (currentChar s (st.idx + 1)) || currentChar s (st.idx + 1) == cBang) = true
        · rw [if_pos h4, if_pos h4]; exact hel _
        · rw [if_neg h4, if_neg h4]; exact htx _
  · rw [if_neg h1, if_neg h1]; exact htx _

theorem parseLoop_mono (junk : Nat → Out Bool) (s : Str) (n : Nat) : ∀ (f : Nat) (st : PState),
    Ok (fun r => st.dom.bytes ≤ r.dom.bytes) (parseLoop junk s n f st)
  | 0, _ => Ok.hang
  | f + 1, st => by
    simp only [parseLoop]
    split
    · refine (parseStep_mono junk s n st).bind fun r hr => ?_
      cases r with
      | next st' => exact (parseLoop_mono junk s n f st').mono fun q hq => le_trans hr hq
      | null d => exact Ok.ok hr
    · exact Ok.ok (le_refl _)

theorem parseLoop_sim {V : MEnv} {src : MStr} {s : Str} (hs : Tok V src s) (junk : Nat → Out Bool) (n : Nat) :
    ∀ (f : Nat) (st : PState) (b : MPState), StateR V st b →
    SimC V (fun r => r.dom.bytes) (parseLoop junk s n f st) (memParseLoop junk src n f b)
      (fun r q => q.ok = r.ok ∧ DomR V r.dom (q.dom, q.arena))
  | 0, _, _, _ => SimC.hang
  | f + 1, st, b, h => by
    simp only [parseLoop, memParseLoop]
    rw [h.idx, hs.len]
    by_cases hc : st.idx < s.length
    · rw [if_pos hc, if_pos hc]
      refine (parseStep_sim hs junk n h).bind (fun r _ => ?_) fun r q _ hR => ?_
      · cases r with
        | next st' => exact parseLoop_mono junk s n f st'
        | null d => exact Ok.ok (le_refl _)
      · cases r with
        | next st' =>
          cases q with
          | next b' => exact parseLoop_sim hs junk n f st' b' hR
          | null M a => exact False.elim hR
        | null d =>
          cases q with
          | next b' => exact False.elim hR
          | null M a => exact SimC.okR ⟨rfl, hR⟩
    · rw [if_neg hc, if_neg hc]
      exact SimC.okR ⟨rfl, h.dom⟩

theorem parse_sim {V : MEnv} {src : MStr} {s : Str} (hs : Tok V src s) (junk : Nat → Out Bool) {d : Dom} {M : MDom} {a : Arena} {own : Int → Owner}
    (h : Rep V own 0 M a d) {prev : Nat} (hp : prev < 65536) {l : List (Nat × Str)} {l' : List (Nat × MStr)} (hl : StackR V l l') :
    SimC V (fun r => r.dom.bytes) (parse junk s d prev l) (memParse junk src M a prev l')
      (fun r q => q.ok = r.ok ∧ DomR V r.dom (q.dom, q.arena)) := by
  unfold parse memParse
  rw [h.read hs, hs.len, hl.length]
  exact parseLoop_sim hs junk _ _ _ _ ⟨rfl, rfl, hp, hl, own, h⟩

end Flo
