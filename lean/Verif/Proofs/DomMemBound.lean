import Verif.Proofs.DomMemParse
import Verif.Proofs.Capacity
/-!
# The memory a parsed DOM takes is linear in the source
-/
namespace Flo
open Spec

theorem Ok.both {α : Type} {P Q : α → Prop} {x : Out α} (h : Ok P x) (h' : Ok Q x) : Ok (fun a => P a ∧ Q a) x :=
  fun a e => ⟨h a e, h' a e⟩

theorem Ok.of_post {α : Type} {E : Why → Prop} {P : α → Prop} {x : Out α} (h : Post E P x) : Ok P x := by
  intro a e; subst e; exact h

theorem textNodeContinue_false (s : Str) (i : Nat) (c : UInt8) : Ok (fun r => r = false → isSpace c = true) (textNodeContinue s i c) := by
  unfold textNodeContinue isSpace
  split
  · next h => exact Ok.ok fun _ => by simp [h]
  · split
    · exact Ok.ok fun h => by cases h
    · next h =>
      have : c = cSp := by simpa using h
      split
      · exact Ok.triv.bind fun _ _ => Ok.ok fun _ => by simp [this]
      · exact Ok.ok fun _ => by simp [this]

theorem chunkLoop_ok (s : Str) : ∀ (l : Str) (i n : Nat), s.drop i = l → i ≤ s.length →
    Ok (fun r => i ≤ r.1 ∧ r.1 ≤ s.length ∧ r.2 + i = n + r.1 ∧ ∀ c, s[r.1]? = some c → c = cLt ∨ isSpace c = true) (chunkLoop s l i n) := by
  intro l
  induction l with
  | nil =>
    intro i n hl hi
    refine Ok.ok ⟨le_refl _, hi, by simp, fun c hc => ?_⟩
    have := List.drop_eq_nil_iff.1 hl
    rw [List.getElem?_eq_none this] at hc
    cases hc
  | cons c cs ih =>
    intro i n hl hi
    have hlt : i < s.length := by
      by_contra hcon
      rw [List.drop_eq_nil_of_le (by omega)] at hl; cases hl
    have hd := List.drop_eq_getElem_cons hlt
    rw [hl] at hd
    injection hd with hc hcs
    simp only [chunkLoop]
    refine (textNodeContinue_false s i c).bind fun b hb => ?_
    split
    · refine (ih (i + 1) (n + 1) hcs.symm (by omega)).mono fun r hr => ?_
      exact ⟨by omega, hr.2.1, by omega, hr.2.2.2⟩
    · next hn =>
      refine Ok.ok ⟨le_refl _, hi, by simp, fun c' hc' => ?_⟩
      dsimp only at hc'
      rw [List.getElem?_eq_getElem hlt, ← hc] at hc'
      cases hc'
      simp only [Bool.and_eq_true, bne_iff_ne, ne_eq, not_and, Decidable.not_not] at hn
      cases b
      · exact Or.inr (hb rfl)
      · exact Or.inl (hn rfl)

theorem parseChunk_ok {s : Str} {idx : Nat} (hi : idx ≤ s.length) :
    Ok (fun r => idx ≤ r.1 ∧ r.1 ≤ s.length ∧ r.2.length + idx ≤ r.1 ∧ ∀ c, s[r.1]? = some c → c = cLt ∨ isSpace c = true) (parseChunk s idx) := by
  unfold parseChunk
  refine (chunkLoop_ok s _ idx 0 rfl hi).bind fun ⟨i, n⟩ h => ?_
  dsimp only at h ⊢
  have key : ∀ l : Int, l ≤ n → Ok (fun r : Nat × Str => idx ≤ r.1 ∧ r.1 ≤ s.length ∧ r.2.length + idx ≤ r.1 ∧
      ∀ c, s[r.1]? = some c → c = cLt ∨ isSpace c = true) (subStr s idx l >>= fun t => .ok (i, t)) := by
    intro l hl r hr
    unfold subStr at hr
    split at hr
    · cases hr
    · split at hr
      · cases hr
      · split at hr
        · cases hr
        · cases hr
          refine ⟨h.1, h.2.1, ?_, h.2.2.2⟩
          simp only [List.length_take]
          omega
  split
  · refine Ok.triv.bind fun c _ => ?_
    rw [Out.bind_ok]
    exact key _ (by split <;> omega)
  · exact key _ (le_refl _)

/-- Room for one more space, unless a tag follows. -/
def spare (s : Str) (idx : Nat) (app : Bool) : Nat :=
  if app = true ∧ idx < s.length ∧ s[idx]? ≠ some cLt then 1 else 0

theorem spare_le (s : Str) (idx : Nat) (app : Bool) : spare s idx app ≤ 1 := by unfold spare; split <;> omega

theorem textLoop_len (s tag : Str) : ∀ (f idx : Nat) (raw : Str) (app : Bool),
    Ok (fun r => idx ≤ r.2 ∧ r.1.length + (s.length - r.2) ≤ raw.length + (s.length - idx) + spare s idx app) (textLoop s tag f idx raw app)
  | 0, _, _, _ => Ok.hang
  | f + 1, idx, raw, app => by
    simp only [textLoop]
    cases hc : s[idx]? with
    | none => exact Ok.ok ⟨le_refl _, by dsimp only; omega⟩
    | some ch =>
      have hlt := lt_of_getElem? hc
      dsimp only
      refine (Ok.of_post (textStop_post s tag idx ch)).bind fun ⟨stop, cmt⟩ hst => ?_
      dsimp only at hst ⊢
      split
      · exact Ok.ok ⟨le_refl _, by dsimp only; omega⟩
      · next hns =>
        split
        · refine (Ok.of_post (skipComment_post s idx)).bind fun i hi => ?_
          have := skipSpace_ge s i
          have hsp := spare_le s (skipSpace s i) app
          refine (textLoop_len s tag f _ _ _).mono fun r hr => ⟨by omega, by omega⟩
        · next hnc =>
          refine (parseChunk_ok (by omega)).bind fun ⟨i, t⟩ hp => ?_
          dsimp only at hp ⊢
          obtain ⟨h1, h2, h3, h4⟩ := hp
          have hch : ch ≠ cLt := by
            intro h
            cases cmt
            · exact hns (hst.1 h rfl)
            · exact hnc rfl
          have hge := skipSpace_ge s i
          have hspare : (s.length - skipSpace s i) + spare s (skipSpace s i) true ≤ s.length - i := by
            unfold spare
            split
            · next hsp =>
              by_cases hil : i < s.length
              · rcases h4 _ (List.getElem?_eq_getElem hil) with h5 | h5
                · exfalso
                  have : skipSpace s i = i := by
                    unfold skipSpace; rw [scanWhile_eq, List.drop_eq_getElem_cons hil, h5]
                    rfl
                  rw [this, List.getElem?_eq_getElem hil, h5] at hsp
                  exact hsp.2.2 rfl
                · have := skipSpace_gt (List.getElem?_eq_getElem hil) h5
                  omega
              · have := hsp.2.1
                omega
            · omega
          refine (textLoop_len s tag f _ _ _).mono fun r hr => ⟨by omega, ?_⟩
          have hraw : ((if app = true then raw ++ [cSp] else raw) ++ t).length ≤ raw.length + spare s idx app + t.length := by
            unfold spare
            rw [hc]
            cases app
            · simp
            · simp [hch, hlt]; omega
          omega

/-! ## Bytes per source byte -/

theorem autoInsert_cost (m : AutoMap) (s : Str) :
    Ok (fun r => r.map.identity + (if r.wasInserted then 0 else 1) ≤ m.identity + 1) (m.insert s) := by
  intro r hr
  unfold AutoMap.insert at hr
  split at hr
  · cases hr; simp
  · split at hr
    · cases hr
    · cases hr; simp

theorem internKey_cost (s : Str) (d : Dom) : Ok (fun r => r.2.bytes ≤ d.bytes + 136) (internKey s d) := by
  unfold internKey
  refine (autoInsert_cost _ _).bind fun r hr => Ok.ok ?_
  unfold Dom.bytes Dom.textLen
  revert hr
  cases r.wasInserted <;> simp <;> intro _ <;> omega

theorem internVal_cost (s : Str) (d : Dom) : Ok (fun r => r.2.bytes ≤ d.bytes + 136) (internVal s d) := by
  unfold internVal
  refine (autoInsert_cost _ _).bind fun r hr => Ok.ok ?_
  unfold Dom.bytes Dom.textLen
  revert hr
  cases r.wasInserted <;> simp <;> intro _ <;> omega

theorem internBool_cost (s : Str) (d : Dom) : Ok (fun r => r.2.bytes ≤ d.bytes + 136) (internBool s d) := by
  unfold internBool
  refine (autoInsert_cost _ _).bind fun r hr => Ok.ok ?_
  unfold Dom.bytes Dom.textLen
  revert hr
  cases r.wasInserted <;> simp <;> intro _ <;> omega

theorem addProperty_cost (n : Nat) (k v : Str) (d : Dom) : Ok (fun d' => d'.bytes ≤ d.bytes + 304) (addProperty n k v d) := by
  unfold addProperty
  refine (internKey_cost _ _).bind fun r1 h1 => (internVal_cost _ _).bind fun r2 h2 => Ok.ok ?_
  have : ({ r2.2 with props := r2.2.props ++ [⟨n, r1.1, r2.1⟩] } : Dom).bytes = r2.2.bytes + 32 := by
    unfold Dom.bytes Dom.textLen; simp; omega
  rw [this]; omega

theorem addBoolProperty_cost (n : Nat) (k : Str) (d : Dom) : Ok (fun d' => d'.bytes ≤ d.bytes + 160) (addBoolProperty n k d) := by
  unfold addBoolProperty
  refine (internBool_cost _ _).bind fun r1 h1 => Ok.ok ?_
  have : ({ r1.2 with boolProps := r1.2.boolProps ++ [⟨n, r1.1⟩] } : Dom).bytes = r1.2.bytes + 24 := by
    unfold Dom.bytes Dom.textLen; simp; omega
  rw [this]; omega

theorem attrLoop_cost (s : Str) (n : Nat) : ∀ (f idx : Nat) (can : Bool) (d : Dom),
    Ok (fun r => idx ≤ r.1 ∧ r.2.2.bytes + 320 * ((s.length - r.1 : Nat) : Int) ≤ d.bytes + 320 * ((s.length - idx : Nat) : Int))
      (attrLoop s n f idx can d)
  | 0, _, _, _ => Ok.hang
  | f + 1, idx, can, d => by
    simp only [attrLoop]
    cases hs : s[idx]? with
    | none => exact Ok.ok ⟨le_refl _, le_refl _⟩
    | some ch =>
      have hlt := lt_of_getElem? hs
      dsimp only
      split
      · exact Ok.ok ⟨le_refl _, le_refl _⟩
      · rename_i hgt
        split
        · have := skipSpace_ge s (idx + 1)
          exact (attrLoop_cost s n f _ _ d).mono fun r hr => ⟨by omega, by omega⟩
        · split
          · rename_i hns
            refine (Ok.of_post (parseProp_post s idx (by omega))).bind ?_
            rintro ⟨key, i⟩ ⟨hi1, hi2, hi3⟩
            dsimp only at hi1 hi2 hi3 ⊢
            split
            · rename_i heq
              have heq : currentChar s i = cEq := by simpa using heq
              have hilt := lt_of_getElem? (currentChar_ne_zero heq (by decide))
              refine (Ok.of_post (parseProp_post s (i + 1) (by omega))).bind ?_
              rintro ⟨value, j⟩ ⟨hj1, hj2, _⟩
              dsimp only at hj1 hj2 ⊢
              refine (addProperty_cost _ _ _ _).bind fun d1 h1 => ?_
              have := skipSpace_ge s j
              exact (attrLoop_cost s n f _ _ d1).mono fun r hr => ⟨by omega, by omega⟩
            · rename_i hneq
              have hprog : idx < i := by
                by_contra hcon
                have hieq : i = idx := by omega
                subst hieq
                rw [currentChar_eq hs] at hneq
                refine hcon (hi3 ch hs ?_)
                simp at hns hgt hneq
                simp [isPropEnd, hns, hgt, hneq]
              refine (addBoolProperty_cost _ _ _).bind fun d1 h1 => ?_
              have := skipSpace_ge s i
              exact (attrLoop_cost s n f _ _ d1).mono fun r hr => ⟨by omega, by omega⟩
          · have := skipSpace_ge s idx
            exact (attrLoop_cost s n f _ _ d).mono fun r hr => ⟨by omega, by omega⟩

theorem setTag_cost (tag : Str) (n : Nat) (p : Bool) (d : Dom) : Ok (fun d' => d'.bytes ≤ d.bytes + 168) (setTag tag n p d) := by
  unfold setTag
  refine (autoInsert_cost _ _).bind fun r hr => ?_
  dsimp only
  intro d' hd'
  unfold Dom.node at hd'
  dsimp only at hd'
  cases hn : d.nodes[n]? with
  | none => rw [hn] at hd'; cases hd'
  | some nd =>
    rw [hn] at hd'
    simp only [Out.bind_ok] at hd'
    cases hd'
    have h1 := setNode_bytes (d := { d with
        tagMap := r.map, tagReg := if r.wasInserted = true then d.tagReg ++ [(tag, p)] else d.tagReg }) (n := n) (x := nd)
        (y := { nd with payload := .tag r.entryIndex }) hn
    have h2 : ({ d with
        tagMap := r.map, tagReg := if r.wasInserted = true then d.tagReg ++ [(tag, p)] else d.tagReg } : Dom).bytes ≤ d.bytes + 168 := by
      unfold Dom.bytes Dom.textLen
      revert hr
      cases r.wasInserted <;> simp <;> intro _ <;> omega
    have : (({ nd with payload := .tag r.entryIndex } : Node).textLen : Int) = 0 := rfl
    rw [this] at h1
    omega

theorem parserUpdate_cost (new prev : Nat) (stack : List (Nat × Str)) (d : Dom) : (parserUpdateReferences new prev stack d).bytes ≤ d.bytes + 48 := by
  unfold parserUpdateReferences
  split
  · split
    · unfold Dom.bytes Dom.textLen; simp; omega
    · dsimp only
      split
      · unfold Dom.bytes Dom.textLen; simp; omega
      · unfold Dom.bytes Dom.textLen; simp; omega
  · omega

theorem parseDocumentNode_cost (s : Str) (idx : Nat) (ex : Bool) (d : Dom) :
    Ok (fun r => r.dom.bytes + 320 * ((s.length - r.next : Nat) : Int) ≤ d.bytes + 272 + 320 * ((s.length - idx : Nat) : Int))
      (parseDocumentNode s idx ex d) := by
  unfold parseDocumentNode
  refine (createNode_bytes _ _).bind fun r1 h1 => Ok.triv.bind fun _ _ => Ok.triv.bind fun _ _ =>
    (attrLoop_cost _ _ _ _ _ _).bind fun ⟨j, can, d2⟩ h2 => ?_
  dsimp only at h2 ⊢
  refine (setTag_cost _ _ _ _).bind fun d3 h3 => Ok.ok ?_
  have hge : idx ≤ scanUntil isTagEnd (s.drop idx) idx := scanWhile_ge _ _ _
  have := skipSpace_ge s (scanUntil isTagEnd (s.drop idx) idx)
  have := h1.2.1
  dsimp only
  omega

theorem parseTextNode_cost (s : Str) (idx : Nat) (tag : Str) (d : Dom) :
    Ok (fun r => r.2.2.bytes + 4 * ((s.length - r.2.1 : Nat) : Int) ≤ d.bytes + 104 + 4 * ((s.length - idx : Nat) : Int)) (parseTextNode s idx tag d) := by
  unfold parseTextNode
  refine (createNode_bytes _ _).bind fun r1 h1 => (textLoop_len s tag _ _ _ _).bind fun r2 h2 => ?_
  intro r hr
  have hn := h1.2.2
  rw [if_pos rfl] at hn
  unfold Dom.node at hr
  rw [hn] at hr
  simp only [Out.bind_ok] at hr
  cases hr
  have := setNode_bytes (d := r1.2) (n := r1.1) (y := ⟨.text, .text r2.1⟩) hn
  have e : (Node.textLen ⟨.text, .text []⟩ : Int) = 0 := rfl
  have e2 : (Node.textLen ⟨.text, .text r2.1⟩ : Int) = r2.1.length := rfl
  have := h1.2.1
  have e3 : spare s idx false = 0 := by simp [spare]
  rw [e3] at h2
  simp only [List.length_nil] at h2
  dsimp only
  omega

/-- What a step costs: a text, or an element paid for by its source bytes. -/
def StepCost (s : Str) (st : PState) : PStep → Prop
  | .next st' =>
    st'.dom.bytes + 4 * ((s.length - st'.idx : Nat) : Int) ≤ st.dom.bytes + 152 + 4 * ((s.length - st.idx : Nat) : Int) ∨
      st'.dom.bytes + 320 * ((s.length - st'.idx : Nat) : Int) ≤ st.dom.bytes + 320 * ((s.length - st.idx : Nat) : Int)
  | .null d => d.bytes ≤ st.dom.bytes + 320 * ((s.length - st.idx : Nat) : Int)

theorem parseText_cost (s : Str) (idx : Nat) (st : PState) (hi : st.idx ≤ idx) : Ok (StepCost s st) (parseText s idx st) := by
  unfold parseText
  refine (parseTextNode_cost s idx _ st.dom).bind fun ⟨id, i, d⟩ h => Ok.ok (Or.inl ?_)
  dsimp only at h ⊢
  have := parserUpdate_cost id st.prev st.stack d
  have := skipSpace_ge s i
  omega

theorem parseElement_cost (s : Str) (st : PState) (hi : st.idx < s.length) : Ok (StepCost s st) (parseElement s (st.idx + 1) st) := by
  unfold parseElement
  refine (parseDocumentNode_cost s (st.idx + 1) _ st.dom).bind fun r h => ?_
  have := parserUpdate_cost r.id st.prev st.stack r.dom
  have := skipSpace_ge s r.next
  dsimp only
  split
  · split
    · refine Ok.ok ?_
      show _ ≤ _
      omega
    · refine Ok.ok (Or.inr ?_); dsimp only; omega
  · refine Ok.ok (Or.inr ?_); dsimp only; omega

theorem parseStep_cost (junk : Nat → Out Bool) (s : Str) (n : Nat) (st : PState) (hi : st.idx < s.length) :
    Ok (fun r => StepCost s st r ∨ ∃ st', r = .next st' ∧ st'.dom = st.dom) (parseStep junk s n st) := by
  unfold parseStep
  split
  · refine Ok.triv.bind fun c _ => ?_
    split
    · exact Ok.triv.bind fun i _ => Ok.ok (Or.inr ⟨_, rfl, rfl⟩)
    · refine Ok.triv.bind fun e _ => ?_
      split
      · unfold parseEndTag
        dsimp only
        split
        · split <;> exact Ok.ok (Or.inr ⟨_, rfl, rfl⟩)
        · exact Ok.ok (Or.inr ⟨_, rfl, rfl⟩)
      · dsimp only
        split
        · exact (parseElement_cost s st hi).mono fun r hr => Or.inl hr
        · exact (parseText_cost s _ st (by omega)).mono fun r hr => Or.inl hr
  · exact (parseText_cost s _ st (by omega)).mono fun r hr => Or.inl hr

theorem parseLoop_cost {junk : Nat → Out Bool} (hh : ∀ i, junk i ≠ .hang) (s : Str) (n : Nat) :
    ∀ (f : Nat) (st : PState), AtTok s st.idx →
      Ok (fun r => r.dom.bytes ≤ st.dom.bytes + 320 * ((s.length - st.idx : Nat) : Int)) (parseLoop junk s n f st)
  | 0, _, _ => Ok.hang
  | f + 1, st, hat => by
    simp only [parseLoop]
    split
    · next hlt =>
      have hpost := parseStep_post (E := fun _ => True) (junk := junk) (s := s) (startLen := n) (st := st) (fun _ i => by
        have := hh i
        cases hji : junk i with
        | hang => exact absurd hji this
        | _ => trivial) (fun _ _ => trivial) hlt hat
      refine ((parseStep_cost junk s n st hlt).both (Ok.of_post hpost)).bind fun r hr => ?_
      cases r with
      | null d =>
        rcases hr.1 with h | ⟨st', h, -⟩
        · exact Ok.ok h
        · cases h
      | next st' =>
        have h1 : st.idx < st'.idx := hr.2.1
        refine (parseLoop_cost hh s n f st' hr.2.2.1).mono fun q hq => ?_
        rcases hr.1 with (h | h) | ⟨st2, h, e⟩
        · omega
        · omega
        · cases h
          rw [e] at hq
          omega
    · refine Ok.ok ?_
      dsimp only
      omega

theorem parse_cost {junk : Nat → Out Bool} (hh : ∀ i, junk i ≠ .hang) (s : Str) (d : Dom) (prev : Nat) (stack : List (Nat × Str)) :
    Ok (fun r => r.dom.bytes ≤ d.bytes + 320 * (s.length : Int)) (parse junk s d prev stack) := by
  unfold parse
  refine (parseLoop_cost hh s _ _ _ (atTok_skipSpace s 0)).mono fun r hr => ?_
  dsimp only at hr
  omega

end Flo
