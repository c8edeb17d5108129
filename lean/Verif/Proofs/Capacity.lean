import Verif.Proofs.Forest
import Verif.Spec.Room
/-!
# When the parser gives up for lack of identifiers

Node and name identifiers are 16 bits wide.  Every node and every name costs at least one byte of input, so an
input of at most 65533 bytes never exhausts them.
-/
namespace Flo
open Spec

/-- The run does not jump; if it returns, the result satisfies `P`. -/
def NJ {α : Type} (P : α → Prop) : Out α → Prop
  | .ok a => P a
  | .longjmp => False
  | _ => True

namespace NJ
variable {α β : Type}

theorem bind {x : Out α} {f : α → Out β} {P : α → Prop} {Q : β → Prop} (hx : NJ P x)
    (hf : ∀ a, x = .ok a → P a → NJ Q (f a)) : NJ Q (x >>= f) := by
  cases x with
  | ok a => exact hf a rfl hx
  | longjmp => exact hx
  | ub w => trivial
  | hang => trivial

theorem mono {x : Out α} {P Q : α → Prop} (h : NJ P x) (hPQ : ∀ a, P a → Q a) : NJ Q x := by
  cases x with
  | ok a => exact hPQ a h
  | longjmp => exact h
  | ub w => trivial
  | hang => trivial

theorem ne {x : Out α} {P : α → Prop} (h : NJ P x) : x ≠ .longjmp := by
  rintro rfl; exact h

/-- A run that never jumps, with a postcondition from elsewhere. -/
theorem post {x : Out α} {E : Why → Prop} {P Q : α → Prop} (h : NJ Q x) (hp : Post E P x) :
    NJ (fun a => P a ∧ Q a) x := by
  cases x with
  | ok a => exact ⟨hp, h⟩
  | longjmp => exact h
  | ub w => trivial
  | hang => trivial

theorem elim {x : Out α} {P : α → Prop} {a : α} (h : NJ P x) (hx : x = .ok a) : P a := by
  subst hx; exact h

end NJ

abbrev Any {α : Type} : α → Prop := fun _ => True

/-! ## Scanning never jumps -/

theorem charAt_nj (s : Str) (i : Int) : NJ Any (charAt s i) := by
  unfold charAt
  split
  · trivial
  · split <;> trivial

theorem subStr_nj (s : Str) (a b : Int) : NJ Any (subStr s a b) := by
  unfold subStr
  split
  · trivial
  · split
    · trivial
    · split <;> trivial

theorem commentLoop_nj (s : Str) : ∀ (l : Str) (i : Nat), NJ Any (commentLoop s l i) := by
  intro l
  induction l with
  | nil => intro i; trivial
  | cons c cs ih =>
    intro i
    unfold commentLoop
    split
    · refine (subStr_nj _ _ _).bind (fun t _ _ => ?_)
      split
      · trivial
      · exact ih _
    · exact ih _

theorem skipComment_nj (s : Str) (i : Nat) : NJ Any (skipComment s i) :=
  (commentLoop_nj s _ _).bind (fun _ _ _ => trivial)

theorem isCommentTag_nj (s : Str) (i : Nat) : NJ Any (isCommentTag s i) := by
  unfold isCommentTag
  split
  · exact (subStr_nj _ _ _).bind (fun _ _ _ => trivial)
  · trivial

theorem isCloseTag_nj (s : Str) (i : Nat) (t : Str) : NJ Any (isCloseTag s i t) := by
  unfold isCloseTag
  split
  · refine (subStr_nj _ _ _).bind (fun _ _ _ => ?_)
    split
    · exact (subStr_nj _ _ _).bind (fun _ _ _ => trivial)
    · trivial
  · trivial

theorem isEndDocumentTag_nj (s : Str) (i : Nat) (t : Str) : NJ Any (isEndDocumentTag s i t) := by
  unfold isEndDocumentTag
  dsimp only
  split
  · exact (subStr_nj _ _ _).bind (fun _ _ _ => trivial)
  · trivial

theorem textNodeContinue_nj (s : Str) (i : Nat) (c : UInt8) : NJ Any (textNodeContinue s i c) := by
  unfold textNodeContinue
  split
  · trivial
  · split
    · trivial
    · split
      · exact (charAt_nj _ _).bind (fun _ _ _ => trivial)
      · trivial

theorem chunkLoop_nj (s : Str) : ∀ (l : Str) (i n : Nat), NJ Any (chunkLoop s l i n) := by
  intro l
  induction l with
  | nil => intro i n; trivial
  | cons c cs ih =>
    intro i n
    unfold chunkLoop
    refine (textNodeContinue_nj s i c).bind (fun b _ _ => ?_)
    split
    · exact ih _ _
    · trivial

theorem parseChunk_nj (s : Str) (i : Nat) : NJ Any (parseChunk s i) := by
  unfold parseChunk
  refine (chunkLoop_nj s _ _ _).bind (fun r _ _ => ?_)
  obtain ⟨j, n⟩ := r
  dsimp only
  split
  · refine (charAt_nj _ _).bind (fun c _ _ => ?_)
    exact (subStr_nj _ _ _).bind (fun _ _ _ => trivial)
  · exact (subStr_nj _ _ _).bind (fun _ _ _ => trivial)

theorem textStop_nj (s t : Str) (i : Nat) (c : UInt8) : NJ Any (textStop s t i c) := by
  unfold textStop
  split
  · refine (isCommentTag_nj s i).bind (fun b _ _ => ?_)
    split
    · trivial
    · split
      · exact (isCloseTag_nj s i t).bind (fun _ _ _ => trivial)
      · trivial
  · trivial

theorem textLoop_nj (s t : Str) : ∀ (f i : Nat) (raw : Str) (b : Bool), NJ Any (textLoop s t f i raw b) := by
  intro f
  induction f with
  | zero => intro i raw b; trivial
  | succ f ih =>
    intro i raw b
    unfold textLoop
    split
    · trivial
    · refine (textStop_nj s t i _).bind (fun r _ _ => ?_)
      obtain ⟨x, y⟩ := r
      dsimp only
      split
      · trivial
      · split
        · exact (skipComment_nj s i).bind (fun _ _ _ => ih _ _ _)
        · exact (parseChunk_nj s i).bind (fun _ _ _ => ih _ _ _)

theorem parseProp_nj (s : Str) (i : Nat) : NJ Any (parseProp s i) := by
  unfold parseProp
  dsimp only
  split
  · exact (subStr_nj _ _ _).bind (fun _ _ _ => trivial)
  · exact (subStr_nj _ _ _).bind (fun _ _ _ => trivial)

theorem tagSlashed_nj (s : Str) (i : Nat) : NJ Any (tagSlashed s i) := by
  unfold tagSlashed
  split
  · exact (charAt_nj _ _).bind (fun _ _ _ => trivial)
  · trivial

/-! ## Room for more -/

theorem Spec.RoomA.le {d : Dom} {k j : Nat} (h : RoomA d k) (hj : j ≤ k) : RoomA d j := by
  obtain ⟨h1, h2, h3⟩ := h; exact ⟨by omega, by omega, by omega⟩

theorem Spec.Room.le {d : Dom} {k j : Nat} (h : Room d k) (hj : j ≤ k) : Room d j := by
  obtain ⟨h1, h2, h3⟩ := h; exact ⟨by omega, by omega, h3.le hj⟩

theorem insert_nj {m : AutoMap} (s : Str) (h : m.identity < 65535) :
    NJ (fun r => r.map.identity ≤ m.identity + 1) (m.insert s) := by
  unfold AutoMap.insert
  split
  · show m.identity ≤ m.identity + 1; omega
  · rw [if_neg (by omega)]; show m.identity + 1 ≤ _; omega

theorem addProperty_nj {n : Nat} (k v : Str) {d : Dom} {j : Nat} (h : RoomA d (j + 1)) :
    NJ (fun d' => RoomA d' j ∧ d'.nodes = d.nodes ∧ d'.tagMap = d.tagMap) (addProperty n k v d) := by
  obtain ⟨h1, h2, h3⟩ := h
  unfold addProperty internKey internVal
  refine NJ.bind (P := fun r => r.2.boolMap = d.boolMap ∧ r.2.keyMap.identity ≤ d.keyMap.identity + 1 ∧ r.2.valMap = d.valMap ∧
      r.2.nodes = d.nodes ∧ r.2.tagMap = d.tagMap) ?_ ?_
  · exact (insert_nj k (by omega)).bind (fun r _ hr => ⟨rfl, hr, rfl, rfl, rfl⟩)
  · rintro ⟨a, d1⟩ _ ⟨e1, e2, e3, e4, e5⟩
    dsimp only at e1 e2 e3 e4 e5 ⊢
    refine NJ.bind (P := fun r => r.2.boolMap = d.boolMap ∧ r.2.keyMap.identity ≤ d.keyMap.identity + 1 ∧
      r.2.valMap.identity ≤ d.valMap.identity + 1 ∧ r.2.nodes = d.nodes ∧ r.2.tagMap = d.tagMap) ?_ ?_
    · exact (insert_nj v (by rw [e3]; omega)).bind (fun r _ hr => ⟨e1, e2, by rw [e3] at hr; exact hr, e4, e5⟩)
    · rintro ⟨b, d2⟩ _ ⟨f1, f2, f3, f4, f5⟩
      dsimp only at f1 f2 f3 f4 f5 ⊢
      exact ⟨⟨by rw [f1]; omega, by show d2.keyMap.identity + j ≤ _; omega, by show d2.valMap.identity + j ≤ _; omega⟩, f4, f5⟩

theorem addBoolProperty_nj {n : Nat} (k : Str) {d : Dom} {j : Nat} (h : RoomA d (j + 1)) :
    NJ (fun d' => RoomA d' j ∧ d'.nodes = d.nodes ∧ d'.tagMap = d.tagMap) (addBoolProperty n k d) := by
  obtain ⟨h1, h2, h3⟩ := h
  unfold addBoolProperty internBool
  refine NJ.bind (P := fun r => r.2.boolMap.identity ≤ d.boolMap.identity + 1 ∧ r.2.keyMap = d.keyMap ∧ r.2.valMap = d.valMap ∧
      r.2.nodes = d.nodes ∧ r.2.tagMap = d.tagMap) ?_ ?_
  · exact (insert_nj k (by omega)).bind (fun r _ hr => ⟨hr, rfl, rfl, rfl, rfl⟩)
  · rintro ⟨a, d1⟩ _ ⟨e1, e2, e3, e4, e5⟩
    dsimp only at e1 e2 e3 e4 e5 ⊢
    exact ⟨⟨by show d1.boolMap.identity + j ≤ _; omega, by rw [e2]; omega, by rw [e3]; omega⟩, e4, e5⟩

theorem createNode_nj {ty : NodeType} {d : Dom} (h : d.nodes.length ≤ 65534) : NJ Any (createNode ty d) := by
  unfold createNode
  rw [if_neg (by omega)]; trivial

theorem attrLoop_nj (s : Str) (n k : Nat) : ∀ (f idx : Nat) (can : Bool) (d : Dom),
    RoomA d (s.length - idx + k) →
    NJ (fun r => idx ≤ r.1 ∧ RoomA r.2.2 (s.length - r.1 + k) ∧ r.2.2.nodes = d.nodes ∧ r.2.2.tagMap = d.tagMap)
      (attrLoop s n f idx can d) := by
  intro f
  induction f with
  | zero => intro _ _ _ _; trivial
  | succ f ih =>
    intro idx can d hr
    unfold attrLoop
    cases hs : s[idx]? with
    | none => exact ⟨Nat.le_refl _, hr, rfl, rfl⟩
    | some ch =>
      have hlt := lt_of_getElem? hs
      dsimp only
      split
      · exact ⟨Nat.le_refl _, hr, rfl, rfl⟩
      · rename_i hgt
        split
        · have := skipSpace_ge s (idx + 1)
          refine (ih (skipSpace s (idx + 1)) false d (hr.le (by omega))).mono ?_
          rintro r ⟨h1, h2⟩
          exact ⟨by omega, h2⟩
        · split
          · rename_i hns
            refine ((parseProp_nj s idx).post (parseProp_post s idx (by omega))).bind ?_
            rintro ⟨key, i⟩ _ ⟨⟨hi1, hi2, hi3⟩, _⟩
            dsimp only at hi1 hi2 hi3 ⊢
            split
            · rename_i heq
              have heq : currentChar s i = cEq := by simpa using heq
              have hilt := lt_of_getElem? (currentChar_ne_zero heq (by decide))
              refine ((parseProp_nj s (i + 1)).post (parseProp_post s (i + 1) (by omega))).bind ?_
              rintro ⟨value, j⟩ _ ⟨⟨hj1, hj2, _⟩, _⟩
              dsimp only at hj1 hj2 ⊢
              refine (addProperty_nj (j := s.length - idx - 1 + k) key value (hr.le (by omega))).bind ?_
              rintro d1 _ ⟨g1, g2, g3⟩
              have := skipSpace_ge s j
              refine (ih (skipSpace s j) can d1 (g1.le (by omega))).mono ?_
              rintro r ⟨h1, h2, h3, h4⟩
              exact ⟨by omega, h2, by rw [h3, g2], by rw [h4, g3]⟩
            · rename_i hneq
              have hprog : idx < i := by
                by_contra hcon
                have hieq : i = idx := by omega
                subst hieq
                rw [currentChar_eq hs] at hneq
                refine hcon (hi3 ch hs ?_)
                simp at hns hgt hneq
                simp [isPropEnd, hns, hgt, hneq]
              refine (addBoolProperty_nj (j := s.length - idx - 1 + k) key (hr.le (by omega))).bind ?_
              rintro d1 _ ⟨g1, g2, g3⟩
              have := skipSpace_ge s i
              refine (ih (skipSpace s i) can d1 (g1.le (by omega))).mono ?_
              rintro r ⟨h1, h2, h3, h4⟩
              exact ⟨by omega, h2, by rw [h3, g2], by rw [h4, g3]⟩
          · have := skipSpace_ge s idx
            refine (ih (skipSpace s idx) can d (hr.le (by omega))).mono ?_
            rintro r ⟨h1, h2⟩
            exact ⟨by omega, h2⟩

theorem setTag_nj {tag : Str} {n : Nat} {can : Bool} {d : Dom} (h : d.tagMap.identity < 65535) :
    NJ (fun d' => d'.tagMap.identity ≤ d.tagMap.identity + 1 ∧ d'.nodes.length = d.nodes.length ∧ d'.boolMap = d.boolMap ∧
      d'.keyMap = d.keyMap ∧ d'.valMap = d.valMap) (setTag tag n can d) := by
  unfold setTag
  refine (insert_nj tag h).bind (fun r _ hr => ?_)
  dsimp only
  refine NJ.bind (P := Any) ?_ (fun nd _ _ => ?_)
  · unfold Dom.node; split <;> trivial
  · exact ⟨hr, by simp [Dom.setNode], rfl, rfl, rfl⟩

theorem parseDocumentNode_nj {s : Str} {idx k : Nat} {ex : Bool} {d : Dom} (hlt : idx ≤ s.length)
    (hr : Room d (s.length - idx + 1 + k)) :
    NJ (fun r => idx < r.next ∧ Room r.dom (s.length - r.next + k)) (parseDocumentNode s idx ex d) := by
  obtain ⟨h1, h2, h3⟩ := hr
  unfold parseDocumentNode
  refine (createNode_nj (by omega)).bind ?_
  rintro ⟨id, d1⟩ hcn _
  obtain ⟨e1, e2, e3⟩ := createNode_eq hcn
  dsimp only
  have hge : idx ≤ scanUntil isTagEnd (s.drop idx) idx := scanWhile_ge _ _ _
  refine (tagSlashed_nj _ _).bind (fun sl _ _ => ?_)
  refine (subStr_nj _ _ _).bind (fun tag _ _ => ?_)
  have hsk := skipSpace_ge s (scanUntil isTagEnd (s.drop idx) idx)
  have hd1 : d1.nodes.length = d.nodes.length + 1 ∧ d1.tagMap = d.tagMap ∧ d1.boolMap = d.boolMap ∧ d1.keyMap = d.keyMap ∧
    d1.valMap = d.valMap := by rw [e3]; simp
  obtain ⟨g1, g2, g3, g4, g5⟩ := hd1
  have hra : RoomA d1 (s.length - idx + k) := ⟨by rw [g3]; have := h3.bool; omega, by rw [g4]; have := h3.key; omega,
    by rw [g5]; have := h3.val; omega⟩
  refine (attrLoop_nj s id k _ _ _ d1 (hra.le (by omega))).bind ?_
  rintro ⟨j, can, d2⟩ _ ⟨a1, a4, a2, a3⟩
  dsimp only at a1 a2 a3 a4 ⊢
  refine (setTag_nj (by rw [a3, g2]; omega)).bind ?_
  rintro d3 _ ⟨b1, b2, b3, b4, b5⟩
  refine ⟨by show idx < j + 1; omega, ⟨by show d3.nodes.length + (s.length - (j + 1) + k) ≤ _; rw [b2, a2, g1]; omega,
    by show d3.tagMap.identity + (s.length - (j + 1) + k) ≤ _; rw [a3, g2] at b1; omega, ?_⟩⟩
  have := a4.le (j := s.length - (j + 1) + k) (by omega)
  exact ⟨by show d3.boolMap.identity + (s.length - (j + 1) + k) ≤ _; rw [b3]; exact this.bool,
    by show d3.keyMap.identity + (s.length - (j + 1) + k) ≤ _; rw [b4]; exact this.key,
    by show d3.valMap.identity + (s.length - (j + 1) + k) ≤ _; rw [b5]; exact this.val⟩

theorem parserUpdate_room {d : Dom} {k : Nat} (h : Room d k) (new prev : Nat) (stack : List (Nat × Str)) :
    Room (parserUpdateReferences new prev stack d) k := by
  unfold parserUpdateReferences
  split
  · split
    · exact ⟨h.nodes, h.tag, ⟨h.attrs.bool, h.attrs.key, h.attrs.val⟩⟩
    · dsimp only
      split <;> exact ⟨h.nodes, h.tag, ⟨h.attrs.bool, h.attrs.key, h.attrs.val⟩⟩
  · exact h

/-- The room left for the rest of the input. -/
def StepRoom (s : Str) (k : Nat) : PStep → Prop
  | .next st => Room st.dom (s.length - st.idx + k)
  | .null d => Room d k

theorem parseText_nj {s : Str} {idx k : Nat} {st : PState} (hlt : st.idx < s.length) (hr : Room st.dom (s.length - st.idx + k)) :
    NJ (fun r => ∃ d, Room d (s.length - st.idx - 1 + k) ∧ ∃ i stk p, r = .next ⟨i, d, stk, p⟩) (parseText s idx st) := by
  unfold parseText parseTextNode
  dsimp only
  refine NJ.bind (P := fun r => Room r.2.2 (s.length - st.idx - 1 + k)) ?_ ?_
  · have hn := hr.nodes
    refine (createNode_nj (by omega)).bind ?_
    rintro ⟨id, d1⟩ hcn _
    obtain ⟨e1, e2, e3⟩ := createNode_eq hcn
    refine (textLoop_nj _ _ _ _ _ _).bind (fun r _ _ => ?_)
    refine NJ.bind (P := Any) ?_ (fun nd _ _ => ?_)
    · unfold Dom.node; split <;> trivial
    · have hr' := hr.le (j := s.length - st.idx - 1 + k) (by omega)
      subst e3
      exact ⟨by simp [Dom.setNode]; omega, hr'.tag, ⟨hr'.attrs.bool, hr'.attrs.key, hr'.attrs.val⟩⟩
  · rintro ⟨id, i, d⟩ _ hd
    exact ⟨_, parserUpdate_room hd _ _ _, _, _, _, rfl⟩

theorem parseElement_nj {s : Str} {k : Nat} {st : PState} (hlt : st.idx < s.length) (hr : Room st.dom (s.length - st.idx + k)) :
    NJ (StepRoom s k) (parseElement s (st.idx + 1) st) := by
  unfold parseElement
  refine (parseDocumentNode_nj (k := k) (by omega) (hr.le (by omega))).bind ?_
  rintro r _ ⟨h1, h2⟩
  dsimp only
  have := skipSpace_ge s r.next
  split
  · split
    · exact parserUpdate_room (h2.le (by omega)) _ _ _
    · exact parserUpdate_room (h2.le (by show s.length - skipSpace s r.next + k ≤ _; omega)) _ _ _
  · exact parserUpdate_room (h2.le (by show s.length - skipSpace s r.next + k ≤ _; omega)) _ _ _

theorem parseStep_nj {junk : Nat → Out Bool} (hj : ∀ i, junk i ≠ .longjmp) {s : Str} {startLen k : Nat} {st : PState}
    (hlt : st.idx < s.length) (hr : Room st.dom (s.length - st.idx + k)) :
    NJ (fun r => match r with
      | .next st' => st'.dom = st.dom ∨ Room st'.dom (s.length - st.idx - 1 + k) ∨ Room st'.dom (s.length - st'.idx + k)
      | .null d => Room d k) (parseStep junk s startLen st) := by
  have htext : ∀ idx, NJ (fun r => match r with
      | .next st' => st'.dom = st.dom ∨ Room st'.dom (s.length - st.idx - 1 + k) ∨ Room st'.dom (s.length - st'.idx + k)
      | .null d => Room d k) (parseText s idx st) := by
    intro idx
    refine (parseText_nj (idx := idx) hlt hr).mono ?_
    rintro r ⟨d, hd, i, stk, p, rfl⟩
    exact Or.inr (Or.inl hd)
  unfold parseStep
  split
  · refine (isCommentTag_nj s _).bind (fun cmt _ _ => ?_)
    split
    · exact (skipComment_nj s _).bind (fun i _ _ => Or.inl rfl)
    · refine NJ.bind (P := Any) ?_ (fun e _ _ => ?_)
      · unfold atEndTag
        split
        · exact isEndDocumentTag_nj _ _ _
        · split
          · have := hj st.idx
            cases h : junk st.idx with
            | longjmp => exact absurd h this
            | _ => trivial
          · trivial
      · split
        · unfold parseEndTag
          dsimp only
          split
          · split <;> exact Or.inl rfl
          · exact Or.inl rfl
        · dsimp only
          split
          · refine (parseElement_nj hlt hr).mono ?_
            intro r h
            cases r with
            | next st' => exact Or.inr (Or.inr h)
            | null d => exact h
          · exact htext _
  · exact htext _

theorem parseLoop_room {junk : Nat → Out Bool} (hj : ∀ i, junk i ≠ .longjmp) (hh : ∀ i, junk i ≠ .hang) {s : Str}
    {startLen k : Nat} :
    ∀ (f : Nat) (st : PState), AtTok s st.idx → Room st.dom (s.length - st.idx + k) →
      NJ (fun r => Room r.dom k) (parseLoop junk s startLen f st) := by
  intro f
  induction f with
  | zero => intro st _ _; trivial
  | succ f ih =>
    intro st hat hr
    unfold parseLoop
    split
    · rename_i hlt
      have h1 := parseStep_nj (k := k) (startLen := startLen) hj hlt hr
      cases hp : parseStep junk s startLen st with
      | longjmp => rw [hp] at h1; exact False.elim h1
      | ub w => trivial
      | hang => trivial
      | ok x =>
        rw [hp] at h1
        cases x with
        | null d => exact h1
        | next st' =>
          simp only [Out.bind_ok]
          -- progress, from the trace lemma (with an oracle that agrees at this step)
          have hstep : st.idx < st'.idx ∧ AtTok s st'.idx := by
            have hpost := parseStep_post (E := fun _ => True) (junk := junk)
              (s := s) (startLen := startLen) (st := st) (fun _ i => by
                have := hh i
                cases hji : junk i with
                | hang => exact absurd hji this
                | _ => trivial) (fun _ _ => trivial) hlt hat
            rw [hp] at hpost
            exact ⟨hpost.1, hpost.2.1⟩
          refine ih st' hstep.2 ?_
          rcases h1 with h1 | h1 | h1
          · rw [h1]; exact hr.le (by omega)
          · exact h1.le (by omega)
          · exact h1.le (by omega)
    · exact hr.le (by omega)

theorem parse_room {junk : Nat → Out Bool} (hj : ∀ i, junk i ≠ .longjmp) (hh : ∀ i, junk i ≠ .hang) {s : Str} {d : Dom}
    {k : Nat} (hr : Room d (s.length + k)) (prev : Nat) (stack : List (Nat × Str)) :
    NJ (fun r => Room r.dom k) (parse junk s d prev stack) :=
  parseLoop_room hj hh _ _ (atTok_skipSpace s 0) (hr.le (by omega))

theorem parse_nj {junk : Nat → Out Bool} (hj : ∀ i, junk i ≠ .longjmp) (hh : ∀ i, junk i ≠ .hang) {s : Str} {d : Dom} (hr : Room d s.length) (prev : Nat)
    (stack : List (Nat × Str)) : parse junk s d prev stack ≠ .longjmp :=
  (parse_room (k := 0) hj hh (hr.le (by omega)) prev stack).ne

theorem createDom_room {s : Str} {k : Nat} (h : s.length + k ≤ 65533) :
    NJ (fun r => ∀ d, r = some d → Room d k) (createDom s) := by
  have := parse_room (junk := fun _ => .ub .oobIndex) (by simp) (by simp) (s := s) (d := Dom.init) (k := k)
    ⟨by simp [Dom.init]; omega, by simp [Dom.init, AutoMap.empty]; omega,
      ⟨by simp [Dom.init, AutoMap.empty]; omega, by simp [Dom.init, AutoMap.empty]; omega, by simp [Dom.init, AutoMap.empty]; omega⟩⟩
    rootID [(rootID, [])]
  unfold createDom parseRoot
  refine this.bind (fun r _ hr => ?_)
  intro d hd
  split at hd
  · cases hd; exact hr
  · cases hd

theorem createDom_nj {s : Str} (h : s.length ≤ 65533) : createDom s ≠ .longjmp :=
  (createDom_room (k := 0) (by omega)).ne

end Flo
