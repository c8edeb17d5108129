import Verif.Proofs.EditMem
/-!
# How much a DOM grows with a call (C107)

The measure `Dom.bytes` after a call.  The walk that records parents is bounded by the rows of the sibling table: prepending records the
old children again.
-/
namespace Flo
open Spec

/-! ## Texts of a parse -/

theorem setTag_text (tag : Str) (n : Nat) (p : Bool) (d : Dom) : Ok (fun d' => d'.textLen ≤ d.textLen) (setTag tag n p d) := by
  unfold setTag
  refine Ok.triv.bind fun r _ => ?_
  dsimp only
  intro d' hd'
  unfold Dom.node at hd'
  dsimp only at hd'
  cases hn : d.nodes[n]? with
  | none => rw [hn] at hd'; cases hd'
  | some nd =>
    rw [hn] at hd'
    simp only [Out.bind_ok] at hd'
    cases hd'
    have h1 := setNode_textLen (d := { d with
        tagMap := r.map, tagReg := if r.wasInserted = true then d.tagReg ++ [(tag, p)] else d.tagReg }) (n := n) (x := nd)
        (y := { nd with payload := .tag r.entryIndex }) hn
    have : ({ nd with payload := .tag r.entryIndex } : Node).textLen = 0 := rfl
    have h2 : ({ d with
        tagMap := r.map, tagReg := if r.wasInserted = true then d.tagReg ++ [(tag, p)] else d.tagReg } : Dom).textLen = d.textLen := rfl
    omega

theorem parserUpdate_nodes (new prev : Nat) (stack : List (Nat × Str)) (d : Dom) : (parserUpdateReferences new prev stack d).nodes = d.nodes := by
  unfold parserUpdateReferences
  split
  · split
    · rfl
    · dsimp only
      split <;> rfl
  · rfl

theorem parserUpdate_text (new prev : Nat) (stack : List (Nat × Str)) (d : Dom) :
    (parserUpdateReferences new prev stack d).textLen = d.textLen := by
  unfold Dom.textLen; rw [parserUpdate_nodes]

theorem parseDocumentNode_text (s : Str) (idx : Nat) (ex : Bool) (d : Dom) :
    Ok (fun r => r.dom.textLen ≤ d.textLen) (parseDocumentNode s idx ex d) := by
  unfold parseDocumentNode
  refine (createNode_keeps _ _).bind fun r1 h1 => Ok.triv.bind fun _ _ => Ok.triv.bind fun _ _ =>
    (attrLoop_adds _ _ _ _ _ _).bind fun ⟨j, can, d2⟩ h2 => ?_
  dsimp only at h2 ⊢
  refine (setTag_text _ _ _ _).bind fun d3 h3 => Ok.ok ?_
  have : d2.textLen = r1.2.textLen := by unfold Dom.textLen; rw [h2.nodes]
  have := h1.1
  dsimp only
  omega

theorem parseTextNode_text (s : Str) (idx : Nat) (tag : Str) (d : Dom) :
    Ok (fun r => r.2.2.textLen + (s.length - r.2.1) ≤ d.textLen + (s.length - idx)) (parseTextNode s idx tag d) := by
  unfold parseTextNode
  refine ((createNode_bytes _ _).both (createNode_keeps _ _)).bind fun r1 h1 => (textLoop_len s tag _ _ _ _).bind fun r2 h2 => ?_
  intro r hr
  have hn := h1.1.2.2
  rw [if_pos rfl] at hn
  unfold Dom.node at hr
  rw [hn] at hr
  simp only [Out.bind_ok] at hr
  cases hr
  have := setNode_textLen (d := r1.2) (n := r1.1) (y := ⟨.text, .text r2.1⟩) hn
  have e : Node.textLen ⟨.text, .text []⟩ = 0 := rfl
  have e2 : Node.textLen ⟨.text, .text r2.1⟩ = r2.1.length := rfl
  have := h1.2.1
  have e3 : spare s idx false = 0 := by simp [spare]
  rw [e3] at h2
  simp only [List.length_nil] at h2
  dsimp only
  omega

def StepText (s : Str) (st : PState) : PStep → Prop
  | .next st' => st'.dom.textLen + (s.length - st'.idx) ≤ st.dom.textLen + (s.length - st.idx) ∨ st'.dom.textLen ≤ st.dom.textLen
  | .null d => d.textLen ≤ st.dom.textLen + (s.length - st.idx)

theorem parseText_text (s : Str) (idx : Nat) (st : PState) (hi : st.idx ≤ idx) : Ok (StepText s st) (parseText s idx st) := by
  unfold parseText
  refine (parseTextNode_text s idx _ st.dom).bind fun ⟨id, i, d⟩ h => Ok.ok (Or.inl ?_)
  dsimp only at h ⊢
  have := parserUpdate_text id st.prev st.stack d
  have := skipSpace_ge s i
  omega

theorem parseElement_text (s : Str) (i : Nat) (st : PState) : Ok (StepText s st) (parseElement s i st) := by
  unfold parseElement
  refine (parseDocumentNode_text s _ _ st.dom).bind fun r h => ?_
  have := parserUpdate_text r.id st.prev st.stack r.dom
  dsimp only
  split
  · split
    · refine Ok.ok ?_
      show _ ≤ _
      omega
    · refine Ok.ok (Or.inr ?_); dsimp only; omega
  · refine Ok.ok (Or.inr ?_); dsimp only; omega

theorem parseStep_text (junk : Nat → Out Bool) (s : Str) (n : Nat) (st : PState) :
    Ok (StepText s st) (parseStep junk s n st) := by
  unfold parseStep
  split
  · refine Ok.triv.bind fun c _ => ?_
    split
    · exact Ok.triv.bind fun i _ => Ok.ok (Or.inr (le_refl _))
    · refine Ok.triv.bind fun e _ => ?_
      split
      · unfold parseEndTag
        dsimp only
        split
        · split <;> exact Ok.ok (Or.inr (le_refl _))
        · exact Ok.ok (Or.inr (le_refl _))
      · dsimp only
        split
        · exact parseElement_text s _ st
        · exact parseText_text s _ st (by omega)
  · exact parseText_text s _ st (by omega)

theorem parseLoop_text {junk : Nat → Out Bool} (hh : ∀ i, junk i ≠ .hang) (s : Str) (n : Nat) :
    ∀ (f : Nat) (st : PState), AtTok s st.idx →
      Ok (fun r => r.dom.textLen ≤ st.dom.textLen + (s.length - st.idx)) (parseLoop junk s n f st)
  | 0, _, _ => Ok.hang
  | f + 1, st, hat => by
    simp only [parseLoop]
    split
    · next hlt =>
      have hpost := parseStep_post (E := fun _ => True) (junk := junk) (s := s) (startLen := n) (st := st) (fun _ i => by
        have := hh i
        cases hji : junk i with
        | hang => exact absurd hji this
        | _ => trivial) (fun _ _ => trivial) hlt hat
      refine ((parseStep_text junk s n st).both (Ok.of_post hpost)).bind fun r hr => ?_
      cases r with
      | null d => exact Ok.ok hr.1
      | next st' =>
        have h1 : st.idx < st'.idx := hr.2.1
        refine (parseLoop_text hh s n f st' hr.2.2.1).mono fun q hq => ?_
        rcases hr.1 with h | h <;> omega
    · refine Ok.ok ?_
      dsimp only
      omega

theorem parse_text {junk : Nat → Out Bool} (hh : ∀ i, junk i ≠ .hang) (s : Str) (d : Dom) (prev : Nat) (stack : List (Nat × Str)) :
    Ok (fun r => r.dom.textLen ≤ d.textLen + s.length) (parse junk s d prev stack) := by
  unfold parse
  refine (parseLoop_text hh s _ _ _ (atTok_skipSpace s 0)).mono fun r hr => ?_
  dsimp only at hr
  omega

/-! ## Texts of the new nodes -/

/-- The bytes of text in the nodes from `N` on. -/
def Dom.newText (N : Nat) (d : Dom) : Nat := ((d.nodes.drop N).map Node.textLen).sum

theorem sum_drop_set {l : List Node} {n : Nat} {x y : Node} (hx : l[n]? = some x) (N : Nat) :
    (((l.set n y).drop N).map Node.textLen).sum ≤ ((l.drop N).map Node.textLen).sum + (y.textLen - x.textLen) := by
  rw [List.drop_set]
  split
  · omega
  · next hn =>
    have : (l.drop N)[n - N]? = some x := by rw [List.getElem?_drop, show N + (n - N) = n by omega, hx]
    have := sum_set_le (y := y) this
    omega

theorem mem_le_sum {l : List Nat} {x : Nat} (h : x ∈ l) : x ≤ l.sum := by
  induction l with
  | nil => cases h
  | cons y l ih =>
    rw [List.sum_cons]
    rcases List.mem_cons.1 h with rfl | h
    · omega
    · have := ih h; omega

theorem mem_newText {d : Dom} {N j : Nat} {nd : Node} (hj : N ≤ j) (h : d.nodes[j]? = some nd) : nd.textLen ≤ d.newText N := by
  have : nd ∈ d.nodes.drop N := by
    refine List.mem_of_getElem? (i := j - N) ?_
    rw [List.getElem?_drop, show N + (j - N) = j by omega, h]
  exact mem_le_sum (List.mem_map_of_mem this)

theorem prefix_newText {d d' : Dom} (h : d.nodes <+: d'.nodes) : d'.textLen = d.textLen + d'.newText d.nodes.length := by
  obtain ⟨l, e⟩ := h
  unfold Dom.textLen Dom.newText
  rw [← e, List.drop_left]
  simp

/-- Bounds for the measure and for the new texts. -/
structure Sized (N : Nat) (B T : Int) (d : Dom) : Prop where
  bytes : d.bytes ≤ B
  text : (d.newText N : Int) ≤ T

theorem Sized.mono {N : Nat} {B T B' T' : Int} {d : Dom} (h : Sized N B T d) (h1 : B ≤ B') (h2 : T ≤ T') : Sized N B' T' d :=
  ⟨h.bytes.trans h1, h.text.trans h2⟩

theorem addText_sized {N : Nat} {B T : Int} {d : Dom} (h : Sized N B T d) (n : Nat) (t : Str) (a : Bool) :
    Ok (Sized N (B + 4 * ((t.length : Int) + 1)) (T + t.length + 1)) (addTextToTextNode n t a d) := by
  unfold addTextToTextNode
  intro d' hd'
  unfold Dom.node at hd'
  cases hn : d.nodes[n]? with
  | none => rw [hn] at hd'; cases hd'
  | some nd =>
    rw [hn] at hd'
    simp only [Out.bind_ok] at hd'
    unfold Node.getText at hd'
    cases hp : nd.payload with
    | tag k => rw [hp] at hd'; cases hd'
    | text u =>
      rw [hp] at hd'
      simp only [Out.bind_ok] at hd'
      cases hd'
      have hx : nd.textLen = u.length := by unfold Node.textLen; rw [hp]
      have hy : ({ nd with payload := .text (if a = true then u ++ [cSp] ++ t else t ++ [cSp] ++ u) } : Node).textLen = u.length + t.length + 1 := by
        show (if a = true then u ++ [cSp] ++ t else t ++ [cSp] ++ u).length = _
        cases a <;> simp <;> omega
      have h1 := setNode_bytes (d := d) (y := { nd with payload := .text (if a = true then u ++ [cSp] ++ t else t ++ [cSp] ++ u) }) hn
      have h2 := sum_drop_set (y := { nd with payload := .text (if a = true then u ++ [cSp] ++ t else t ++ [cSp] ++ u) }) hn N
      have := h.bytes; have := h.text
      rw [hy, hx] at h1 h2
      refine ⟨by omega, ?_⟩
      change (d.setNode n _).newText N ≤ d.newText N + _ at h2
      omega

theorem tryMerge_sized {N : Nat} {B T : Int} {d : Dom} (h : Sized N B T d) {i j : Nat} (hj : N ≤ j) (a : Bool) :
    Ok (fun r => Sized N (B + 4 * (T + 1)) (2 * T + 1) r.2) (tryMerge i j a d) := by
  have ht : 0 ≤ T := by have := h.text; omega
  unfold tryMerge
  refine Ok.triv.bind fun nd _ => ?_
  split
  · intro r hr
    unfold Dom.node at hr
    cases hn : d.nodes[j]? with
    | none => rw [hn] at hr; cases hr
    | some x =>
      rw [hn] at hr
      simp only [Out.bind_ok] at hr
      unfold Node.getText at hr
      cases hp : x.payload with
      | tag k => rw [hp] at hr; cases hr
      | text u =>
        rw [hp] at hr
        simp only [Out.bind_ok, Out.bind_eq_ok] at hr
        obtain ⟨d1, h1, h2⟩ := hr
        cases h2
        have hx : x.textLen = u.length := by unfold Node.textLen; rw [hp]
        have := mem_newText hj hn
        have := h.text
        exact (addText_sized h i u a d1 h1).mono (by omega) (by omega)
  · exact Ok.ok (h.mono (by omega) (by omega))

theorem unlinkNode_sized {N : Nat} {B T : Int} {d : Dom} (h : Sized N B T d) (n : Nat) : Ok (Sized N B T) (unlinkNode n d) := by
  unfold unlinkNode
  split
  · exact Ok.ub
  · next hlt =>
    have : Ok (fun r => r.1.length = d.fc.length ∧ r.2.length = d.pc.length) (unlinkParent n d) := by
      unfold unlinkParent
      split
      · exact Ok.ok ⟨rfl, rfl⟩
      · dsimp only
        split
        · exact Ok.ub
        · split
          · split
            · exact Ok.ok (by simp)
            · exact Ok.ok (by simp)
          · exact Ok.ok ⟨rfl, by simp⟩
    refine this.bind fun r hr => Ok.ok ?_
    have hnn : (unlinkNext n d).length = d.nn.length := by
      unfold unlinkNext
      split
      · exact unlinkPrev_length n d
      · simp [unlinkPrev_length]
    have hx : d.nodes[n]? = some d.nodes[n] := List.getElem?_eq_getElem (by omega)
    have h1 := setNode_bytes (d := d) (y := ⟨.removed, .tag 0⟩) hx
    have h2 := sum_drop_set (y := ⟨.removed, .tag 0⟩) hx N
    have e0 : Node.textLen ⟨.removed, .tag 0⟩ = 0 := rfl
    rw [e0] at h1 h2
    have := h.bytes; have := h.text
    refine ⟨?_, ?_⟩
    · have e : (Dom.bytes { d with fc := r.1, pc := r.2, nn := unlinkNext n d, nodes := d.nodes.set n ⟨.removed, .tag 0⟩ }) = (d.setNode n ⟨.removed, .tag 0⟩).bytes := by
        unfold Dom.bytes
        dsimp only [Dom.setNode]
        rw [hr.1, hr.2, hnn]
        rfl
      rw [e]
      omega
    · have h2' : Dom.newText N { d with fc := r.1, pc := r.2, nn := unlinkNext n d, nodes := d.nodes.set n ⟨.removed, .tag 0⟩ } ≤
          d.newText N + (0 - d.nodes[n].textLen) := h2
      omega

theorem removeLoop_sized {N : Nat} {B T : Int} {rm : Nat → Dom → Out Dom} (hrm : ∀ n d, Sized N B T d → Ok (Sized N B T) (rm n d)) (n : Nat) :
    ∀ (k : Nat) (d : Dom), Sized N B T d → Ok (Sized N B T) (removeChildrenLoop rm n k d)
  | 0, _, _ => Ok.hang
  | k + 1, d, h => by
    unfold removeChildrenLoop
    dsimp only
    split
    · exact (hrm _ d h).bind fun d1 h => removeLoop_sized hrm n k d1 h
    · exact Ok.ok h

theorem removeNodeF_sized {N : Nat} {B T : Int} : ∀ (f n : Nat) (d : Dom), Sized N B T d → Ok (Sized N B T) (removeNodeF f n d)
  | 0, _, _, _ => Ok.hang
  | f + 1, n, d, h => by
    unfold removeNodeF
    exact (removeLoop_sized (removeNodeF_sized f) n _ d h).bind fun d1 h => unlinkNode_sized h n

theorem removeNode_sized {N : Nat} {B T : Int} {d : Dom} (h : Sized N B T d) (n : Nat) : Ok (Sized N B T) (removeNode n d) :=
  removeNodeF_sized _ n d h

theorem removeChildren_sized {N : Nat} {B T : Int} {d : Dom} (h : Sized N B T d) (n : Nat) : Ok (Sized N B T) (removeChildren n d) :=
  removeLoop_sized (removeNodeF_sized _) n _ d h

/-! ## Recording parents -/

theorem connectLoop_bytes (p : Nat) : ∀ (f o : Nat) (d : Dom),
    Ok (fun d' => d'.bytes ≤ d.bytes + 24 * (f : Int) ∧ d'.nn = d.nn) (connectLoop p f o d)
  | 0, _, _ => Ok.hang
  | f + 1, o, d => by
    unfold connectLoop
    split
    · refine (connectLoop_bytes p f _ _).mono fun d' h => ⟨?_, h.2⟩
      have h1 := h.1
      have : Dom.bytes { d with pc := d.pc ++ [(p, o)] } = d.bytes + 24 := by
        unfold Dom.bytes Dom.textLen; simp; omega
      push_cast
      omega
    · exact Ok.ok ⟨by omega, rfl⟩

theorem replaceConnect_bytes (i : Nat) : ∀ (f o : Nat) (d : Dom),
    Ok (fun d' => d'.bytes ≤ d.bytes + 24 * (f : Int) ∧ d'.nn = d.nn) (replaceConnectLoop i f o d)
  | 0, _, _ => Ok.hang
  | f + 1, o, d => by
    unfold replaceConnectLoop
    split
    · refine (replaceConnect_bytes i f _ _).mono fun d' h => ⟨?_, h.2⟩
      have h1 := h.1
      have : Dom.bytes { d with pc := d.pc ++ [((rowAt d.pc i).1, o)] } = d.bytes + 24 := by
        unfold Dom.bytes Dom.textLen; simp; omega
      push_cast
      omega
    · exact Ok.ok ⟨by omega, rfl⟩

theorem appendUpdate_bytes (p n : Nat) (d : Dom) :
    Ok (fun d' => d'.bytes ≤ d.bytes + 24 * (d'.nn.length : Int) + 96) (appendUpdateReferences p n d) := by
  unfold appendUpdateReferences
  split
  · refine (connectLoop_bytes _ _ _ _).mono fun d' h => ?_
    have h1 := h.1
    have : Dom.bytes { d with fc := d.fc ++ [(p, n)], pc := d.pc ++ [(p, n)] } = d.bytes + 48 := by
      unfold Dom.bytes Dom.textLen; simp; omega
    rw [h.2]
    dsimp only
    push_cast at h1
    omega
  · refine Ok.triv.bind fun l _ => ?_
    refine (connectLoop_bytes _ _ _ _).mono fun d' h => ?_
    have h1 := h.1
    have : Dom.bytes { d with nn := d.nn ++ [(l, n)], pc := d.pc ++ [(p, n)] } = d.bytes + 48 := by
      unfold Dom.bytes Dom.textLen; simp; omega
    rw [h.2]
    dsimp only at h1 ⊢
    push_cast at h1
    omega

theorem prependUpdate_bytes (p n : Nat) (d : Dom) :
    Ok (fun d' => d'.bytes ≤ d.bytes + 24 * (d'.nn.length : Int) + 96) (prependUpdateReferences p n d) := by
  unfold prependUpdateReferences
  split
  · refine (connectLoop_bytes _ _ _ _).mono fun d' h => ?_
    have h1 := h.1
    have : Dom.bytes { d with fc := d.fc ++ [(p, n)], pc := d.pc ++ [(p, n)] } = d.bytes + 48 := by
      unfold Dom.bytes Dom.textLen; simp; omega
    rw [h.2]
    dsimp only
    push_cast at h1
    omega
  · next i _ =>
    dsimp only
    refine Ok.triv.bind fun l _ => ?_
    refine (connectLoop_bytes _ _ _ _).mono fun d' h => ?_
    have h1 := h.1
    have : Dom.bytes { d with fc := d.fc.set i ((rowAt d.fc i).1, n), nn := d.nn ++ [(l, (rowAt d.fc i).2)], pc := d.pc ++ [(p, n)] } = d.bytes + 48 := by
      unfold Dom.bytes Dom.textLen; simp; omega
    rw [h.2]
    dsimp only at h1 ⊢
    push_cast at h1
    omega

theorem replaceUpdate_bytes (o n : Nat) (d : Dom) :
    Ok (fun d' => d'.bytes ≤ d.bytes + 24 * (d'.nn.length : Int) + 96) (replaceUpdateReferences o n d) := by
  unfold replaceUpdateReferences
  intro d' hd'
  simp only [Out.bind_eq_ok] at hd'
  obtain ⟨nd, hnd, l, _, d2, h2, e⟩ := hd'
  have hfc : (replaceFirst o n d).length = d.fc.length := by
    unfold replaceFirst
    split
    · rfl
    · split
      · rfl
      · split
        · simp
        · rfl
  have hnn : (replacePrev o n d).length = d.nn.length := by
    unfold replacePrev
    split <;> simp
  have h3 : ∀ d1 : Dom, Ok (fun d' => d'.bytes ≤ d1.bytes + 24 * (d1.nn.length : Int) + 48 ∧ d'.nn = d1.nn ∧ d'.nodes = d1.nodes) (replaceParent o n d1) := by
    intro d1
    unfold replaceParent
    split
    · exact Ok.ok ⟨by omega, rfl, rfl⟩
    · next i _ =>
      have hk : ∀ (f o : Nat) (d : Dom), Ok (fun d' => d'.nodes = d.nodes) (replaceConnectLoop i f o d) := by
        intro f
        induction f with
        | zero => intro _ _; exact Ok.hang
        | succ f ih =>
          intro o d
          unfold replaceConnectLoop
          split
          · exact (ih _ _).mono fun d' h => h
          · exact Ok.ok rfl
      refine ((replaceConnect_bytes _ _ _ _).both (hk _ _ _)).mono fun d' h => ⟨?_, h.1.2, h.2⟩
      have h1 := h.1.1
      have : Dom.bytes { d1 with pc := d1.pc.set i ((rowAt d1.pc i).1, n) } = d1.bytes := by
        unfold Dom.bytes Dom.textLen; simp
      push_cast at h1
      omega
  obtain ⟨b1, b2, b3⟩ := h3 _ _ h2
  have hb : Dom.bytes { d with nn := replacePrev o n d, fc := replaceFirst o n d } = d.bytes := by
    unfold Dom.bytes
    dsimp only
    rw [hfc, hnn]
    rfl
  cases e
  have hx : d2.nodes[o]? = some nd := by
    rw [b3]
    unfold Dom.node at hnd
    show d.nodes[o]? = some nd
    cases hn : d.nodes[o]? with
    | none => rw [hn] at hnd; cases hnd
    | some x => rw [hn] at hnd; cases hnd; rfl
  have h4 := setNode_bytes (d := d2) (y := { nd with type := .removed }) hx
  have e4 : ({ nd with type := .removed } : Node).textLen = nd.textLen := rfl
  rw [e4] at h4
  have hl : (replaceNext (getNextNode o d) l d2.nn).length = d2.nn.length := by
    unfold replaceNext
    split <;> simp
  have e5 : Dom.bytes { d2 with nn := replaceNext (getNextNode o d) l d2.nn, nodes := d2.nodes.set o { nd with type := .removed } } =
      (d2.setNode o { nd with type := .removed }).bytes := by
    unfold Dom.bytes
    dsimp only [Dom.setNode]
    rw [hl]
    rfl
  rw [e5]
  dsimp only
  rw [hl, b2]
  dsimp only at b1 ⊢
  rw [hnn] at b1 ⊢
  omega

/-! ## New nodes -/

theorem parseTextElement_sized (t : Str) (d : Dom) :
    Ok (fun r => r.1 = d.nodes.length ∧ Sized d.nodes.length (d.bytes + 104 + 4 * (t.length : Int)) (t.length : Int) r.2) (parseTextElement t d) := by
  unfold parseTextElement
  intro r hr
  simp only [Out.bind_eq_ok] at hr
  obtain ⟨⟨id, d1⟩, h1, nd, h2, h3⟩ := hr
  cases h3
  obtain ⟨a1, a2, a3⟩ := createNode_bytes _ _ _ h1
  dsimp only at a1 a2 a3 ⊢
  rw [if_pos rfl] at a3
  unfold Dom.node at h2
  rw [a3] at h2
  cases h2
  have b := setNode_bytes (y := ⟨.text, .text t⟩) a3
  have e : (Node.textLen ⟨.text, .text []⟩ : Int) = 0 := rfl
  have e2 : (Node.textLen ⟨.text, .text t⟩ : Int) = t.length := rfl
  refine ⟨a1, by dsimp only; omega, ?_⟩
  unfold createNode at h1
  split at h1
  · cases h1
  · cases h1
    show (((((d.nodes ++ [_]).set d.nodes.length _).drop d.nodes.length).map Node.textLen).sum : Nat) ≤ (t.length : Int)
    rw [List.set_append_right _ _ (by omega), List.drop_left]
    simp [Node.textLen]

theorem addBools_bytes (n : Nat) : ∀ (l : List Str) (d : Dom), Ok (fun d' => d'.bytes ≤ d.bytes + 160 * (l.length : Int)) (addBools n l d)
  | [], _ => Ok.ok (by simp)
  | b :: l, d => (addBoolProperty_cost n b d).bind fun d1 h1 => (addBools_bytes n l d1).mono fun d2 h2 => by
      simp only [List.length_cons]; push_cast; omega

theorem addProps_bytes (n : Nat) : ∀ (l : List (Str × Str)) (d : Dom), Ok (fun d' => d'.bytes ≤ d.bytes + 304 * (l.length : Int)) (addProps n l d)
  | [], _ => Ok.ok (by simp)
  | (k, v) :: l, d => (addProperty_cost n k v d).bind fun d1 h1 => (addProps_bytes n l d1).mono fun d2 h2 => by
      simp only [List.length_cons]; push_cast; omega

theorem parseDoc_bytes (doc : DocNode) (d : Dom) :
    Ok (fun r => r.2.bytes ≤ d.bytes + 272 + 160 * (doc.boolProps.length : Int) + 304 * (doc.props.length : Int)) (parseDocumentElement doc d) := by
  unfold parseDocumentElement
  refine (createNode_bytes _ _).bind fun ⟨id, d1⟩ h1 => (setTag_cost _ _ _ _).bind fun d2 h2 => (addBools_bytes _ _ _).bind fun d3 h3 =>
    (addProps_bytes _ _ _).bind fun d4 h4 => Ok.ok ?_
  have := h1.2.1
  dsimp only at *
  omega

theorem parseExtra_sized {junk : Nat → Out Bool} (hj : Reads junk) (s : Str) {d : Dom} (h : Inv d) :
    Ok (fun r => Sized d.nodes.length (d.bytes + 320 * (s.length : Int)) (s.length : Int) r.dom) (parseExtra junk s d) := by
  intro r hr
  have hh : ∀ i, junk i ≠ .hang := fun i e => by obtain ⟨b, hb⟩ := hj i; rw [hb] at e; cases e
  have h1 := parse_cost hh s d errorID [] r hr
  have h2 := parse_text hh s d errorID [] r hr
  obtain ⟨ch, hd, h0⟩ := h
  have h3 := Ok.of_post (parseExtra_domI (E := fun _ => True) (junk := junk) (s := s) hd h0 (fun i => by
    obtain ⟨b, hb⟩ := hj i; rw [hb]; trivial) (fun _ _ => trivial)) r hr
  obtain ⟨c1, P, _⟩ := h3
  have := prefix_newText P.prefixN
  exact ⟨h1, by omega⟩

/-! ## Calls -/

/-- What a call on `d` may grow the DOM to. -/
def Grown_bytes (d : Dom) (k : Nat) (d' : Dom) : Prop := d'.bytes ≤ d.bytes + 24 * (d'.nn.length : Int) + 400 * ((k : Int) + 1)

theorem docGrow {doc : DocNode} {d : Dom} {k : Nat} (hk : 1 + doc.boolProps.length + doc.props.length ≤ k) {up : Nat → Dom → Out Dom}
    (hup : ∀ n d1, Ok (fun d' => d'.bytes ≤ d1.bytes + 24 * (d'.nn.length : Int) + 96) (up n d1)) :
    Ok (fun r => Grown_bytes d k r.2) (do
      let (id, d) ← parseDocumentElement doc d
      if id = 0 then .ok (0, d)
      else do
        let d ← up id d
        .ok (id, d)) := by
  refine (parseDoc_bytes doc d).bind fun ⟨id, d1⟩ hr => ?_
  dsimp only at hr ⊢
  split
  · refine Ok.ok ?_; unfold Grown_bytes; dsimp only; omega
  · refine (hup _ _).bind fun d' hd => Ok.ok ?_
    unfold Grown_bytes
    dsimp only
    omega

theorem appendText_grow (p : Nat) (t : Str) (d : Dom) : Ok (fun r => Grown_bytes d (t.length + 1) r.2) (appendTextNode p t d) := by
  unfold appendTextNode
  refine (parseTextElement_sized t d).bind fun ⟨id, d1⟩ hr => ?_
  dsimp only at hr ⊢
  have hs := hr.2
  have up : ∀ (a n : Nat) (d1 : Dom) (B T : Int), Sized d.nodes.length B T d1 → B ≤ d.bytes + 304 + 8 * (t.length : Int) →
      Ok (fun r => Grown_bytes d (t.length + 1) r.2) (do
        let d ← appendUpdateReferences p n d1
        Out.ok (a, d)) := fun a n d1 B T h hB =>
    (appendUpdate_bytes _ _ _).bind fun d' h' => Ok.ok (by have := h.bytes; unfold Grown_bytes; dsimp only; push_cast; omega)
  split
  · refine Ok.ok ?_; have := hs.bytes; unfold Grown_bytes; dsimp only; push_cast; omega
  · split
    · refine Ok.triv.bind fun c _ => ?_
      refine (tryMerge_sized hs (le_of_eq hr.1.symm) _).bind fun ⟨mb, md⟩ hm => ?_
      dsimp only at hm ⊢
      split
      · refine (removeNode_sized hm _).bind fun d1 h1 => Ok.ok ?_
        have := h1.bytes; unfold Grown_bytes; dsimp only; push_cast; omega
      · exact up _ _ _ _ _ hm (by omega)
    · exact up _ _ _ _ _ hs (by omega)

theorem prependText_grow (p : Nat) (t : Str) (d : Dom) : Ok (fun r => Grown_bytes d (t.length + 1) r.2) (prependTextNode p t d) := by
  unfold prependTextNode
  refine (parseTextElement_sized t d).bind fun ⟨id, d1⟩ hr => ?_
  dsimp only at hr ⊢
  have hs := hr.2
  have up : ∀ (a n : Nat) (d1 : Dom) (B T : Int), Sized d.nodes.length B T d1 → B ≤ d.bytes + 304 + 8 * (t.length : Int) →
      Ok (fun r => Grown_bytes d (t.length + 1) r.2) (do
        let d ← prependUpdateReferences p n d1
        Out.ok (a, d)) := fun a n d1 B T h hB =>
    (prependUpdate_bytes _ _ _).bind fun d' h' => Ok.ok (by have := h.bytes; unfold Grown_bytes; dsimp only; push_cast; omega)
  split
  · refine Ok.ok ?_; have := hs.bytes; unfold Grown_bytes; dsimp only; push_cast; omega
  · split
    · refine (tryMerge_sized hs (le_of_eq hr.1.symm) _).bind fun ⟨mb, md⟩ hm => ?_
      dsimp only at hm ⊢
      split
      · refine (removeNode_sized hm _).bind fun d1 h1 => Ok.ok ?_
        have := h1.bytes; unfold Grown_bytes; dsimp only; push_cast; omega
      · exact up _ _ _ _ _ hm (by omega)
    · exact up _ _ _ _ _ hs (by omega)

theorem tryMergePrev_sized {N : Nat} {B T : Int} {d : Dom} (h : Sized N B T d) (o : Nat) {j : Nat} (hj : N ≤ j) :
    Ok (fun r => Sized N (B + 4 * (T + 1)) (2 * T + 1) r.2 ∧ (r.1 = false → Sized N B T r.2)) (tryMergePrev o j d) := by
  have ht : 0 ≤ T := by have := h.text; omega
  unfold tryMergePrev
  split
  · refine ((tryMerge_sized h hj true).both ?_)
    unfold tryMerge
    refine Ok.triv.bind fun nd _ => ?_
    split
    · refine Ok.triv.bind fun _ _ => Ok.triv.bind fun _ _ => Ok.triv.bind fun _ _ => Ok.ok ?_
      intro e; cases e
    · exact Ok.ok fun _ => h
  · exact Ok.ok ⟨h.mono (by omega) (by omega), fun _ => h⟩

theorem tryMergeNext_sized {N : Nat} {B T : Int} {d : Dom} (h : Sized N B T d) (o : Nat) {j : Nat} (hj : N ≤ j) :
    Ok (fun r => Sized N (B + 4 * (T + 1)) (2 * T + 1) r.2) (tryMergeNext o j d) := by
  have ht : 0 ≤ T := by have := h.text; omega
  unfold tryMergeNext
  split
  · exact tryMerge_sized h hj false
  · exact Ok.ok (h.mono (by omega) (by omega))

theorem tryMergeBoth_sized {N : Nat} {B T : Int} {d : Dom} (h : Sized N B T d) (o : Nat) {j : Nat} (hj : N ≤ j) :
    Ok (fun r => Sized N (B + 4 * (T + 1)) (2 * T + 1) r.2) (tryMergeBothSides o j d) := by
  have ht : 0 ≤ T := by have := h.text; omega
  unfold tryMergeBothSides
  refine Ok.triv.bind fun nd _ => ?_
  split
  · refine (tryMergePrev_sized h o hj).bind fun ⟨mb, md⟩ hm => ?_
    dsimp only at hm ⊢
    split
    · exact Ok.ok hm.1
    · next hb => exact tryMergeNext_sized (hm.2 (by simpa using hb)) o hj
  · exact Ok.ok (h.mono (by omega) (by omega))

theorem replaceText_grow (o : Nat) (t : Str) (d : Dom) : Ok (fun r => Grown_bytes d (t.length + 1) r.2) (replaceWithTextNode o t d) := by
  unfold replaceWithTextNode
  refine (parseTextElement_sized t d).bind fun ⟨id, d1⟩ hr => ?_
  dsimp only at hr ⊢
  have hs := hr.2
  split
  · refine Ok.ok ?_; have := hs.bytes; unfold Grown_bytes; dsimp only; push_cast; omega
  · refine (tryMergeBoth_sized hs o (le_of_eq hr.1.symm)).bind fun ⟨mb, md⟩ hm => ?_
    dsimp only at hm ⊢
    split
    · refine (removeNode_sized hm _).bind fun d1 h1 => (removeNode_sized h1 _).bind fun d2 h2 => Ok.ok ?_
      have := h2.bytes; unfold Grown_bytes; dsimp only; push_cast; omega
    · refine (replaceUpdate_bytes _ _ _).bind fun d' h' => Ok.ok ?_
      have := hm.bytes; unfold Grown_bytes; dsimp only; push_cast; omega

theorem setText_grow (n : Nat) (t : Str) (d : Dom) : Ok (fun d' => Grown_bytes d (t.length + 1) d') (setTextContent n t d) := by
  unfold setTextContent
  refine (removeChildren_sized (N := 0) (T := d.newText 0) ⟨le_refl _, le_refl _⟩ n).bind fun d1 h1 => ?_
  refine (parseTextElement_sized t d1).bind fun r hr => Ok.ok ?_
  have a1 := h1.bytes
  have a2 := hr.2.bytes
  have : Dom.bytes { r.2 with fc := r.2.fc ++ [(n, r.1)], pc := r.2.pc ++ [(n, r.1)] } = r.2.bytes + 48 := by
    unfold Dom.bytes Dom.textLen; simp; omega
  unfold Grown_bytes
  dsimp only at this ⊢
  push_cast
  omega

theorem appendHTML_grow {junk : Nat → Out Bool} (hj : Reads junk) (p : Nat) (html : Str) {d : Dom} (h : Inv d) :
    Ok (fun r => Grown_bytes d (html.length + 1) r.2) (appendHTML junk p html d) := by
  unfold appendHTML
  dsimp only
  refine (parseExtra_sized hj html h).bind fun r hs => ?_
  have up : ∀ (a n : Nat) (d1 : Dom) (B T : Int), Sized d.nodes.length B T d1 → B ≤ d.bytes + 304 + 340 * (html.length : Int) →
      Ok (fun r => Grown_bytes d (html.length + 1) r.2) (do
        let d ← appendUpdateReferences p n d1
        Out.ok (a, d)) := fun a n d1 B T h hB =>
    (appendUpdate_bytes _ _ _).bind fun d' h' => Ok.ok (by have := h.bytes; unfold Grown_bytes; dsimp only; push_cast; omega)
  have done : ∀ (a : Nat) (d1 : Dom) (B T : Int), Sized d.nodes.length B T d1 → B ≤ d.bytes + 304 + 340 * (html.length : Int) →
      Ok (fun r => Grown_bytes d (html.length + 1) r.2) (Out.ok (a, d1)) := fun a d1 B T h hB =>
    Ok.ok (by have := h.bytes; unfold Grown_bytes; dsimp only; push_cast; omega)
  split
  · exact done _ _ _ _ hs (by omega)
  · split
    · refine Ok.triv.bind fun l _ => ?_
      refine Ok.triv.bind fun nd _ => ?_
      split
      · split
        · refine Ok.triv.bind fun ln _ => ?_
          refine (tryMerge_sized hs (le_refl _) _).bind fun ⟨mb, md⟩ hm => ?_
          dsimp only at hm ⊢
          split
          · refine (removeNode_sized hm _).bind fun d1 h1 => ?_
            exact up _ _ _ _ _ h1 (by omega)
          · exact up _ _ _ _ _ hm (by omega)
        · exact up _ _ _ _ _ hs (by omega)
      · split
        · refine Ok.triv.bind fun ln _ => ?_
          refine (tryMerge_sized hs (le_refl _) _).bind fun ⟨mb, md⟩ hm => ?_
          dsimp only at hm ⊢
          split
          · exact (removeNode_sized hm _).bind fun d1 h1 => done _ _ _ _ h1 (by omega)
          · exact up _ _ _ _ _ hm (by omega)
        · exact up _ _ _ _ _ hs (by omega)
    · exact up _ _ _ _ _ hs (by omega)

theorem prependHTML_grow {junk : Nat → Out Bool} (hj : Reads junk) (p : Nat) (html : Str) {d : Dom} (h : Inv d) :
    Ok (fun r => Grown_bytes d (html.length + 1) r.2) (prependHTML junk p html d) := by
  unfold prependHTML
  dsimp only
  refine (parseExtra_sized hj html h).bind fun r hs => ?_
  have up : ∀ (a n : Nat) (d1 : Dom) (B T : Int), Sized d.nodes.length B T d1 → B ≤ d.bytes + 304 + 340 * (html.length : Int) →
      Ok (fun r => Grown_bytes d (html.length + 1) r.2) (do
        let d ← prependUpdateReferences p n d1
        Out.ok (a, d)) := fun a n d1 B T h hB =>
    (prependUpdate_bytes _ _ _).bind fun d' h' => Ok.ok (by have := h.bytes; unfold Grown_bytes; dsimp only; push_cast; omega)
  have done : ∀ (a : Nat) (d1 : Dom) (B T : Int), Sized d.nodes.length B T d1 → B ≤ d.bytes + 304 + 340 * (html.length : Int) →
      Ok (fun r => Grown_bytes d (html.length + 1) r.2) (Out.ok (a, d1)) := fun a d1 B T h hB =>
    Ok.ok (by have := h.bytes; unfold Grown_bytes; dsimp only; push_cast; omega)
  split
  · exact done _ _ _ _ hs (by omega)
  · split
    · refine Ok.triv.bind fun l _ => ?_
      refine Ok.triv.bind fun nd _ => ?_
      split
      · next hgt =>
        split
        · refine (tryMerge_sized hs (le_of_lt hgt) _).bind fun ⟨mb, md⟩ hm => ?_
          dsimp only at hm ⊢
          split
          · refine (removeNode_sized hm _).bind fun d1 h1 => ?_
            exact up _ _ _ _ _ h1 (by omega)
          · exact up _ _ _ _ _ hm (by omega)
        · exact up _ _ _ _ _ hs (by omega)
      · refine Ok.triv.bind fun nd _ => ?_
        split
        · refine (tryMerge_sized hs (le_refl _) _).bind fun ⟨mb, md⟩ hm => ?_
          dsimp only at hm ⊢
          split
          · exact (removeNode_sized hm _).bind fun d1 h1 => done _ _ _ _ h1 (by omega)
          · exact up _ _ _ _ _ hm (by omega)
        · exact up _ _ _ _ _ hs (by omega)
    · exact up _ _ _ _ _ hs (by omega)

theorem replaceHTML_grow {junk : Nat → Out Bool} (hj : Reads junk) (o : Nat) (html : Str) {d : Dom} (h : Inv d) :
    Ok (fun r => Grown_bytes d (html.length + 1) r.2) (replaceWithHTML junk o html d) := by
  unfold replaceWithHTML
  dsimp only
  refine (parseExtra_sized hj html h).bind fun r hs => ?_
  have up : ∀ (a n : Nat) (d1 : Dom) (B T : Int), Sized d.nodes.length B T d1 → B ≤ d.bytes + 304 + 340 * (html.length : Int) →
      Ok (fun r => Grown_bytes d (html.length + 1) r.2) (do
        let d ← replaceUpdateReferences o n d1
        Out.ok (a, d)) := fun a n d1 B T h hB =>
    (replaceUpdate_bytes _ _ _).bind fun d' h' => Ok.ok (by have := h.bytes; unfold Grown_bytes; dsimp only; push_cast; omega)
  have done : ∀ (a : Nat) (d1 : Dom) (B T : Int), Sized d.nodes.length B T d1 → B ≤ d.bytes + 304 + 340 * (html.length : Int) →
      Ok (fun r => Grown_bytes d (html.length + 1) r.2) (Out.ok (a, d1)) := fun a d1 B T h hB =>
    Ok.ok (by have := h.bytes; unfold Grown_bytes; dsimp only; push_cast; omega)
  split
  · exact done _ _ _ _ hs (by omega)
  · refine Ok.triv.bind fun l _ => ?_
    split
    · next hgt =>
      have h1 : Ok (fun x => Sized d.nodes.length (d.bytes + 320 * (html.length : Int) + 4 * ((html.length : Int) + 1)) (2 * (html.length : Int) + 1) x.2)
          (replaceMergeFirst o d.nodes.length r.dom) := by
        unfold replaceMergeFirst
        refine Ok.triv.bind fun nd _ => ?_
        split
        · refine (tryMergePrev_sized hs _ (le_refl _)).bind fun ⟨mb, md⟩ hm => ?_
          dsimp only at hm ⊢
          split
          · exact (removeNode_sized hm.1 _).bind fun d1 h1 => Ok.ok h1
          · exact Ok.ok hm.1
        · exact Ok.ok (hs.mono (by omega) (by omega))
      refine h1.bind fun x hx => ?_
      have h2 : Ok (fun y => Sized d.nodes.length (d.bytes + 332 * (html.length : Int) + 12) (4 * (html.length : Int) + 3) y)
          (replaceMergeLast o l x.2) := by
        unfold replaceMergeLast
        refine Ok.triv.bind fun nd _ => ?_
        split
        · refine (tryMergeNext_sized hx _ (le_of_lt hgt)).bind fun ⟨mb, md⟩ hm => ?_
          dsimp only at hm ⊢
          split
          · exact (removeNode_sized hm _).mono fun d1 h1 => h1.mono (by omega) (by omega)
          · exact Ok.ok (hm.mono (by omega) (by omega))
        · exact Ok.ok (hx.mono (by omega) (by omega))
      refine h2.bind fun y hy => ?_
      exact up _ _ _ _ _ hy (by omega)
    · refine (tryMergeBoth_sized hs _ (le_refl _)).bind fun ⟨mb, md⟩ hm => ?_
      dsimp only at hm ⊢
      split
      · refine (removeNode_sized hm _).bind fun d1 h1 => ?_
        refine (removeNode_sized h1 _).bind fun d2 h2 => ?_
        unfold replaceReturn
        split
        · exact done _ _ _ _ h2 (by omega)
        · exact Ok.ub
      · exact up _ _ _ _ _ hm (by omega)

/-- The bytes of the strings of a call, one more for each string. -/
def Spec.Op.weight : Op → Nat
  | .attr (.add _ k v) | .attr (.set _ k v) => k.length + 1 + (v.length + 1)
  | .attr (.addBool _ b) | .attr (.removeBool _ b) | .attr (.remove _ b) => b.length + 1
  | .addText _ t _ | .setTag t _ _ | .setText _ t | .appendText _ t | .prependText _ t | .replaceText _ t => t.length + 1
  | .removeNode _ | .removeChildren _ => 0
  | .appendDoc _ d | .prependDoc _ d | .replaceDoc _ d =>
    d.tag.length + 1 + ((d.boolProps.map fun b => b.length + 1).sum + ((d.props.map fun p => p.1.length + 1).sum + (d.props.map fun p => p.2.length + 1).sum))
  | .appendHTML _ h | .prependHTML _ h | .replaceHTML _ h => h.length + 1

theorem length_le_sum {α : Type} (l : List α) (f : α → Nat) : l.length ≤ (l.map fun x => f x + 1).sum := by
  induction l with
  | nil => simp
  | cons x l ih => simp only [List.length_cons, List.map_cons, List.sum_cons]; omega

theorem runOp_grow_bytes {junk : Nat → Out Bool} (hj : Reads junk) (op : Op) {d : Dom} (h : Inv d) :
    Ok (Grown_bytes d op.weight) (runOp junk op d) := by
  have doc : ∀ doc : DocNode, 1 + doc.boolProps.length + doc.props.length ≤
      doc.tag.length + 1 + ((doc.boolProps.map fun b => b.length + 1).sum + ((doc.props.map fun p => p.1.length + 1).sum + (doc.props.map fun p => p.2.length + 1).sum)) := by
    intro doc
    have := length_le_sum doc.boolProps List.length
    have := length_le_sum doc.props fun p => p.1.length
    omega
  cases op with
  | attr op =>
    cases op with
    | add n k v => exact (addProperty_cost n k v d).mono fun d' h => by unfold Grown_bytes; simp only [Op.weight]; push_cast; omega
    | addBool n b => exact (addBoolProperty_cost n b d).mono fun d' h => by unfold Grown_bytes; simp only [Op.weight]; push_cast; omega
    | set n k v =>
      have : Ok (fun r => r.2.bytes ≤ d.bytes + 136) (setPropertyValue n k v d) := by
        unfold setPropertyValue
        dsimp only
        split
        · exact Ok.ok (by dsimp only; omega)
        · split
          · exact Ok.ok (by dsimp only; omega)
          · refine (internVal_cost v d).bind fun r h => Ok.ok ?_
            refine le_trans (le_of_eq ?_) h
            unfold Dom.bytes Dom.textLen
            simp
      exact this.bind fun r h => Ok.ok (by unfold Grown_bytes; simp only [Op.weight]; push_cast; omega)
    | remove n k =>
      refine Ok.ok ?_
      have : (removeProperty n k d).bytes = d.bytes := by
        unfold removeProperty
        dsimp only
        split
        · split
          · unfold Dom.bytes Dom.textLen; simp
          · rfl
        · rfl
      unfold Grown_bytes; simp only [Op.weight]; push_cast; omega
    | removeBool n b =>
      refine Ok.ok ?_
      have : (removeBoolProperty n b d).bytes = d.bytes := by
        unfold removeBoolProperty
        dsimp only
        split
        · split
          · unfold Dom.bytes Dom.textLen; simp
          · rfl
        · rfl
      unfold Grown_bytes; simp only [Op.weight]; push_cast; omega
  | addText n t a =>
    exact (addText_sized (N := 0) (T := d.newText 0) ⟨le_refl _, le_refl _⟩ n t a).mono fun d' h => by
      have := h.bytes; unfold Grown_bytes; simp only [Op.weight]; push_cast; omega
  | setTag t n p => exact (setTag_cost t n p d).mono fun d' h => by unfold Grown_bytes; simp only [Op.weight]; push_cast; omega
  | setText n t => exact setText_grow n t d
  | removeNode n =>
    exact (removeNode_sized (N := 0) (T := d.newText 0) ⟨le_refl _, le_refl _⟩ n).mono fun d' h => by
      have := h.bytes; unfold Grown_bytes; simp only [Op.weight]; push_cast; omega
  | removeChildren n =>
    exact (removeChildren_sized (N := 0) (T := d.newText 0) ⟨le_refl _, le_refl _⟩ n).mono fun d' h => by
      have := h.bytes; unfold Grown_bytes; simp only [Op.weight]; push_cast; omega
  | appendDoc p d0 => exact (docGrow (doc d0) fun n d1 => appendUpdate_bytes p n d1).drop fun _ h => h
  | appendText p t => exact (appendText_grow p t d).drop fun _ h => h
  | appendHTML p s => exact (appendHTML_grow hj p s h).drop fun _ h => h
  | prependDoc p d0 => exact (docGrow (doc d0) fun n d1 => prependUpdate_bytes p n d1).drop fun _ h => h
  | prependText p t => exact (prependText_grow p t d).drop fun _ h => h
  | prependHTML p s => exact (prependHTML_grow hj p s h).drop fun _ h => h
  | replaceDoc n d0 => exact (docGrow (doc d0) fun m d1 => replaceUpdate_bytes n m d1).drop fun _ h => h
  | replaceText n t => exact (replaceText_grow n t d).drop fun _ h => h
  | replaceHTML n s => exact (replaceHTML_grow hj n s h).drop fun _ h => h

end Flo
