import Verif.Proofs.EditMemText
/-!
# Editing in memory: tags and attributes
-/
namespace Flo
open Spec

variable {V : MEnv} {B T N : Int} {d : Dom} {M : MDom} {a : Arena}

theorem EdR.pokeTag (h : EdR V B T N d M a) (n : Nat) {t : Nat} (ht : t < 65536) :
    SimC V (fun _ => B) (do
      let node ← d.node n
      .ok (d.setNode n { node with payload := .tag t })) (do
      let a ← arrPoke 24 n 8 (leBytes 2 t) M.nodes a
      .ok (M, a)) (EdP V B T N) := by
  refine SimC.node fun nd hn => ?_
  obtain ⟨own, x, hr, hB, hT, hN⟩ := h
  have e0 : (({ nd with payload := .tag t } : Node).textLen : Int) = 0 := rfl
  obtain ⟨a2, he, hr2⟩ := hr.pokeNode (x' := x + 4 * (nd.textLen : Int)) (nd' := { nd with payload := .tag t }) hn (off := 8)
    (e := leBytes 2 t) (by omega) (by rw [leBytes_length]; decide) (fun p h _ => poke_tag ht h) (by omega)
  rw [he]
  have h1 := setNode_bytes (d := d) (y := { nd with payload := .tag t }) hn
  have h2 := setNode_textLen (y := { nd with payload := .tag t }) hn
  exact SimC.okR ⟨own, _, hr2, by omega, by omega, hN⟩

theorem EdR.setTag (h : EdR V B T N d M a) {r : MStr} {s : Str} (ht : Tok V r s) (n : Nat) (p : Bool) :
    SimC V (fun _ => B + 168) (Flo.setTag s n p d) (memSetTag r n p M a) (EdP V (B + 168) T N) := by
  obtain ⟨own, x, hr, hB, hT, hN⟩ := h
  unfold Flo.setTag memSetTag
  refine ((hr.shift.insTag (ht.shift x)).unshift (B := B + 64) ((autoInsert_cost _ _).mono fun q hq => ?_)).then (by omega) fun q q' hq hR => ?_
  · unfold Dom.bytes Dom.textLen at *
    dsimp only
    omega
  · obtain ⟨h1, h2, h3, own', h4⟩ := hR
    have hc := autoInsert_cost _ _ _ hq
    have hb : Dom.bytes { d with tagMap := q.map } + x ≤ B + 64 := by
      unfold Dom.bytes Dom.textLen at *
      dsimp only
      omega
    rw [h2]
    cases hw : q.wasInserted
    · rw [h1, hw]
      simp only [Bool.false_eq_true, if_false, Out.bind_ok]
      have hE : EdR V (B + 168) T N { d with tagMap := q.map } { M with tagMap := q'.map } q'.arena := ⟨own', x, h4.unshift, by omega, hT, hN⟩
      exact hE.pokeTag n h3
    · rw [h1, hw]
      simp only [if_true]
      have hrun := EdR.pushed (own := own') (B := B + 64) (T' := T) (N' := N) (B' := B + 168) hb (h4.unshift.addTagReg (p := p) ht) (C := 104)
        (by unfold Dom.bytes Dom.textLen; simp; omega) hT hN (by omega)
      have := hrun.then (B2 := B + 168) (f := fun d1 => (do
          let node ← d1.node n
          .ok (d1.setNode n { node with payload := .tag q.entryIndex }))) (g := fun b => (do
          let a ← arrPoke 24 n 8 (leBytes 2 q.entryIndex) b.1.nodes b.2
          .ok (b.1, a))) (R2 := EdP V (B + 168) T N) (le_refl _) fun d1 b _ hR => hR.pokeTag n h3
      exact this

/-! ## Documents -/

/-- A document node whose strings are in memory used by others. -/
structure DocTok (V : MEnv) (r : MDocNode) (t : DocNode) : Prop where
  tag : Tok V r.tag t.tag
  paired : r.isPaired = t.isPaired
  bools : List.Forall₂ (Tok V) r.boolProps t.boolProps
  props : List.Forall₂ (fun r t => Tok V r.1 t.1 ∧ Tok V r.2 t.2) r.props t.props

theorem EdR.addBools {n : Nat} (hn : n < 65536) {rs : List MStr} {ts : List Str} (ht : List.Forall₂ (Tok V) rs ts) :
    ∀ {B : Int} {d : Dom} {M : MDom} {a : Arena}, EdR V B T N d M a →
    SimC V (fun _ => B + 160 * (ts.length : Int)) (Flo.addBools n ts d) (memAddBools n rs M a) (EdP V (B + 160 * (ts.length : Int)) T N) := by
  induction ht with
  | nil => intro B d M a h; exact SimC.okR (h.mono (by simp) (le_refl _) (le_refl _))
  | cons h1 h2 ih =>
    intro B d M a h
    simp only [Flo.addBools, memAddBools, List.length_cons]
    refine (h.addBool hn h1).then (by push_cast; omega) fun d1 b _ hR => ?_
    exact (ih hR).mono (fun _ _ => by push_cast; omega) fun _ _ _ h => EdR.mono h (by push_cast; omega) (le_refl _) (le_refl _)

theorem EdR.addProps {n : Nat} (hn : n < 65536) {rs : List (MStr × MStr)} {ts : List (Str × Str)}
    (ht : List.Forall₂ (fun r t => Tok V r.1 t.1 ∧ Tok V r.2 t.2) rs ts) :
    ∀ {B : Int} {d : Dom} {M : MDom} {a : Arena}, EdR V B T N d M a →
    SimC V (fun _ => B + 304 * (ts.length : Int)) (Flo.addProps n ts d) (memAddProps n rs M a) (EdP V (B + 304 * (ts.length : Int)) T N) := by
  induction ht with
  | nil => intro B d M a h; exact SimC.okR (h.mono (by simp) (le_refl _) (le_refl _))
  | cons h1 h2 ih =>
    rename_i x y l l'
    obtain ⟨k, v⟩ := x
    obtain ⟨k', v'⟩ := y
    intro B d M a h
    simp only [Flo.addProps, memAddProps, List.length_cons]
    refine (h.addProp hn h1.1 h1.2).then (by push_cast; omega) fun d1 b _ hR => ?_
    exact (ih hR).mono (fun _ _ => by push_cast; omega) fun _ _ _ h => EdR.mono h (by push_cast; omega) (le_refl _) (le_refl _)

theorem EdR.newDoc (h : EdR V B T N d M a) {r : MDocNode} {t : DocNode} (ht : DocTok V r t) :
    SimC V (fun _ => B + 272 + 160 * (t.boolProps.length : Int) + 304 * (t.props.length : Int)) (parseDocumentElement t d)
      (memParseDocumentElement r M a) (EdI V (B + 272 + 160 * (t.boolProps.length : Int) + 304 * (t.props.length : Int)) T N) := by
  unfold parseDocumentElement memParseDocumentElement
  refine (h.create .document).then (by omega) fun ⟨id, d1⟩ ⟨id', M1, a1⟩ hq hR => ?_
  obtain ⟨e1, hid, hR⟩ := hR
  dsimp only at e1 hid hR ⊢
  subst e1
  rw [ht.paired]
  refine (hR.setTag ht.tag _ _).then (by omega) fun d2 ⟨M2, a2⟩ _ hR2 => ?_
  refine (EdR.addBools hid ht.bools hR2).then (by omega) fun d3 ⟨M3, a3⟩ _ hR3 => ?_
  refine (EdR.addProps hid ht.props hR3).then (by omega) fun d4 ⟨M4, a4⟩ _ hR4 => ?_
  exact SimC.okR ⟨rfl, hid, EdR.mono hR4 (by omega) (le_refl _) (le_refl _)⟩

/-! ## Attributes -/

theorem EdR.lookup (h : EdR V B T N d M a) {r : MStr} {s : Str} (ht : Tok V r s) :
    memLookup r M.keyMap a.mem = .ok (d.keyMap.contains s) ∧ memLookup r M.boolMap a.mem = .ok (d.boolMap.contains s) := by
  obtain ⟨own, x, hr, hB, hT, hN⟩ := h
  have := hr.read ht
  refine ⟨?_, ?_⟩
  · rw [hr.keyMap.find r, bytesFrom_eq]; exact congrArg (fun k => Out.ok (d.keyMap.contains k)) this
  · rw [hr.boolMap.find r, bytesFrom_eq]; exact congrArg (fun k => Out.ok (d.boolMap.contains k)) this

theorem EdR.removeBool (h : EdR V B T N d M a) {r : MStr} {s : Str} (ht : Tok V r s) (n : Nat) :
    SimC V (fun _ => B) (.ok (removeBoolProperty n s d)) (memRemoveBool n r M a) (EdA V B T N M) := by
  unfold removeBoolProperty memRemoveBool
  rw [(h.lookup ht).2, Out.bind_ok, h.tables]
  dsimp only
  by_cases hb : d.boolMap.contains s > 0
  · rw [if_pos hb, if_pos hb]
    show SimC V _ _ (match getBooleanProperty n _ d with | some i => _ | none => _) _
    cases hg : getBooleanProperty n (d.boolMap.contains s) d with
    | none => exact SimC.okR h
    | some i =>
      obtain ⟨own, x, hr, hB, hT, hN⟩ := h
      obtain ⟨q, hq⟩ := findIdx_some hg
      obtain ⟨a', he, hr', _⟩ := hr.setBoolProps hq (r' := (0, 0)) (off := 0) (e := encRow (0, 0)) (by omega) (by decide)
        fun p _ => rowAt_write (by decide) (by decide) _ _ _ _
      dsimp only
      rw [he]
      exact SimC.okR ⟨own, x, hr', by unfold Dom.bytes Dom.textLen at *; simpa using hB, hT, hN⟩
  · rw [if_neg hb, if_neg hb]
    exact SimC.okR h

theorem EdR.removeProp (h : EdR V B T N d M a) {r : MStr} {s : Str} (ht : Tok V r s) (n : Nat) :
    SimC V (fun _ => B) (.ok (removeProperty n s d)) (memRemoveProp n r M a) (EdA V B T N M) := by
  unfold removeProperty memRemoveProp
  rw [(h.lookup ht).1, Out.bind_ok, h.tables]
  dsimp only
  by_cases hb : d.keyMap.contains s > 0
  · rw [if_pos hb, if_pos hb]
    show SimC V _ _ (match getProperty n _ d with | some i => _ | none => _) _
    cases hg : getProperty n (d.keyMap.contains s) d with
    | none => exact SimC.okR h
    | some i =>
      obtain ⟨own, x, hr, hB, hT, hN⟩ := h
      obtain ⟨q, hq⟩ := findIdx_some hg
      obtain ⟨a', he, hr', _⟩ := hr.setProps hq (r' := ⟨0, 0, 0⟩) (off := 0) (e := encProp ⟨0, 0, 0⟩) (by omega) (by decide)
        fun p _ => propAt_zero _ _ _ _
      dsimp only
      rw [he]
      exact SimC.okR ⟨own, x, hr', by unfold Dom.bytes Dom.textLen at *; simpa using hB, hT, hN⟩
  · rw [if_neg hb, if_neg hb]
    exact SimC.okR h

theorem EdR.setProp (h : EdR V B T N d M a) {rk rv : MStr} {k v : Str} (hk : Tok V rk k) (hv : Tok V rv v) (n : Nat) :
    SimC V (fun _ => B + 136) (setPropertyValue n k v d) (memSetPropertyValue n rk rv M a)
      (fun r b => b.1 = r.1 ∧ EdR V (B + 136) T N r.2 b.2.1 b.2.2) := by
  unfold setPropertyValue memSetPropertyValue
  rw [(h.lookup hk).1, Out.bind_ok, h.tables]
  dsimp only
  by_cases hb : d.keyMap.contains k = 0
  · rw [if_pos hb, if_pos hb]
    exact SimC.okR ⟨rfl, h.mono (by omega) (le_refl _) (le_refl _)⟩
  · rw [if_neg hb, if_neg hb]
    show SimC V _ _ (match getProperty n _ d with | none => _ | some i => _) _
    cases hg : getProperty n (d.keyMap.contains k) d with
    | none => exact SimC.okR ⟨rfl, h.mono (by omega) (le_refl _) (le_refl _)⟩
    | some i =>
      dsimp only
      have hsame : ∀ r, Flo.internVal v d = .ok r → r.2.props = d.props := by
        have : Ok (fun r => r.2.props = d.props) (Flo.internVal v d) := by unfold Flo.internVal; exact Ok.triv.bind fun r _ => Ok.ok rfl
        exact this
      refine (h.internVal hv).then (le_refl _) fun ⟨w, d1⟩ ⟨w', M1, a1⟩ hq hR => ?_
      have hp := hsame _ hq
      obtain ⟨e1, hw, own, x, hr, hB, hT, hN⟩ := hR
      dsimp only at e1 hw hr hB hT hN hp ⊢
      subst e1
      obtain ⟨q, hq⟩ := findIdx_some hg
      rw [← hp] at hq
      obtain ⟨a', he, hr', _⟩ := hr.setProps hq (r' := { q with value := w' }) (off := 4) (e := leBytes 2 w') (by omega) (by rw [leBytes_length]; decide)
        fun p h => propAt_write4 hw _ _ _ _ h
      rw [he]
      have hm : d1.props.modify i (fun r => { r with value := w' }) = d1.props.set i { q with value := w' } := by
        rw [List.modify_eq_set_getElem?, hq]; rfl
      rw [hm]
      exact SimC.okR ⟨rfl, own, x, hr', by unfold Dom.bytes Dom.textLen at *; simpa using hB, hT, hN⟩

end Flo
