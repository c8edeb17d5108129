import Verif.Proofs.EditMemRemove
/-!
# Editing in memory: appending and prepending
-/
namespace Flo
open Spec

variable {V : MEnv} {B T N : Int} {d : Dom} {M : MDom} {a : Arena}

/-- A step of the memory run that is a plain update of the abstract one. -/
theorem SimC.step {α β γ δ : Type} {B1 B2 : Int} {d' : α} {p : Out γ} {y : Out β} {g : β → Out δ} {R1 : α → β → Prop} {R2 : γ → δ → Prop}
    (h : SimC V (fun _ => B1) (.ok d') y R1) (hB : B1 ≤ B2) (hf : ∀ b, R1 d' b → SimC V (fun _ => B2) p (g b) R2) :
    SimC V (fun _ => B2) p (y >>= g) R2 := by
  have := h.then (f := fun _ => p) (g := g) (R2 := R2) hB fun r b e hR => by cases e; exact hf b hR
  exact this

theorem EdR.getLast {α β : Type} {L : α → Int} {n : Nat} {f : Nat → Out α} {g : Nat → Out β} {R : α → β → Prop} (h : EdR V B T N d M a) (hn : n < 65536)
    (hf : ∀ m, m < 65536 → SimC V L (f m) (g m) R) : SimC V L (getLastNext n d >>= f) (getLastNext n (memTables M a.mem) >>= g) R := by
  rw [h.tables, getLastNext_rows]
  exact SimC.same fun r e => hf r (getLastNext_small h.smallNn hn e)

theorem EdR.setText (h : EdR V B T N d M a) {r : MStr} {t : Str} (ht : Tok V r t) {n : Nat} (hn : n < 65536) :
    SimC V (fun _ => B + 152 + t.length) (setTextContent n t d) (memSetTextContent n r M a) (EdP V (B + 152 + t.length) (T + t.length) N) := by
  unfold setTextContent memSetTextContent
  refine (h.removeKids n).then (by omega) fun d1 a1 _ h1 => ?_
  refine (EdR.newText h1 ht).then (by omega) fun ⟨id, d2⟩ ⟨id', M2, a2⟩ _ hR => ?_
  obtain ⟨e1, hid, h2⟩ := hR
  dsimp only at e1 hid h2 ⊢
  subst e1
  refine (h2.pushFc (r := (n, id')) hn hid).step (by omega) fun ⟨M3, a3⟩ h3 => ?_
  exact (EdR.pushPc h3 (r := (n, id')) hn hid).mono (fun _ _ => by omega) fun _ _ _ h => EdR.mono h (by omega) (le_refl _) (le_refl _)

/-! ## Connecting -/

theorem EdR.connectLoop {parent : Nat} (hp : parent < 65536) : ∀ (f other : Nat), other < 65536 → ∀ {B : Int} {d : Dom} {M : MDom} {a : Arena}, EdR V B T N d M a →
    SimC V (fun _ => B + 24 * (f : Int)) (Flo.connectLoop parent f other d) (memConnectLoop parent f other M a) (EdP V (B + 24 * (f : Int)) T N)
  | 0, _, _, _, _, _, _, _ => SimC.hang
  | f + 1, other, ho, B, d, M, a, h => by
    simp only [Flo.connectLoop, memConnectLoop]
    by_cases hc : other > 0
    · rw [if_pos hc, if_pos hc]
      refine (h.pushPc (r := (parent, other)) hp ho).step (by push_cast; omega) fun ⟨M1, a1⟩ h1 => ?_
      have h1 : EdR V _ T N _ M1 a1 := h1
      dsimp only
      rw [h1.tables]
      exact (EdR.connectLoop hp f _ (getNext_small h1.smallNn other) h1).mono (fun _ _ => by push_cast; omega)
        fun _ _ _ h => EdR.mono h (by push_cast; omega) (le_refl _) (le_refl _)
    · rw [if_neg hc, if_neg hc]
      exact SimC.okR (h.mono (by push_cast; omega) (le_refl _) (le_refl _))

theorem EdR.connect (h : EdR V B T N d M a) {parent : Nat} (hp : parent < 65536) (last : Nat) :
    SimC V (fun _ => B + 24 * N + 48) (connectOthers parent last d) (memConnectOthers parent last M a) (EdP V (B + 24 * N + 48) T N) := by
  unfold connectOthers memConnectOthers
  have hN := h.nexts
  have : M.nn.len.toNat + 2 = d.nn.length + 2 := by have := h.nnLen; omega
  rw [this, h.tables]
  exact (EdR.connectLoop hp (d.nn.length + 2) _ (getNext_small h.smallNn last) h).mono (fun _ _ => by push_cast; omega)
    fun _ _ _ h => EdR.mono h (by push_cast; omega) (le_refl _) (le_refl _)

theorem EdR.appendRefs (h : EdR V B T N d M a) {parent new : Nat} (hp : parent < 65536) (hn : new < 65536) :
    SimC V (fun _ => B + 24 * N + 120) (appendUpdateReferences parent new d) (memAppendRefs parent new M a) (EdP V (B + 24 * N + 120) T (N + 1)) := by
  have hN := h.nexts
  unfold appendUpdateReferences memAppendRefs
  rw [h.tables, h.rowsFc]
  show SimC V _ _ (match getFirstChildNode parent d with | none => _ | some i => _) _
  cases hf : getFirstChildNode parent d with
  | none =>
    dsimp only
    refine (h.pushFc (r := (parent, new)) hp hn).step (by omega) fun ⟨M1, a1⟩ h1 => ?_
    refine (EdR.pushPc h1 (r := (parent, new)) hp hn).step (by omega) fun ⟨M2, a2⟩ h2 => ?_
    exact (EdR.connect h2 hp new).mono (fun _ _ => by omega) fun _ _ _ h => EdR.mono h (by omega) (le_refl _) (by omega)
  | some i =>
    dsimp only
    rw [getLastNext_rows]
    refine SimC.same fun last e => ?_
    have hl := getLastNext_small h.smallNn (h.smallFc i).2 e
    refine (h.pushNn (r := (last, new)) hl hn).step (by omega) fun ⟨M1, a1⟩ h1 => ?_
    refine (EdR.pushPc h1 (r := (parent, new)) hp hn).step (by omega) fun ⟨M2, a2⟩ h2 => ?_
    exact (EdR.connect h2 hp new).mono (fun _ _ => by omega) fun _ _ _ h => EdR.mono h (by omega) (le_refl _) (by omega)

theorem EdR.prependRefs (h : EdR V B T N d M a) {parent new : Nat} (hp : parent < 65536) (hn : new < 65536) :
    SimC V (fun _ => B + 24 * N + 120) (prependUpdateReferences parent new d) (memPrependRefs parent new M a) (EdP V (B + 24 * N + 120) T (N + 1)) := by
  have hN := h.nexts
  unfold prependUpdateReferences memPrependRefs
  rw [h.tables, h.rowsFc]
  show SimC V _ _ (match getFirstChildNode parent d with | none => _ | some i => _) _
  cases hf : getFirstChildNode parent d with
  | none =>
    dsimp only
    refine (h.pushFc (r := (parent, new)) hp hn).step (by omega) fun ⟨M1, a1⟩ h1 => ?_
    refine (EdR.pushPc h1 (r := (parent, new)) hp hn).step (by omega) fun ⟨M2, a2⟩ h2 => ?_
    exact (EdR.connect h2 hp new).mono (fun _ _ => by omega) fun _ _ _ h => EdR.mono h (by omega) (le_refl _) (by omega)
  | some i =>
    obtain ⟨q, hq⟩ := findIdx_some hf
    obtain ⟨a1, he, h1⟩ := h.fc2 (i := i) hq (v := new) hn
    dsimp only
    rw [he, Out.bind_ok, rowAt_of hq]
    refine h1.getLast hn fun last hl => ?_
    have hs : q.2 < 65536 := by have := (h.smallFc i).2; rw [rowAt_of hq] at this; exact this
    refine (h1.pushNn (r := (last, q.2)) hl hs).step (by omega) fun ⟨M1, a1⟩ h1 => ?_
    refine (EdR.pushPc h1 (r := (parent, new)) hp hn).step (by omega) fun ⟨M2, a2⟩ h2 => ?_
    exact (EdR.connect h2 hp new).mono (fun _ _ => by omega) fun _ _ _ h => EdR.mono h (by omega) (le_refl _) (by omega)

end Flo
