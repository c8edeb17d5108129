import Verif.Proofs.EditMemReplace
/-!
# Editing in memory: the operations that insert nodes
-/
namespace Flo
open Spec

variable {V : MEnv} {B T N : Int} {d : Dom} {M : MDom} {a : Arena}

/-- Same value, and the memory represents the same DOM. -/
def EdV (V : MEnv) (C : Int) (r : Nat × Dom) (b : Nat × MDom × Arena) : Prop := b.1 = r.1 ∧ ∃ T N, EdR V C T N r.2 b.2.1 b.2.2

theorem EdR.val (h : EdR V B T N d M a) (v : Nat) {C : Int} (hC : B ≤ C) : EdV V C (v, d) (v, M, a) :=
  ⟨rfl, T, N, h.mono hC (le_refl _) (le_refl _)⟩

theorem EdR.appendTail (h : EdR V B T N d M a) {parent new : Nat} (hp : parent < 65536) (hn : new < 65536) (v : Nat) {C : Int} (hC : B + 24 * N + 120 ≤ C) :
    SimC V (fun _ => C) (appendUpdateReferences parent new d >>= fun d => .ok (v, d))
      (memAppendRefs parent new M a >>= fun (M, a) => .ok (v, M, a)) (EdV V C) :=
  (h.appendRefs hp hn).then hC fun d1 ⟨M1, a1⟩ _ h1 => SimC.okR (EdR.val (M := M1) (a := a1) h1 v hC)

theorem EdR.prependTail (h : EdR V B T N d M a) {parent new : Nat} (hp : parent < 65536) (hn : new < 65536) (v : Nat) {C : Int} (hC : B + 24 * N + 120 ≤ C) :
    SimC V (fun _ => C) (prependUpdateReferences parent new d >>= fun d => .ok (v, d))
      (memPrependRefs parent new M a >>= fun (M, a) => .ok (v, M, a)) (EdV V C) :=
  (h.prependRefs hp hn).then hC fun d1 ⟨M1, a1⟩ _ h1 => SimC.okR (EdR.val (M := M1) (a := a1) h1 v hC)

theorem EdR.replaceTail (h : EdR V B T N d M a) (old : Nat) {new : Nat} (hn : new < 65536) (v : Nat) {C : Int} (hC : B + 24 * N + 48 ≤ C) :
    SimC V (fun _ => C) (replaceUpdateReferences old new d >>= fun d => .ok (v, d))
      (memReplaceRefs old new M a >>= fun (M, a) => .ok (v, M, a)) (EdV V C) :=
  (h.replaceRefs old hn).then hC fun d1 ⟨M1, a1⟩ _ h1 => SimC.okR (EdR.val (M := M1) (a := a1) h1 v hC)

theorem EdR.removeTail (h : EdR V B T N d M a) (n v : Nat) {C : Int} (hC : B ≤ C) :
    SimC V (fun _ => C) (removeNode n d >>= fun d => .ok (v, d)) (memRemoveNode n M a >>= fun a => .ok (v, M, a)) (EdV V C) :=
  (h.remove n).then hC fun d1 a1 _ h1 => SimC.okR (EdR.val h1 v hC)

theorem EdR.newID (h : EdR V B T N d M a) : memNewID M = d.nodes.length := by
  unfold memNewID
  have := h.count
  have := h.few
  omega

/-! ## Nodes -/

theorem EdR.appendDoc (h : EdR V B T N d M a) {r : MDocNode} {t : DocNode} (ht : DocTok V r t) {parent : Nat} (hp : parent < 65536) {C : Int}
    (hC : B + 392 + 160 * (t.boolProps.length : Int) + 304 * (t.props.length : Int) + 24 * N ≤ C) :
    SimC V (fun _ => C) (appendDocumentNode parent t d) (memAppendDoc parent r M a) (EdV V C) := by
  have hN := h.nexts
  unfold appendDocumentNode memAppendDoc
  refine (h.newDoc ht).then (by omega) fun ⟨id, d1⟩ ⟨id', M1, a1⟩ _ hR => ?_
  obtain ⟨e1, hid, h1⟩ := hR
  dsimp only at e1 hid h1 ⊢
  subst e1
  by_cases h0 : id' = 0
  · rw [if_pos h0, if_pos h0]
    exact SimC.okR (h1.val _ (by omega))
  · rw [if_neg h0, if_neg h0]
    exact h1.appendTail hp hid _ (by omega)

theorem EdR.prependDoc (h : EdR V B T N d M a) {r : MDocNode} {t : DocNode} (ht : DocTok V r t) {parent : Nat} (hp : parent < 65536) {C : Int}
    (hC : B + 392 + 160 * (t.boolProps.length : Int) + 304 * (t.props.length : Int) + 24 * N ≤ C) :
    SimC V (fun _ => C) (prependDocumentNode parent t d) (memPrependDoc parent r M a) (EdV V C) := by
  have hN := h.nexts
  unfold prependDocumentNode memPrependDoc
  refine (h.newDoc ht).then (by omega) fun ⟨id, d1⟩ ⟨id', M1, a1⟩ _ hR => ?_
  obtain ⟨e1, hid, h1⟩ := hR
  dsimp only at e1 hid h1 ⊢
  subst e1
  by_cases h0 : id' = 0
  · rw [if_pos h0, if_pos h0]
    exact SimC.okR (h1.val _ (by omega))
  · rw [if_neg h0, if_neg h0]
    exact h1.prependTail hp hid _ (by omega)

theorem EdR.replaceDoc (h : EdR V B T N d M a) {r : MDocNode} {t : DocNode} (ht : DocTok V r t) (old : Nat) {C : Int}
    (hC : B + 392 + 160 * (t.boolProps.length : Int) + 304 * (t.props.length : Int) + 24 * N ≤ C) :
    SimC V (fun _ => C) (replaceWithDocumentNode old t d) (memReplaceDoc old r M a) (EdV V C) := by
  have hN := h.nexts
  unfold replaceWithDocumentNode memReplaceDoc
  refine (h.newDoc ht).then (by omega) fun ⟨id, d1⟩ ⟨id', M1, a1⟩ _ hR => ?_
  obtain ⟨e1, hid, h1⟩ := hR
  dsimp only at e1 hid h1 ⊢
  subst e1
  by_cases h0 : id' = 0
  · rw [if_pos h0, if_pos h0]
    exact SimC.okR (h1.val _ (by omega))
  · rw [if_neg h0, if_neg h0]
    exact h1.replaceTail old hid _ (by omega)

/-! ## Texts -/

theorem EdR.appendText (h : EdR V B T N d M a) {r : MStr} {t : Str} (ht : Tok V r t) {parent : Nat} (hp : parent < 65536) {C : Int}
    (hC : B + 225 + 3 * (t.length : Int) + 2 * T + 24 * N ≤ C) :
    SimC V (fun _ => C) (appendTextNode parent t d) (memAppendText parent r M a) (EdV V C) := by
  have hN := h.nexts
  have hT := h.text
  unfold appendTextNode memAppendText
  refine (h.newText ht).then (by omega) fun ⟨id, d1⟩ ⟨id', M1, a1⟩ _ hR => ?_
  obtain ⟨e1, hid, h1⟩ := hR
  dsimp only at e1 hid h1 ⊢
  subst e1
  by_cases h0 : id' = 0
  · rw [if_pos h0, if_pos h0]
    exact SimC.okR (h1.val _ (by omega))
  · rw [if_neg h0, if_neg h0, h1.tables]
    show SimC V _ _ (if getFirstChild parent d1 > 0 then _ else _) _
    by_cases hf : getFirstChild parent d1 > 0
    · rw [if_pos hf, if_pos hf, getLastNext_rows]
      refine SimC.same fun child _ => ?_
      refine (h1.tryMerge child id' true).then (by omega) fun ⟨m, d2⟩ ⟨m', a2⟩ _ hR => ?_
      obtain ⟨e2, h2⟩ := hR
      dsimp only at e2 h2 ⊢
      subst e2
      cases m'
      · exact h2.appendTail hp hid _ (by omega)
      · exact h2.removeTail _ _ (by omega)
    · rw [if_neg hf, if_neg hf]
      exact h1.appendTail hp hid _ (by omega)

theorem EdR.prependText (h : EdR V B T N d M a) {r : MStr} {t : Str} (ht : Tok V r t) {parent : Nat} (hp : parent < 65536) {C : Int}
    (hC : B + 225 + 3 * (t.length : Int) + 2 * T + 24 * N ≤ C) :
    SimC V (fun _ => C) (prependTextNode parent t d) (memPrependText parent r M a) (EdV V C) := by
  have hN := h.nexts
  have hT := h.text
  unfold prependTextNode memPrependText
  refine (h.newText ht).then (by omega) fun ⟨id, d1⟩ ⟨id', M1, a1⟩ _ hR => ?_
  obtain ⟨e1, hid, h1⟩ := hR
  dsimp only at e1 hid h1 ⊢
  subst e1
  by_cases h0 : id' = 0
  · rw [if_pos h0, if_pos h0]
    exact SimC.okR (h1.val _ (by omega))
  · rw [if_neg h0, if_neg h0, h1.tables]
    show SimC V _ _ (if getFirstChild parent d1 > 0 then memTryMerge (getFirstChild parent d1) id' false M1 a1 >>= _ else _) _
    by_cases hf : getFirstChild parent d1 > 0
    · rw [if_pos hf, if_pos hf]
      refine (h1.tryMerge (getFirstChild parent d1) id' false).then (by omega) fun ⟨m, d2⟩ ⟨m', a2⟩ _ hR => ?_
      obtain ⟨e2, h2⟩ := hR
      dsimp only at e2 h2 ⊢
      subst e2
      cases m'
      · exact h2.prependTail hp hid _ (by omega)
      · exact h2.removeTail _ _ (by omega)
    · rw [if_neg hf, if_neg hf]
      exact h1.prependTail hp hid _ (by omega)

/-! ## Merging on both sides -/

theorem EdR.mergePrev (h : EdR V B T N d M a) (old new : Nat) :
    SimC V (fun _ => B + 2 * T + 1) (tryMergePrev old new d) (memMergePrev old new M a) (EdB V (B + 2 * T + 1) (3 * T + 1) N M) := by
  have hT := h.text
  unfold tryMergePrev memMergePrev
  rw [h.tables, h.rowsNn]
  show SimC V _ _ (match getPreviousNode old d with | some v => _ | none => _) _
  cases hp : getPreviousNode old d with
  | none => exact SimC.okR ⟨rfl, h.mono (by omega) (by omega) (le_refl _)⟩
  | some v => exact h.tryMerge _ _ _

theorem EdR.mergeNext (h : EdR V B T N d M a) (old new : Nat) :
    SimC V (fun _ => B + 2 * T + 1) (tryMergeNext old new d) (memMergeNext old new M a) (EdB V (B + 2 * T + 1) (3 * T + 1) N M) := by
  have hT := h.text
  unfold tryMergeNext memMergeNext
  rw [h.tables, h.rowsNn]
  show SimC V _ _ (match getNextNode old d with | some v => _ | none => _) _
  cases hp : getNextNode old d with
  | none => exact SimC.okR ⟨rfl, h.mono (by omega) (by omega) (le_refl _)⟩
  | some v => exact h.tryMerge _ _ _

theorem EdR.mergeBoth (h : EdR V B T N d M a) (old new : Nat) :
    SimC V (fun _ => B + 8 * T + 4) (tryMergeBothSides old new d) (memMergeBoth old new M a) (EdB V (B + 8 * T + 4) (9 * T + 4) N M) := by
  have hT := h.text
  unfold tryMergeBothSides
  refine SimC.node fun nd hn => ?_
  unfold memMergeBoth
  rw [h.isText hn, Out.bind_ok, h.nodeID hn, Out.bind_ok]
  by_cases ht : nd.type = .text
  · rw [if_pos ht, if_pos (by simpa using ht)]
    refine (h.mergePrev old new).then (by omega) fun ⟨m, d1⟩ ⟨m', a1⟩ _ hR => ?_
    obtain ⟨e1, h1⟩ := hR
    dsimp only at e1 h1 ⊢
    subst e1
    cases m'
    · exact (h1.mergeNext old new).mono (fun _ _ => by omega) fun _ _ _ h => ⟨h.1, EdR.mono h.2 (by omega) (by omega) (le_refl _)⟩
    · exact SimC.okR ⟨rfl, h1.mono (by omega) (by omega) (le_refl _)⟩
  · rw [if_neg ht, if_neg (by simpa using ht)]
    exact SimC.okR ⟨rfl, h.mono (by omega) (by omega) (le_refl _)⟩

theorem EdR.replaceText (h : EdR V B T N d M a) {r : MStr} {t : Str} (ht : Tok V r t) (old : Nat) {C : Int}
    (hC : B + 225 + 9 * (t.length : Int) + 8 * T + 24 * N ≤ C) :
    SimC V (fun _ => C) (replaceWithTextNode old t d) (memReplaceText old r M a) (EdV V C) := by
  have hN := h.nexts
  have hT := h.text
  unfold replaceWithTextNode memReplaceText
  refine (h.newText ht).then (by omega) fun ⟨id, d1⟩ ⟨id', M1, a1⟩ _ hR => ?_
  obtain ⟨e1, hid, h1⟩ := hR
  dsimp only at e1 hid h1 ⊢
  subst e1
  by_cases h0 : id' = 0
  · rw [if_pos h0, if_pos h0]
    exact SimC.okR (h1.val _ (by omega))
  · rw [if_neg h0, if_neg h0]
    refine (h1.mergeBoth old id').then (by omega) fun ⟨m, d2⟩ ⟨m', a2⟩ _ hR => ?_
    obtain ⟨e2, h2⟩ := hR
    dsimp only at e2 h2 ⊢
    subst e2
    cases m'
    · exact h2.replaceTail old hid _ (by omega)
    · exact (h2.remove id').then (by omega) fun d3 a3 _ h3 => EdR.removeTail h3 _ _ (by omega)

/-! ## Fragments -/

/-- The bound for inserting a fragment: what the parse takes and what merging and linking take afterwards. -/
theorem EdR.appendHtml (h : EdR V B T N d M a) {junk : Nat → Out Bool} (hj : ∀ i, junk i ≠ .hang) {src : MStr} {s : Str} (hs : Tok V src s)
    {parent : Nat} (hp : parent < 65536) {C D : Int} (hD : d.bytes + 320 * (s.length : Int) ≤ 4 * D)
    (hC : B + 320 * (s.length : Int) + 8 * D + 200 ≤ C) :
    SimC V (fun _ => C) (appendHTML junk parent s d) (memAppendHTML junk parent src M a) (EdV V C) := by
  unfold appendHTML memAppendHTML
  have hfn : d.nodes.length < 65536 := by have := h.few; omega
  dsimp only
  rw [h.newID]
  have hd0 : 0 ≤ D := by have := d.bytes_text; omega
  refine (h.parseExtra hj hs hD).then (by omega) fun r q _ ⟨hok, T1, N1, hTN, h1⟩ => ?_
  have hT := h1.text
  have hN := h1.nexts
  generalize hB1 : B + 320 * (s.length : Int) = B1 at *
  rw [hok]
  cases hro : r.ok
  · exact SimC.okR (h1.val _ (by omega))
  · simp only [Bool.not_true, Bool.false_eq_true, if_false]
    rw [h1.tables]
    show SimC V _ _ (if getFirstChild parent r.dom > 0 then _ else _) _
    by_cases hf : getFirstChild parent r.dom > 0
    · have hfs : getFirstChild parent r.dom < 65536 := getFirstChild_small h1.smallFc _
      rw [if_pos hf, if_pos hf, getLastNext_rows]
      refine SimC.same fun lastNew _ => SimC.node fun nd hn => ?_
      rw [h1.isText hn, Out.bind_ok]
      by_cases hl : lastNew > d.nodes.length
      · rw [if_pos hl, if_pos hl]
        by_cases ht : nd.type = .text
        · rw [if_pos ht, if_pos (by simpa using ht)]
          show SimC V _ _ (getLastNext (getFirstChild parent r.dom) r.dom.rows >>= _) _
          rw [getLastNext_rows]
          refine SimC.same fun lastNext _ => ?_
          rw [h1.nodeID hn, Out.bind_ok]
          refine (h1.tryMerge lastNext d.nodes.length true).then (by omega) fun ⟨m, d2⟩ ⟨m', a2⟩ _ hR => ?_
          obtain ⟨e2, h2⟩ := hR
          dsimp only at e2 h2 ⊢
          subst e2
          cases m'
          · exact h2.appendTail hp hfn _ (by omega)
          · simp only [if_true]
            rw [h2.tables]
            refine (h2.remove d.nodes.length).then (by omega) fun d3 a3 _ h3 => ?_
            exact EdR.appendTail h3 hp (getNext_small h2.smallNn _) _ (by omega)
        · rw [if_neg ht, if_neg (by simpa using ht)]
          exact h1.appendTail hp hfn _ (by omega)
      · rw [if_neg hl, if_neg hl]
        by_cases ht : nd.type = .text
        · rw [if_pos ht, if_pos (by simpa using ht)]
          show SimC V _ _ (getLastNext (getFirstChild parent r.dom) r.dom.rows >>= _) _
          rw [getLastNext_rows]
          refine SimC.same fun lastNext _ => ?_
          rw [h1.nodeID hn, Out.bind_ok]
          refine (h1.tryMerge lastNext d.nodes.length true).then (by omega) fun ⟨m, d2⟩ ⟨m', a2⟩ _ hR => ?_
          obtain ⟨e2, h2⟩ := hR
          dsimp only at e2 h2 ⊢
          subst e2
          cases m'
          · exact h2.appendTail hp hfn _ (by omega)
          · exact h2.removeTail _ _ (by omega)
        · rw [if_neg ht, if_neg (by simpa using ht)]
          exact h1.appendTail hp hfn _ (by omega)
    · rw [if_neg hf, if_neg hf]
      exact h1.appendTail hp hfn _ (by omega)

theorem EdR.prependHtml (h : EdR V B T N d M a) {junk : Nat → Out Bool} (hj : ∀ i, junk i ≠ .hang) {src : MStr} {s : Str} (hs : Tok V src s)
    {parent : Nat} (hp : parent < 65536) {C D : Int} (hD : d.bytes + 320 * (s.length : Int) ≤ 4 * D)
    (hC : B + 320 * (s.length : Int) + 8 * D + 200 ≤ C) :
    SimC V (fun _ => C) (prependHTML junk parent s d) (memPrependHTML junk parent src M a) (EdV V C) := by
  unfold prependHTML memPrependHTML
  have hfn : d.nodes.length < 65536 := by have := h.few; omega
  dsimp only
  rw [h.newID]
  have hd0 : 0 ≤ D := by have := d.bytes_text; omega
  refine (h.parseExtra hj hs hD).then (by omega) fun r q _ ⟨hok, T1, N1, hTN, h1⟩ => ?_
  have hT := h1.text
  have hN := h1.nexts
  generalize hB1 : B + 320 * (s.length : Int) = B1 at *
  rw [hok]
  cases hro : r.ok
  · exact SimC.okR (h1.val _ (by omega))
  · simp only [Bool.not_true, Bool.false_eq_true, if_false]
    rw [h1.tables]
    show SimC V _ _ (if getFirstChild parent r.dom > 0 then _ else _) _
    by_cases hf : getFirstChild parent r.dom > 0
    · rw [if_pos hf, if_pos hf, getLastNext_rows]
      refine SimC.same fun lastNew _ => SimC.node fun nd hn => ?_
      rw [h1.isText hn, Out.bind_ok]
      by_cases hl : lastNew > d.nodes.length
      · rw [if_pos hl, if_pos hl]
        by_cases ht : nd.type = .text
        · rw [if_pos ht, if_pos (by simpa using ht)]
          refine (h1.tryMerge (getFirstChild parent r.dom) lastNew false).then (by omega) fun ⟨m, d2⟩ ⟨m', a2⟩ _ hR => ?_
          obtain ⟨e2, h2⟩ := hR
          dsimp only at e2 h2 ⊢
          subst e2
          cases m'
          · exact h2.prependTail hp hfn _ (by omega)
          · exact (h2.remove lastNew).then (by omega) fun d3 a3 _ h3 => EdR.prependTail h3 hp hfn _ (by omega)
        · rw [if_neg ht, if_neg (by simpa using ht)]
          exact h1.prependTail hp hfn _ (by omega)
      · rw [if_neg hl, if_neg hl]
        refine SimC.node fun nd2 hn2 => ?_
        rw [h1.isText hn2, Out.bind_ok]
        by_cases ht : nd2.type = .text
        · rw [if_pos ht, if_pos (by simpa using ht)]
          refine (h1.tryMerge (getFirstChild parent r.dom) d.nodes.length false).then (by omega) fun ⟨m, d2⟩ ⟨m', a2⟩ _ hR => ?_
          obtain ⟨e2, h2⟩ := hR
          dsimp only at e2 h2 ⊢
          subst e2
          cases m'
          · exact h2.prependTail hp hfn _ (by omega)
          · exact h2.removeTail _ _ (by omega)
        · rw [if_neg ht, if_neg (by simpa using ht)]
          exact h1.prependTail hp hfn _ (by omega)
    · rw [if_neg hf, if_neg hf]
      exact h1.prependTail hp hfn _ (by omega)

theorem EdR.mergeFirst (h : EdR V B T N d M a) (old : Nat) {new : Nat} (hnew : new < 65536) :
    SimC V (fun _ => B + 2 * T + 1) (replaceMergeFirst old new d) (memMergeFirst old new M a) (EdN V (B + 2 * T + 1) (3 * T + 1) N M) := by
  have hT := h.text
  unfold replaceMergeFirst
  refine SimC.node fun nd hn => ?_
  unfold memMergeFirst
  rw [h.isText hn, Out.bind_ok, h.nodeID hn, Out.bind_ok]
  by_cases ht : nd.type = .text
  · rw [if_pos ht, if_pos (by simpa using ht)]
    refine (h.mergePrev old new).then (by omega) fun ⟨m, d1⟩ ⟨m', a1⟩ _ hR => ?_
    obtain ⟨e1, h1⟩ := hR
    dsimp only at e1 h1 ⊢
    subst e1
    cases m'
    · exact SimC.okR ⟨rfl, hnew, h1⟩
    · simp only [if_true]
      rw [h1.tables]
      exact (h1.remove new).then (le_refl _) fun d2 a2 _ h2 => SimC.okR ⟨rfl, getNext_small h1.smallNn _, h2⟩
  · rw [if_neg ht, if_neg (by simpa using ht)]
    exact SimC.okR ⟨rfl, hnew, h.mono (by omega) (by omega) (le_refl _)⟩

theorem EdR.mergeLast (h : EdR V B T N d M a) (old last : Nat) :
    SimC V (fun _ => B + 2 * T + 1) (replaceMergeLast old last d) (memMergeLast old last M a) (EdA V (B + 2 * T + 1) (3 * T + 1) N M) := by
  have hT := h.text
  unfold replaceMergeLast
  refine SimC.node fun nd hn => ?_
  unfold memMergeLast
  rw [h.isText hn, Out.bind_ok]
  by_cases ht : nd.type = .text
  · rw [if_pos ht, if_pos (by simpa using ht)]
    refine (h.mergeNext old last).then (by omega) fun ⟨m, d1⟩ ⟨m', a1⟩ _ hR => ?_
    obtain ⟨e1, h1⟩ := hR
    dsimp only at e1 h1 ⊢
    subst e1
    cases m'
    · exact SimC.okR h1
    · exact h1.remove last
  · rw [if_neg ht, if_neg (by simpa using ht)]
    exact SimC.okR (h.mono (by omega) (by omega) (le_refl _))

theorem EdR.replaceHtml (h : EdR V B T N d M a) {junk : Nat → Out Bool} (hj : ∀ i, junk i ≠ .hang) {src : MStr} {s : Str} (hs : Tok V src s)
    (old : Nat) {C D : Int} (hD : d.bytes + 320 * (s.length : Int) ≤ 4 * D) (hC : B + 320 * (s.length : Int) + 8 * D + 200 ≤ C) :
    SimC V (fun _ => C) (replaceWithHTML junk old s d) (memReplaceHTML junk old src M a) (EdV V C) := by
  unfold replaceWithHTML memReplaceHTML
  have hfn : d.nodes.length < 65536 := by have := h.few; omega
  dsimp only
  rw [h.newID]
  have hd0 : 0 ≤ D := by have := d.bytes_text; omega
  refine (h.parseExtra hj hs hD).then (by omega) fun r q _ ⟨hok, T1, N1, hTN, h1⟩ => ?_
  have hT := h1.text
  have hN := h1.nexts
  generalize hB1 : B + 320 * (s.length : Int) = B1 at *
  rw [hok]
  cases hro : r.ok
  · exact SimC.okR (h1.val _ (by omega))
  · simp only [Bool.not_true, Bool.false_eq_true, if_false]
    rw [h1.tables, getLastNext_rows]
    refine SimC.same fun lastNew _ => ?_
    by_cases hl : lastNew > d.nodes.length
    · rw [if_pos hl, if_pos hl]
      refine (h1.mergeFirst old hfn).then (by omega) fun ⟨f, d2⟩ ⟨f', a2⟩ _ hR => ?_
      obtain ⟨e2, hf2, h2⟩ := hR
      dsimp only at e2 hf2 h2 ⊢
      subst e2
      refine (h2.mergeLast old lastNew).then (by omega) fun d3 a3 _ h3 => ?_
      exact EdR.replaceTail h3 old hf2 _ (by omega)
    · rw [if_neg hl, if_neg hl]
      refine (h1.mergeBoth old d.nodes.length).then (by omega) fun ⟨m, d2⟩ ⟨m', a2⟩ _ hR => ?_
      obtain ⟨e2, h2⟩ := hR
      dsimp only at e2 h2 ⊢
      subst e2
      cases m'
      · exact h2.replaceTail old hfn _ (by omega)
      · simp only [if_true]
        refine (h2.remove d.nodes.length).then (by omega) fun d3 a3 _ h3 => ?_
        refine (EdR.remove h3 old).then (by omega) fun d4 a4 _ h4 => ?_
        unfold memReplaceReturn
        have h4 : EdR V _ _ _ d4 q.dom a4 := h4
        show SimC V _ _ (match getPreviousNode old r.dom with | some v => _ | none => _) _
        unfold replaceReturn
        cases getPreviousNode old r.dom with
        | none => exact SimC.ub
        | some v =>
          dsimp only
          rw [h4.rowsNn]
          exact SimC.okR (h4.val _ (by omega))

end Flo
