import Verif.Model.Status
import Verif.Spec.Status
import Verif.Spec.Trie
import Verif.Proofs.Files
import Verif.Proofs.Trie
import Verif.Proofs.History
import Verif.Proofs.Compare
import Verif.Props.Log
/-!
# What the reports print
-/
namespace Flo
open Spec

/-- `f` carries out operations that output `s`. -/
def Prints (f : WBuf → Out WBuf) (s : Str) : Prop :=
  ∃ ops : List LogOp, (∀ s k fl, LogOp.minSize s k fl ∈ ops → s.length < 2 ^ 32) ∧ ops.flatMap LogOp.text = s ∧
    ∀ b, f b = runLogs ops b

theorem Prints.one {op : LogOp} (h : ∀ s k fl, LogOp.minSize s k fl = op → s.length < 2 ^ 32) : Prints (runLog op) op.text := by
  refine ⟨[op], ?_, by simp, fun b => ?_⟩
  · intro s k fl hm
    exact h s k fl (by simpa using hm)
  · show runLog op b = (runLog op b >>= fun b => .ok b)
    cases runLog op b <;> rfl

theorem Prints.nil : Prints (fun b => .ok b) [] := ⟨[], by simp, rfl, fun _ => rfl⟩

theorem Prints.bind {f g : WBuf → Out WBuf} {s t : Str} (hf : Prints f s) (hg : Prints g t) :
    Prints (fun b => f b >>= fun b => g b) (s ++ t) := by
  obtain ⟨xs, mx, ex, hx⟩ := hf
  obtain ⟨ys, my, ey, hy⟩ := hg
  refine ⟨xs ++ ys, ?_, by simp [ex, ey], fun b => ?_⟩
  · intro s k fl hm
    rcases List.mem_append.1 hm with hm | hm
    · exact mx s k fl hm
    · exact my s k fl hm
  · have : g = runLogs ys := funext hy
    dsimp only
    rw [hx, this]
    exact (runLogs_append _ _ b).symm

theorem Prints.text {f : WBuf → Out WBuf} {s t : Str} (h : Prints f s) (e : t = s) : Prints f t := by rw [e]; exact h

theorem Prints.congr {f g : WBuf → Out WBuf} {s : Str} (h : Prints f s) (e : g = f) : Prints g s := by rw [e]; exact h

theorem Prints.log (s : Str) : Prints (fun b => logStr s b) s := by
  have := Prints.one (op := .append s fl0) (by rintro _ _ _ ⟨⟩)
  refine Prints.text this ?_
  simp [LogOp.text, lineEnd]

theorem Prints.line (s : Str) : Prints (fun b => logLine s b) (s ++ b!"\n") :=
  Prints.one (op := .append s flNl) (by rintro _ _ _ ⟨⟩)

theorem Prints.flush : Prints (fun b => flushIgnore b) [] := Prints.one (op := .flush) (by rintro _ _ _ ⟨⟩)

theorem Prints.cell {s : Str} {k : Nat} (h : s.length < 2 ^ 32) (hk : k < 256) : Prints (fun b => appendMinSize s k fl0 b) (cell k s) := by
  have := Prints.one (op := .minSize s (UInt8.ofNat k) fl0) (by rintro _ _ _ ⟨⟩; exact h)
  have e : (UInt8.ofNat k).toNat = k := by simp; omega
  have e2 : runLog (.minSize s (UInt8.ofNat k) fl0) = fun b => appendMinSize s k fl0 b := by
    funext b; show appendMinSize s (UInt8.ofNat k).toNat fl0 b = _; rw [e]
  rw [e2] at this
  simpa [LogOp.text, lineEnd, Spec.cell, pad, e] using this

theorem Prints.cellLine {s : Str} {k : Nat} (h : s.length < 2 ^ 32) (hk : k < 256) :
    Prints (fun b => appendMinSize s k flNl b) (Spec.cell k s ++ b!"\n") := by
  have := Prints.one (op := .minSize s (UInt8.ofNat k) flNl) (by rintro _ _ _ ⟨⟩; exact h)
  have e : (UInt8.ofNat k).toNat = k := by simp; omega
  have e2 : runLog (.minSize s (UInt8.ofNat k) flNl) = fun b => appendMinSize s k flNl b := by
    funext b; show appendMinSize s (UInt8.ofNat k).toNat flNl b = _; rw [e]
  rw [e2] at this
  simpa [LogOp.text, lineEnd, Spec.cell, pad, e] using this

/-! ## Numbers -/

theorem digit_val {n : Nat} (h : n < 10) : (UInt8.ofNat (48 + n)).toNat = 48 + n := digit_toNat h

theorem dec_isDecimal (n : Nat) : IsDecimal (dec n) n ∧ (n ≠ 0 → (dec n).head? ≠ some 48) ∧ (n < 2 ^ 64 → (dec n).length < 2 ^ 32) := by
  suffices ∀ m n : Nat, n < 10 ^ m → 0 < m → IsDecimal (dec n) n ∧ (n ≠ 0 → (dec n).head? ≠ some 48) ∧ (dec n).length ≤ m by
    obtain ⟨h1, h2, _⟩ := this (n + 1) n (Nat.lt_of_lt_of_le (Nat.lt_succ_self n) (Nat.le_of_lt (Nat.lt_pow_self (by decide)))) (by omega)
    refine ⟨h1, h2, fun h => ?_⟩
    have := (this 20 n (by omega) (by decide)).2.2
    omega
  intro m
  induction m with
  | zero => intro n _ h; omega
  | succ m ih =>
    intro n hn _
    rw [dec]
    by_cases h : n < 10
    · rw [if_pos h]
      have hv := digit_val h
      refine ⟨⟨by simp, ?_, ?_, ?_⟩, ?_, by simp⟩
      · intro c hc
        simp only [List.mem_singleton] at hc
        subst hc
        rw [hv]; omega
      · simp only [decValue, List.foldl_cons, List.foldl_nil, hv]; omega
      · intro e; simp only [List.head?_cons, Option.some.injEq] at e; rw [e]
      · intro hn0 e
        simp only [List.head?_cons, Option.some.injEq] at e
        rw [e] at hv
        have : (48 : UInt8).toNat = 48 := rfl
        omega
    · rw [if_neg h]
      have hm : 0 < m := by
        rcases Nat.eq_zero_or_pos m with rfl | h'
        · omega
        · exact h'
      have hlt : n / 10 < 10 ^ m := by rw [Nat.div_lt_iff_lt_mul (by decide)]; rw [← Nat.pow_succ]; exact hn
      obtain ⟨⟨i1, i2, i3, i4⟩, i5, i6⟩ := ih (n / 10) hlt hm
      have hv := digit_val (Nat.mod_lt n (by decide : 0 < 10))
      have hh : (dec (n / 10) ++ [UInt8.ofNat (48 + n % 10)]).head? ≠ some 48 := by
        rw [List.head?_append_of_ne_nil _ i1]
        exact i5 (by omega)
      refine ⟨⟨by simp, ?_, ?_, fun e => absurd e hh⟩, fun _ => hh, by simp; omega⟩
      · intro c hc
        rcases List.mem_append.1 hc with hc | hc
        · exact i2 c hc
        · simp only [List.mem_singleton] at hc
          subst hc
          rw [hv]; omega
      · rw [decValue_append, i3, hv]; omega

theorem uint64_dec {n : Nat} (h : n < 2 ^ 64) : uint64Text (UInt64.ofNat n) = .ok (dec n) := by
  obtain ⟨t, e, ht, _⟩ := uint64Text_spec (UInt64.ofNat n)
  rw [e]
  congr 1
  refine C44_representation_unique _ _ n ?_ (dec_isDecimal n).1
  have : (UInt64.ofNat n).toNat = n := by simp; omega
  rw [this] at ht
  exact ht

theorem ptrdiff_dec {n : Nat} (h : n < 2 ^ 63) : ptrdiffText (n : Int) = .ok (dec n) := by
  obtain ⟨t, e, ht, _⟩ := ptrdiffText_spec (n : Int) (by omega) (by omega)
  rw [e]
  congr 1
  refine C44_representation_unique _ _ n ?_ (dec_isDecimal n).1
  rcases ht with ⟨_, ht⟩ | ⟨ht, _⟩
  · simpa using ht
  · omega

theorem Prints.numLine {n : Nat} (h : n < 2 ^ 64) : Prints (fun b => appendUint64 (UInt64.ofNat n) flNl b) (dec n ++ b!"\n") := by
  refine (Prints.line (dec n)).congr ?_
  funext b; unfold appendUint64; rw [uint64_dec h]; rfl

theorem Prints.lenLine {n : Nat} (h : n < 2 ^ 63) : Prints (fun b => appendPtrdiff (n : Int) flNl b) (dec n ++ b!"\n") := by
  refine (Prints.line (dec n)).congr ?_
  funext b; unfold appendPtrdiff; rw [ptrdiff_dec h]; rfl

theorem Prints.numCell {n k : Nat} (h : n < 2 ^ 64) (hk : k < 256) :
    Prints (fun b => appendUint64MinSize (UInt64.ofNat n) k fl0 b) (Spec.cell k (dec n)) := by
  refine (Prints.cell ((dec_isDecimal n).2.2 h) hk).congr ?_
  funext b; unfold appendUint64MinSize; rw [uint64_dec h]; rfl

theorem Prints.numCellLine {n k : Nat} (h : n < 2 ^ 64) (hk : k < 256) :
    Prints (fun b => appendUint64MinSize (UInt64.ofNat n) k flNl b) (Spec.cell k (dec n) ++ b!"\n") := by
  refine (Prints.cellLine ((dec_isDecimal n).2.2 h) hk).congr ?_
  funext b; unfold appendUint64MinSize; rw [uint64_dec h]; rfl

theorem Prints.lenCell {n k : Nat} (h : n < 2 ^ 63) (hk : k < 256) :
    Prints (fun b => appendPtrdiffMinSize (n : Int) k fl0 b) (Spec.cell k (dec n)) := by
  refine (Prints.cell ((dec_isDecimal n).2.2 (by omega)) hk).congr ?_
  funext b; unfold appendPtrdiffMinSize; rw [ptrdiff_dec h]; rfl

/-! ## The loops -/

theorem statusEntries_spec : ∀ es : List (Str × Nat), (∀ e ∈ es, e.1.length < 2 ^ 32 ∧ e.2 < 2 ^ 64) →
    Prints (fun b => statusEntries es b) (es.flatMap (fun e => b!"string = " ++ Spec.cell 30 e.1 ++ b!" with id = " ++ dec e.2 ++ b!"\n")) := by
  intro es
  induction es with
  | nil => intro _; exact Prints.nil
  | cons e es ih =>
    intro h
    have he := h e List.mem_cons_self
    refine Prints.text ((Prints.log b!"string = ").bind ((Prints.cell he.1 (by decide)).bind ((Prints.log b!" with id = ").bind
      ((Prints.numLine he.2).bind (ih (fun x hx => h x (List.mem_cons_of_mem _ hx))))))) ?_
    simp only [List.flatMap_cons, List.append_assoc]

theorem statusRegistryLoop_spec : ∀ (ss : List Str) (i : Nat), i + ss.length < 2 ^ 63 →
    Prints (fun b => statusRegistryLoop i ss b)
      ((ss.zipIdx i).flatMap (fun e => b!"ID: " ++ Spec.cell 3 (dec e.2) ++ b!" value: " ++ e.1 ++ b!"\n")) := by
  intro ss
  induction ss with
  | nil => intro _ _; exact Prints.nil
  | cons s ss ih =>
    intro i h
    simp only [List.length_cons] at h
    refine Prints.text ((Prints.log b!"ID: ").bind ((Prints.lenCell (by omega) (by decide)).bind ((Prints.log b!" value: ").bind
      ((Prints.line s).bind (ih (i + 1) (by omega)))))) ?_
    simp only [List.zipIdx_cons, List.flatMap_cons, List.append_assoc]

theorem statusRegistry_spec (name : Str) (reg : List Str) (h : reg.length < 2 ^ 63) :
    Prints (fun b => statusRegistry name reg b) (registryText name reg) := by
  refine Prints.text ((Prints.log b!"registration nodes inside DOM for registry: ").bind ((Prints.line name).bind
    ((Prints.log b!"Total number of nodes: ").bind ((Prints.lenLine h).bind
    ((statusRegistryLoop_spec reg 0 (by omega)).bind (Prints.log b!"\n")))))) ?_
  simp only [registryText, List.append_assoc]
  rfl

theorem nodeTypeText_eq (t : NodeType) : nodeTypeText t = typeName t := by cases t <;> rfl

theorem typeName_length (t : NodeType) : (typeName t).length < 2 ^ 32 := by cases t <;> decide

theorem statusNodes_spec : ∀ (nds : List Node) (i : Nat), i + nds.length < 2 ^ 64 →
    (∀ nd ∈ nds, nd.type = .document → ∃ t, nd.payload = .tag t ∧ t < 2 ^ 64) →
    Prints (fun b => statusNodes i nds b) ((nds.zipIdx i).flatMap (fun e => nodeLine e.2 e.1)) := by
  intro nds
  induction nds with
  | nil => intro _ _ _; exact Prints.nil
  | cons nd nds ih =>
    intro i h ht
    simp only [List.length_cons] at h
    have hl : i < 2 ^ 64 := by omega
    have hrest := ih (i + 1) (by omega) (fun x hx => ht x (List.mem_cons_of_mem _ hx))
    have h1 : Prints (fun b => if nd.type = .document then do
        let b ← logStr b!"Node ID: " b
        let b ← appendUint64MinSize (UInt64.ofNat i) 5 fl0 b
        let b ← logStr b!" Node type: " b
        let b ← appendMinSize (nodeTypeText nd.type) 10 fl0 b
        let b ← logStr b!" with tag ID: " b
        let t ← nd.docTag
        appendUint64 (UInt64.ofNat t) flNl b
      else do
        let b ← logStr b!"Node ID: " b
        let b ← appendUint64MinSize (UInt64.ofNat i) 5 fl0 b
        let b ← logStr b!" Node type: " b
        appendMinSize (nodeTypeText nd.type) 10 flNl b) (nodeLine i nd) := by
      rw [nodeTypeText_eq]
      by_cases hd : nd.type = .document
      · simp only [hd, if_true]
        obtain ⟨t, e, hlt⟩ := ht nd List.mem_cons_self hd
        have e2 : nd.docTag = .ok t := by unfold Node.docTag; rw [e]
        simp only [e2, Out.bind_ok]
        refine Prints.text ((Prints.log b!"Node ID: ").bind ((Prints.numCell hl (by decide)).bind ((Prints.log b!" Node type: ").bind
          ((Prints.cell (typeName_length .document) (by decide)).bind ((Prints.log b!" with tag ID: ").bind
          (Prints.numLine hlt)))))) ?_
        obtain ⟨ty, pl⟩ := nd
        dsimp only at hd e
        subst hd e
        simp only [nodeLine, List.append_assoc]
      · simp only [hd, if_false]
        refine Prints.text ((Prints.log b!"Node ID: ").bind ((Prints.numCell hl (by decide)).bind ((Prints.log b!" Node type: ").bind
          (Prints.cellLine (typeName_length nd.type) (by decide))))) ?_
        obtain ⟨ty, pl⟩ := nd
        dsimp only at hd
        cases ty <;> first | exact absurd rfl hd | simp only [nodeLine, List.append_assoc, List.nil_append]
    refine Prints.text (h1.bind hrest) ?_
    simp only [List.zipIdx_cons, List.flatMap_cons]

theorem statusTags_spec : ∀ (rs : List (Str × Bool)) (i : Nat), i + rs.length < 2 ^ 64 → (∀ r ∈ rs, r.1.length < 2 ^ 32) →
    Prints (fun b => statusTags i rs b) ((rs.zipIdx i).flatMap (fun e => tagLine e.2 e.1)) := by
  intro rs
  induction rs with
  | nil => intro _ _ _; exact Prints.nil
  | cons r rs ih =>
    intro i h ht
    simp only [List.length_cons] at h
    refine Prints.text ((Prints.log b!"tag ID: ").bind ((Prints.numCell (by omega) (by decide)).bind ((Prints.log b!" tag: ").bind
      ((Prints.cell (ht r List.mem_cons_self) (by decide)).bind ((Prints.log b!" isPaired: ").bind ((Prints.line (boolText r.2)).bind
      (ih (i + 1) (by omega) (fun x hx => ht x (List.mem_cons_of_mem _ hx))))))))) ?_
    simp only [List.zipIdx_cons, List.flatMap_cons, tagLine, boolText, List.append_assoc]

theorem statusBools_spec : ∀ rs : List Row, (∀ r ∈ rs, r.1 < 2 ^ 63 ∧ r.2 < 2 ^ 63) →
    Prints (fun b => statusBools rs b)
      (rs.flatMap (fun r => b!"node ID: " ++ Spec.cell 3 (dec r.1) ++ b!" prop ID: " ++ dec r.2 ++ b!"\n")) := by
  intro rs
  induction rs with
  | nil => intro _; exact Prints.nil
  | cons r rs ih =>
    intro h
    have hr := h r List.mem_cons_self
    refine Prints.text ((Prints.log b!"node ID: ").bind ((Prints.lenCell hr.1 (by decide)).bind ((Prints.log b!" prop ID: ").bind
      ((Prints.numLine (by omega)).bind (ih (fun x hx => h x (List.mem_cons_of_mem _ hx))))))) ?_
    simp only [List.flatMap_cons, List.append_assoc]

theorem statusProps_spec : ∀ rs : List PropRow, (∀ r ∈ rs, r.node < 2 ^ 63 ∧ r.key < 2 ^ 63 ∧ r.value < 2 ^ 63) →
    Prints (fun b => statusProps rs b)
      (rs.flatMap (fun r => b!"node ID: " ++ Spec.cell 3 (dec r.node) ++ b!" key ID: " ++ Spec.cell 3 (dec r.key) ++
        b!" value ID: " ++ dec r.value ++ b!"\n")) := by
  intro rs
  induction rs with
  | nil => intro _; exact Prints.nil
  | cons r rs ih =>
    intro h
    have hr := h r List.mem_cons_self
    refine Prints.text ((Prints.log b!"node ID: ").bind ((Prints.lenCell hr.1 (by decide)).bind ((Prints.log b!" key ID: ").bind
      ((Prints.lenCell hr.2.1 (by decide)).bind ((Prints.log b!" value ID: ").bind ((Prints.numLine (by omega)).bind
      (ih (fun x hx => h x (List.mem_cons_of_mem _ hx))))))))) ?_
    simp only [List.flatMap_cons, List.append_assoc]

theorem statusRows_loop (first second : Str) : ∀ rs : List Row, (∀ r ∈ rs, r.1 < 2 ^ 63 ∧ r.2 < 2 ^ 63) →
    Prints (fun b => statusRows first second rs b)
      (rs.flatMap (fun r => first ++ Spec.cell 5 (dec r.1) ++ second ++ Spec.cell 5 (dec r.2) ++ b!"\n")) := by
  intro rs
  induction rs with
  | nil => intro _; exact Prints.nil
  | cons r rs ih =>
    intro h
    have hr := h r List.mem_cons_self
    refine Prints.text ((Prints.log first).bind ((Prints.numCell (by omega) (by decide)).bind ((Prints.log second).bind
      ((Prints.numCellLine (by omega) (by decide)).bind (ih (fun x hx => h x (List.mem_cons_of_mem _ hx))))))) ?_
    simp only [List.flatMap_cons, List.append_assoc]

theorem statusRows_spec (first second : Str) (rs : List Row) (h : ∀ r ∈ rs, r.1 < 2 ^ 63 ∧ r.2 < 2 ^ 63) :
    Prints (fun b => statusRows first second rs b >>= fun b => logStr b!"\n" b) (rowsText first second rs) :=
  (statusRows_loop first second rs h).bind (Prints.log b!"\n")

/-! ## The name tables -/

theorem ATrie.count_eq (t : ATrie) : t.count = QTrie.size t.toQ := by
  induction t with
  | nil => rfl
  | node k v c0 c1 c2 c3 i0 i1 i2 i3 => simp only [count, toQ, QTrie.size, i0, i1, i2, i3]

theorem ATrie.entries_eq (t : ATrie) : t.entries = t.toQ.toList := by
  induction t with
  | nil => rfl
  | node k v c0 c1 c2 c3 i0 i1 i2 i3 => simp only [entries, toQ, Flo.QTrie.toList, i0, i1, i2, i3]

theorem ATrie.NZ.mem {t : ATrie} (h : t.NZ) : ∀ e ∈ t.entries, e.2 ≠ 0 := by
  induction t with
  | nil => intro e he; cases he
  | node k v c0 c1 c2 c3 i0 i1 i2 i3 =>
    obtain ⟨hv, h0, h1, h2, h3⟩ := h
    intro e he
    simp only [entries, List.mem_cons, List.mem_append] at he
    rcases he with rfl | he | he | he | he
    · exact hv
    · exact i0 h0 e he
    · exact i1 h1 e he
    · exact i2 h2 e he
    · exact i3 h3 e he

/-- Iterating over a table yields its names with their identifiers, in their order. -/
theorem MapOK.entries {m : AutoMap} {reg : List Str} (h : MapOK m reg) :
    tableEntries m = .ok (numbered reg) := by
  rw [numbered, ← h.list]
  have := elements_spec (fun e : Str × Nat => e.2 == 0) m.root.toQ
  unfold elements at this
  unfold tableEntries
  rw [ATrie.count_eq, this, ATrie.entries_eq]
  congr 1
  rw [show m.root.toQ.toList = m.root.toQ.toList ++ [] by simp, List.takeWhile_append_of_pos (by
    intro e he
    rw [← ATrie.entries_eq] at he
    simpa using h.nz.mem e he)]
  rfl

theorem statusMap_spec {m : AutoMap} {reg : List Str} (h : MapOK m reg) (hl : ∀ s ∈ reg, s.length < 2 ^ 32) :
    Prints (fun b => statusMap m b) (entriesText (numbered reg)) := by
  have e := h.entries
  have hm : ∀ x ∈ numbered reg, x.1.length < 2 ^ 32 ∧ x.2 < 2 ^ 64 := by
    intro x hx
    have := List.mem_of_mem_drop hx
    obtain ⟨i, hi⟩ := List.mem_iff_getElem?.1 this
    obtain ⟨s, k⟩ := x
    have hk := List.snd_lt_of_mem_zipIdx this
    have hs := List.fst_mem_of_mem_zipIdx this
    have h1 := h.len
    have h2 := h.le
    dsimp only at hk
    exact ⟨hl s hs, by simp at hk ⊢; omega⟩
  refine ((statusEntries_spec _ hm).bind (Prints.log b!"\n")).congr ?_
  funext b
  unfold statusMap
  rw [e]
  rfl

/-! ## The whole report -/

theorem statusNames_spec {d : Dom} (h : NamesOK d) (hk : ∀ s ∈ d.keyReg, s.length < 2 ^ 32) (hv : ∀ s ∈ d.valReg, s.length < 2 ^ 32)
    (hb : ∀ s ∈ d.boolReg, s.length < 2 ^ 32) (ht : ∀ r ∈ d.tagReg, r.1.length < 2 ^ 32) :
    Prints (fun b => statusNames d b)
      (b!"printing DOM status...\n\nprinting property status...\nprinting keys...\n" ++ (entriesText (numbered d.keyReg) ++
       (b!"printing values...\n" ++ (entriesText (numbered d.valReg) ++
       (b!"printing bool property status...\n" ++ (entriesText (numbered d.boolReg) ++
       (b!"printing tags status...\n" ++ entriesText (numbered (d.tagReg.map (·.1)))))))))) := by
  have k2 := statusMap_spec h.key hk
  have v2 := statusMap_spec h.val hv
  have b2 := statusMap_spec h.bool hb
  have t2 := statusMap_spec h.tag (by
    intro s hs
    obtain ⟨r, hr, rfl⟩ := List.mem_map.1 hs
    exact ht r hr)
  refine Prints.text ((Prints.log b!"printing DOM status...\n\n").bind ((Prints.log b!"printing property status...\n").bind
    ((Prints.log b!"printing keys...\n").bind (k2.bind ((Prints.log b!"printing values...\n").bind (v2.bind
    ((Prints.log b!"printing bool property status...\n").bind (b2.bind ((Prints.log b!"printing tags status...\n").bind
    t2))))))))) ?_
  simp only [← List.append_assoc]
  rfl

theorem Prints.assoc {f g h : WBuf → Out WBuf} {s : Str} (hp : Prints (fun b => f b >>= fun b => (g b >>= fun b => h b)) s) :
    Prints (fun b => (f b >>= fun b => g b) >>= fun b => h b) s := by
  refine hp.congr ?_
  funext b
  exact bind_assoc _ _ _

theorem Prints.unassoc {f g h : WBuf → Out WBuf} {s : Str} (hp : Prints (fun b => (f b >>= fun b => g b) >>= fun b => h b) s) :
    Prints (fun b => f b >>= fun b => (g b >>= fun b => h b)) s := by
  refine hp.congr ?_
  funext b
  exact (bind_assoc _ _ _).symm

theorem statusNodesPart_spec {d : Dom} (hn : d.nodes.length < 2 ^ 63) (ht : d.tagReg.length < 2 ^ 63) (hb : d.boolReg.length < 2 ^ 63)
    (hk : d.keyReg.length < 2 ^ 63) (hv : d.valReg.length < 2 ^ 63)
    (hdoc : ∀ nd ∈ d.nodes, nd.type = .document → ∃ t, nd.payload = .tag t ∧ t < 2 ^ 64) (hl : ∀ r ∈ d.tagReg, r.1.length < 2 ^ 32) :
    Prints (fun b => statusNodesPart d b)
      (b!"Printing DOM contents...\nNodes inside DOM...\nTotal number of nodes: " ++ dec d.nodes.length ++ b!"\n" ++
       d.nodes.zipIdx.flatMap (fun e => nodeLine e.2 e.1) ++ b!"\n" ++
       b!"tag registration nodes inside DOM...\ntotal number of tag registration nodes: " ++ dec d.tagReg.length ++ b!"\n" ++
       d.tagReg.zipIdx.flatMap (fun e => tagLine e.2 e.1) ++ b!"\n" ++
       registryText b!"bool props" d.boolReg ++ registryText b!"key props" d.keyReg ++ registryText b!"value props" d.valReg) := by
  refine Prints.text ((Prints.log b!"Printing DOM contents...\n").bind ((Prints.log b!"Nodes inside DOM...\n").bind
    ((Prints.log b!"Total number of nodes: ").bind ((Prints.lenLine hn).bind ((statusNodes_spec d.nodes 0 (by omega) hdoc).bind
    ((Prints.log b!"\n").bind ((Prints.log b!"tag registration nodes inside DOM...\n").bind
    ((Prints.log b!"total number of tag registration nodes: ").bind ((Prints.lenLine ht).bind
    ((statusTags_spec d.tagReg 0 (by omega) hl).bind ((Prints.log b!"\n").bind ((statusRegistry_spec _ _ hb).bind
    ((statusRegistry_spec _ _ hk).bind (statusRegistry_spec _ _ hv)))))))))))))) ?_
  simp only [List.append_assoc]
  rfl

theorem statusAttrsPart_spec {d : Dom} (h1 : d.boolProps.length < 2 ^ 63) (h2 : d.props.length < 2 ^ 63)
    (h3 : ∀ r ∈ d.boolProps, r.1 < 2 ^ 63 ∧ r.2 < 2 ^ 63) (h4 : ∀ r ∈ d.props, r.node < 2 ^ 63 ∧ r.key < 2 ^ 63 ∧ r.value < 2 ^ 63) :
    Prints (fun b => statusAttrsPart d b)
      (b!"boolean property nodes inside DOM...\ntotal number of boolean properties: " ++ dec d.boolProps.length ++ b!"\n" ++
       d.boolProps.flatMap (fun r => b!"node ID: " ++ Spec.cell 3 (dec r.1) ++ b!" prop ID: " ++ dec r.2 ++ b!"\n") ++ b!"\n" ++
       b!"key-value property nodes inside DOM...\ntotal number of key-value properties: " ++ dec d.props.length ++ b!"\n" ++
       d.props.flatMap (fun r => b!"node ID: " ++ Spec.cell 3 (dec r.node) ++ b!" key ID: " ++ Spec.cell 3 (dec r.key) ++
         b!" value ID: " ++ dec r.value ++ b!"\n") ++ b!"\n") := by
  refine Prints.text ((Prints.log b!"boolean property nodes inside DOM...\n").bind
    ((Prints.log b!"total number of boolean properties: ").bind ((Prints.lenLine h1).bind ((statusBools_spec _ h3).bind
    ((Prints.log b!"\n").bind ((Prints.log b!"key-value property nodes inside DOM...\n").bind
    ((Prints.log b!"total number of key-value properties: ").bind ((Prints.lenLine h2).bind ((statusProps_spec _ h4).bind
    (Prints.log b!"\n")))))))))) ?_
  simp only [List.append_assoc]
  rfl

theorem statusLinksPart_spec {d : Dom} (h1 : d.fc.length < 2 ^ 63) (h2 : d.pc.length < 2 ^ 63) (h3 : d.nn.length < 2 ^ 63)
    (hf : ∀ r ∈ d.fc, r.1 < 2 ^ 63 ∧ r.2 < 2 ^ 63) (hp : ∀ r ∈ d.pc, r.1 < 2 ^ 63 ∧ r.2 < 2 ^ 63)
    (hn : ∀ r ∈ d.nn, r.1 < 2 ^ 63 ∧ r.2 < 2 ^ 63) :
    Prints (fun b => statusLinksPart d b)
      (b!"parent-first-child inside DOM...\ntotal number of parent-first-child: " ++ dec d.fc.length ++ b!"\n" ++
       rowsText b!"parent node ID: " b!" first child node ID: " d.fc ++
       b!"parent-child inside DOM...\ntotal number of parent-child: " ++ dec d.pc.length ++ b!"\n" ++
       rowsText b!"parent: " b!" child: " d.pc ++
       b!"next nodes inside DOM...\ntotal number of next nodes: " ++ dec d.nn.length ++ b!"\n" ++
       rowsText b!"current node: " b!" next node: " d.nn ++ b!"\n") := by
  have last : Prints (fun b => statusRows b!"current node: " b!" next node: " d.nn b >>= fun b => logStr b!"\n\n" b)
      (rowsText b!"current node: " b!" next node: " d.nn ++ b!"\n") := by
    have := statusRows_loop b!"current node: " b!" next node: " d.nn hn
    refine Prints.text (this.bind (Prints.log b!"\n\n")) ?_
    simp only [rowsText, List.append_assoc]
    rfl
  have k := fun {f : WBuf → Out WBuf} {s : Str} (h : Prints f s) =>
    Prints.unassoc ((statusRows_spec b!"parent node ID: " b!" first child node ID: " d.fc hf).bind h)
  have k' := fun {f : WBuf → Out WBuf} {s : Str} (h : Prints f s) =>
    Prints.unassoc ((statusRows_spec b!"parent: " b!" child: " d.pc hp).bind h)
  refine Prints.text ((Prints.log b!"parent-first-child inside DOM...\n").bind
    ((Prints.log b!"total number of parent-first-child: ").bind ((Prints.lenLine h1).bind (k
    ((Prints.log b!"parent-child inside DOM...\n").bind
    ((Prints.log b!"total number of parent-child: ").bind ((Prints.lenLine h2).bind (k'
    ((Prints.log b!"next nodes inside DOM...\n").bind
    ((Prints.log b!"total number of next nodes: ").bind ((Prints.lenLine h3).bind last))))))))))) ?_
  simp only [List.append_assoc]
  rfl

/-- Something printed and then flushed, on a file without errors. -/
theorem Prints.flushed {f : WBuf → Out WBuf} {s : Str} (h : Prints f s) (b : WBuf) (hcap : 0 < b.cap)
    (hlen : b.data.length ≤ b.cap) (hw : NoErrors b.sched) :
    ∃ b', (f b >>= fun b => flushIgnore b) = .ok b' ∧ b'.data = [] ∧ b'.sink = b.sink ++ b.data ++ s := by
  obtain ⟨ops, hs, e, hf⟩ := h
  obtain ⟨b', b'', e1, e2, e3, e4⟩ := C43_flush_delivers ops b hcap hlen hw hs
  refine ⟨b'', ?_, e3, by rw [e4, e]⟩
  rw [hf, e1, Out.bind_ok]
  unfold flushIgnore
  rw [e2]
  rfl

/-- The numbers in the tables are 16-bit identifiers. -/
theorem DomI.rows_lt {d : Dom} {ch : Nat → List Nat} (h : DomI d ch) :
    (∀ r ∈ d.fc, r.1 < 65536 ∧ r.2 < 65536) ∧ (∀ r ∈ d.pc, r.1 < 65536 ∧ r.2 < 65536) ∧
    (∀ r ∈ d.nn, r.1 < 65536 ∧ r.2 < 65536) ∧ (∀ r ∈ d.boolProps, r.1 < 65536 ∧ r.2 < 65536) ∧
    (∀ r ∈ d.props, r.node < 65536 ∧ r.key < 65536 ∧ r.value < 65536) := by
  have hcap := h.cap
  refine ⟨?_, ?_, ?_, ?_, ?_⟩
  · rintro ⟨p, c⟩ hr
    dsimp only
    by_cases hp : p = 0
    · have := (h.linked.fcG.nz' hr).1 hp; omega
    · have := List.mem_of_mem_head? ((h.linked.fcM p c hp).1 hr)
      have := h.linked.range p c this
      omega
  · rintro ⟨p, c⟩ hr
    dsimp only
    by_cases hc : c = 0
    · have := (h.linked.pcNz p c hr).2 hc; omega
    · have := h.linked.pcLt p c hr hc; omega
  · rintro ⟨p, c⟩ hr
    dsimp only
    by_cases hp : p = 0
    · have := (h.linked.nnG.nz' hr).1 hp; omega
    · have := h.linked.nnLt p c hr hp
      omega
  · rintro ⟨n, p⟩ hr
    have h1 := h.names.boolsLt _ hr
    have h2 := h.names.bool.len
    have h3 := h.names.bool.le
    dsimp only at h1 ⊢
    refine ⟨?_, by omega⟩
    by_contra hn
    have hf := (h.fresh n (by omega)).2
    unfold bools at hf
    have := List.map_eq_nil_iff.1 hf
    rw [List.filter_eq_nil_iff] at this
    exact this _ hr (by simp)
  · intro r hr
    have h1 := h.names.propsLt _ hr
    have h2 := h.names.key.len
    have h3 := h.names.key.le
    have h4 := h.names.val.len
    have h5 := h.names.val.le
    refine ⟨?_, by omega, by omega⟩
    by_contra hn
    have hf := (h.fresh r.node (by omega)).1
    unfold pairs at hf
    have := List.map_eq_nil_iff.1 hf
    rw [List.filter_eq_nil_iff] at this
    exact this _ hr (by simp)

end Flo
