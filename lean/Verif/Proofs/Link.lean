import Verif.Proofs.Rows
/-!
# The link invariant

`Linked N fc pc nn ch`: the three link tables represent the child lists `ch p`.  Slot 0 holds the list of
parentless nodes a fragment parse leaves behind.
-/
namespace Flo

/-- Pointwise update of a child-list function. -/
def upd (ch : Nat → List Nat) (p : Nat) (l : List Nat) : Nat → List Nat := fun q => if q = p then l else ch q

@[simp] theorem upd_same (ch : Nat → List Nat) (p : Nat) (l : List Nat) : upd ch p l p = l := by simp [upd]
theorem upd_ne {ch : Nat → List Nat} {p q : Nat} {l : List Nat} (h : q ≠ p) : upd ch p l q = ch q := by
  simp [upd, h]
theorem upd_self (ch : Nat → List Nat) (p : Nat) : upd ch p (ch p) = ch := by
  funext q; unfold upd; split <;> simp_all

structure Linked (N : Nat) (fc pc nn : List Row) (ch : Nat → List Nat) : Prop where
  nnG : Good nn
  fcG : Good fc
  nnLt : ∀ a b, (a, b) ∈ nn → a ≠ 0 → (2 ≤ a ∧ a < N) ∧ (2 ≤ b ∧ b < N)
  nnAdj : ∀ p a b, Adj (ch p) a b → (a, b) ∈ nn
  nnOwn : ∀ p a b, (a, b) ∈ nn → a ∈ ch p ∨ b ∈ ch p → Adj (ch p) a b
  fcM : ∀ p c, p ≠ 0 → ((p, c) ∈ fc ↔ (ch p).head? = some c)
  pcM : ∀ p c, p ≠ 0 → c ∈ ch p → (p, c) ∈ pc
  pcOwn : ∀ p x c, (x, c) ∈ pc → c ∈ ch p → x = p
  pcNz : ∀ a c, (a, c) ∈ pc → (a = 0 ↔ c = 0)
  pcLt : ∀ x c, (x, c) ∈ pc → c ≠ 0 → x < c ∧ 2 ≤ c ∧ c < N
  nnUp : ∃ rank : Nat → Nat, ∀ a b, (a, b) ∈ nn → a ≠ 0 → rank a < rank b
  uniq : ∀ p q c, c ∈ ch p → c ∈ ch q → p = q
  nodup : ∀ p, (ch p).Nodup
  range : ∀ p c, c ∈ ch p → p < c ∧ 2 ≤ c ∧ c < N
  two : 2 ≤ N

/-- A list of nodes linked among themselves and to nothing else. -/
structure Loose (N : Nat) (pc nn : List Row) (ch : Nat → List Nat) (F : List Nat) : Prop where
  adj : ∀ a b, Adj F a b → (a, b) ∈ nn
  own : ∀ a b, (a, b) ∈ nn → a ∈ F ∨ b ∈ F → Adj F a b
  pcNo : ∀ x c, (x, c) ∈ pc → c ∉ F
  free : ∀ q c, c ∈ F → c ∉ ch q
  nodup : F.Nodup
  range : ∀ c ∈ F, 2 ≤ c ∧ c < N

/-- What the pushes onto `parentChilds` may do when `F` is hung below `p`. -/
structure PcExt (p : Nat) (F old : List Nat) (pc pc' : List Row) : Prop where
  keep : ∀ r ∈ pc, r ∈ pc'
  add : p ≠ 0 → ∀ c ∈ F, (p, c) ∈ pc'
  only : ∀ x c, (x, c) ∈ pc' → (x, c) ∈ pc ∨ (x = p ∧ p ≠ 0 ∧ (c ∈ F ∨ c ∈ old))

variable {N : Nat} {fc pc nn : List Row} {ch : Nat → List Nat}

theorem Linked.init : Linked 2 [] [] [] (fun _ => []) where
  nnG := Good.nil
  fcG := Good.nil
  nnLt := by simp
  nnAdj := by simp
  nnOwn := by simp
  fcM := by simp
  pcM := by simp
  pcOwn := by simp
  pcNz := by simp
  pcLt := by simp
  nnUp := ⟨fun _ => 0, by simp⟩
  uniq := by simp
  nodup := by simp
  range := by simp
  two := Nat.le_refl 2

theorem Linked.mono (h : Linked N fc pc nn ch) {M : Nat} (hm : N ≤ M) : Linked M fc pc nn ch :=
  { h with
    nnLt := fun a b hr h0 => by have := h.nnLt a b hr h0; omega
    pcLt := fun x c hr h0 => by have := h.pcLt x c hr h0; omega
    range := fun p c hc => by have := h.range p c hc; omega
    two := by have := h.two; omega }

theorem Linked.fresh (h : Linked N fc pc nn ch) : Loose (N + 1) pc nn ch [N] where
  adj := by simp
  own := by
    intro a b hr ho
    have h2 := h.two
    simp at ho
    have ha : a ≠ 0 := by
      intro e
      have := (h.nnG.nz' hr).mp e
      omega
    have := h.nnLt a b hr ha
    omega
  pcNo := by
    intro x c hr hc
    have h2 := h.two
    simp at hc
    have := h.pcLt x c hr (by omega)
    omega
  free := by
    intro q c hc hq
    have := h.range q c hq
    simp at hc
    omega
  nodup := by simp
  range := by
    intro c hc
    simp at hc
    have := h.two
    omega

theorem Linked.forget (h : Linked N fc pc nn ch) :
    Linked N fc pc nn (upd ch 0 []) ∧ Loose N pc nn (upd ch 0 []) (ch 0) := by
  have hsub : ∀ p c, c ∈ upd ch 0 [] p → c ∈ ch p ∧ p ≠ 0 := by
    intro p c hc
    by_cases hp : p = 0
    · subst hp; simp at hc
    · rw [upd_ne hp] at hc; exact ⟨hc, hp⟩
  refine ⟨{ h with
    nnAdj := ?_, nnOwn := ?_, fcM := ?_, pcM := ?_, pcOwn := ?_, uniq := ?_, nodup := ?_, range := ?_ }, ?_⟩
  · intro p a b hab
    by_cases hp : p = 0
    · subst hp; simp at hab
    · rw [upd_ne hp] at hab; exact h.nnAdj p a b hab
  · intro p a b hr ho
    by_cases hp : p = 0
    · subst hp; simp at ho
    · rw [upd_ne hp] at ho ⊢; exact h.nnOwn p a b hr ho
  · intro p c hp
    rw [upd_ne hp]; exact h.fcM p c hp
  · intro p c hp hc
    exact h.pcM p c hp (hsub p c hc).1
  · intro p x c hr hc
    exact h.pcOwn p x c hr (hsub p c hc).1
  · intro p q c hp hq
    exact h.uniq p q c (hsub p c hp).1 (hsub q c hq).1
  · intro p
    by_cases hp : p = 0
    · subst hp; simp
    · rw [upd_ne hp]; exact h.nodup p
  · intro p c hc
    exact h.range p c (hsub p c hc).1
  · refine ⟨h.nnAdj 0, h.nnOwn 0, ?_, ?_, h.nodup 0, fun c hc => (h.range 0 c hc).2⟩
    · intro x c hr hc
      have hx := h.pcOwn 0 x c hr hc
      subst hx
      have := (h.pcNz 0 c hr).1 rfl
      have := (h.range 0 c hc).2
      omega
    · intro q c hc hq
      exact (hsub q c hq).2 (h.uniq q 0 c (hsub q c hq).1 hc)

/-- A loose list becomes the list of slot 0. -/
theorem Linked.float (h : Linked N fc pc nn ch) {F : List Nat} (hF : Loose N pc nn ch F) :
    Linked N fc pc nn (upd ch 0 F) := by
  refine { h with
    nnAdj := ?_, nnOwn := ?_, fcM := ?_, pcM := ?_, pcOwn := ?_, uniq := ?_, nodup := ?_, range := ?_ }
  · intro p a b hab
    by_cases hp : p = 0
    · subst hp; rw [upd_same] at hab; exact hF.adj a b hab
    · rw [upd_ne hp] at hab; exact h.nnAdj p a b hab
  · intro p a b hr ho
    by_cases hp : p = 0
    · subst hp; rw [upd_same] at ho ⊢; exact hF.own a b hr ho
    · rw [upd_ne hp] at ho ⊢; exact h.nnOwn p a b hr ho
  · intro p c hp
    rw [upd_ne hp]; exact h.fcM p c hp
  · intro p c hp hc
    rw [upd_ne hp] at hc; exact h.pcM p c hp hc
  · intro p x c hr hc
    by_cases hp : p = 0
    · subst hp; rw [upd_same] at hc; exact absurd hc (hF.pcNo x c hr)
    · rw [upd_ne hp] at hc; exact h.pcOwn p x c hr hc
  · intro p q c hp hq
    by_cases hp0 : p = 0 <;> by_cases hq0 : q = 0
    · rw [hp0, hq0]
    · subst hp0; rw [upd_same] at hp; rw [upd_ne hq0] at hq
      exact absurd hq (hF.free q c hp)
    · subst hq0; rw [upd_same] at hq; rw [upd_ne hp0] at hp
      exact absurd hp (hF.free p c hq)
    · rw [upd_ne hp0] at hp; rw [upd_ne hq0] at hq; exact h.uniq p q c hp hq
  · intro p
    by_cases hp : p = 0
    · subst hp; rw [upd_same]; exact hF.nodup
    · rw [upd_ne hp]; exact h.nodup p
  · intro p c hc
    by_cases hp : p = 0
    · subst hp; rw [upd_same] at hc; have := hF.range c hc; omega
    · rw [upd_ne hp] at hc; exact h.range p c hc

/-- The general rule for replacing the child list of one slot: `L` is the new list of `p`, whose elements
are old children of `p` or elements of the loose list `F`. -/
theorem Linked.relist (h : Linked N fc pc nn ch) {F : List Nat} (hF : Loose N pc nn ch F) {p : Nat}
    {L : List Nat} {fc' pc' nn' : List Row}
    (hL : ∀ c ∈ L, c ∈ ch p ∨ c ∈ F) (hLn : L.Nodup) (hlt : ∀ c ∈ F, p < c)
    (hnG : Good nn') (hfG : Good fc')
    (hnn1 : ∀ a b, Adj L a b → (a, b) ∈ nn')
    (hnn2 : ∀ a b, (a, b) ∈ nn' → a ∈ L ∨ b ∈ L → Adj L a b)
    (hnn3 : ∀ a b, (a, b) ∈ nn' → a ≠ 0 → (a, b) ∈ nn ∨ ((a ∈ F ∨ a ∈ ch p) ∧ (b ∈ F ∨ b ∈ ch p) ∧ a ∈ L))
    (hnn4 : ∀ a b, (a, b) ∈ nn → a ≠ 0 → (a ∉ ch p ∨ b ∉ ch p) → (a, b) ∈ nn')
    (hfc1 : p ≠ 0 → ∀ c, (p, c) ∈ fc' ↔ L.head? = some c)
    (hfc2 : ∀ q c, q ≠ p → q ≠ 0 → ((q, c) ∈ fc' ↔ (q, c) ∈ fc))
    (hpcLive : p ≠ 0 → ∀ c ∈ L, (p, c) ∈ pc')
    (hpcKeep : ∀ x c, (x, c) ∈ pc → c ≠ 0 → c ∉ ch p → (x, c) ∈ pc')
    (hpcOnly : ∀ x c, (x, c) ∈ pc' → c ≠ 0 → (x, c) ∈ pc ∨ (x = p ∧ p ≠ 0 ∧ (c ∈ F ∨ c ∈ ch p)))
    (hpcNz : ∀ a c, (a, c) ∈ pc' → (a = 0 ↔ c = 0)) :
    Linked N fc' pc' nn' (upd ch p L) := by
  have hFr := hF.range
  have hcr : ∀ q c, c ∈ ch q → 2 ≤ c ∧ c < N := fun q c hc => (h.range q c hc).2
  have hin : ∀ c, c ∈ F ∨ c ∈ ch p → 2 ≤ c ∧ c < N := by
    rintro c (hc | hc)
    · exact hFr c hc
    · exact hcr p c hc
  have h0 : 0 < N := by have := h.two; omega
  have hnotq : ∀ q c, q ≠ p → c ∈ ch q → ¬(c ∈ F ∨ c ∈ ch p) := by
    rintro q c hq hc (hf | hf)
    · exact hF.free q c hf hc
    · exact hq (h.uniq q p c hc hf)
  refine { nnG := hnG, fcG := hfG, nnLt := ?_, nnAdj := ?_, nnOwn := ?_, fcM := ?_, pcM := ?_, pcOwn := ?_,
           pcNz := hpcNz, pcLt := ?_, nnUp := ?_, uniq := ?_, nodup := ?_, range := ?_, two := h.two }
  · intro a b hr ha
    rcases hnn3 a b hr ha with hr | ⟨ha, hb⟩
    · exact h.nnLt a b hr ‹_›
    · exact ⟨hin a ha, hin b hb.1⟩
  · intro q a b hab
    by_cases hq : q = p
    · subst hq; rw [upd_same] at hab; exact hnn1 a b hab
    · rw [upd_ne hq] at hab
      have ha := adj_mem_left hab
      refine hnn4 a b (h.nnAdj q a b hab) ?_ ?_
      · have := hcr q a ha; omega
      · left; intro hap; exact hq (h.uniq q p a ha hap)
  · intro q a b hr ho
    by_cases hq : q = p
    · subst hq; rw [upd_same] at ho ⊢; exact hnn2 a b hr ho
    · rw [upd_ne hq] at ho ⊢
      have ha : a ≠ 0 := by
        rcases ho with ha | hb
        · have := hcr q a ha; omega
        · have := hcr q b hb
          intro h0; have := (hnG.nz' hr).mp h0; omega
      rcases hnn3 a b hr ha with hr' | ⟨h1, h2⟩
      · exact h.nnOwn q a b hr' ho
      · rcases ho with ho | ho
        · exact absurd h1 (hnotq q a hq ho)
        · exact absurd h2.1 (hnotq q b hq ho)
  · intro q c hq0
    by_cases hq : q = p
    · subst hq; rw [upd_same]; exact hfc1 hq0 c
    · rw [upd_ne hq, hfc2 q c hq hq0]; exact h.fcM q c hq0
  · intro q c hq0 hc
    by_cases hq : q = p
    · subst hq; rw [upd_same] at hc; exact hpcLive hq0 c hc
    · rw [upd_ne hq] at hc
      refine hpcKeep q c (h.pcM q c hq0 hc) ?_ ?_
      · have := hcr q c hc; omega
      · intro hcp; exact hq (h.uniq q p c hc hcp)
  · intro q x c hr hc
    by_cases hq : q = p
    · subst hq; rw [upd_same] at hc
      have hc' := hL c hc
      have := hin c (Or.symm hc')
      rcases hpcOnly x c hr (by omega) with hr' | ⟨hx, _⟩
      · rcases hc' with hc' | hc'
        · exact h.pcOwn q x c hr' hc'
        · exact absurd hc' (hF.pcNo x c hr')
      · exact hx
    · rw [upd_ne hq] at hc
      have := hcr q c hc
      rcases hpcOnly x c hr (by omega) with hr' | ⟨_, _, hx⟩
      · exact h.pcOwn q x c hr' hc
      · exact absurd hx (hnotq q c hq hc)
  · intro x c hr hc0
    rcases hpcOnly x c hr hc0 with hr' | ⟨_, _, hx⟩
    · exact h.pcLt x c hr' hc0
    · refine ⟨?_, hin c hx⟩
      rename_i hxp _
      subst hxp
      rcases hx with hx | hx
      · exact hlt c hx
      · exact (h.range _ c hx).1
  · obtain ⟨rank, hrank⟩ := h.nnUp
    refine ⟨fun x => if x ∈ L then L.idxOf x else rank x, fun a b hr ha => ?_⟩
    by_cases hab : a ∈ L ∨ b ∈ L
    · have hadj := hnn2 a b hr hab
      simp only [adj_mem_left hadj, adj_mem_right hadj, if_true]
      obtain ⟨l₁, l₂, rfl⟩ := adj_iff_split.mp hadj
      rw [List.nodup_append, List.nodup_cons] at hLn
      have h1 : a ∉ l₁ := fun hm => hLn.2.2 a hm a (by simp) rfl
      have h2 : b ∉ l₁ := fun hm => hLn.2.2 b hm b (by simp) rfl
      have h3 : a ≠ b := by rintro rfl; exact hLn.2.1.1 (by simp)
      rw [List.idxOf_append_of_notMem h1, List.idxOf_append_of_notMem h2, List.idxOf_cons_self,
        List.idxOf_cons_ne _ h3]
      omega
    · rw [not_or] at hab
      simp only [hab.1, hab.2, if_false]
      rcases hnn3 a b hr ha with hr' | ⟨_, _, hm⟩
      · exact hrank a b hr' ha
      · exact absurd hm hab.1
  · intro q r c hq hr
    by_cases hq' : q = p <;> by_cases hr' : r = p
    · rw [hq', hr']
    · subst hq'; rw [upd_same] at hq; rw [upd_ne hr'] at hr
      exact absurd (Or.symm (hL c hq)) (hnotq r c hr' hr)
    · subst hr'; rw [upd_same] at hr; rw [upd_ne hq'] at hq
      exact absurd (Or.symm (hL c hr)) (hnotq q c hq' hq)
    · rw [upd_ne hq'] at hq; rw [upd_ne hr'] at hr; exact h.uniq q r c hq hr
  · intro q
    by_cases hq : q = p
    · subst hq; rw [upd_same]; exact hLn
    · rw [upd_ne hq]; exact h.nodup q
  · intro q c hc
    by_cases hq : q = p
    · subst hq; rw [upd_same] at hc
      rcases hL c hc with hc | hc
      · exact h.range q c hc
      · exact ⟨hlt c hc, hFr c hc⟩
    · rw [upd_ne hq] at hc; exact h.range q c hc

theorem Linked.no_next_last (h : Linked N fc pc nn ch) {p a : Nat} (ha : (ch p).getLast? = some a) (b : Nat) :
    (a, b) ∉ nn := fun hr =>
  not_adj_last (h.nodup p) ha (h.nnOwn p a b hr (Or.inl (List.mem_of_mem_getLast? ha)))

theorem Linked.no_prev_head (h : Linked N fc pc nn ch) {p b : Nat} (hb : (ch p).head? = some b) (a : Nat) :
    (a, b) ∉ nn := fun hr =>
  not_adj_head (h.nodup p) hb (h.nnOwn p a b hr (Or.inr (List.mem_of_mem_head? hb)))

theorem Loose.no_next_last {F : List Nat} (h : Loose N pc nn ch F) {a : Nat} (ha : F.getLast? = some a) (b : Nat) :
    (a, b) ∉ nn := fun hr =>
  not_adj_last h.nodup ha (h.own a b hr (Or.inl (List.mem_of_mem_getLast? ha)))

theorem Loose.no_prev_head {F : List Nat} (h : Loose N pc nn ch F) {b : Nat} (hb : F.head? = some b) (a : Nat) :
    (a, b) ∉ nn := fun hr =>
  not_adj_head h.nodup hb (h.own a b hr (Or.inr (List.mem_of_mem_head? hb)))

theorem head_or {l₁ l₂ : List Nat} : (l₁ ++ l₂).head? = l₁.head?.or l₂.head? := by
  cases l₁ <;> simp

theorem Loose.nodup_append {F : List Nat} (hF : Loose N pc nn ch F) (h : Linked N fc pc nn ch) (p : Nat) :
    (ch p ++ F).Nodup := by
  rw [List.nodup_append]
  refine ⟨h.nodup p, hF.nodup, ?_⟩
  rintro a ha b hb rfl
  exact hF.free p a hb ha

/-- First children: `p` had none. -/
theorem Linked.appendFirst (h : Linked N fc pc nn ch) {F : List Nat} (hF : Loose N pc nn ch F) {p f0 : Nat}
    (hp : p ≠ 0) (he : ch p = []) (hf : F.head? = some f0) (hlt : ∀ c ∈ F, p < c) {pc' : List Row}
    (hpc : PcExt p F (ch p) pc pc') :
    Linked N (fc ++ [(p, f0)]) pc' nn (upd ch p F) := by
  have hf0 : f0 ≠ 0 := by have := hF.range f0 (List.mem_of_mem_head? hf); omega
  have hno : ∀ c, (p, c) ∉ fc := by
    intro c hc
    have := (h.fcM p c hp).mp hc
    rw [he] at this; simp at this
  have hno2 : ∀ q, (q, f0) ∉ fc := by
    intro q hc
    have hq : q ≠ 0 := fun e => hf0 ((h.fcG.nz' hc).mp e)
    exact hF.free q f0 (List.mem_of_mem_head? hf) (List.mem_of_mem_head? ((h.fcM q f0 hq).mp hc))
  refine h.relist hF (fun c hc => Or.inr hc) hF.nodup hlt h.nnG (h.fcG.append hp hf0 hno hno2) hF.adj
    (fun a b hr ho => hF.own a b hr ho) (fun a b hr _ => Or.inl hr) (fun a b hr _ _ => hr) ?_ ?_ hpc.add
    (fun x c hr _ _ => hpc.keep _ hr) (fun x c hr _ => hpc.only x c hr) ?_
  · intro _ c
    rw [List.mem_append, hf]
    simp [hno, eq_comm]
  · intro q c hq _
    rw [List.mem_append]
    simp [hq]
  · intro a c hc
    rcases hpc.only a c hc with hr | ⟨e, e2, e3⟩
    · exact h.pcNz a c hr
    · have : 2 ≤ c := e3.elim (fun e3 => (hF.range c e3).1) (fun e3 => (h.range p c e3).2.1)
      subst e
      exact ⟨fun e => absurd e e2, fun e => by omega⟩

/-- Further children behind the last one. -/
theorem Linked.appendNext (h : Linked N fc pc nn ch) {F : List Nat} (hF : Loose N pc nn ch F) {p f0 last : Nat}
    (hl : (ch p).getLast? = some last) (hf : F.head? = some f0) (hlt : ∀ c ∈ F, p < c) {pc' : List Row}
    (hpc : PcExt p F (ch p) pc pc') :
    Linked N fc pc' (nn ++ [(last, f0)]) (upd ch p (ch p ++ F)) := by
  have hf0F := List.mem_of_mem_head? hf
  have hlm := List.mem_of_mem_getLast? hl
  have hf0 : f0 ≠ 0 := by have := hF.range f0 hf0F; omega
  have hl0 : last ≠ 0 := by have := h.range p last hlm; omega
  have hnd := hF.nodup_append h p
  refine h.relist hF (by simp) hnd hlt
    (h.nnG.append hl0 hf0 (h.no_next_last hl) (hF.no_prev_head hf)) h.fcG ?_ ?_ ?_ ?_ ?_ ?_ ?_
    (fun x c hr _ _ => hpc.keep _ hr) (fun x c hr _ => hpc.only x c hr) ?_
  · intro a b hab
    rw [adj_append, hl, hf] at hab
    rw [List.mem_append]
    rcases hab with hab | hab | ⟨ha, hb⟩
    · exact Or.inl (h.nnAdj p a b hab)
    · exact Or.inl (hF.adj a b hab)
    · cases ha; cases hb; simp
  · intro a b hr ho
    rw [adj_append]
    rw [List.mem_append] at hr
    rcases hr with hr | hr
    · rw [List.mem_append, List.mem_append] at ho
      rcases ho with (ho | ho) | (ho | ho)
      · exact Or.inl (h.nnOwn p a b hr (Or.inl ho))
      · exact Or.inr (Or.inl (hF.own a b hr (Or.inl ho)))
      · exact Or.inl (h.nnOwn p a b hr (Or.inr ho))
      · exact Or.inr (Or.inl (hF.own a b hr (Or.inr ho)))
    · simp at hr
      obtain ⟨rfl, rfl⟩ := hr
      exact Or.inr (Or.inr ⟨hl, hf⟩)
  · intro a b hr _
    rw [List.mem_append] at hr
    rcases hr with hr | hr
    · exact Or.inl hr
    · simp at hr
      obtain ⟨rfl, rfl⟩ := hr
      exact Or.inr ⟨Or.inr hlm, Or.inl hf0F, by simp [hlm]⟩
  · intro a b hr _ _
    exact List.mem_append_left _ hr
  · intro hp c
    rw [h.fcM p c hp, head_or]
    cases hch : ch p with
    | nil => rw [hch] at hlm; simp at hlm
    | cons x l => simp
  · intro q c _ _; exact Iff.rfl
  · intro hp c hc
    rcases List.mem_append.mp hc with hc | hc
    · exact hpc.keep _ (h.pcM p c hp hc)
    · exact hpc.add hp c hc
  · intro a c hc
    rcases hpc.only a c hc with hr | ⟨e, e2, e3⟩
    · exact h.pcNz a c hr
    · have : 2 ≤ c := e3.elim (fun e3 => (hF.range c e3).1) (fun e3 => (h.range p c e3).2.1)
      subst e
      exact ⟨fun e => absurd e e2, fun e => by omega⟩

/-- New children before the first one. -/
theorem Linked.prepend (h : Linked N fc pc nn ch) {F : List Nat} (hF : Loose N pc nn ch F)
    {p f0 lastF first i : Nat} (hp : p ≠ 0) (hh : (ch p).head? = some first) (hf : F.head? = some f0)
    (hl : F.getLast? = some lastF) (hlt : ∀ c ∈ F, p < c) (hi : fc[i]? = some (p, first)) {pc' : List Row}
    (hpc : PcExt p F (ch p) pc pc') :
    Linked N (fc.set i (p, f0)) pc' (nn ++ [(lastF, first)]) (upd ch p (F ++ ch p)) := by
  have hf0F := List.mem_of_mem_head? hf
  have hlF := List.mem_of_mem_getLast? hl
  have hfm := List.mem_of_mem_head? hh
  have hf0 : f0 ≠ 0 := by have := hF.range f0 hf0F; omega
  have hl0 : lastF ≠ 0 := by have := hF.range lastF hlF; omega
  have hfirst0 : first ≠ 0 := by have := h.range p first hfm; omega
  have hnd : (F ++ ch p).Nodup := List.nodup_append_comm.mp (hF.nodup_append h p)
  have hno2 : ∀ q, (q, f0) ∉ fc := by
    intro q hc
    have hq : q ≠ 0 := fun e => hf0 ((h.fcG.nz' hc).mp e)
    exact hF.free q f0 hf0F (List.mem_of_mem_head? ((h.fcM q f0 hq).mp hc))
  have hrow : ((p, first) : Row) ≠ (0, 0) := row_ne_zero hp
  refine h.relist hF (by intro c hc; rw [List.mem_append] at hc; tauto) hnd hlt
    (h.nnG.append hl0 hfirst0 (hF.no_next_last hl) (h.no_prev_head hh))
    (h.fcG.set hi hp hf0 ?_ (fun c hc => absurd hc (hno2 c)) hrow) ?_ ?_ ?_ ?_ ?_ ?_ ?_
    (fun x c hr _ _ => hpc.keep _ hr) (fun x c hr _ => hpc.only x c hr) ?_
  · intro c hc
    have := (h.fcM p c hp).mp hc
    rw [hh] at this; cases this; rfl
  · intro a b hab
    rw [adj_append, hl, hh] at hab
    rw [List.mem_append]
    rcases hab with hab | hab | ⟨ha, hb⟩
    · exact Or.inl (hF.adj a b hab)
    · exact Or.inl (h.nnAdj p a b hab)
    · cases ha; cases hb; simp
  · intro a b hr ho
    rw [adj_append]
    rw [List.mem_append] at hr
    rcases hr with hr | hr
    · rw [List.mem_append, List.mem_append] at ho
      rcases ho with (ho | ho) | (ho | ho)
      · exact Or.inl (hF.own a b hr (Or.inl ho))
      · exact Or.inr (Or.inl (h.nnOwn p a b hr (Or.inl ho)))
      · exact Or.inl (hF.own a b hr (Or.inr ho))
      · exact Or.inr (Or.inl (h.nnOwn p a b hr (Or.inr ho)))
    · simp at hr
      obtain ⟨rfl, rfl⟩ := hr
      exact Or.inr (Or.inr ⟨hl, hh⟩)
  · intro a b hr _
    rw [List.mem_append] at hr
    rcases hr with hr | hr
    · exact Or.inl hr
    · simp at hr
      obtain ⟨rfl, rfl⟩ := hr
      exact Or.inr ⟨Or.inl hlF, Or.inr hfm, by simp [hlF]⟩
  · intro a b hr _ _
    exact List.mem_append_left _ hr
  · intro _ c
    rw [h.fcG.mem_set hi hrow, head_or, hf]
    constructor
    · rintro (⟨h1, h2⟩ | h1)
      · have := (h.fcM p c hp).mp h1
        rw [hh] at this; cases this; exact absurd rfl h2
      · cases h1; rfl
    · intro hc
      simp at hc; subst hc; exact Or.inr rfl
  · intro q c hq _
    rw [h.fcG.mem_set hi hrow]
    constructor
    · rintro (h1 | h1)
      · exact h1.1
      · cases h1; exact absurd rfl hq
    · intro h1; left; exact ⟨h1, by rintro ⟨rfl, rfl⟩; exact hq rfl⟩
  · intro hp c hc
    rcases List.mem_append.mp hc with hc | hc
    · exact hpc.add hp c hc
    · exact hpc.keep _ (h.pcM p c hp hc)
  · intro a c hc
    rcases hpc.only a c hc with hr | ⟨e, e2, e3⟩
    · exact h.pcNz a c hr
    · have : 2 ≤ c := e3.elim (fun e3 => (hF.range c e3).1) (fun e3 => (h.range p c e3).2.1)
      subst e
      exact ⟨fun e => absurd e e2, fun e => by omega⟩

theorem adj_skip {l₁ l₂ : List Nat} {old a b : Nat} (ha : a ≠ old) (hb : b ≠ old)
    (h : Adj (l₁ ++ old :: l₂) a b) : Adj l₁ a b ∨ Adj l₂ a b := by
  rw [adj_append, adj_cons] at h
  rcases h with h | (⟨h, _⟩ | h) | ⟨_, h⟩
  · exact Or.inl h
  · exact absurd h.symm ha
  · exact Or.inr h
  · simp at h; exact absurd h.symm hb

/-- Replace the element `old` of the list of `p` by the (possibly empty) loose list `F`. -/
theorem Linked.splice (h : Linked N fc pc nn ch) {F : List Nat} (hF : Loose N pc nn ch F) {p old : Nat}
    {l₁ l₂ : List Nat} (he : ch p = l₁ ++ old :: l₂) (hlt : ∀ c ∈ F, p < c) {fc' pc' nn' : List Row}
    (hnG : Good nn') (hfG : Good fc')
    (hnn : ∀ a b, a ≠ 0 → ((a, b) ∈ nn' ↔ ((a, b) ∈ nn ∧ a ≠ old ∧ b ≠ old) ∨ Adj (l₁ ++ (F ++ l₂)) a b))
    (hfc1 : p ≠ 0 → ∀ c, (p, c) ∈ fc' ↔ (l₁ ++ (F ++ l₂)).head? = some c)
    (hfc2 : ∀ q c, q ≠ p → q ≠ 0 → ((q, c) ∈ fc' ↔ (q, c) ∈ fc))
    (hpcF : p ≠ 0 → ∀ c ∈ F, (p, c) ∈ pc')
    (hpcKeep : ∀ x c, (x, c) ∈ pc → c ≠ 0 → c ≠ old → (x, c) ∈ pc')
    (hpcOnly : ∀ x c, (x, c) ∈ pc' → c ≠ 0 → (x, c) ∈ pc ∨ (x = p ∧ p ≠ 0 ∧ (c ∈ F ∨ c ∈ ch p)))
    (hpcNz : ∀ a c, (a, c) ∈ pc' → (a = 0 ↔ c = 0)) :
    Linked N fc' pc' nn' (upd ch p (l₁ ++ (F ++ l₂))) := by
  have hold : old ∈ ch p := by rw [he]; simp
  have hnd := h.nodup p
  have hsub : ∀ c, c ∈ l₁ ∨ c ∈ l₂ → c ∈ ch p ∧ c ≠ old := by
    intro c hc
    rw [he] at hnd ⊢
    rw [List.nodup_append, List.nodup_cons] at hnd
    refine ⟨by simp; tauto, ?_⟩
    rintro rfl
    rcases hc with hc | hc
    · exact hnd.2.2 c hc c (by simp) rfl
    · exact hnd.2.1.1 hc
  have hmem : ∀ c, c ∈ l₁ ++ (F ++ l₂) ↔ c ∈ F ∨ (c ∈ l₁ ∨ c ∈ l₂) := by
    intro c; simp only [List.mem_append]; tauto
  have hpos : ∀ c, c ∈ l₁ ++ (F ++ l₂) → c ≠ 0 := by
    intro c hc
    rcases (hmem c).mp hc with hc | hc
    · have := hF.range c hc; omega
    · have := h.range p c (hsub c hc).1; omega
  refine h.relist hF ?_ ?_ hlt hnG hfG ?_ ?_ ?_ ?_ hfc1 hfc2 ?_ ?_ hpcOnly hpcNz
  · intro c hc
    rcases (hmem c).mp hc with hc | hc
    · exact Or.inr hc
    · exact Or.inl (hsub c hc).1
  · have h1 := hF.nodup_append h p
    rw [he] at h1
    have hp : (l₁ ++ (F ++ l₂)).Perm ((l₁ ++ l₂) ++ F) := by
      rw [List.append_assoc]
      exact List.Perm.append_left _ List.perm_append_comm
    rw [hp.nodup_iff]
    refine List.Nodup.sublist ?_ h1
    exact List.Sublist.append (List.Sublist.append (List.Sublist.refl _) (List.sublist_cons_self _ _))
      (List.Sublist.refl _)
  · intro a b hab
    exact (hnn a b (hpos a (adj_mem_left hab))).mpr (Or.inr hab)
  · intro a b hr ho
    have ha0 : a ≠ 0 := by
      rcases ho with ho | ho
      · exact hpos a ho
      · intro e; exact hpos b ho ((hnG.nz' hr).mp e)
    rcases (hnn a b ha0).mp hr with ⟨hr, h1, h2⟩ | hab
    · have key : (a ∈ F ∨ b ∈ F) ∨ (a ∈ ch p ∨ b ∈ ch p) := by
        rcases ho with ho | ho <;> rcases (hmem _).mp ho with ho | ho
        · exact Or.inl (Or.inl ho)
        · exact Or.inr (Or.inl (hsub _ ho).1)
        · exact Or.inl (Or.inr ho)
        · exact Or.inr (Or.inr (hsub _ ho).1)
      rw [adj_append, adj_append]
      rcases key with key | key
      · have := hF.own a b hr key; tauto
      · have := h.nnOwn p a b hr key
        rw [he] at this
        have := adj_skip h1 h2 this
        tauto
    · exact hab
  · intro a b hr ha
    rcases (hnn a b ha).mp hr with ⟨hr, _⟩ | hab
    · exact Or.inl hr
    · right
      have h1 := (hmem a).mp (adj_mem_left hab)
      have h2 := (hmem b).mp (adj_mem_right hab)
      refine ⟨?_, ?_, adj_mem_left hab⟩
      · rcases h1 with h1 | h1
        · exact Or.inl h1
        · exact Or.inr (hsub a h1).1
      · rcases h2 with h1 | h1
        · exact Or.inl h1
        · exact Or.inr (hsub b h1).1
  · intro a b hr ha hor
    refine (hnn a b ha).mpr (Or.inl ⟨hr, ?_, ?_⟩)
    · rintro rfl
      have := h.nnOwn p a b hr (Or.inl hold)
      rcases hor with ho | ho
      · exact ho hold
      · exact ho (adj_mem_right this)
    · rintro rfl
      have := h.nnOwn p a b hr (Or.inr hold)
      rcases hor with ho | ho
      · exact ho (adj_mem_left this)
      · exact ho hold
  · intro hp c hc
    rcases (hmem c).mp hc with hc | hc
    · exact hpcF hp c hc
    · refine hpcKeep p c (h.pcM p c hp (hsub c hc).1) ?_ (hsub c hc).2
      have := h.range p c (hsub c hc).1; omega
  · intro x c hr hc0 hcp
    exact hpcKeep x c hr hc0 (by rintro rfl; exact hcp hold)

end Flo
