import Verif.Proofs.Msi
import Verif.Model.Compare
import Verif.Spec.Sets
/-!
# Sequences of insertions
-/
namespace Flo
open Spec

set_option linter.unusedSectionVars false
variable {α : Type} [DecidableEq α]

theorem distinct_eq (l : List α) : distinct l = l.dedup.length := by
  induction l with
  | nil => rfl
  | cons a l ih =>
    unfold distinct
    by_cases h : a ∈ l
    · rw [if_pos h, List.dedup_cons_of_mem h, ih]; omega
    · rw [if_neg h, List.dedup_cons_of_notMem h, List.length_cons, ih]; omega

theorem length_eq_distinct {l t : List α} (hn : t.Nodup) (h : ∀ w, w ∈ t ↔ w ∈ l) : t.length = distinct l := by
  rw [distinct_eq]
  have : t.Perm l.dedup := by
    rw [List.perm_ext_iff_of_nodup hn (List.nodup_dedup l)]
    intro a; rw [h, List.mem_dedup]
  exact this.length_eq

theorem runInserts_append {β : Type} (ins : α → β → Out β) (l₁ l₂ : List α) (m : β) :
    runInserts ins (l₁ ++ l₂) m = (runInserts ins l₁ m >>= runInserts ins l₂) := by
  induction l₁ generalizing m with
  | nil => rfl
  | cons a l ih =>
    simp only [List.cons_append, runInserts, bind_assoc]
    congr 1
    funext m
    exact ih m

theorem u16_runInserts {h : Nat → UInt64} : ∀ (vs : List Nat) (m : U16Set), U16OK h m → U16Exact m →
    (∀ v ∈ vs, v ≠ 0 ∧ v < 65536) → ∃ m', runInserts (u16InsertWith h) vs m = .ok m' ∧ U16OK h m' ∧ U16Exact m' ∧
      ∀ w, w ∈ m'.toList 0 ↔ w ∈ vs ∨ w ∈ m.toList 0 := by
  intro vs
  induction vs with
  | nil => intro m hm hx _; exact ⟨m, rfl, hm, hx, by simp⟩
  | cons v l ih =>
    intro m hm hx hl
    obtain ⟨m1, h1, hm1, he1, hx1⟩ := hm.insert (hl v (by simp)).1 (hl v (by simp)).2
    obtain ⟨m2, h2, hm2, hx2, he2⟩ := ih m1 hm1 (hx1 hx) (fun w hw => hl w (List.mem_cons_of_mem _ hw))
    refine ⟨m2, by unfold runInserts; rw [h1]; exact h2, hm2, hx2, ?_⟩
    intro w; rw [he2, he1, List.mem_cons]; tauto

/-! ## Sets made with an exponent of the caller's choice -/

/-- A set with at least `2 ^ 18` slots never grows. -/
structure BigOK (h : Nat → UInt64) (m : U16Set) : Prop where
  msi : MsiOK 0 h m
  big : 18 ≤ m.exp
  exact : U16Exact m
  lt : ∀ v ∈ m.toList 0, v < 65536

theorem BigOK.half {h : Nat → UInt64} {m : U16Set} (hm : BigOK h m) : m.len < 2 ^ m.exp / 2 ∧ m.len < 2 ^ m.exp := by
  have h1 : (m.toList 0).length ≤ 65535 :=
    nodup_length_lt hm.msi.nodup (fun v hv => ⟨(mem_toList.mp hv).1, hm.lt v hv⟩)
  have h2 : 2 ^ 18 ≤ 2 ^ m.exp := Nat.pow_le_pow_right (by omega) hm.big
  have := hm.exact
  unfold U16Exact at this
  omega

theorem BigOK.insert {h : Nat → UInt64} {m : U16Set} (hm : BigOK h m) {v : Nat} (hv : v ≠ 0) (hlt : v < 65536) :
    ∃ m', u16InsertWith h v m = .ok m' ∧ BigOK h m' ∧ (∀ w, w ∈ m'.toList 0 ↔ w = v ∨ w ∈ m.toList 0) := by
  obtain ⟨h1, h2⟩ := hm.half
  have hx := hm.exact
  unfold U16Exact at hx
  have hg : u16Grow h m = .ok m := by unfold u16Grow; rw [if_neg (by omega)]
  rcases hm.msi.insert hv (by omega) with ⟨hmem, hrun⟩ | ⟨hmem, m', hrun, hm', he', hl', hp'⟩
  · refine ⟨m, by unfold u16InsertWith; rw [hg]; simp only [Out.bind_ok]; rw [hrun]; rfl, hm, fun w => ?_⟩
    constructor
    · exact Or.inr
    · rintro (rfl | hw)
      · exact hmem
      · exact hw
  · have hlen := hp'.length_eq
    rw [List.length_cons] at hlen
    refine ⟨m', by unfold u16InsertWith; rw [hg]; simp only [Out.bind_ok]; rw [hrun]; rfl,
      ⟨hm', by rw [he']; exact hm.big, by unfold U16Exact; omega, ?_⟩, ?_⟩
    · intro w hw
      rcases List.mem_cons.mp (hp'.mem_iff.mp hw) with rfl | hw
      · exact hlt
      · exact hm.lt w hw
    · intro w
      rw [hp'.mem_iff, List.mem_cons]

theorem big_runInserts {h : Nat → UInt64} : ∀ (vs : List Nat) (m : U16Set), BigOK h m →
    (∀ v ∈ vs, v ≠ 0 ∧ v < 65536) → ∃ m', runInserts (u16InsertWith h) vs m = .ok m' ∧ BigOK h m' ∧
      ∀ w, w ∈ m'.toList 0 ↔ w ∈ vs ∨ w ∈ m.toList 0 := by
  intro vs
  induction vs with
  | nil => intro m hm _; exact ⟨m, rfl, hm, by simp⟩
  | cons v l ih =>
    intro m hm hl
    obtain ⟨m1, h1, hm1, he1⟩ := hm.insert (hl v (by simp)).1 (hl v (by simp)).2
    obtain ⟨m2, h2, hm2, he2⟩ := ih m1 hm1 (fun w hw => hl w (List.mem_cons_of_mem _ hw))
    refine ⟨m2, by unfold runInserts; rw [h1]; exact h2, hm2, ?_⟩
    intro w; rw [he2, he1, List.mem_cons]; tauto

/-- Whatever the exponent, a new set can be filled with what fits in 16 bits. -/
theorem new_runInserts {h : Nat → UInt64} {e : Nat} (h1 : 1 ≤ e) (h2 : e < 31) (vs : List Nat)
    (hvs : ∀ v ∈ vs, v ≠ 0 ∧ v < 65536) :
    ∃ m0 m, Msi.new 0 e = .ok m0 ∧ m0.toList 0 = [] ∧ m0.len = 0 ∧ runInserts (u16InsertWith h) vs m0 = .ok m ∧
      MsiOK 0 h m ∧ U16Exact m ∧ (m.toList 0).length < 2 ^ m.exp ∧ ∀ w, w ∈ m.toList 0 ↔ w ∈ vs := by
  have ht : (⟨e, 0, List.replicate (2 ^ e) 0⟩ : U16Set).toList 0 = [] := toList_replicate _ e 0
  have hx : U16Exact (⟨e, 0, List.replicate (2 ^ e) 0⟩ : U16Set) := by unfold U16Exact; rw [ht]; rfl
  have hm := MsiOK.empty 0 h (e := e) (by omega) 0
  refine ⟨(⟨e, 0, List.replicate (2 ^ e) 0⟩ : U16Set), ?_⟩
  by_cases h18 : e ≤ 18
  · obtain ⟨m, a, b, c, d⟩ := u16_runInserts (h := h) vs _
      ⟨hm, h18, h1, by rw [ht]; simp, by rw [ht]; show 0 ≤ _; omega, by rw [ht]; simp, by rw [ht]; simp⟩ hx hvs
    exact ⟨m, by unfold Msi.new; rw [if_neg (by omega)], ht, rfl, a, b.msi, c, b.free, fun w => by rw [d, ht]; simp⟩
  · obtain ⟨m, a, b, c⟩ := big_runInserts (h := h) vs _ ⟨hm, by show 18 ≤ e; omega, hx, by rw [ht]; simp⟩ hvs
    have := b.half
    have hx' := b.exact
    unfold U16Exact at hx'
    exact ⟨m, by unfold Msi.new; rw [if_neg (by omega)], ht, rfl, a, b.msi, b.exact, by omega, fun w => by rw [c, ht]; simp⟩

/-! ## The fixed-size string set -/

/-- The invariant of the string set after the insertions `ss`. -/
structure StrOK (ss : List Str) (m : StrSet) : Prop where
  msi : MsiOK [] hashDjb2 m
  exp : m.exp = 7
  len : m.len = (m.toList []).length + ss.count []
  mem : ∀ w, w ∈ m.toList [] ↔ w ≠ [] ∧ w ∈ ss

theorem StrOK.used {ss : List Str} {m : StrSet} (h : StrOK ss m) : m.len = usedSlots ss := by
  rw [h.len]
  unfold usedSlots
  congr 1
  apply length_eq_distinct h.msi.nodup
  intro w
  rw [h.mem, List.mem_filter]
  simp [and_comm]

theorem StrOK.fresh : StrOK [] StrSet.fresh where
  msi := MsiOK.empty [] hashDjb2 (e := 7) (by omega) 0
  exp := rfl
  len := by
    have : StrSet.fresh.toList [] = [] := toList_replicate 128 7 0
    rw [this]; rfl
  mem := by
    have : StrSet.fresh.toList [] = [] := toList_replicate 128 7 0
    rw [this]; simp

theorem StrOK.insert {ss : List Str} {m : StrSet} (h : StrOK ss m) (s : Str) :
    (usedSlots ss ≥ 64 ∧ strSetInsert s m = .longjmp) ∨
    (usedSlots ss < 64 ∧ ∃ m', strSetInsert s m = .ok m' ∧ StrOK (ss ++ [s]) m') := by
  have hu := h.used
  have hl := h.len
  unfold strSetInsert
  rw [h.exp]
  by_cases hc : m.len ≥ 2 ^ 7 / 2
  · left; exact ⟨by omega, by rw [if_pos hc]⟩
  · right
    refine ⟨by omega, ?_⟩
    rw [if_neg hc]
    have hfree : (m.toList []).length < 2 ^ m.exp := by rw [h.exp]; omega
    by_cases hs : s = []
    · subst hs
      obtain ⟨b, hrun⟩ := h.msi.insert_nil hfree
      rw [hrun]
      refine ⟨_, rfl, ⟨⟨h.msi.exp, h.msi.size, h.msi.path⟩, h.exp, ?_, ?_⟩⟩
      · show m.len + 1 = (m.toList []).length + _
        rw [List.count_append]
        simp
        omega
      · intro w
        show w ∈ m.toList [] ↔ _
        rw [h.mem, List.mem_append]
        simp
        tauto
    · have hcount : (ss ++ [s]).count [] = ss.count [] := by
        rw [List.count_append, List.count_singleton]
        simp [hs]
      rcases h.msi.insert hs hfree with ⟨hmem, hrun⟩ | ⟨hmem, m', hrun, hm', he', hl', hp'⟩
      · rw [hrun]
        refine ⟨m, rfl, ⟨h.msi, h.exp, by rw [hcount]; exact hl, ?_⟩⟩
        intro w
        rw [h.mem, List.mem_append]
        have := (h.mem s).mp hmem
        constructor
        · rintro ⟨h1, h2⟩; exact ⟨h1, Or.inl h2⟩
        · rintro ⟨h1, h2 | h2⟩
          · exact ⟨h1, h2⟩
          · simp at h2; subst h2; exact this
      · rw [hrun]
        refine ⟨m', rfl, ⟨hm', he'.trans h.exp, ?_, ?_⟩⟩
        · rw [hcount, hp'.length_eq, hl', hl, List.length_cons]; omega
        · intro w
          rw [hp'.mem_iff, List.mem_cons, h.mem, List.mem_append]
          constructor
          · rintro (rfl | ⟨h1, h2⟩)
            · exact ⟨hs, Or.inr (by simp)⟩
            · exact ⟨h1, Or.inl h2⟩
          · rintro ⟨h1, h2 | h2⟩
            · exact Or.inr ⟨h1, h2⟩
            · simp at h2; exact Or.inl h2

/-- Some proper prefix has already used half of the slots. -/
def Overflows (pre ss : List Str) : Prop := ∃ l₁ s l₂, ss = l₁ ++ s :: l₂ ∧ usedSlots (pre ++ l₁) ≥ 64

theorem str_runInserts : ∀ (ss pre : List Str) (m : StrSet), StrOK pre m →
    (Overflows pre ss ∧ runInserts strSetInsert ss m = .longjmp) ∨
    (¬Overflows pre ss ∧ ∃ m', runInserts strSetInsert ss m = .ok m' ∧ StrOK (pre ++ ss) m') := by
  intro ss
  induction ss with
  | nil =>
    intro pre m h
    right
    refine ⟨?_, m, rfl, by simpa using h⟩
    rintro ⟨l₁, s, l₂, e, _⟩
    simp at e
  | cons s ss ih =>
    intro pre m h
    unfold runInserts
    rcases h.insert s with ⟨hu, hrun⟩ | ⟨hu, m1, hrun, h1⟩
    · left
      exact ⟨⟨[], s, ss, rfl, by simpa using hu⟩, by rw [hrun]; rfl⟩
    · rw [hrun]
      have hov : Overflows pre (s :: ss) ↔ Overflows (pre ++ [s]) ss := by
        constructor
        · rintro ⟨l₁, t, l₂, e, hge⟩
          cases l₁ with
          | nil => rw [List.append_nil] at hge; omega
          | cons a l₁ =>
            simp at e
            obtain ⟨rfl, e⟩ := e
            exact ⟨l₁, t, l₂, e, by simpa using hge⟩
        · rintro ⟨l₁, t, l₂, e, hge⟩
          exact ⟨s :: l₁, t, l₂, by simp [e], by simpa using hge⟩
      rw [hov]
      have := ih (pre ++ [s]) m1 h1
      rw [List.append_assoc] at this
      exact this

theorem StrOK.contains {ss : List Str} {m : StrSet} (h : StrOK ss m) (hu : usedSlots ss < 128) (s : Str) :
    msiContains [] s (hashDjb2 s) m = .ok (decide (s ≠ [] ∧ s ∈ ss)) := by
  have := h.used
  have := h.len
  rw [h.msi.contains s (by rw [h.exp]; omega)]
  congr 1
  rw [decide_eq_decide]
  exact h.mem s

end Flo
