import Verif.Proofs.Post
import Verif.Model.Dom
import Mathlib.Data.List.Pairwise
/-!
# Tables of rows, adjacency in lists
-/
namespace Flo

/-- `a` is immediately followed by `b` in the list. -/
def Adj : List Nat → Nat → Nat → Prop
  | x :: y :: l, a, b => (x = a ∧ y = b) ∨ Adj (y :: l) a b
  | _, _, _ => False

@[simp] theorem adj_nil {a b : Nat} : ¬Adj [] a b := by simp [Adj]
@[simp] theorem adj_single {x a b : Nat} : ¬Adj [x] a b := by simp [Adj]

theorem adj_cons {x : Nat} {l : List Nat} {a b : Nat} :
    Adj (x :: l) a b ↔ (x = a ∧ l.head? = some b) ∨ Adj l a b := by
  cases l with
  | nil => simp
  | cons y l => simp [Adj]

theorem adj_append {l₁ l₂ : List Nat} {a b : Nat} :
    Adj (l₁ ++ l₂) a b ↔ Adj l₁ a b ∨ Adj l₂ a b ∨ (l₁.getLast? = some a ∧ l₂.head? = some b) := by
  induction l₁ with
  | nil => simp
  | cons x l ih =>
    rw [List.cons_append, adj_cons, ih, adj_cons]
    cases l with
    | nil => simp; tauto
    | cons y l => simp [List.getLast?_cons_cons]; tauto

theorem adj_mem_left {l : List Nat} {a b : Nat} (h : Adj l a b) : a ∈ l := by
  induction l with
  | nil => simp at h
  | cons x l ih =>
    rw [adj_cons] at h
    rcases h with ⟨rfl, _⟩ | h
    · simp
    · exact List.mem_cons_of_mem _ (ih h)

theorem adj_mem_right {l : List Nat} {a b : Nat} (h : Adj l a b) : b ∈ l := by
  induction l with
  | nil => simp at h
  | cons x l ih =>
    rw [adj_cons] at h
    rcases h with ⟨rfl, h⟩ | h
    · exact List.mem_cons_of_mem _ (List.mem_of_mem_head? h)
    · exact List.mem_cons_of_mem _ (ih h)

theorem adj_iff_split {l : List Nat} {a b : Nat} : Adj l a b ↔ ∃ l₁ l₂, l = l₁ ++ a :: b :: l₂ := by
  constructor
  · intro h
    induction l with
    | nil => simp at h
    | cons x l ih =>
      rw [adj_cons] at h
      rcases h with ⟨rfl, h⟩ | h
      · cases l with
        | nil => simp at h
        | cons y l => simp at h; subst h; exact ⟨[], l, rfl⟩
      · obtain ⟨l₁, l₂, rfl⟩ := ih h
        exact ⟨x :: l₁, l₂, rfl⟩
  · rintro ⟨l₁, l₂, rfl⟩
    rw [adj_append]; right; left; simp [Adj]

theorem adj_right_unique {l : List Nat} (hn : l.Nodup) {a b c : Nat} (h1 : Adj l a b) (h2 : Adj l a c) :
    b = c := by
  induction l with
  | nil => simp at h1
  | cons x l ih =>
    rw [adj_cons] at h1 h2
    have hx := (List.nodup_cons.mp hn).1
    rcases h1 with ⟨rfl, h1⟩ | h1 <;> rcases h2 with ⟨e, h2⟩ | h2
    · rw [h1] at h2; exact Option.some.inj h2
    · exact absurd (adj_mem_left h2) hx
    · subst e; exact absurd (adj_mem_left h1) hx
    · exact ih (List.nodup_cons.mp hn).2 h1 h2

theorem adj_left_unique {l : List Nat} (hn : l.Nodup) {a b c : Nat} (h1 : Adj l a c) (h2 : Adj l b c) :
    a = b := by
  induction l with
  | nil => simp at h1
  | cons x l ih =>
    rw [adj_cons] at h1 h2
    have hl := (List.nodup_cons.mp hn).2
    have key : ∀ {y : Nat} {m : List Nat}, (y :: m).Nodup → ∀ {z}, Adj (y :: m) z y → False := by
      intro y m hn z h
      rw [adj_cons] at h
      rcases h with ⟨rfl, h⟩ | h
      · exact (List.nodup_cons.mp hn).1 (List.mem_of_mem_head? h)
      · exact (List.nodup_cons.mp hn).1 (adj_mem_right h)
    rcases h1 with ⟨rfl, h1⟩ | h1 <;> rcases h2 with ⟨e, h2⟩ | h2
    · exact e
    · cases l with
      | nil => simp at h1
      | cons y m => simp at h1; subst h1; exact (key hl h2).elim
    · cases l with
      | nil => simp at h2
      | cons y m => simp at h2; subst h2; exact (key hl h1).elim
    · exact ih hl h1 h2

/-- In a list without duplicates the last element has no successor. -/
theorem not_adj_last {l : List Nat} (hn : l.Nodup) {a b : Nat} (h : l.getLast? = some a) : ¬Adj l a b := by
  intro hadj
  induction l with
  | nil => simp at h
  | cons x l ih =>
    rw [adj_cons] at hadj
    cases l with
    | nil => simp at hadj
    | cons y l =>
      rw [List.getLast?_cons_cons] at h
      rcases hadj with ⟨rfl, _⟩ | hadj
      · exact (List.nodup_cons.mp hn).1 (List.mem_of_mem_getLast? h)
      · exact ih (List.nodup_cons.mp hn).2 h hadj

/-- ... and the first one has no predecessor. -/
theorem not_adj_head {l : List Nat} (hn : l.Nodup) {a b : Nat} (h : l.head? = some b) : ¬Adj l a b := by
  intro hadj
  cases l with
  | nil => simp at h
  | cons x l =>
    simp at h; subst h
    rw [adj_cons] at hadj
    rcases hadj with ⟨rfl, h⟩ | h
    · exact (List.nodup_cons.mp hn).1 (List.mem_of_mem_head? h)
    · exact (List.nodup_cons.mp hn).1 (adj_mem_right h)

/-- An element is last or has a successor. -/
theorem last_or_adj {l : List Nat} {a : Nat} (h : a ∈ l) : l.getLast? = some a ∨ ∃ b, Adj l a b := by
  obtain ⟨l₁, l₂, rfl⟩ := List.append_of_mem h
  cases l₂ with
  | nil => left; simp
  | cons b l₂ => right; exact ⟨b, adj_iff_split.mpr ⟨l₁, l₂, rfl⟩⟩

theorem head_or_adj {l : List Nat} {b : Nat} (h : b ∈ l) : l.head? = some b ∨ ∃ a, Adj l a b := by
  obtain ⟨l₁, l₂, rfl⟩ := List.append_of_mem h
  rcases List.eq_nil_or_concat l₁ with rfl | ⟨m, a, rfl⟩
  · left; rfl
  · right; exact ⟨a, adj_iff_split.mpr ⟨m, l₂, by simp⟩⟩

/-! ## Rows -/

/-- A table all of whose rows are zeroed or have two non-zero entries, the non-zero ones being an injective
partial function. -/
structure Good (l : List Row) : Prop where
  nz : ∀ r ∈ l, r = (0, 0) ∨ (r.1 ≠ 0 ∧ r.2 ≠ 0)
  inj : l.Pairwise (fun r r' => r ≠ (0, 0) → r' ≠ (0, 0) → r.1 ≠ r'.1 ∧ r.2 ≠ r'.2)

theorem Good.nil : Good [] := ⟨by simp, List.Pairwise.nil⟩

theorem Good.forall {l : List Row} (h : Good l) {r r' : Row} (h1 : r ∈ l) (h2 : r' ∈ l) (hne : r ≠ r')
    (hr : r ≠ (0, 0)) (hr' : r' ≠ (0, 0)) : r.1 ≠ r'.1 ∧ r.2 ≠ r'.2 := by
  have : Std.Symm (fun r r' : Row => r ≠ (0, 0) → r' ≠ (0, 0) → r.1 ≠ r'.1 ∧ r.2 ≠ r'.2) :=
    ⟨fun x y h h1 h2 => by have := h h2 h1; exact ⟨this.1.symm, this.2.symm⟩⟩
  exact h.inj.forall h1 h2 hne hr hr'

theorem row_ne_zero {a b : Nat} (h : a ≠ 0) : (a, b) ≠ ((0, 0) : Row) := by
  intro h'; exact h (congrArg Prod.fst h')

theorem row_ne_zero' {a b : Nat} (h : b ≠ 0) : (a, b) ≠ ((0, 0) : Row) := by
  intro h'; exact h (congrArg Prod.snd h')

theorem Good.fst_unique {l : List Row} (h : Good l) {a b c : Nat} (ha : a ≠ 0) (h1 : (a, b) ∈ l)
    (h2 : (a, c) ∈ l) : b = c := by
  by_contra hne
  exact (h.forall h1 h2 (by simpa using hne) (row_ne_zero ha) (row_ne_zero ha)).1 rfl

theorem Good.snd_unique {l : List Row} (h : Good l) {a b c : Nat} (ha : a ≠ 0) (h1 : (b, a) ∈ l)
    (h2 : (c, a) ∈ l) : b = c := by
  by_contra hne
  exact (h.forall h1 h2 (by simpa using hne) (row_ne_zero' ha) (row_ne_zero' ha)).2 rfl

theorem Good.nz' {l : List Row} (h : Good l) {a b : Nat} (hm : (a, b) ∈ l) : a = 0 ↔ b = 0 := by
  rcases h.nz _ hm with h | h
  · cases h; simp
  · exact ⟨fun e => absurd e h.1, fun e => absurd e h.2⟩

theorem Good.append {l : List Row} (h : Good l) {a b : Nat} (ha : a ≠ 0) (hb : b ≠ 0)
    (h1 : ∀ c, (a, c) ∉ l) (h2 : ∀ c, (c, b) ∉ l) : Good (l ++ [(a, b)]) := by
  refine ⟨?_, ?_⟩
  · intro r hr
    rcases List.mem_append.mp hr with hr | hr
    · exact h.nz r hr
    · simp at hr; subst hr; exact Or.inr ⟨ha, hb⟩
  · rw [List.pairwise_append]
    refine ⟨h.inj, List.pairwise_singleton _ _, ?_⟩
    intro r hr r' hr' _ _
    simp at hr'; subst hr'
    refine ⟨?_, ?_⟩
    · rintro rfl; exact h1 _ hr
    · rintro rfl; exact h2 _ hr

theorem set_split {l : List Row} {i : Nat} {r0 : Row} (h : l[i]? = some r0) (r : Row) :
    ∃ l₁ l₂, l = l₁ ++ r0 :: l₂ ∧ l.set i r = l₁ ++ r :: l₂ := by
  obtain ⟨hi, rfl⟩ := List.getElem?_eq_some_iff.mp h
  refine ⟨l.take i, l.drop (i + 1), ?_, ?_⟩
  · rw [← List.drop_eq_getElem_cons hi, List.take_append_drop]
  · rw [List.set_eq_take_append_cons_drop, if_pos hi]

theorem Good.mem_set {l : List Row} (hg : Good l) {i : Nat} {r0 r : Row} (h : l[i]? = some r0)
    (h0 : r0 ≠ (0, 0)) (x : Row) : x ∈ l.set i r ↔ (x ∈ l ∧ x ≠ r0) ∨ x = r := by
  obtain ⟨l₁, l₂, e1, e2⟩ := set_split h r
  rw [e2, e1]
  have hp := hg.inj
  rw [e1, List.pairwise_append, List.pairwise_cons] at hp
  have hn : x ∈ l₁ ∨ x ∈ l₂ → x ≠ r0 := by
    rintro (hm | hm) rfl
    · exact (hp.2.2 x hm x (by simp) h0 h0).1 rfl
    · exact (hp.2.1.1 x hm h0 h0).1 rfl
  simp only [List.mem_append, List.mem_cons]
  tauto

theorem Good.set {l : List Row} (hg : Good l) {i : Nat} {r0 : Row} {a b : Nat} (h : l[i]? = some r0)
    (ha : a ≠ 0) (hb : b ≠ 0) (h1 : ∀ c, (a, c) ∈ l → (a, c) = r0) (h2 : ∀ c, (c, b) ∈ l → (c, b) = r0)
    (hr0 : r0 ≠ (0, 0)) :
    Good (l.set i (a, b)) := by
  obtain ⟨l₁, l₂, e1, e2⟩ := set_split h (a, b)
  have hp := hg.inj
  rw [e1, List.pairwise_append, List.pairwise_cons] at hp
  have hn : ∀ r, r ∈ l₁ ∨ r ∈ l₂ → r ≠ r0 := by
    rintro r (hm | hm) rfl
    · exact (hp.2.2 r hm r (by simp) hr0 hr0).1 rfl
    · exact (hp.2.1.1 r hm hr0 hr0).1 rfl
  have hmem : ∀ r, r ∈ l₁ ∨ r ∈ l₂ → r ∈ l := by
    intro r hr; rw [e1]; simp; tauto
  have hd : ∀ r, r ∈ l₁ ∨ r ∈ l₂ → r.1 ≠ a ∧ r.2 ≠ b := by
    intro r hr
    refine ⟨?_, ?_⟩
    · rintro rfl; exact hn r hr (h1 r.2 (hmem r hr))
    · rintro rfl; exact hn r hr (h2 r.1 (hmem r hr))
  rw [e2]
  refine ⟨?_, ?_⟩
  · intro r hr
    simp only [List.mem_append, List.mem_cons] at hr
    rcases hr with hr | rfl | hr
    · exact hg.nz r (hmem r (Or.inl hr))
    · exact Or.inr ⟨ha, hb⟩
    · exact hg.nz r (hmem r (Or.inr hr))
  · rw [List.pairwise_append, List.pairwise_cons]
    refine ⟨hp.1, ⟨?_, hp.2.1.2⟩, ?_⟩
    · intro r hr _ _
      have := hd r (Or.inr hr)
      exact ⟨this.1.symm, this.2.symm⟩
    · intro r hr r' hr' hz hz'
      rcases List.mem_cons.mp hr' with rfl | hr'
      · exact hd r (Or.inl hr)
      · exact hp.2.2 r hr r' (by simp [hr']) hz hz'

theorem Good.zero {l : List Row} (hg : Good l) (i : Nat) : Good (l.set i (0, 0)) := by
  by_cases hi : i < l.length
  · have h : l[i]? = some l[i] := List.getElem?_eq_getElem hi
    obtain ⟨l₁, l₂, e1, e2⟩ := set_split h (0, 0)
    have hp := hg.inj
    rw [e1, List.pairwise_append, List.pairwise_cons] at hp
    rw [e2]
    refine ⟨?_, ?_⟩
    · intro r hr
      simp only [List.mem_append, List.mem_cons] at hr
      rcases hr with hr | rfl | hr
      · exact hg.nz r (by rw [e1]; simp [hr])
      · exact Or.inl rfl
      · exact hg.nz r (by rw [e1]; simp [hr])
    · rw [List.pairwise_append, List.pairwise_cons]
      refine ⟨hp.1, ⟨fun r _ h0 => absurd rfl h0, hp.2.1.2⟩, ?_⟩
      intro r hr r' hr' hz hz'
      rcases List.mem_cons.mp hr' with rfl | hr'
      · exact absurd rfl hz'
      · exact hp.2.2 r hr r' (by simp [hr']) hz hz'
  · rw [List.set_eq_of_length_le (by omega)]; exact hg

/-! ## Lookups -/

theorem rowAt_eq {l : List Row} {i : Nat} {r : Row} (h : l[i]? = some r) : rowAt l i = r := by
  simp [rowAt, List.getD, h]

theorem findFst_some {l : List Row} {a i : Nat} (h : l.findIdx? (·.1 == a) = some i) :
    ∃ b, l[i]? = some (a, b) := by
  obtain ⟨hi, h2, _⟩ := List.findIdx?_eq_some_iff_getElem.mp h
  refine ⟨l[i].2, ?_⟩
  rw [List.getElem?_eq_getElem hi]
  have : l[i].1 = a := by simpa using h2
  rw [← this]

theorem findFst_none {l : List Row} {a : Nat} : l.findIdx? (·.1 == a) = none ↔ ∀ b, (a, b) ∉ l := by
  rw [List.findIdx?_eq_none_iff]
  constructor
  · intro h b hm; simpa using h _ hm
  · rintro h ⟨x, y⟩ hm
    simp only [beq_eq_false_iff_ne]
    rintro rfl; exact h y hm

theorem findSnd_some {l : List Row} {b i : Nat} (h : l.findIdx? (·.2 == b) = some i) :
    ∃ a, l[i]? = some (a, b) := by
  obtain ⟨hi, h2, _⟩ := List.findIdx?_eq_some_iff_getElem.mp h
  refine ⟨l[i].1, ?_⟩
  rw [List.getElem?_eq_getElem hi]
  have : l[i].2 = b := by simpa using h2
  rw [← this]

theorem findSnd_none {l : List Row} {b : Nat} : l.findIdx? (·.2 == b) = none ↔ ∀ a, (a, b) ∉ l := by
  rw [List.findIdx?_eq_none_iff]
  constructor
  · intro h a hm; simpa using h _ hm
  · rintro h ⟨x, y⟩ hm
    simp only [beq_eq_false_iff_ne]
    rintro rfl; exact h x hm

theorem findFst_of_mem {l : List Row} {a b : Nat} (hm : (a, b) ∈ l)
    (hu : ∀ c, (a, c) ∈ l → c = b) : ∃ i, l.findIdx? (·.1 == a) = some i ∧ l[i]? = some (a, b) := by
  cases h : l.findIdx? (·.1 == a) with
  | none => exact absurd hm (findFst_none.mp h b)
  | some i =>
    obtain ⟨c, hc⟩ := findFst_some h
    have := hu c (List.mem_of_getElem? hc)
    subst this
    exact ⟨i, rfl, hc⟩

theorem findSnd_of_mem {l : List Row} {a b : Nat} (hm : (a, b) ∈ l)
    (hu : ∀ c, (c, b) ∈ l → c = a) : ∃ i, l.findIdx? (·.2 == b) = some i ∧ l[i]? = some (a, b) := by
  cases h : l.findIdx? (·.2 == b) with
  | none => exact absurd hm (findSnd_none.mp h a)
  | some i =>
    obtain ⟨c, hc⟩ := findSnd_some h
    have := hu c (List.mem_of_getElem? hc)
    subst this
    exact ⟨i, rfl, hc⟩

end Flo
