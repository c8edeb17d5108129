import Verif.Model.Modify
import Verif.Proofs.Post
/-!
# The name tables
-/
namespace Flo

section Trie
variable (slot : UInt64 → Nat)

/-- All values in the trie are non-zero. -/
def ATrie.NZ : ATrie → Prop
  | .nil => True
  | .node _ v c0 c1 c2 c3 => v ≠ 0 ∧ c0.NZ ∧ c1.NZ ∧ c2.NZ ∧ c3.NZ

theorem ATrie.insert_nz {t : ATrie} (h : t.NZ) (k : Str) {v : Nat} (hv : v ≠ 0) (hs : UInt64) :
    (t.insert slot k v hs).2.NZ := by
  induction t generalizing hs with
  | nil => simp [insert, NZ, hv]
  | node key value c0 c1 c2 c3 i0 i1 i2 i3 =>
    obtain ⟨hv', h0, h1, h2, h3⟩ := h
    simp only [insert]
    split
    · exact ⟨hv', h0, h1, h2, h3⟩
    · split
      · exact ⟨hv', i0 h0 _, h1, h2, h3⟩
      · exact ⟨hv', h0, i1 h1 _, h2, h3⟩
      · exact ⟨hv', h0, h1, i2 h2 _, h3⟩
      · exact ⟨hv', h0, h1, h2, i3 h3 _⟩

theorem ATrie.insert_found {t : ATrie} (k : Str) (v : Nat) (hs : UInt64) {w : Nat}
    (h : (t.insert slot k v hs).1 = some w) :
    t.find slot k hs = w ∧ (t.insert slot k v hs).2 = t := by
  induction t generalizing hs with
  | nil => simp [insert] at h
  | node key value c0 c1 c2 c3 i0 i1 i2 i3 =>
    simp only [insert, find] at h ⊢
    split
    · rename_i hk; simp [hk] at h; simp [h]
    · rename_i hk
      simp only [hk, if_false, Bool.false_eq_true] at h
      split at h
      · have := i0 _ h; exact ⟨this.1, by rw [this.2]⟩
      · have := i1 _ h; exact ⟨this.1, by rw [this.2]⟩
      · have := i2 _ h; exact ⟨this.1, by rw [this.2]⟩
      · rename_i e0 e1 e2
        have := i3 _ h
        exact ⟨this.1, by rw [this.2]⟩

theorem ATrie.insert_new {t : ATrie} (k : Str) (v : Nat) (hs : UInt64)
    (h : (t.insert slot k v hs).1 = none) :
    t.find slot k hs = 0 ∧ (t.insert slot k v hs).2.find slot k hs = v := by
  induction t generalizing hs with
  | nil => simp [insert, find, strEq]
  | node key value c0 c1 c2 c3 i0 i1 i2 i3 =>
    simp only [insert] at h ⊢
    by_cases hk : strEq k key = true
    · simp [hk] at h
    · simp only [hk, if_false, Bool.false_eq_true] at h ⊢
      split at h
      · rename_i e; simp only [e, find, hk, if_false, Bool.false_eq_true]; exact i0 _ h
      · rename_i e; simp only [e, find, hk, if_false, Bool.false_eq_true]; exact i1 _ h
      · rename_i e; simp only [e, find, hk, if_false, Bool.false_eq_true]; exact i2 _ h
      · rename_i e0 e1 e2
        have := i3 _ h
        simp only [find, hk, if_false, Bool.false_eq_true]
        exact this

theorem ATrie.find_insert_ne {t : ATrie} {k k' : Str} (hne : k' ≠ k) (v : Nat) (hs hs' : UInt64) :
    (t.insert slot k v hs).2.find slot k' hs' = t.find slot k' hs' := by
  induction t generalizing hs hs' with
  | nil =>
    have : strEq k' k = false := by simpa [strEq] using hne
    simp only [insert, find, this, Bool.false_eq_true, if_false]
    split <;> rfl
  | node key value c0 c1 c2 c3 i0 i1 i2 i3 =>
    simp only [insert]
    split
    · rfl
    · split <;> simp only [find] <;> split <;> try rfl
      all_goals (split <;> first | rfl | apply i0 | apply i1 | apply i2 | apply i3)

theorem ATrie.find_nz {t : ATrie} (h : t.NZ) {k : Str} {v : Nat} {hs : UInt64} (hv : v ≠ 0) :
    (t.insert slot k v hs).1 = none ↔ t.find slot k hs = 0 := by
  constructor
  · intro h; exact (insert_new slot k v hs h).1
  · intro h0
    cases hi : (t.insert slot k v hs).1 with
    | none => rfl
    | some w =>
      exfalso
      have hw := (insert_found slot k v hs hi).1
      rw [h0] at hw
      subst hw
      clear hv h0
      induction t generalizing hs with
      | nil => simp [insert] at hi
      | node key value c0 c1 c2 c3 i0 i1 i2 i3 =>
        obtain ⟨hv', h0, h1, h2, h3⟩ := h
        simp only [insert] at hi
        split at hi
        · simp at hi; exact hv' hi
        · split at hi
          · exact i0 h0 hi
          · exact i1 h1 hi
          · exact i2 h2 hi
          · exact i3 h3 hi

/-- The entries of the trie, node by node. -/
def ATrie.entries : ATrie → List (Str × Nat)
  | .nil => []
  | .node k v c0 c1 c2 c3 => (k, v) :: (c0.entries ++ (c1.entries ++ (c2.entries ++ c3.entries)))

end Trie

theorem autoOffset_eq_zero (h : UInt64) : (autoOffset h).toNat = 0 := by
  unfold autoOffset autoIndex
  rw [UInt64.toNat_mul, UInt64.toNat_shiftLeft]
  have : (62 : UInt64).toNat % 64 = 62 := by decide
  rw [this]
  have : (8 : UInt64).toNat = 8 := by decide
  rw [this, Nat.shiftLeft_eq, Nat.mod_mul_mod]
  omega

theorem autoSlot_zero (h : UInt64) : autoSlot h = 0 := by
  unfold autoSlot; rw [autoOffset_eq_zero]

/-- Only first links are used. -/
def ATrie.Chain : ATrie → Prop
  | .nil => True
  | .node _ _ c0 c1 c2 c3 => c0.Chain ∧ c1 = .nil ∧ c2 = .nil ∧ c3 = .nil

theorem ATrie.insert_chain {t : ATrie} (h : t.Chain) (k : Str) (v : Nat) (hs : UInt64) :
    (t.insert autoSlot k v hs).2.Chain := by
  induction t generalizing hs with
  | nil => exact ⟨trivial, rfl, rfl, rfl⟩
  | node key value c0 c1 c2 c3 i0 i1 i2 i3 =>
    simp only [insert, autoSlot_zero]
    split
    · exact h
    · exact ⟨i0 h.1 _, h.2⟩

theorem ATrie.entries_insert (k : Str) (v : Nat) {t : ATrie} (ht : t.Chain) : ∀ h,
    (t.insert autoSlot k v h).1 = none → (t.insert autoSlot k v h).2.entries = t.entries ++ [(k, v)] := by
  induction t with
  | nil => intro h _; simp [ATrie.insert, entries]
  | node key value c0 c1 c2 c3 i0 i1 i2 i3 =>
    obtain ⟨h0, rfl, rfl, rfl⟩ := ht
    intro h hn
    simp only [ATrie.insert, autoSlot_zero] at hn ⊢
    by_cases hk : strEq k key = true
    · simp [hk] at hn
    · simp only [hk, Bool.false_eq_true, if_false] at hn ⊢
      simp only [entries, i0 h0 _ hn, List.append_nil, List.cons_append]

/-- The table `m` and the registry `reg` (whose entry 0 is a placeholder) describe the same numbering. -/
structure MapOK (m : AutoMap) (reg : List Str) : Prop where
  nz : m.root.NZ
  len : reg.length = m.identity + 1
  le : m.identity ≤ 65535
  iff : ∀ k v, v ≠ 0 → (m.contains k = v ↔ reg[v]? = some k)
  chain : m.root.Chain
  list : m.root.entries = reg.zipIdx.drop 1

theorem MapOK.empty : MapOK .empty [[]] := by
  refine ⟨trivial, rfl, by decide, ?_, trivial, rfl⟩
  intro k v hv
  simp only [AutoMap.contains, AutoMap.empty, ATrie.find]
  constructor
  · intro h; exact absurd h.symm hv
  · intro h
    obtain ⟨h1, _⟩ := List.getElem?_eq_some_iff.mp h
    simp at h1; exact absurd h1 hv

/-- What one insertion does. -/
theorem MapOK.insert {m : AutoMap} {reg : List Str} (h : MapOK m reg) (k : Str) :
    match m.insert k with
    | .ok r =>
      r.entryIndex ≠ 0 ∧
      (if r.wasInserted then
        m.contains k = 0 ∧ m.identity < 65535 ∧ r.entryIndex = reg.length ∧ MapOK r.map (reg ++ [k])
       else m.contains k = r.entryIndex ∧ r.map = m ∧ reg[r.entryIndex]? = some k)
    | .longjmp => m.contains k = 0 ∧ m.identity = 65535
    | _ => False := by
  unfold AutoMap.insert
  have hnz := ATrie.find_nz autoSlot h.nz (k := k) (v := m.identity + 1) (hs := hashDjb2 k) (by omega)
  have hnew := ATrie.insert_new autoSlot (t := m.root) k (m.identity + 1) (hashDjb2 k)
  have hne := fun k' (hk : k' ≠ k) => ATrie.find_insert_ne autoSlot (t := m.root) hk (m.identity + 1)
    (hashDjb2 k) (hashDjb2 k')
  have hfound := fun w => ATrie.insert_found autoSlot (t := m.root) k (m.identity + 1) (hashDjb2 k) (w := w)
  have hz := ATrie.insert_nz autoSlot h.nz k (v := m.identity + 1) (by omega) (hashDjb2 k)
  rcases hr : m.root.insert autoSlot k (m.identity + 1) (hashDjb2 k) with ⟨o, t⟩
  rw [hr] at hnz hnew hne hfound hz
  cases o with
  | some v =>
    dsimp only at hnz hfound ⊢
    have hc : m.contains k = v := (hfound v rfl).1
    have hv : v ≠ 0 := by
      rintro rfl
      have := hnz.mpr hc
      cases this
    refine ⟨hv, ?_⟩
    simp only [Bool.false_eq_true, if_false]
    exact ⟨hc, trivial, (h.iff k v hv).mp hc⟩
  | none =>
    dsimp only at hnz hnew hne hz ⊢
    have hc : m.contains k = 0 := (hnew rfl).1
    split
    · rename_i hsplit
      split at hsplit
      · cases hsplit
      · rename_i hid
        cases hsplit
        refine ⟨by simp, ?_⟩
        simp only [if_true]
        refine ⟨hc, by have := h.le; omega, h.len.symm, hz, by simp [h.len], by have := h.le; dsimp only; omega, ?_, ?_, ?_⟩
        rotate_left
        · have hp := ATrie.insert_chain h.chain k (m.identity + 1) (hashDjb2 k)
          rw [hr] at hp
          exact hp
        · have hp := ATrie.entries_insert k (m.identity + 1) h.chain (hashDjb2 k) (by rw [hr])
          rw [hr] at hp
          refine hp.trans ?_
          rw [List.zipIdx_append, List.drop_append_of_le_length (by rw [List.length_zipIdx]; have := h.len; omega)]
          simp only [List.zipIdx_cons, List.zipIdx_nil, Nat.zero_add, h.len, h.list]
        intro k' v hv
        show t.find autoSlot k' (hashDjb2 k') = v ↔ _
        by_cases hk : k' = k
        · subst hk
          rw [(hnew rfl).2]
          have hlen := h.len
          constructor
          · rintro rfl; rw [← hlen]; simp
          · intro hx
            by_cases hlt : v < reg.length
            · rw [List.getElem?_append_left hlt] at hx
              have := (h.iff k' v hv).mpr hx
              rw [hc] at this; exact absurd this.symm hv
            · obtain ⟨h1, _⟩ := List.getElem?_eq_some_iff.mp hx
              simp at h1; omega
        · rw [hne k' hk]
          have := h.iff k' v hv
          unfold AutoMap.contains at this
          rw [this]
          by_cases hlt : v < reg.length
          · rw [List.getElem?_append_left hlt]
          · rw [List.getElem?_eq_none (by omega)]
            constructor
            · intro hx; cases hx
            · intro hx
              obtain ⟨h1, h2⟩ := List.getElem?_eq_some_iff.mp hx
              have : v = reg.length := by simp at h1; omega
              subst this
              simp at h2
              exact absurd h2.symm hk
    · rename_i hsplit
      split at hsplit
      · rename_i hid; exact ⟨hc, hid⟩
      · cases hsplit
    · rename_i h1 h2
      split at h1 <;> simp_all

end Flo
