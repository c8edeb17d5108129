import Verif.Proofs.Sets
/-!
# C48, C49: the hash sets
-/
namespace Flo
open Spec

/-- **C48** The growing 16-bit set is a set: whatever the hash function `h` is, inserting any sequence of
non-zero 16-bit values into the initial set succeeds (it terminates, stays inside its slots and never jumps);
afterwards a value is contained iff it was inserted, and the array made from the set lists exactly the inserted
values, each once; its length is the number of different values. -/
theorem C48_growing_set (h : Nat → UInt64) (vs : List Nat) (hvs : ∀ v ∈ vs, v ≠ 0 ∧ v < 65536) :
    ∃ m L, runInserts (u16InsertWith h) vs U16Set.fresh = .ok m ∧
      (∀ v, msiContains 0 v (h v) m = .ok (decide (v ∈ vs))) ∧
      u16ToArray m = .ok L ∧ L.Nodup ∧ (∀ v, v ∈ L ↔ v ∈ vs) ∧ L.length = distinct vs := by
  obtain ⟨h1, h2, h3⟩ := U16OK.fresh h
  obtain ⟨m, hr, hm, hx, he⟩ := u16_runInserts vs U16Set.fresh h1 h2 hvs
  rw [h3] at he
  have he : ∀ w, w ∈ m.toList 0 ↔ w ∈ vs := by intro w; rw [he]; simp
  refine ⟨m, _, hr, ?_, U16OK.toArray hx, hm.msi.nodup, he, length_eq_distinct hm.msi.nodup he⟩
  intro v
  rw [hm.msi.contains v hm.free]
  congr 1
  rw [decide_eq_decide]
  exact he v

/-- Non-vacuity: 200 values, with a hash function that sends everything to the same place. -/
example : ∀ v ∈ (List.range 200).map (· + 1), v ≠ 0 ∧ v < 65536 := by
  intro v hv
  simp only [List.mem_map, List.mem_range] at hv
  omega

/-- **C48** The same for a set made with an exponent of the caller's choice: from 31 on the failure handler is taken; otherwise
the new set is empty, and can be filled as the initial one. -/
theorem C48_any_exponent (h : Nat → UInt64) (e : Nat) (he : 1 ≤ e) (vs : List Nat) (hvs : ∀ v ∈ vs, v ≠ 0 ∧ v < 65536) :
    (31 ≤ e → (Msi.new 0 e : Out U16Set) = .longjmp) ∧
    (e < 31 → ∃ m0 m L, Msi.new 0 e = .ok m0 ∧ u16ToArray m0 = .ok [] ∧ m0.buf.length = 2 ^ e ∧
      runInserts (u16InsertWith h) vs m0 = .ok m ∧
      (∀ v, msiContains 0 v (h v) m = .ok (decide (v ∈ vs))) ∧
      u16ToArray m = .ok L ∧ L.Nodup ∧ (∀ v, v ∈ L ↔ v ∈ vs) ∧ L.length = distinct vs) := by
  refine ⟨fun h1 => by unfold Msi.new; rw [if_pos h1], fun h1 => ?_⟩
  obtain ⟨m0, m, a, b, c, d, e1, f, g, i⟩ := new_runInserts (h := h) he h1 vs hvs
  refine ⟨m0, m, _, a, ?_, ?_, d, ?_, U16OK.toArray f, e1.nodup, i, length_eq_distinct e1.nodup i⟩
  · unfold u16ToArray; rw [b, c]; rfl
  · unfold Msi.new at a; rw [if_neg (by omega)] at a; cases a; simp
  · intro v
    rw [e1.contains v g]
    congr 1
    rw [decide_eq_decide]
    exact i v

/-- **C48** Clearing a set in use gives an empty set that can be filled again. -/
theorem C48_reset (h : Nat → UInt64) (vs ws : List Nat) (hvs : ∀ v ∈ vs, v ≠ 0 ∧ v < 65536)
    (hws : ∀ v ∈ ws, v ≠ 0 ∧ v < 65536) {m : U16Set}
    (hm : runInserts (u16InsertWith h) vs U16Set.fresh = .ok m) :
    ∃ m' L, runInserts (u16InsertWith h) ws (u16Reset m) = .ok m' ∧ u16ToArray m' = .ok L ∧ L.Nodup ∧
      ∀ v, v ∈ L ↔ v ∈ ws := by
  obtain ⟨h1, h2, _⟩ := U16OK.fresh h
  obtain ⟨m1, hr, hm1, _, _⟩ := u16_runInserts vs U16Set.fresh h1 h2 hvs
  rw [hm] at hr; cases hr
  obtain ⟨r1, r2, r3⟩ := hm1.reset
  obtain ⟨m', hr', hm', hx', he'⟩ := u16_runInserts ws _ r1 r2 hws
  rw [r3] at he'
  exact ⟨m', _, hr', U16OK.toArray hx', hm'.msi.nodup, by intro v; rw [he']; simp⟩

/-- **C49** The fixed-size string set: inserting any sequence of strings either succeeds, and then a string is
contained iff it is non-empty and was inserted, or takes the failure handler; the latter happens exactly when
some insertion was attempted with half of the 128 slots already used. -/
theorem C49_string_set (ss : List Str) :
    (runInserts strSetInsert ss StrSet.fresh = .longjmp ∧
      ∃ l₁ s l₂, ss = l₁ ++ s :: l₂ ∧ 64 ≤ usedSlots l₁) ∨
    (∃ m, runInserts strSetInsert ss StrSet.fresh = .ok m ∧
      (∀ l₁ s l₂, ss = l₁ ++ s :: l₂ → usedSlots l₁ < 64) ∧
      (∀ s, msiContains [] s (hashDjb2 s) m = .ok (decide (s ≠ [] ∧ s ∈ ss))) ∧
      m.len = usedSlots ss) := by
  rcases str_runInserts ss [] StrSet.fresh StrOK.fresh with ⟨⟨l₁, s, l₂, e, hge⟩, hr⟩ | ⟨hno, m, hr, hm⟩
  · left; exact ⟨hr, l₁, s, l₂, e, by simpa using hge⟩
  · right
    have hlt : ∀ l₁ s l₂, ss = l₁ ++ s :: l₂ → usedSlots l₁ < 64 := by
      intro l₁ s l₂ e
      by_contra hc
      exact hno ⟨l₁, s, l₂, e, by simpa using hc⟩
    rw [List.nil_append] at hm
    refine ⟨m, hr, hlt, ?_, hm.used⟩
    intro s
    apply hm.contains
    rcases List.eq_nil_or_concat ss with rfl | ⟨l, t, rfl⟩
    · decide
    · rw [List.concat_eq_append] at *
      have h1 := hlt l t [] rfl
      rcases str_runInserts l [] StrSet.fresh StrOK.fresh with ⟨⟨l₁, s', l₂, e, hge⟩, hr'⟩ | ⟨_, m1, hr', hm1⟩
      · have := hlt l₁ s' (l₂ ++ [t]) (by simp [e])
        rw [List.nil_append] at hge
        omega
      · rw [List.nil_append] at hm1
        rw [runInserts_append, hr'] at hr
        have hu1 := hm1.used
        have hl1 := hm1.len
        rcases hm1.insert t with ⟨hge, _⟩ | ⟨_, m2, hr2, hm2⟩
        · omega
        · have : runInserts strSetInsert [t] m1 = .ok m2 := by unfold runInserts; rw [hr2]; rfl
          rw [Out.bind_ok, this] at hr
          cases hr
          rw [← hm.used]
          by_cases ht : t = []
          · subst ht
            unfold strSetInsert at hr2
            split at hr2
            · cases hr2
            · obtain ⟨b, hrun⟩ := hm1.msi.insert_nil (by rw [hm1.exp]; omega)
              rw [hrun] at hr2
              cases hr2
              show m1.len + 1 < 128
              omega
          · unfold strSetInsert at hr2
            split at hr2
            · cases hr2
            · rcases hm1.msi.insert ht (by rw [hm1.exp]; omega) with ⟨_, hrun⟩ | ⟨_, m3, hrun, _, _, hl3, _⟩
              · rw [hrun] at hr2; cases hr2; omega
              · rw [hrun] at hr2; cases hr2; rw [hl3]; omega

/-- Non-vacuity of both alternatives: few strings fit; 65 times the empty string does not. -/
example : (∀ l₁ s l₂, ([b!"class", b!"id", b!"class"] : List Str) = l₁ ++ s :: l₂ → usedSlots l₁ < 64) ∧
    64 ≤ usedSlots (List.replicate 64 []) := by
  refine ⟨?_, by decide⟩
  intro l₁ s l₂ e
  have hl : l₁.length ≤ 2 := by
    have := congrArg List.length e
    simp at this; omega
  have h1 : distinct (l₁.filter (· ≠ [])) ≤ l₁.length := by
    rw [distinct_eq]
    exact (List.Sublist.length_le (List.dedup_sublist _)).trans (List.length_filter_le _ _)
  have h2 : l₁.count [] ≤ l₁.length := List.count_le_length
  unfold usedSlots
  omega

end Flo
