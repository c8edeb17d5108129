import Verif.Proofs.CreateDom
import Verif.Proofs.Sat
import Verif.Spec.Intern
/-!
# Properties of the name tables
-/
namespace Flo
open Spec

/-! ## C11: interning -/

theorem firstSeen_prefix (ks : List Str) : ∀ seen, seen <+: firstSeen seen ks := by
  induction ks with
  | nil => intro seen; exact List.prefix_rfl
  | cons k ks ih =>
    intro seen
    refine List.IsPrefix.trans ?_ (ih _)
    split
    · exact List.prefix_rfl
    · exact List.prefix_append _ _

theorem internAll_spec (ks : List Str) : ∀ (m : AutoMap) (seen : List Str), MapOK m ([] :: seen) → seen.Nodup →
    match internAll ks m with
    | .ok (ids, m') => ids = ks.map (fun k => (firstSeen seen ks).idxOf k + 1) ∧ (firstSeen seen ks).Nodup ∧
        MapOK m' ([] :: firstSeen seen ks)
    | .longjmp => 65535 < (firstSeen seen ks).length
    | _ => False := by
  induction ks with
  | nil => intro m seen hm hn; exact ⟨rfl, hn, hm⟩
  | cons k ks ih =>
    intro m seen hm hn
    unfold internAll
    have hi := hm.insert k
    cases hins : m.insert k with
    | ub w => rw [hins] at hi; exact hi.elim
    | hang => rw [hins] at hi; exact hi.elim
    | longjmp =>
      rw [hins] at hi
      obtain ⟨h1, h2⟩ := hi
      simp only [Out.bind_longjmp]
      have hk : k ∉ seen := by
        intro hk
        obtain ⟨i, hi, he⟩ := List.getElem_of_mem hk
        have := (hm.iff k (i + 1) (by omega)).mpr (by simp [hi, he])
        omega
      have hl := hm.len
      have := (firstSeen_prefix ks (if k ∈ seen then seen else seen ++ [k])).length_le
      rw [if_neg hk] at this
      simp at hl this
      show 65535 < (firstSeen (if k ∈ seen then seen else seen ++ [k]) ks).length
      rw [if_neg hk]; omega
    | ok r =>
      rw [hins] at hi
      obtain ⟨hz, hi⟩ := hi
      simp only [Out.bind_ok]
      -- the registry after the insertion
      have key : MapOK r.map ([] :: (if k ∈ seen then seen else seen ++ [k])) ∧
          (if k ∈ seen then seen else seen ++ [k])[r.entryIndex - 1]? = some k ∧
          (if k ∈ seen then seen else seen ++ [k]).Nodup := by
        split at hi
        · obtain ⟨h1, h2, h3, h4⟩ := hi
          have hk : k ∉ seen := by
            intro hk
            obtain ⟨i, hi, he⟩ := List.getElem_of_mem hk
            have := (hm.iff k (i + 1) (by omega)).mpr (by simp [hi, he])
            omega
          rw [if_neg hk]
          refine ⟨by simpa using h4, by simp [h3], ?_⟩
          rw [List.nodup_append]
          refine ⟨hn, by simp, ?_⟩
          rintro a ha b hb rfl
          simp at hb; subst hb; exact hk ha
        · obtain ⟨h1, h2, h3⟩ := hi
          have h3' : seen[r.entryIndex - 1]? = some k := by
            obtain ⟨j, hj⟩ : ∃ j, r.entryIndex = j + 1 := ⟨r.entryIndex - 1, by omega⟩
            rw [hj] at h3 ⊢; simpa using h3
          have hk : k ∈ seen := List.mem_of_getElem? h3'
          rw [if_pos hk, h2]
          exact ⟨hm, h3', hn⟩
      obtain ⟨k1, k2, k3⟩ := key
      have := ih r.map _ k1 k3
      unfold firstSeen
      have hpre := firstSeen_prefix ks (if k ∈ seen then seen else seen ++ [k])
      cases hall : internAll ks r.map with
      | ok p =>
        rw [hall] at this
        obtain ⟨ids, m'⟩ := p
        obtain ⟨e1, e2, e3⟩ := this
        refine ⟨?_, e2, e3⟩
        rw [List.map_cons, e1]
        congr 1
        obtain ⟨t, ht⟩ := hpre
        have hidx : (firstSeen (if k ∈ seen then seen else seen ++ [k]) ks)[r.entryIndex - 1]? = some k := by
          rw [← ht, List.getElem?_append_left (lt_of_some k2)]; exact k2
        obtain ⟨hlt, hget⟩ := List.getElem?_eq_some_iff.mp hidx
        have := List.Nodup.idxOf_getElem e2 (r.entryIndex - 1) hlt
        rw [hget] at this
        omega
      | longjmp => rw [hall] at this; exact this
      | ub w => rw [hall] at this; exact this.elim
      | hang => rw [hall] at this; exact this.elim

/-- For every sequence of insertions into a fresh table, the identifier handed out for a string is one plus its
position in the list of different strings in first-seen order; a lookup afterwards gives that identifier, and
0 for strings never inserted. -/
theorem C11_interning (ks : List Str) (ids : List Nat) (m : AutoMap)
    (h : internAll ks .empty = .ok (ids, m)) :
    ids = ks.map (fun k => (firstSeen [] ks).idxOf k + 1) ∧ (firstSeen [] ks).Nodup ∧
    (∀ k ∈ firstSeen [] ks, m.contains k = (firstSeen [] ks).idxOf k + 1) ∧
    (∀ k, k ∉ firstSeen [] ks → m.contains k = 0) := by
  have := internAll_spec ks .empty [] MapOK.empty (by simp)
  rw [h] at this
  obtain ⟨h1, h2, h3⟩ := this
  refine ⟨h1, h2, ?_, ?_⟩
  · intro k hk
    refine (h3.iff k _ (by omega)).mpr ?_
    have hlt := List.idxOf_lt_length_of_mem hk
    rw [List.getElem?_cons_succ, List.getElem?_eq_getElem hlt, List.getElem_idxOf]
  · intro k hk
    by_contra hne
    have := (h3.iff k _ hne).mp rfl
    obtain ⟨j, hj⟩ : ∃ j, m.contains k = j + 1 := ⟨m.contains k - 1, by omega⟩
    rw [hj] at this
    exact hk (List.mem_of_getElem? (by simpa using this))

theorem firstSeen_mem (ks : List Str) : ∀ seen k, k ∈ firstSeen seen ks ↔ k ∈ seen ∨ k ∈ ks := by
  induction ks with
  | nil => intro seen k; simp [firstSeen]
  | cons a ks ih =>
    intro seen k
    rw [firstSeen, ih]
    split
    · rename_i h
      simp only [List.mem_cons]
      constructor
      · rintro (h1 | h1) <;> tauto
      · rintro (h1 | rfl | h1) <;> tauto
    · simp only [List.mem_append, List.mem_cons, List.not_mem_nil, or_false]; tauto

/-- Consequence: equal strings get equal identifiers, different strings different ones. -/
theorem C11_same_id_iff_same_string (ks : List Str) (ids : List Nat) (m : AutoMap)
    (h : internAll ks .empty = .ok (ids, m)) (i j : Nat) (hi : i < ks.length) (hj : j < ks.length) :
    ids[i]? = ids[j]? ↔ ks[i] = ks[j] := by
  obtain ⟨h1, _, _⟩ := C11_interning ks ids m h
  rw [h1, List.getElem?_map, List.getElem?_map, List.getElem?_eq_getElem hi, List.getElem?_eq_getElem hj]
  simp only [Option.map_some, Option.some_inj, Nat.add_right_cancel_iff]
  constructor
  · intro he
    exact (List.idxOf_inj ((firstSeen_mem ks [] _).mpr (Or.inr (List.getElem_mem hi)))).mp he
  · intro he; rw [he]

/-- The registries of a parsed document are in step with the tables: looking a name up yields the index at
which the registry stores it. -/
theorem C11_registry_of_parsed (s : Str) (d : Dom) (h : createDom s = .ok (some d)) (k : Str) (v : Nat) (hv : v ≠ 0) :
    (d.tagMap.contains k = v ↔ (d.tagReg[v]?).map (·.1) = some k) ∧
    (d.boolMap.contains k = v ↔ d.boolReg[v]? = some k) ∧
    (d.keyMap.contains k = v ↔ d.keyReg[v]? = some k) ∧
    (d.valMap.contains k = v ↔ d.valReg[v]? = some k) := by
  obtain ⟨b, ch, rfl, hb⟩ := createDom_ok h
  have hn := hb.names
  exact ⟨by rw [← List.getElem?_map]; exact hn.tag.iff k v hv, hn.bool.iff k v hv, hn.key.iff k v hv,
    hn.val.iff k v hv⟩

example : ∃ r, internAll [b!"a", b!"b", b!"a", b!"", b!"b"] .empty = .ok r ∧
    decide (r.1 = [1, 2, 1, 3, 2]) = true := okAnd_ex (by decide +kernel)

/-! ## C12: exhaustion -/

/-- Inserting into a table jumps to the failure handler exactly when the string is new and 65535 identifiers are
in use; it never returns an identifier outside 1..65535, and never one that another string has. -/
theorem C12_names_exhaustion (ks : List Str) (ids : List Nat) (m : AutoMap)
    (h : internAll ks .empty = .ok (ids, m)) (k : Str) :
    (m.insert k = .longjmp ↔ k ∉ ks ∧ (firstSeen [] ks).length = 65535) ∧
    ∀ r, m.insert k = .ok r → 1 ≤ r.entryIndex ∧ r.entryIndex ≤ 65535 ∧
      ∀ k', k' ≠ k → m.contains k' ≠ r.entryIndex := by
  have := internAll_spec ks .empty [] MapOK.empty (by simp)
  rw [h] at this
  obtain ⟨h1, h2, h3⟩ := this
  have hi := h3.insert k
  have hl := h3.len
  have hle := h3.le
  simp at hl
  have hks : k ∈ ks ↔ m.contains k ≠ 0 := by
    obtain ⟨_, _, c1, c2⟩ := C11_interning ks ids m h
    have := firstSeen_mem ks [] k
    simp at this
    rw [← this]
    constructor
    · intro hk; rw [c1 k hk]; omega
    · intro hk; by_contra hh; exact hk (c2 k hh)
  constructor
  · constructor
    · intro hj
      rw [hj] at hi
      exact ⟨fun hk => (hks.mp hk) hi.1, by omega⟩
    · rintro ⟨hk, hlen⟩
      have hk0 : m.contains k = 0 := by by_contra hh; exact hk (hks.mpr hh)
      cases hins : m.insert k with
      | longjmp => rfl
      | ub w => rw [hins] at hi; exact hi.elim
      | hang => rw [hins] at hi; exact hi.elim
      | ok r =>
        rw [hins] at hi
        obtain ⟨hz, hi⟩ := hi
        split at hi
        · omega
        · rw [hk0] at hi; omega
  · intro r hr
    rw [hr] at hi
    obtain ⟨hz, hi⟩ := hi
    split at hi
    · obtain ⟨a1, a2, a3, a4⟩ := hi
      simp at a3
      refine ⟨by omega, by omega, ?_⟩
      intro k' hk' he
      have := (h3.iff k' r.entryIndex hz).mp he
      rw [a3] at this
      simp at this
    · obtain ⟨a1, a2, a3⟩ := hi
      have hlt := lt_of_some a3
      simp at hlt
      refine ⟨by omega, by omega, ?_⟩
      intro k' hk' he
      have := (h3.iff k' r.entryIndex hz).mp he
      rw [a3] at this
      cases this
      exact hk' rfl

/-- Creating a node jumps exactly when 65535 identifiers are in use, and otherwise hands out the next one. -/
theorem C12_nodes_exhaustion (ty : NodeType) (d : Dom) :
    (createNode ty d = .longjmp ↔ 65535 ≤ d.nodes.length) ∧
    ∀ id d', createNode ty d = .ok (id, d') →
      id = d.nodes.length ∧ id ≤ 65534 ∧ d'.nodes.length = id + 1 ∧ d.nodes <+: d'.nodes := by
  constructor
  · unfold createNode
    split
    · exact ⟨fun _ => by omega, fun _ => rfl⟩
    · exact ⟨fun h => (by cases h), fun h => by omega⟩
  · intro id d' h
    obtain ⟨e1, e2, e3⟩ := createNode_eq h
    subst e3
    exact ⟨e1, by omega, by simp [e1], List.prefix_append _ _⟩

example : okAnd (createNode .text Dom.init) (fun r => r.1 == 2) = true := by decide

/-! ## C13: the subscript of the child links -/

theorem autoOffset_zero (h : UInt64) : autoOffset h = 0 := by
  have : (h <<< 62) * 8 = (0 : UInt64) := by
    rw [← UInt64.toBitVec_inj]
    simp only [UInt64.toBitVec_mul, UInt64.toBitVec_shiftLeft]
    apply BitVec.eq_of_toNat_eq
    simp only [BitVec.toNat_mul]
    have e : ((62 : UInt64).toBitVec % 64#64) = 62#64 := by decide
    have : (h.toBitVec <<< ((62 : UInt64).toBitVec % 64)).toNat = h.toNat * 2 ^ 62 % 2 ^ 64 := by
      show (h.toBitVec <<< ((62 : UInt64).toBitVec % 64#64)).toNat = _
      rw [e]
      show (h.toBitVec <<< (62#64).toNat).toNat = _
      simp [BitVec.toNat_shiftLeft, Nat.shiftLeft_eq]
    rw [this]
    show (h.toNat * 2 ^ 62 % 2 ^ 64) * 8 % 2 ^ 64 = 0
    omega
  exact this

/-- The property fails: the subscript computed for a lookup is outside the four links unless the two low bits of
the hash are 0. -/
theorem C13_violated (h : UInt64) : (autoIndex h).toNat < 4 ↔ h.toNat % 4 = 0 := by
  have : (autoIndex h).toNat = h.toNat * 2 ^ 62 % 2 ^ 64 := by
    unfold autoIndex
    rw [UInt64.toNat_shiftLeft]
    simp [Nat.shiftLeft_eq]
  rw [this]
  omega

/-- A concrete key for which it happens when a table with the single name "a" is searched. -/
theorem C13_violated_witness : ¬ (autoIndex (hashDjb2 b!"b")).toNat < 4 := by decide

/-- What holds: with 64-bit wrap-around address arithmetic the link read is always link 0 of the node.  Missing:
the C standard gives such a subscript no meaning, so the property itself cannot be proved. -/
theorem C13_link_zero_partial (h : UInt64) : autoSlot h = 0 := by
  unfold autoSlot
  rw [autoOffset_zero]; rfl

end Flo
