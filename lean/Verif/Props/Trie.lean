import Verif.Proofs.Trie
import Verif.Props.Names
import Mathlib.Data.List.Dedup
/-!
# The utility hash tries (C50), the value returned by the map (C67), depth of the number set (C68)
-/
namespace Flo
open Spec

/-! ## String set -/

theorem strInsert_step (k : Str) (t : QTrie Str) (hP : TriePlaced top64 shl64 hashDjb2 t) (hN : t.toList.Nodup) :
    ∃ t', trieStrInsert false k t = .ok (decide (k ∉ t.toList), t') ∧ TriePlaced top64 shl64 hashDjb2 t' ∧ t'.toList.Nodup ∧
      ∀ x, x ∈ t'.toList ↔ x = k ∨ x ∈ t.toList := by
  have := t.insert_spec false top64 shl64 top64_lt (fun d => strEq k d) k (by simp [strEq]) hashDjb2
    (fun d hd => by simp [strEq] at hd; rw [hd]) hP
  unfold trieStrInsert
  rcases this with ⟨d, hd, hs, hr⟩ | ⟨hno, hr⟩
  · rw [hr]
    simp only [Out.bind_ok]
    simp [strEq] at hs
    subst hs
    refine ⟨t, by simp [hd], hP, hN, fun x => ⟨.inr, ?_⟩⟩
    rintro (rfl | h)
    · exact hd
    · exact h
  · simp only [Bool.false_eq_true, if_false] at hr
    obtain ⟨t', h1, h2, h3⟩ := hr
    have hk : k ∉ t.toList := fun h => by have := hno k h; simp [strEq] at this
    rw [h1]
    simp only [Out.bind_ok]
    refine ⟨t', by simp [hk], h3, h2.nodup_iff.2 (List.nodup_cons.2 ⟨hk, hN⟩), fun x => by rw [h2.mem_iff]; simp⟩

theorem strInserts_spec : ∀ (ks : List Str) (t : QTrie Str), TriePlaced top64 shl64 hashDjb2 t → t.toList.Nodup →
    ∃ rs t', strInserts ks t = .ok (rs, t') ∧ TriePlaced top64 shl64 hashDjb2 t' ∧ t'.toList.Nodup ∧
      (∀ x, x ∈ t'.toList ↔ x ∈ ks ∨ x ∈ t.toList) ∧ rs.length = ks.length ∧
      ∀ (i : Nat) k, ks[i]? = some k → rs[i]? = some (decide (k ∉ ks.take i ∧ k ∉ t.toList)) := by
  intro ks
  induction ks with
  | nil => intro t hP hN; exact ⟨[], t, rfl, hP, hN, by simp, rfl, by simp⟩
  | cons k ks ih =>
    intro t hP hN
    obtain ⟨t1, h1, h2, h3, h4⟩ := strInsert_step k t hP hN
    obtain ⟨rs, t2, g1, g2, g3, g4, g5, g6⟩ := ih t1 h2 h3
    unfold strInserts
    rw [h1]
    simp only [Out.bind_ok]
    rw [g1]
    simp only [Out.bind_ok]
    refine ⟨_, t2, rfl, g2, g3, fun x => ?_, by simp [g5], ?_⟩
    · rw [g4, h4]; simp; tauto
    · intro i x hx
      cases i with
      | zero => simp at hx; subst hx; simp
      | succ i =>
        simp at hx
        simp only [List.getElem?_cons_succ, List.take_succ_cons]
        rw [g6 i x hx]
        congr 1
        apply decide_eq_decide.2
        rw [h4]
        simp
        tauto

/-- **C50**: a string set.  Whatever strings are inserted in whatever order, the answer is true exactly for those not
inserted before, and iterating the set yields exactly the inserted strings, each once.  (The source demands non-empty
strings; the iteration macro stops at an empty one.) -/
theorem C50_string_set (ks : List Str) (hne : [] ∉ ks) :
    ∃ rs t es, strInserts ks .nil = .ok (rs, t) ∧ rs.length = ks.length ∧
      (∀ (i : Nat) k, ks[i]? = some k → rs[i]? = some (decide (k ∉ ks.take i))) ∧
      elements (fun s => s.length == 0) t = .ok es ∧ es.Nodup ∧ ∀ k, k ∈ es ↔ k ∈ ks := by
  obtain ⟨rs, t, h1, h2, h3, h4, h5, h6⟩ := strInserts_spec ks .nil trivial (by simp [QTrie.toList])
  refine ⟨rs, t, t.toList, h1, h5, fun i k hk => by simpa [QTrie.toList] using h6 i k hk, ?_, h3, fun k => by
    rw [h4]; simp [QTrie.toList]⟩
  rw [elements_spec]
  congr 1
  have := List.takeWhile_append_of_pos (p := fun s : Str => !(s.length == 0)) (l₁ := t.toList) (l₂ := []) (fun s hs => by
    have : s ≠ [] := fun e => hne (by rw [h4] at hs; subst e; simpa [QTrie.toList] using hs)
    simpa using this)
  simpa using this

/-! ## Set of numbers -/

theorem u16Insert_step (k : UInt16) (t : QTrie UInt16) (hP : TriePlaced top16 shl16 hash16 t) (hN : t.toList.Nodup) :
    ∃ t', trieU16Insert false k t = .ok (decide (k ∉ t.toList), t') ∧ TriePlaced top16 shl16 hash16 t' ∧ t'.toList.Nodup ∧
      ∀ x, x ∈ t'.toList ↔ x = k ∨ x ∈ t.toList := by
  have := t.insert_spec false top16 shl16 top16_lt (fun d => k == d) k (by simp) hash16
    (fun d hd => by simp at hd; rw [hd]) hP
  unfold trieU16Insert
  rcases this with ⟨d, hd, hs, hr⟩ | ⟨hno, hr⟩
  · rw [hr]
    simp only [Out.bind_ok]
    simp at hs
    subst hs
    refine ⟨t, by simp [hd], hP, hN, fun x => ⟨.inr, ?_⟩⟩
    rintro (rfl | h)
    · exact hd
    · exact h
  · simp only [Bool.false_eq_true, if_false] at hr
    obtain ⟨t', h1, h2, h3⟩ := hr
    have hk : k ∉ t.toList := fun h => by have := hno k h; simp at this
    rw [h1]
    simp only [Out.bind_ok]
    refine ⟨t', by simp [hk], h3, h2.nodup_iff.2 (List.nodup_cons.2 ⟨hk, hN⟩), fun x => by rw [h2.mem_iff]; simp⟩

theorem u16Inserts_spec : ∀ (ks : List UInt16) (t : QTrie UInt16), TriePlaced top16 shl16 hash16 t → t.toList.Nodup →
    ∃ rs t', u16Inserts ks t = .ok (rs, t') ∧ TriePlaced top16 shl16 hash16 t' ∧ t'.toList.Nodup ∧
      (∀ x, x ∈ t'.toList ↔ x ∈ ks ∨ x ∈ t.toList) ∧ rs.length = ks.length ∧
      ∀ (i : Nat) k, ks[i]? = some k → rs[i]? = some (decide (k ∉ ks.take i ∧ k ∉ t.toList)) := by
  intro ks
  induction ks with
  | nil => intro t hP hN; exact ⟨[], t, rfl, hP, hN, by simp, rfl, by simp⟩
  | cons k ks ih =>
    intro t hP hN
    obtain ⟨t1, h1, h2, h3, h4⟩ := u16Insert_step k t hP hN
    obtain ⟨rs, t2, g1, g2, g3, g4, g5, g6⟩ := ih t1 h2 h3
    unfold u16Inserts
    rw [h1]
    simp only [Out.bind_ok]
    rw [g1]
    simp only [Out.bind_ok]
    refine ⟨_, t2, rfl, g2, g3, fun x => ?_, by simp [g5], ?_⟩
    · rw [g4, h4]; simp; tauto
    · intro i x hx
      cases i with
      | zero => simp at hx; subst hx; simp
      | succ i =>
        simp at hx
        simp only [List.getElem?_cons_succ, List.take_succ_cons]
        rw [g6 i x hx]
        congr 1
        apply decide_eq_decide.2
        rw [h4]
        simp
        tauto

/-- **C50**: a set of 16-bit numbers (0 is not allowed by the source). -/
theorem C50_uint16_set (ks : List UInt16) (hne : 0 ∉ ks) :
    ∃ rs t es, u16Inserts ks .nil = .ok (rs, t) ∧ rs.length = ks.length ∧
      (∀ (i : Nat) k, ks[i]? = some k → rs[i]? = some (decide (k ∉ ks.take i))) ∧
      elements (fun x => x == 0) t = .ok es ∧ es.Nodup ∧ ∀ k, k ∈ es ↔ k ∈ ks := by
  obtain ⟨rs, t, h1, h2, h3, h4, h5, h6⟩ := u16Inserts_spec ks .nil trivial (by simp [QTrie.toList])
  refine ⟨rs, t, t.toList, h1, h5, fun i k hk => by simpa [QTrie.toList] using h6 i k hk, ?_, h3, fun k => by
    rw [h4]; simp [QTrie.toList]⟩
  rw [elements_spec]
  congr 1
  have := List.takeWhile_append_of_pos (p := fun x : UInt16 => !(x == 0)) (l₁ := t.toList) (l₂ := []) (fun s hs => by
    have : s ≠ 0 := fun e => hne (by rw [h4] at hs; subst e; simpa [QTrie.toList] using hs)
    simpa using this)
  simpa using this

/-! ## Map -/

theorem mapInsert_step (k : Str) (v : UInt16) (t : QTrie (Str × UInt16)) (hP : TriePlaced top64 shl64 (fun e => hashDjb2 e.1) t)
    (hN : (t.toList.map (·.1)).Nodup) :
    ∃ r t', trieMapInsert false k v t = .ok (r, t') ∧ TriePlaced top64 shl64 (fun e => hashDjb2 e.1) t' ∧
      (t'.toList.map (·.1)).Nodup ∧
      ((∃ w, (k, w) ∈ t.toList ∧ r = w ∧ t' = t) ∨
       ((∀ w, (k, w) ∉ t.toList) ∧ r = 1 ∧ ∀ x, x ∈ t'.toList ↔ x = (k, v) ∨ x ∈ t.toList)) := by
  have := t.insert_spec false top64 shl64 top64_lt (fun d => strEq k d.1) (k, v) (by simp [strEq]) (fun e => hashDjb2 e.1)
    (fun d hd => by simp [strEq] at hd; simp [hd]) hP
  unfold trieMapInsert
  rcases this with ⟨d, hd, hs, hr⟩ | ⟨hno, hr⟩
  · dsimp only at hr
    rw [hr]
    simp [strEq] at hs
    subst hs
    exact ⟨d.2, t, rfl, hP, hN, .inl ⟨d.2, hd, rfl, rfl⟩⟩
  · simp only [Bool.false_eq_true, if_false] at hr
    obtain ⟨t', h1, h2, h3⟩ := hr
    have hk : ∀ w, (k, w) ∉ t.toList := fun w h => by have := hno _ h; simp [strEq] at this
    rw [h1]
    refine ⟨1, t', rfl, h3, ?_, .inr ⟨hk, rfl, fun x => by rw [h2.mem_iff]; simp⟩⟩
    rw [(h2.map _).nodup_iff, List.map_cons, List.nodup_cons]
    refine ⟨fun h => ?_, hN⟩
    obtain ⟨e, he, hek⟩ := List.mem_map.1 h
    exact hk e.2 (by dsimp only at hek; rw [← hek]; exact he)

theorem nodup_keys_unique {l : List (Str × UInt16)} (h : (l.map (·.1)).Nodup) {k : Str} {v w : UInt16} (hv : (k, v) ∈ l)
    (hw : (k, w) ∈ l) : v = w := by
  have := List.inj_on_of_nodup_map h hv hw rfl
  exact (Prod.mk.inj this).2

/-- The value first given to a key, with an initial map. -/
theorem mapInserts_spec : ∀ (ops : List (Str × UInt16)) (t : QTrie (Str × UInt16)),
    TriePlaced top64 shl64 (fun e => hashDjb2 e.1) t → (t.toList.map (·.1)).Nodup →
    ∃ rs t', mapInserts ops t = .ok (rs, t') ∧ TriePlaced top64 shl64 (fun e => hashDjb2 e.1) t' ∧ (t'.toList.map (·.1)).Nodup ∧
      (∀ k v, (k, v) ∈ t'.toList ↔ (k, v) ∈ t.toList ∨ ((∀ w, (k, w) ∉ t.toList) ∧ firstValue ops k = some v)) ∧
      rs.length = ops.length ∧
      ∀ (i : Nat) o, ops[i]? = some o → ∃ r, rs[i]? = some r ∧ ((o.1, r) ∈ t.toList ∨
        ((∀ w, (o.1, w) ∉ t.toList) ∧ o.1 ∈ (ops.take i).map (·.1) ∧ firstValue ops o.1 = some r) ∨
        ((∀ w, (o.1, w) ∉ t.toList) ∧ o.1 ∉ (ops.take i).map (·.1) ∧ r = 1)) := by
  intro ops
  induction ops with
  | nil => intro t hP hN; exact ⟨[], t, rfl, hP, hN, by simp [firstValue], rfl, by simp⟩
  | cons o ops ih =>
    intro t hP hN
    obtain ⟨r, t1, h1, h2, h3, h4⟩ := mapInsert_step o.1 o.2 t hP hN
    obtain ⟨rs, t2, g1, g2, g3, g4, g5, g6⟩ := ih t1 h2 h3
    unfold mapInserts
    rw [h1]
    simp only [Out.bind_ok]
    rw [g1]
    simp only [Out.bind_ok]
    have hfv : ∀ k, firstValue (o :: ops) k = if o.1 = k then some o.2 else firstValue ops k := by
      intro k
      unfold firstValue
      by_cases h : o.1 = k
      · simp [List.find?_cons, h]
      · simp [List.find?_cons, h]
    refine ⟨_, t2, rfl, g2, g3, fun k v => ?_, by simp [g5], ?_⟩
    · rw [g4, hfv]
      rcases h4 with ⟨w, hw, rfl, rfl⟩ | ⟨hno, rfl, hmem⟩
      · by_cases hk : o.1 = k
        · subst hk
          constructor
          · rintro (h | ⟨h, _⟩)
            · exact .inl h
            · exact absurd hw (h r)
          · rintro (h | ⟨h, _⟩)
            · exact .inl h
            · exact absurd hw (h r)
        · rw [if_neg hk]
      · by_cases hk : o.1 = k
        · subst hk
          rw [if_pos rfl]
          constructor
          · rintro (h | ⟨h, _⟩)
            · rw [hmem] at h
              rcases h with h | h
              · exact .inr ⟨hno, by rw [(Prod.mk.inj h).2]⟩
              · exact .inl h
            · exact absurd ((hmem _).2 (.inl rfl)) (h o.2)
          · rintro (h | ⟨_, h⟩)
            · exact .inl ((hmem _).2 (.inr h))
            · left
              rw [hmem]
              left
              cases h
              rfl
        · rw [if_neg hk]
          have : ∀ w, (k, w) ∈ t1.toList ↔ (k, w) ∈ t.toList := by
            intro w
            rw [hmem]
            constructor
            · rintro (h | h)
              · exact absurd (Prod.mk.inj h).1.symm hk
              · exact h
            · exact .inr
          simp only [this]
    · intro i x hx
      cases i with
      | zero =>
        simp at hx
        subst hx
        refine ⟨r, by simp, ?_⟩
        rcases h4 with ⟨w, hw, rfl, rfl⟩ | ⟨hno, rfl, hmem⟩
        · exact .inl hw
        · exact .inr (.inr ⟨hno, by simp, rfl⟩)
      | succ i =>
        simp at hx
        obtain ⟨r', hr', hc⟩ := g6 i x hx
        refine ⟨r', by simpa using hr', ?_⟩
        simp only [List.take_succ_cons, List.map_cons, List.mem_cons]
        rcases h4 with ⟨w, hw, rfl, rfl⟩ | ⟨hno, rfl, hmem⟩
        · by_cases hk : x.1 = o.1
          · left
            rcases hc with h | ⟨h, _⟩ | ⟨h, _⟩
            · exact h
            · exact absurd (hk ▸ hw) (h _)
            · exact absurd (hk ▸ hw) (h _)
          · rw [hfv, if_neg (fun e => hk e.symm)]
            simp only [hk, false_or]
            exact hc
        · by_cases hk : x.1 = o.1
          · have hin : (x.1, o.2) ∈ t1.toList := (hmem _).2 (.inl (by rw [hk]))
            right; left
            refine ⟨fun w hw => hno w (hk ▸ hw), .inl hk, ?_⟩
            rw [hfv, if_pos hk.symm]
            rcases hc with h | ⟨h, _⟩ | ⟨h, _⟩
            · rw [nodup_keys_unique h3 h hin]
            · exact absurd hin (h _)
            · exact absurd hin (h _)
          · have hiff : ∀ w, (x.1, w) ∈ t1.toList ↔ (x.1, w) ∈ t.toList := by
              intro w
              rw [hmem]
              constructor
              · rintro (h | h)
                · exact absurd (Prod.mk.inj h).1 hk
                · exact h
              · exact .inr
            rw [hfv, if_neg (fun e => hk e.symm)]
            simp only [hiff] at hc
            simp only [hk, false_or]
            exact hc

/-- **C50**: a map from strings to numbers.  Iterating it yields each key once, with the value it was given first. -/
theorem C50_string_map (ops : List (Str × UInt16)) (hne : ∀ o ∈ ops, o.2 ≠ 0) :
    ∃ rs t es, mapInserts ops .nil = .ok (rs, t) ∧ elements (fun e => e.2 == 0) t = .ok es ∧ (es.map (·.1)).Nodup ∧
      ∀ k v, (k, v) ∈ es ↔ firstValue ops k = some v := by
  obtain ⟨rs, t, h1, h2, h3, h4, h5, h6⟩ := mapInserts_spec ops .nil trivial (by simp [QTrie.toList])
  refine ⟨rs, t, t.toList, h1, ?_, h3, fun k v => by rw [h4]; simp [QTrie.toList]⟩
  rw [elements_spec]
  congr 1
  have := List.takeWhile_append_of_pos (p := fun e : Str × UInt16 => !(e.2 == 0)) (l₁ := t.toList) (l₂ := []) (fun e he => by
    have he' := (h4 e.1 e.2).1 he
    simp [QTrie.toList] at he'
    unfold firstValue at he'
    cases hf : ops.find? (fun o => decide (o.1 = e.1)) with
    | none => rw [hf] at he'; cases he'
    | some o =>
      rw [hf] at he'
      simp at he'
      have := hne o (List.mem_of_find?_eq_some hf)
      rw [he'] at this
      simpa using this)
  simpa using this

/-- **C67 (partial)**: inserting a key that is already in the map returns the value stored for it.  *Missing*: for a new key the
function returns 1 (`true`) instead of the value, see `C67_violated`. -/
theorem C67_existing_key_partial (ops : List (Str × UInt16)) (rs : List UInt16) (t : QTrie (Str × UInt16))
    (h : mapInserts ops .nil = .ok (rs, t)) (i : Nat) (o : Str × UInt16) (ho : ops[i]? = some o)
    (hold : o.1 ∈ (ops.take i).map (·.1)) : ∃ v, rs[i]? = some v ∧ firstValue ops o.1 = some v := by
  obtain ⟨rs', t', h1, h2, h3, h4, h5, h6⟩ := mapInserts_spec ops .nil trivial (by simp [QTrie.toList])
  rw [h] at h1
  cases h1
  obtain ⟨r, hr, hc⟩ := h6 i o ho
  refine ⟨r, hr, ?_⟩
  rcases hc with h | ⟨_, _, h⟩ | ⟨_, h, _⟩
  · simp [QTrie.toList] at h
  · exact h
  · exact absurd hold h

/-- The answer for a new key is always 1. -/
theorem C67_new_key (ops : List (Str × UInt16)) (rs : List UInt16) (t : QTrie (Str × UInt16))
    (h : mapInserts ops .nil = .ok (rs, t)) (i : Nat) (o : Str × UInt16) (ho : ops[i]? = some o)
    (hnew : o.1 ∉ (ops.take i).map (·.1)) : rs[i]? = some 1 := by
  obtain ⟨rs', t', h1, h2, h3, h4, h5, h6⟩ := mapInserts_spec ops .nil trivial (by simp [QTrie.toList])
  rw [h] at h1
  cases h1
  obtain ⟨r, hr, hc⟩ := h6 i o ho
  rcases hc with h | ⟨_, h, _⟩ | ⟨_, _, rfl⟩
  · simp [QTrie.toList] at h
  · exact absurd h hnew
  · exact hr

/-- **C67 is violated**: the key `width` is mapped to 80, the insertion answers 1. -/
theorem C67_violated : ∃ t, trieMapInsert false b!"width" 80 .nil = .ok (1, t) ∧
    trieMapInsert false b!"width" 80 t = .ok (80, t) := ⟨_, rfl, by decide +kernel⟩

/-! ## The name tables of the DOM -/

theorem toQ_insert (slot : UInt64 → Nat) (k : Str) (v : Nat) (t : ATrie) : ∀ h,
    (t.insert slot k v h).1 = none → ((t.insert slot k v h).2.toQ.toList).Perm ((k, v) :: t.toQ.toList) := by
  induction t with
  | nil => intro h _; simp [ATrie.insert, ATrie.toQ, QTrie.toList]
  | node key value c0 c1 c2 c3 i0 i1 i2 i3 =>
    intro h hn
    simp only [ATrie.insert] at hn ⊢
    by_cases hk : strEq k key = true
    · simp [hk] at hn
    · simp only [hk, Bool.false_eq_true, if_false] at hn ⊢
      have p0 : ∀ {x : List (Str × Nat)} {a : Str × Nat} (l r : List (Str × Nat)) {y : List (Str × Nat)}, x.Perm (a :: y) →
          ((key, value) :: (l ++ (x ++ r))).Perm (a :: (key, value) :: (l ++ (y ++ r))) := by
        intro x a l r y hp
        refine (((hp.append_right r).append_left l).cons _).trans ?_
        exact ((List.perm_middle (l₁ := l)).cons _).trans (List.Perm.swap _ _ _)
      split at hn
      · have := p0 [] (c1.toQ.toList ++ (c2.toQ.toList ++ c3.toQ.toList)) (i0 _ hn)
        simpa [ATrie.toQ, QTrie.toList] using this
      · have := p0 c0.toQ.toList (c2.toQ.toList ++ c3.toQ.toList) (i1 _ hn)
        simpa [ATrie.toQ, QTrie.toList] using this
      · have := p0 (c0.toQ.toList ++ c1.toQ.toList) c3.toQ.toList (i2 _ hn)
        simpa [ATrie.toQ, QTrie.toList] using this
      · have := p0 (c0.toQ.toList ++ (c1.toQ.toList ++ c2.toQ.toList)) [] (i3 _ hn)
        simpa [ATrie.toQ, QTrie.toList] using this

/-- The table, its numbering, and what iterating over it shows. -/
structure TableOK (m : AutoMap) (reg : List Str) : Prop where
  map : MapOK m reg
  nodup : m.root.toQ.toList.Nodup
  mem : ∀ k v, (k, v) ∈ m.root.toQ.toList ↔ v ≠ 0 ∧ reg[v]? = some k

theorem TableOK.insert {m : AutoMap} {reg : List Str} (h : TableOK m reg) (k : Str) {r : Inserted} (hr : m.insert k = .ok r) :
    (k ∈ reg.tail ∧ r.map = m) ∨ (k ∉ reg.tail ∧ TableOK r.map (reg ++ [k])) := by
  have hM := h.map.insert k
  rw [hr] at hM
  dsimp only at hM
  obtain ⟨hz, hM⟩ := hM
  cases hw : r.wasInserted with
  | false =>
    rw [hw] at hM
    simp only [Bool.false_eq_true, if_false] at hM
    left
    refine ⟨?_, hM.2.1⟩
    obtain ⟨n, hn⟩ : ∃ n, r.entryIndex = n + 1 := ⟨r.entryIndex - 1, by omega⟩
    have h3 := hM.2.2
    rw [hn] at h3
    rw [← List.getElem?_tail] at h3
    exact List.mem_of_getElem? h3
  | true =>
    rw [hw] at hM
    simp only [if_true] at hM
    obtain ⟨h1, h2, h3, h4⟩ := hM
    right
    refine ⟨fun hk => ?_, h4, ?_, ?_⟩
    · obtain ⟨n, hn⟩ := List.mem_iff_getElem?.1 hk
      rw [List.getElem?_tail] at hn
      have := (h.map.iff k (n + 1) (by omega)).2 hn
      omega
    all_goals
      unfold AutoMap.insert at hr
      cases hi : m.root.insert autoSlot k (m.identity + 1) (hashDjb2 k) with
      | mk o t =>
        rw [hi] at hr
        cases o with
        | some v => cases hr; cases hw
        | none =>
          dsimp only at hr
          rw [if_neg (by omega)] at hr
          cases hr
          dsimp only at h3 ⊢
          have hp := toQ_insert autoSlot k (m.identity + 1) m.root (hashDjb2 k) (by rw [hi])
          rw [hi] at hp
          dsimp only at hp
          have hlen := h.map.len
          have hno : (k, m.identity + 1) ∉ m.root.toQ.toList := fun hm => by
            have := ((h.mem _ _).1 hm).2
            rw [List.getElem?_eq_none (by omega)] at this
            cases this
          first
          | exact hp.nodup_iff.2 (List.nodup_cons.2 ⟨hno, h.nodup⟩)
          | intro x v
            rw [hp.mem_iff, List.mem_cons, h.mem]
            constructor
            · rintro (e | ⟨e1, e2⟩)
              · obtain ⟨rfl, rfl⟩ := Prod.mk.inj e
                exact ⟨by omega, by rw [List.getElem?_append_right (by omega)]; simp [hlen]⟩
              · exact ⟨e1, by rw [List.getElem?_append_left (List.getElem?_eq_some_iff.1 e2).1]; exact e2⟩
            · rintro ⟨e1, e2⟩
              by_cases hv : v < reg.length
              · rw [List.getElem?_append_left hv] at e2
                exact .inr ⟨e1, e2⟩
              · left
                rw [List.getElem?_append_right (by omega)] at e2
                obtain ⟨e3, e4⟩ := List.getElem?_eq_some_iff.1 e2
                simp at e3 e4
                subst e4
                congr 1
                omega

theorem internAll_table : ∀ (ks : List Str) (m : AutoMap) (seen : List Str) (ids : List Nat) (m' : AutoMap),
    TableOK m ([] :: seen) → internAll ks m = .ok (ids, m') → TableOK m' ([] :: firstSeen seen ks) := by
  intro ks
  induction ks with
  | nil => intro m seen ids m' h hr; cases hr; exact h
  | cons k ks ih =>
    intro m seen ids m' h hr
    unfold internAll at hr
    cases hi : m.insert k with
    | ok r =>
      rw [hi] at hr
      simp only [Out.bind_ok] at hr
      cases hq : internAll ks r.map with
      | ok q =>
        obtain ⟨ids', m''⟩ := q
        rw [hq] at hr
        cases hr
        unfold firstSeen
        rcases h.insert k hi with ⟨h1, h2⟩ | ⟨h1, h2⟩
        · rw [List.tail_cons] at h1
          rw [if_pos h1]
          exact ih _ _ _ _ (by rw [h2]; exact h) hq
        · rw [List.tail_cons] at h1
          rw [if_neg h1]
          exact ih _ _ _ _ h2 hq
      | longjmp => rw [hq] at hr; cases hr
      | ub w => rw [hq] at hr; cases hr
      | hang => rw [hq] at hr; cases hr
    | longjmp => rw [hi] at hr; cases hr
    | ub w => rw [hi] at hr; cases hr
    | hang => rw [hi] at hr; cases hr

/-- **C50** for the name tables of a DOM: iterating over a table yields every name exactly once, with its identifier.  (Empty
names are allowed here: the macro stops at identifier 0, which is never given out.) -/
theorem C50_name_table (ks : List Str) (ids : List Nat) (m : AutoMap) (h : internAll ks .empty = .ok (ids, m)) :
    ∃ es, elements (fun e => e.2 == 0) m.root.toQ = .ok es ∧ es.Nodup ∧
      ∀ k v, (k, v) ∈ es ↔ ∃ i, v = i + 1 ∧ (firstSeen [] ks)[i]? = some k := by
  have hT := internAll_table ks .empty [] ids m ⟨MapOK.empty, by simp [AutoMap.empty, ATrie.toQ, QTrie.toList], by
    intro k v
    simp only [AutoMap.empty, ATrie.toQ, QTrie.toList, List.not_mem_nil, false_iff]
    rintro ⟨h1, h2⟩
    have := (List.getElem?_eq_some_iff.1 h2).1
    simp at this
    exact h1 this⟩ h
  refine ⟨m.root.toQ.toList, ?_, hT.nodup, fun k v => ?_⟩
  · rw [elements_spec]
    congr 1
    have := List.takeWhile_append_of_pos (p := fun e : Str × Nat => !(e.2 == 0)) (l₁ := m.root.toQ.toList) (l₂ := [])
      (fun e he => by have := ((hT.mem e.1 e.2).1 he).1; simpa using this)
    simpa using this
  · rw [hT.mem]
    constructor
    · rintro ⟨h1, h2⟩
      obtain ⟨n, rfl⟩ : ∃ n, v = n + 1 := ⟨v - 1, by omega⟩
      exact ⟨n, rfl, by simpa using h2⟩
    · rintro ⟨i, rfl, hi⟩
      exact ⟨by omega, by simpa using hi⟩

/-! ## Depth of the number set -/

/-- The number of levels. -/
def QTrie.depth {α : Type} : QTrie α → Nat
  | .nil => 0
  | .node _ c0 c1 c2 c3 => 1 + max (max c0.depth c1.depth) (max c2.depth c3.depth)

theorem visits_le_depth {α H : Type} (top : H → Nat) (shift : H → H) (same : α → Bool) (t : QTrie α) : ∀ h,
    visits top shift same h t ≤ t.depth := by
  induction t with
  | nil => intro h; exact Nat.le_refl _
  | node d c0 c1 c2 c3 i0 i1 i2 i3 =>
    intro h
    unfold visits QTrie.depth
    split
    · omega
    · have h0 := i0 (shift h)
      have h1 := i1 (shift h)
      have h2 := i2 (shift h)
      have h3 := i3 (shift h)
      split <;> omega

/-- If `n` digits of the hash identify a payload, the trie has at most `n + 1` levels. -/
theorem depth_le {α H : Type} (top : H → Nat) (shift : H → H) : ∀ (n : Nat) (t : QTrie α) (f : α → H), TriePlaced top shift f t →
    t.toList.Nodup →
    (∀ e ∈ t.toList, ∀ e' ∈ t.toList, (∀ j, j < n → top (shift^[j] (f e)) = top (shift^[j] (f e'))) → e = e') → t.depth ≤ n + 1 := by
  intro n
  induction n with
  | zero =>
    intro t f _ hN hE
    cases t with
    | nil => simp [QTrie.depth]
    | node d c0 c1 c2 c3 =>
      have hall : ∀ e ∈ (QTrie.node d c0 c1 c2 c3).toList, e = d := fun e he => hE e he d (by simp [QTrie.toList]) (by simp)
      simp only [QTrie.toList, List.nodup_cons, List.mem_append, not_or] at hN hall
      have hnil : ∀ c : QTrie α, d ∉ c.toList → (∀ e ∈ c.toList, e = d) → c.depth = 0 := by
        intro c h1 h2
        cases c with
        | nil => rfl
        | node d' e0 e1 e2 e3 =>
          have := h2 d' (by simp [QTrie.toList])
          subst this
          exact absurd (by simp [QTrie.toList]) h1
      obtain ⟨⟨n0, n1, n2, n3⟩, _⟩ := hN
      have e0 := hnil c0 n0 (fun e he => hall e (by simp [he]))
      have e1 := hnil c1 n1 (fun e he => hall e (by simp [he]))
      have e2 := hnil c2 n2 (fun e he => hall e (by simp [he]))
      have e3 := hnil c3 n3 (fun e he => hall e (by simp [he]))
      simp [QTrie.depth, e0, e1, e2, e3]
  | succ n ih =>
    intro t f hP hN hE
    cases t with
    | nil => simp [QTrie.depth]
    | node d c0 c1 c2 c3 =>
      obtain ⟨p0, p1, p2, p3, q0, q1, q2, q3⟩ := hP
      have hsub : ∀ (c : QTrie α) (i : Nat), (∀ e ∈ c.toList, top (f e) = i) →
          (∀ e ∈ c.toList, e ∈ (QTrie.node d c0 c1 c2 c3).toList) →
          ∀ e ∈ c.toList, ∀ e' ∈ c.toList,
            (∀ j, j < n → top (shift^[j] (shift (f e))) = top (shift^[j] (shift (f e')))) → e = e' := by
        intro c i hc hm e he e' he' hj
        refine hE e (hm e he) e' (hm e' he') (fun j hjn => ?_)
        cases j with
        | zero => simp [hc e he, hc e' he']
        | succ j => exact hj j (by omega)
      simp only [QTrie.toList, List.nodup_cons] at hN
      obtain ⟨_, hN⟩ := hN
      obtain ⟨n0, hN, _⟩ := List.nodup_append.1 hN
      obtain ⟨n1, hN, _⟩ := List.nodup_append.1 hN
      obtain ⟨n2, n3, _⟩ := List.nodup_append.1 hN
      have e0 := ih c0 _ q0 n0 (hsub c0 0 p0 (fun e he => by simp [QTrie.toList, he]))
      have e1 := ih c1 _ q1 n1 (hsub c1 1 p1 (fun e he => by simp [QTrie.toList, he]))
      have e2 := ih c2 _ q2 n2 (hsub c2 2 p2 (fun e he => by simp [QTrie.toList, he]))
      have e3 := ih c3 _ q3 n3 (hsub c3 3 p3 (fun e he => by simp [QTrie.toList, he]))
      unfold QTrie.depth
      omega

theorem xorshift_inj (a b : UInt16) (s : Nat) (hs : 0 < s) (hs' : s < 16)
    (h : a ^^^ (a >>> UInt16.ofNat s) = b ^^^ (b >>> UInt16.ofNat s)) : a = b := by
  have hb : ∀ (x : UInt16) (i : Nat), (x ^^^ (x >>> UInt16.ofNat s)).toBitVec.getLsbD i =
      (x.toBitVec.getLsbD i ^^ x.toBitVec.getLsbD (s + i)) := by
    intro x i
    have e : s % 65536 % 16 = s := by omega
    simp [BitVec.getLsbD_xor, e]
  have key : ∀ (k i : Nat), 16 ≤ i + k → a.toBitVec.getLsbD i = b.toBitVec.getLsbD i := by
    intro k
    induction k with
    | zero =>
      intro i hi
      rw [BitVec.getLsbD_of_ge _ _ (by omega), BitVec.getLsbD_of_ge _ _ (by omega)]
    | succ k ih =>
      intro i hi
      have h1 := hb a i
      rw [h, hb b i, ih (s + i) (by omega)] at h1
      revert h1
      cases a.toBitVec.getLsbD i <;> cases b.toBitVec.getLsbD i <;> cases b.toBitVec.getLsbD (s + i) <;> simp
  apply UInt16.eq_of_toBitVec_eq
  apply BitVec.eq_of_getLsbD_eq
  intro i _
  exact key 16 i (by omega)

theorem mul_inj (a b m inv : UInt16) (hm : m * inv = 1) (h : a * m = b * m) : a = b := by
  have := congrArg (· * inv) h
  simpa [UInt16.mul_assoc, hm] using this

/-- The 16-bit hash never collides. -/
theorem C68_hash16_injective (a b : UInt16) (h : hash16 a = hash16 b) : a = b := by
  unfold hash16 at h
  dsimp only at h
  have h1 := xorshift_inj _ _ 10 (by decide) (by decide) h
  have h2 := mul_inj _ _ 0x0235 0xc01d (by decide) h1
  have h3 := xorshift_inj _ _ 9 (by decide) (by decide) h2
  have h4 := mul_inj _ _ 0xe877 0x7147 (by decide) h3
  have h5 := xorshift_inj _ _ 5 (by decide) (by decide) h4
  have h6 := mul_inj _ _ 0x2993 0x5c9b (by decide) h5
  exact xorshift_inj _ _ 7 (by decide) (by decide) h6

theorem digits16 (a b : UInt16) (h : ∀ j, j < 8 → top16 (shl16^[j] a) = top16 (shl16^[j] b)) : a = b := by
  have hs : ∀ x : UInt16, (shl16 x).toNat = x.toNat * 4 % 65536 := by
    intro x
    unfold shl16
    rw [UInt16.toNat_shiftLeft]
    simp [Nat.shiftLeft_eq]
  have ht : ∀ x : UInt16, top16 x = x.toNat / 16384 := by
    intro x
    unfold top16
    rw [UInt16.toNat_shiftRight]
    simp [Nat.shiftRight_eq_div_pow]
  have h0 := h 0 (by omega)
  have h1 := h 1 (by omega)
  have h2 := h 2 (by omega)
  have h3 := h 3 (by omega)
  have h4 := h 4 (by omega)
  have h5 := h 5 (by omega)
  have h6 := h 6 (by omega)
  have h7 := h 7 (by omega)
  simp only [Function.iterate_succ, Function.iterate_zero, Function.comp, id, ht, hs] at h0 h1 h2 h3 h4 h5 h6 h7
  apply UInt16.toNat_inj.1
  have := a.toNat_lt
  have := b.toNat_lt
  clear h hs ht
  generalize a.toNat = x at *
  generalize b.toNat = y at *
  omega

/-- **C68**: whatever numbers have been inserted, an insertion into a set of 16-bit numbers looks at no more than 9 nodes. -/
theorem C68_short_paths (ks : List UInt16) (rs : List Bool) (t : QTrie UInt16) (h : u16Inserts ks .nil = .ok (rs, t)) (k : UInt16) :
    visits top16 shl16 (fun d => k == d) (hash16 k) t ≤ 9 := by
  obtain ⟨rs', t', h1, h2, h3, -⟩ := u16Inserts_spec ks .nil trivial (by simp [QTrie.toList])
  rw [h] at h1
  cases h1
  refine le_trans (visits_le_depth _ _ _ _ _) ?_
  exact depth_le top16 shl16 8 t hash16 h2 h3 (fun e _ e' _ hd => C68_hash16_injective e e' (digits16 _ _ hd))

/-! ## Concrete cases -/

example : ∃ t, strInserts [b!"a", b!"b", b!"a"] .nil = .ok ([true, true, false], t) ∧
    elements (fun s => s.length == 0) t = .ok [b!"a", b!"b"] := ⟨_, rfl, by decide +kernel⟩

example : ∃ t, mapInserts [(b!"a", 5), (b!"b", 6), (b!"a", 7)] .nil = .ok ([1, 1, 5], t) ∧
    elements (fun e => e.2 == 0) t = .ok [(b!"a", 5), (b!"b", 6)] := ⟨_, rfl, by decide +kernel⟩

example : ∃ t, u16Inserts [3, 17, 4, 3] .nil = .ok ([true, true, true, false], t) ∧
    elements (fun e => e == 0) t = .ok [3, 17, 4] := ⟨_, rfl, by decide +kernel⟩

example : ∃ r, internAll [b!"div", b!"p", b!"div"] .empty = .ok r ∧
    elements (fun e => e.2 == 0) r.2.root.toQ = .ok [(b!"div", 1), (b!"p", 2)] := ⟨_, rfl, by decide +kernel⟩

end Flo
