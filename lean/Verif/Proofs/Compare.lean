import Verif.Proofs.Kids
import Verif.Proofs.Sets
import Verif.Spec.Compare
/-!
# Comparing DOMs
-/
namespace Flo
open Spec

/-! ## Sets of attribute names -/

/-- What the comparison of the sets made of two lists of strings says. -/
def setStatus (xs ys : List Str) : CStatus :=
  if usedSlots xs ≠ usedSlots ys then .differentSizes
  else if ∀ s ∈ xs ++ ys, s ≠ [] → (s ∈ xs ↔ s ∈ ys) then .success else .differentContent

theorem setStatus_comm (xs ys : List Str) : setStatus xs ys = setStatus ys xs := by
  unfold setStatus
  by_cases h : usedSlots xs = usedSlots ys
  · rw [if_neg (not_not.mpr h), if_neg (not_not.mpr h.symm)]
    congr 1
    simp only [List.mem_append, eq_iff_iff]
    constructor
    · intro h s hs hn; exact (h s hs.symm hn).symm
    · intro h s hs hn; exact (h s hs.symm hn).symm
  · rw [if_pos h, if_pos (fun e => h e.symm)]

theorem setStatus_self (xs : List Str) : setStatus xs xs = .success := by
  unfold setStatus; simp

theorem usedSlots_perm {xs ys : List Str} (h : ∀ s, s ≠ [] → (s ∈ xs ↔ s ∈ ys)) (hc : usedSlots xs = usedSlots ys) :
    xs.count [] = ys.count [] := by
  unfold usedSlots at hc
  rw [distinct_eq, distinct_eq] at hc
  have : (xs.filter (· ≠ [])).dedup.length = (ys.filter (· ≠ [])).dedup.length := by
    apply List.Perm.length_eq
    rw [List.perm_ext_iff_of_nodup (List.nodup_dedup _) (List.nodup_dedup _)]
    intro a
    simp only [List.mem_dedup, List.mem_filter, decide_eq_true_eq]
    constructor
    · rintro ⟨h1, h2⟩; exact ⟨(h a h2).mp h1, h2⟩
    · rintro ⟨h1, h2⟩; exact ⟨(h a h2).mpr h1, h2⟩
  omega

theorem setStatus_success {xs ys : List Str} (h : setStatus xs ys = .success) : ∀ s, s ∈ xs ↔ s ∈ ys := by
  unfold setStatus at h
  split at h
  · cases h
  · rename_i hc
    split at h
    · rename_i hs
      have hs' : ∀ s, s ≠ [] → (s ∈ xs ↔ s ∈ ys) := by
        intro s hn
        constructor
        · intro hm; exact (hs s (List.mem_append_left _ hm) hn).mp hm
        · intro hm; exact (hs s (List.mem_append_right _ hm) hn).mpr hm
      have hcnt := usedSlots_perm hs' (by simpa using hc)
      intro s
      by_cases hn : s = []
      · subst hn
        rw [← List.count_pos_iff, ← List.count_pos_iff, hcnt]
      · exact hs' s hn
    · cases h

theorem allIn_eq {ys : List Str} {m : StrSet} (hm : StrOK ys m) (hu : usedSlots ys < 128) : ∀ l : List Str,
    allIn m l = .ok (decide (∀ s ∈ l, s ≠ [] ∧ s ∈ ys)) := by
  intro l
  induction l with
  | nil => simp [allIn]
  | cons e es ih =>
    unfold allIn
    rw [hm.contains hu, Out.bind_ok]
    by_cases he : e ≠ [] ∧ e ∈ ys
    · rw [decide_eq_true he, if_pos rfl, ih]
      congr 1
      rw [decide_eq_decide]
      constructor
      · intro h s hs
        rcases List.mem_cons.mp hs with rfl | hs
        · exact he
        · exact h s hs
      · intro h s hs; exact h s (List.mem_cons_of_mem _ hs)
    · rw [decide_eq_false he, if_neg (by simp)]
      symm
      congr 1
      rw [decide_eq_false_iff_not]
      intro h
      exact he (h e (by simp))

theorem equalsStringSet_eq {xs ys : List Str} {m1 m2 : StrSet} (h1 : StrOK xs m1) (h2 : StrOK ys m2)
    (hu1 : usedSlots xs < 128) (hu2 : usedSlots ys < 128) : equalsStringSet m1 m2 = .ok (setStatus xs ys) := by
  unfold equalsStringSet setStatus
  rw [h1.used, h2.used]
  by_cases hc : usedSlots xs = usedSlots ys
  · rw [if_neg (by simp [hc]), if_neg (by simp [hc]), allIn_eq h2 hu2, Out.bind_ok]
    by_cases ha : ∀ s ∈ m1.toList [], s ≠ [] ∧ s ∈ ys
    · rw [decide_eq_true ha]
      simp only [Bool.not_true, Bool.false_eq_true, if_false]
      rw [allIn_eq h1 hu1, Out.bind_ok]
      by_cases hb : ∀ s ∈ m2.toList [], s ≠ [] ∧ s ∈ xs
      · rw [decide_eq_true hb]
        simp only [Bool.not_true, Bool.false_eq_true, if_false]
        rw [if_pos]
        intro s _ hn
        exact ⟨fun hs => (ha s ((h1.mem s).mpr ⟨hn, hs⟩)).2, fun hs => (hb s ((h2.mem s).mpr ⟨hn, hs⟩)).2⟩
      · rw [decide_eq_false hb]
        simp only [Bool.not_false, if_true]
        rw [if_neg]
        intro h
        apply hb
        intro s hs
        obtain ⟨hn, hs⟩ := (h2.mem s).mp hs
        exact ⟨hn, (h s (List.mem_append_right _ hs) hn).mpr hs⟩
    · rw [decide_eq_false ha]
      simp only [Bool.not_false, if_true]
      rw [if_neg]
      intro h
      apply ha
      intro s hs
      obtain ⟨hn, hs⟩ := (h1.mem s).mp hs
      exact ⟨hn, (h s (List.mem_append_left _ hs) hn).mp hs⟩
  · rw [if_pos hc, if_pos hc]

/-- The set made of these strings does not fit. -/
abbrev Over (xs : List Str) : Prop := Overflows [] xs

theorem distinct_le {α : Type} [DecidableEq α] (l : List α) : distinct l ≤ l.length := by
  rw [distinct_eq]; exact (List.dedup_sublist l).length_le

theorem usedSlots_le (l : List Str) : usedSlots l ≤ l.length := by
  unfold usedSlots
  refine Nat.le_trans (Nat.add_le_add_right (distinct_le _) _) (Nat.le_of_eq ?_)
  induction l with
  | nil => rfl
  | cons a l ih =>
    by_cases ha : a = []
    · subst ha
      rw [List.filter_cons_of_neg (by simp), List.count_cons_self, List.length_cons]; omega
    · rw [List.filter_cons_of_pos (by simpa using ha), List.count_cons_of_ne ha, List.length_cons, List.length_cons]
      omega

theorem Over.length {xs : List Str} (h : Over xs) : 64 < xs.length := by
  obtain ⟨l₁, s, l₂, e, hge⟩ := h
  have := usedSlots_le l₁
  simp only [List.nil_append] at hge
  rw [e]; simp; omega

theorem not_over_used {xs : List Str} (h : ¬Over xs) : usedSlots xs < 128 := by
  rcases List.eq_nil_or_concat xs with rfl | ⟨l, t, rfl⟩
  · decide
  · rw [List.concat_eq_append] at *
    have : usedSlots l < 64 := by
      by_contra hc
      exact h ⟨l, t, [], rfl, by simpa using hc⟩
    have hd : distinct ((l ++ [t]).filter (· ≠ [])) ≤ distinct (l.filter (· ≠ [])) + 1 := by
      rw [distinct_eq, distinct_eq, List.filter_append]
      have h1 : ((l.filter (· ≠ [])) ++ ([t].filter (· ≠ []))).dedup.length ≤
          ((t :: (l.filter (· ≠ [])))).dedup.length := by
        apply List.Subperm.length_le
        apply List.Nodup.subperm (List.nodup_dedup _)
        intro a ha
        rw [List.mem_dedup] at ha ⊢
        rcases List.mem_append.mp ha with ha | ha
        · exact List.mem_cons_of_mem _ ha
        · have := List.mem_of_mem_filter ha
          simp at this; subst this; exact List.mem_cons_self
      have h2 : (t :: (l.filter (· ≠ []))).dedup.length ≤ (l.filter (· ≠ [])).dedup.length + 1 := by
        by_cases ht : t ∈ l.filter (· ≠ [])
        · rw [List.dedup_cons_of_mem ht]; omega
        · rw [List.dedup_cons_of_notMem ht]; simp
      omega
    unfold usedSlots at this ⊢
    rw [List.count_append]
    have : [t].count [] ≤ 1 := List.count_le_length
    omega

/-! ## Filling the sets -/

theorem regAt_eq {α : Type} {l : List α} {i : Nat} {x : α} (h : l[i]? = some x) : regAt l i = .ok x := by
  unfold regAt; rw [h]

theorem regAt_getD {l : List Str} {i : Nat} (h : i < l.length) : regAt l i = .ok (l.getD i []) := by
  unfold regAt
  rw [List.getElem?_eq_getElem h]
  simp [List.getD_eq_getElem?_getD, List.getElem?_eq_getElem h]

theorem fillBoolLoop_eq (n : Nat) (d : Dom) : ∀ (rows : List Row) (m : StrSet), (∀ r ∈ rows, r.2 < d.boolReg.length) →
    fillBoolLoop n d rows m =
      runInserts strSetInsert ((rows.filter (fun r => r.1 == n)).map (fun r => d.boolReg.getD r.2 [])) m := by
  intro rows
  induction rows with
  | nil => intro m _; rfl
  | cons r rows ih =>
    intro m h
    have ih := fun m => ih m (fun r hr => h r (List.mem_cons_of_mem _ hr))
    unfold fillBoolLoop
    by_cases hr : r.1 = n
    · rw [if_pos hr, regAt_getD (h r List.mem_cons_self), Out.bind_ok,
        List.filter_cons_of_pos (by simpa using hr), List.map_cons]
      unfold runInserts
      cases strSetInsert (d.boolReg.getD r.2 []) m with
      | ok m' => exact ih m'
      | longjmp => rfl
      | ub w => rfl
      | hang => rfl
    · rw [if_neg hr, List.filter_cons_of_neg (by simpa using hr)]
      exact ih m

/-- Both sets of `fillPropsSet` at once. -/
theorem fillPropsLoop_spec (n : Nat) (d : Dom) : ∀ (rows : List PropRow) (pk pv : List Str) (ks vs : StrSet),
    (∀ r ∈ rows, r.key < d.keyReg.length ∧ r.value < d.valReg.length) → StrOK pk ks → StrOK pv vs →
    let l := (rows.filter (fun r => r.node == n)).map (fun r => (d.keyReg.getD r.key [], d.valReg.getD r.value []))
    ((Overflows pk (l.map (·.1)) ∨ Overflows pv (l.map (·.2))) ∧ fillPropsLoop n d rows ks vs = .longjmp) ∨
    (¬(Overflows pk (l.map (·.1)) ∨ Overflows pv (l.map (·.2))) ∧ ∃ ks' vs', fillPropsLoop n d rows ks vs = .ok (ks', vs') ∧
      StrOK (pk ++ l.map (·.1)) ks' ∧ StrOK (pv ++ l.map (·.2)) vs') := by
  have hnil : ∀ p, ¬Overflows p [] := by rintro p ⟨l₁, s, l₂, e, _⟩; simp at e
  have hcons : ∀ (p : List Str) (s : Str) (l : List Str), Overflows p (s :: l) ↔ usedSlots p ≥ 64 ∨ Overflows (p ++ [s]) l := by
    intro p s l
    constructor
    · rintro ⟨l₁, t, l₂, e, h⟩
      cases l₁ with
      | nil => left; simpa using h
      | cons a l₁ =>
        simp at e
        obtain ⟨rfl, e⟩ := e
        right; exact ⟨l₁, t, l₂, e, by simpa using h⟩
    · rintro (h | ⟨l₁, t, l₂, e, h⟩)
      · exact ⟨[], s, l, rfl, by simpa using h⟩
      · exact ⟨s :: l₁, t, l₂, by simp [e], by simpa using h⟩
  intro rows
  induction rows with
  | nil =>
    intro pk pv ks vs _ hk hv
    right
    exact ⟨by simp [hnil], ks, vs, rfl, by simpa using hk, by simpa using hv⟩
  | cons r rows ih =>
    intro pk pv ks vs h hk hv
    have ih := fun pk pv ks vs => ih pk pv ks vs (fun r hr => h r (List.mem_cons_of_mem _ hr))
    unfold fillPropsLoop
    by_cases hr : r.node = n
    · rw [if_pos hr, regAt_getD (h r List.mem_cons_self).1, regAt_getD (h r List.mem_cons_self).2, Out.bind_ok,
        List.filter_cons_of_pos (by simpa using hr), List.map_cons]
      simp only [List.map_cons, hcons]
      rcases hk.insert (d.keyReg.getD r.key []) with ⟨hu, hrun⟩ | ⟨hu, k1, hrun, hk1⟩
      · left; exact ⟨Or.inl (Or.inl hu), by rw [hrun]; rfl⟩
      · rw [hrun, Out.bind_ok, Out.bind_ok]
        rcases hv.insert (d.valReg.getD r.value []) with ⟨hu', hrun'⟩ | ⟨hu', v1, hrun', hv1⟩
        · left; exact ⟨Or.inr (Or.inl hu'), by rw [hrun']; rfl⟩
        · rw [hrun', Out.bind_ok]
          rcases ih _ _ k1 v1 hk1 hv1 with ⟨ho, e⟩ | ⟨ho, k2, v2, e, e1, e2⟩
          · left
            refine ⟨?_, e⟩
            rcases ho with ho | ho
            · exact Or.inl (Or.inr ho)
            · exact Or.inr (Or.inr ho)
          · right
            refine ⟨?_, k2, v2, e, by simpa using e1, by simpa using e2⟩
            rintro ((h | h) | (h | h))
            · omega
            · exact ho (Or.inl h)
            · omega
            · exact ho (Or.inr h)
    · rw [if_neg hr, List.filter_cons_of_neg (by simpa using hr)]
      exact ih pk pv ks vs hk hv

/-! ## Comparing one node -/

open Classical in
/-- The result of comparing the boolean attributes of two nodes. -/
noncomputable def boolsOut (xs ys : List Str) : Out CStatus :=
  if Over xs ∨ Over ys then .longjmp else .ok (setStatus xs ys)

open Classical in
/-- The result of comparing the pairs of two nodes. -/
noncomputable def pairsOut (xs ys : List (Str × Str)) : Out CStatus :=
  if (Over (xs.map (·.1)) ∨ Over (xs.map (·.2))) ∨ (Over (ys.map (·.1)) ∨ Over (ys.map (·.2))) then .longjmp
  else .ok (if setStatus (xs.map (·.1)) (ys.map (·.1)) ≠ .success then setStatus (xs.map (·.1)) (ys.map (·.1))
    else setStatus (xs.map (·.2)) (ys.map (·.2)))

theorem boolsOut_comm (xs ys : List Str) : boolsOut xs ys = boolsOut ys xs := by
  unfold boolsOut
  rw [setStatus_comm]
  by_cases h : Over xs ∨ Over ys
  · rw [if_pos h, if_pos h.symm]
  · rw [if_neg h, if_neg (fun e => h e.symm)]

theorem pairsOut_comm (xs ys : List (Str × Str)) : pairsOut xs ys = pairsOut ys xs := by
  unfold pairsOut
  rw [setStatus_comm (xs.map (·.1)), setStatus_comm (xs.map (·.2))]
  by_cases h : (Over (xs.map (·.1)) ∨ Over (xs.map (·.2))) ∨ (Over (ys.map (·.1)) ∨ Over (ys.map (·.2)))
  · rw [if_pos h, if_pos h.symm]
  · rw [if_neg h]
    rw [if_neg (c := (Over (ys.map (·.1)) ∨ _) ∨ _) (fun e => h e.symm)]

section
variable {d1 d2 : Dom}

theorem compareBoolProps_eq (h1 : NamesOK d1) (h2 : NamesOK d2) (a b : Nat) :
    compareBoolProps a d1 b d2 = boolsOut (bools d1 a) (bools d2 b) := by
  unfold compareBoolProps boolsOut
  rw [fillBoolLoop_eq a d1 d1.boolProps _ h1.boolsLt, fillBoolLoop_eq b d2 d2.boolProps _ h2.boolsLt]
  rcases str_runInserts (bools d1 a) [] _ StrOK.fresh with ⟨ho, e⟩ | ⟨ho, m1, e, hm1⟩
  · rw [if_pos (Or.inl ho)]
    unfold bools at e; rw [e]; rfl
  · have e' := e
    unfold bools at e; rw [e, Out.bind_ok]
    rcases str_runInserts (bools d2 b) [] _ StrOK.fresh with ⟨ho', f⟩ | ⟨ho', m2, f, hm2⟩
    · rw [if_pos (Or.inr ho')]
      unfold bools at f; rw [f]; rfl
    · rw [if_neg (by rintro (h | h); exacts [ho h, ho' h])]
      unfold bools at f; rw [f, Out.bind_ok]
      exact equalsStringSet_eq hm1 hm2 (not_over_used ho) (not_over_used ho')

theorem fillProps_pairs (h : NamesOK d1) (n : Nat) :
    ((Over ((pairs d1 n).map (·.1)) ∨ Over ((pairs d1 n).map (·.2))) ∧
      fillPropsLoop n d1 d1.props StrSet.fresh StrSet.fresh = .longjmp) ∨
    (¬(Over ((pairs d1 n).map (·.1)) ∨ Over ((pairs d1 n).map (·.2))) ∧
      ∃ ks vs, fillPropsLoop n d1 d1.props StrSet.fresh StrSet.fresh = .ok (ks, vs) ∧
      StrOK ((pairs d1 n).map (·.1)) ks ∧ StrOK ((pairs d1 n).map (·.2)) vs) :=
  fillPropsLoop_spec n d1 d1.props [] [] _ _ h.propsLt StrOK.fresh StrOK.fresh

theorem compareProps_eq (h1 : NamesOK d1) (h2 : NamesOK d2) (a b : Nat) :
    compareProps a d1 b d2 = pairsOut (pairs d1 a) (pairs d2 b) := by
  unfold compareProps pairsOut
  rcases fillProps_pairs h1 a with ⟨ho, e⟩ | ⟨ho, k1, v1, e, hk1, hv1⟩
  · rw [if_pos (Or.inl ho), e]; rfl
  · rw [e, Out.bind_ok]
    rcases fillProps_pairs h2 b with ⟨ho', f⟩ | ⟨ho', k2, v2, f, hk2, hv2⟩
    · rw [if_pos (Or.inr ho'), f]; rfl
    · rw [if_neg (by rintro (h | h); exacts [ho h, ho' h])]
      dsimp only
      rw [f, Out.bind_ok]
      dsimp only
      have hu1 := not_or.mp ho
      have hu2 := not_or.mp ho'
      rw [equalsStringSet_eq hk1 hk2 (not_over_used hu1.1) (not_over_used hu2.1), Out.bind_ok,
        equalsStringSet_eq hv1 hv2 (not_over_used hu1.2) (not_over_used hu2.2)]
      show (if _ then _ else _) = Out.ok (if _ then _ else _)
      by_cases hc : setStatus ((pairs d1 a).map (·.1)) ((pairs d2 b).map (·.1)) = .success
      · rw [if_neg (by exact fun h => h hc), if_neg (by exact fun h => h hc)]
      · rw [if_pos (by exact hc), if_pos (by exact hc)]

/-- The result of comparing kind, text and tag. -/
def tagStatus (d1 : Dom) (a : Nat) (d2 : Dom) (b : Nat) : CStatus :=
  if typeOf d1 a ≠ typeOf d2 b then .differentNodeType
  else if typeOf d1 a = some .text then (if textOf d1 a = textOf d2 b then .success else .differentContent)
  else if typeOf d1 a = some .document then
    (if pairedOf d1 a ≠ pairedOf d2 b then .differentNodeType
     else if tagOf d1 a ≠ tagOf d2 b then .differentContent else .success)
  else if typeOf d1 a = some .root then .success
  else .differentNodeType

theorem tagStatus_comm (a b : Nat) : tagStatus d1 a d2 b = tagStatus d2 b d1 a := by
  unfold tagStatus
  by_cases h : typeOf d1 a = typeOf d2 b
  · rw [if_neg (not_not.mpr h), if_neg (not_not.mpr h.symm), h]
    simp only [ne_eq, eq_comm (a := textOf d1 a), eq_comm (a := pairedOf d1 a), eq_comm (a := tagOf d1 a)]
  · rw [if_pos h, if_pos (fun e => h e.symm)]

theorem compareTags_eq {a b : Nat} {x y : Node} (hx : d1.nodes[a]? = some x) (hy : d2.nodes[b]? = some y)
    (gx : NodeGood d1.tagReg x) (gy : NodeGood d2.tagReg y) :
    compareTags x d1 y d2 = .ok (tagStatus d1 a d2 b) := by
  have tx := typeOf_eq hx
  have ty := typeOf_eq hy
  unfold compareTags tagStatus
  rw [tx, ty]
  by_cases h : x.type = y.type
  · rw [if_neg (not_not.mpr h), if_neg (by rw [h]; simp)]
    obtain ⟨xt, xp⟩ := x
    obtain ⟨yt, yp⟩ := y
    dsimp only at h
    subst h
    cases xt with
    | text =>
      obtain ⟨s, hs⟩ := gx.text rfl
      obtain ⟨s', hs'⟩ := gy.text rfl
      dsimp only at hs hs'
      subst hs; subst hs'
      simp only [textOf, hx, hy, Node.getText, Out.bind_ok, if_true]
      by_cases e : s = s'
      · simp [e, strEq]
      · simp [e, strEq]
    | document =>
      obtain ⟨t, hs, _, ht⟩ := gx.doc rfl
      obtain ⟨t', hs', _, ht'⟩ := gy.doc rfl
      dsimp only at hs hs'
      subst hs; subst hs'
      simp only [tagOf, pairedOf, hx, hy, Node.docTag, Out.bind_ok, List.getElem?_eq_getElem ht,
        List.getElem?_eq_getElem ht', regAt]
      by_cases e : (d1.tagReg[t]).2 = (d2.tagReg[t']).2
      · by_cases e' : (d1.tagReg[t]).1 = (d2.tagReg[t']).1
        · simp [e, e', strEq]
        · simp [e, e', strEq]
      · simp [e]
    | root => simp
    | removed => simp
    | error => simp
  · rw [if_pos h, if_pos (by simpa using h)]

/-- The part of `compareNode` that looks at the two nodes themselves. -/
def labelOut (d1 : Dom) (a : Nat) (d2 : Dom) (b : Nat) : Out CStatus := do
  let x ← d1.node a
  let y ← d2.node b
  let st ← compareTags x d1 y d2
  if st ≠ .success then .ok st
  else if x.type = .document then do
    let st ← compareBoolProps a d1 b d2
    if st ≠ .success then .ok st else compareProps a d1 b d2
  else .ok .success

/-- The same, in terms of what the DOM says about the nodes. -/
noncomputable def labelSpec (d1 : Dom) (a : Nat) (d2 : Dom) (b : Nat) : Out CStatus :=
  if tagStatus d1 a d2 b ≠ .success then .ok (tagStatus d1 a d2 b)
  else if typeOf d1 a = some .document then do
    let st ← boolsOut (bools d1 a) (bools d2 b)
    if st ≠ .success then .ok st else pairsOut (pairs d1 a) (pairs d2 b)
  else .ok .success

theorem labelOut_eq {c1 c2 : Nat → List Nat} (h1 : DomI d1 c1) (h2 : DomI d2 c2) {a b : Nat}
    (ha : a < d1.nodes.length) (hb : b < d2.nodes.length) : labelOut d1 a d2 b = labelSpec d1 a d2 b := by
  have hx := List.getElem?_eq_getElem ha
  have hy := List.getElem?_eq_getElem hb
  unfold labelOut labelSpec Dom.node
  rw [hx, hy, Out.bind_ok, Out.bind_ok, compareTags_eq hx hy (h1.good _ _ hx) (h2.good _ _ hy), Out.bind_ok,
    compareBoolProps_eq h1.names h2.names, compareProps_eq h1.names h2.names, typeOf_eq hx]
  by_cases h : tagStatus d1 a d2 b = .success
  · rw [if_neg (not_not.mpr h), if_neg (not_not.mpr h)]
    by_cases hd : (d1.nodes[a]).type = .document
    · rw [if_pos hd, if_pos (by rw [hd])]
    · rw [if_neg hd, if_neg (by simpa using hd)]
  · rw [if_pos h, if_pos h]

theorem labelSpec_comm (a b : Nat) : labelSpec d1 a d2 b = labelSpec d2 b d1 a := by
  unfold labelSpec
  rw [tagStatus_comm a b, boolsOut_comm, pairsOut_comm]
  by_cases h : tagStatus d2 b d1 a = .success
  · have ht : typeOf d1 a = typeOf d2 b := by
      by_contra hc
      unfold tagStatus at h
      rw [if_pos (fun e => hc e.symm)] at h
      cases h
    rw [ht]
  · rw [if_pos h, if_pos h]

theorem boolsOut_cases (xs ys : List Str) :
    ((Over xs ∨ Over ys) ∧ boolsOut xs ys = .longjmp) ∨ (¬(Over xs ∨ Over ys) ∧ boolsOut xs ys = .ok (setStatus xs ys)) := by
  unfold boolsOut
  by_cases h : Over xs ∨ Over ys
  · left; exact ⟨h, if_pos h⟩
  · right; exact ⟨h, if_neg h⟩

theorem pairsOut_cases (xs ys : List (Str × Str)) :
    ((64 < xs.length ∨ 64 < ys.length) ∧ pairsOut xs ys = .longjmp) ∨
    pairsOut xs ys = .ok (if setStatus (xs.map (·.1)) (ys.map (·.1)) ≠ .success then setStatus (xs.map (·.1)) (ys.map (·.1))
      else setStatus (xs.map (·.2)) (ys.map (·.2))) := by
  unfold pairsOut
  by_cases h : (Over (xs.map (·.1)) ∨ Over (xs.map (·.2))) ∨ (Over (ys.map (·.1)) ∨ Over (ys.map (·.2)))
  · left
    refine ⟨?_, if_pos h⟩
    rcases h with (h | h) | (h | h)
    · left; simpa using h.length
    · left; simpa using h.length
    · right; simpa using h.length
    · right; simpa using h.length
  · right; exact if_neg h

/-- Comparing two nodes yields a status, or jumps because one of them has too many attributes. -/
theorem labelSpec_total (a b : Nat) :
    (∃ st, labelSpec d1 a d2 b = .ok st) ∨ (labelSpec d1 a d2 b = .longjmp ∧ (TooMany d1 a ∨ TooMany d2 b)) := by
  unfold labelSpec
  by_cases h : tagStatus d1 a d2 b = .success
  · rw [if_neg (not_not.mpr h)]
    split
    · rcases boolsOut_cases (bools d1 a) (bools d2 b) with ⟨ho, e⟩ | ⟨_, e⟩
      · right
        rw [e]
        refine ⟨rfl, ?_⟩
        rcases ho with ho | ho
        · exact Or.inl (Or.inl ho.length)
        · exact Or.inr (Or.inl ho.length)
      · rw [e, Out.bind_ok]
        split
        · left; exact ⟨_, rfl⟩
        · rcases pairsOut_cases (pairs d1 a) (pairs d2 b) with ⟨ho, e⟩ | e
          · right
            refine ⟨e, ?_⟩
            rcases ho with ho | ho
            · exact Or.inl (Or.inr ho)
            · exact Or.inr (Or.inr ho)
          · left; exact ⟨_, e⟩
    · left; exact ⟨_, rfl⟩
  · rw [if_pos h]; left; exact ⟨_, rfl⟩

theorem tagStatus_success {a b : Nat} (h : tagStatus d1 a d2 b = .success) :
    typeOf d1 a = typeOf d2 b ∧ textOf d1 a = textOf d2 b ∧ tagOf d1 a = tagOf d2 b ∧ pairedOf d1 a = pairedOf d2 b := by
  have hnt : ∀ (d : Dom) (n : Nat), typeOf d n ≠ some .text → textOf d n = none := by
    intro d n hn
    cases hc : textOf d n with
    | none => rfl
    | some s => rw [textOf_eq] at hc; exact absurd (typeOf_eq hc) hn
  have hnd : ∀ (d : Dom) (n : Nat), typeOf d n ≠ some .document → tagOf d n = none ∧ pairedOf d n = none := by
    intro d n hn
    constructor
    · unfold tagOf
      split
      · rename_i t ht; exact absurd (typeOf_eq ht) hn
      · rfl
    · unfold pairedOf
      split
      · rename_i t ht; exact absurd (typeOf_eq ht) hn
      · rfl
  unfold tagStatus at h
  by_cases ht : typeOf d1 a = typeOf d2 b
  · rw [if_neg (not_not.mpr ht)] at h
    refine ⟨ht, ?_⟩
    by_cases h1 : typeOf d1 a = some .text
    · rw [if_pos h1] at h
      have : textOf d1 a = textOf d2 b := by
        by_contra hc; rw [if_neg hc] at h; cases h
      have n1 := hnd d1 a (by rw [h1]; simp)
      have n2 := hnd d2 b (by rw [← ht, h1]; simp)
      exact ⟨this, by rw [n1.1, n2.1], by rw [n1.2, n2.2]⟩
    · rw [if_neg h1] at h
      have e1 : textOf d1 a = textOf d2 b := by rw [hnt d1 a h1, hnt d2 b (by rw [← ht]; exact h1)]
      refine ⟨e1, ?_⟩
      by_cases h2 : typeOf d1 a = some .document
      · rw [if_pos h2] at h
        by_cases e2 : pairedOf d1 a = pairedOf d2 b
        · rw [if_neg (not_not.mpr e2)] at h
          refine ⟨?_, e2⟩
          by_contra hc
          rw [if_pos hc] at h; cases h
        · rw [if_pos e2] at h; cases h
      · have n1 := hnd d1 a h2
        have n2 := hnd d2 b (by rw [← ht]; exact h2)
        exact ⟨by rw [n1.1, n2.1], by rw [n1.2, n2.2]⟩
  · rw [if_pos ht] at h; cases h

theorem labelSpec_success {a b : Nat} (h : labelSpec d1 a d2 b = .ok .success) : SimilarContent d1 d2 a b := by
  unfold labelSpec at h
  by_cases ht : tagStatus d1 a d2 b = .success
  · rw [if_neg (not_not.mpr ht)] at h
    obtain ⟨e1, e2, e3, e4⟩ := tagStatus_success ht
    by_cases hd : typeOf d1 a = some .document
    · rw [if_pos hd] at h
      rcases boolsOut_cases (bools d1 a) (bools d2 b) with ⟨ho, e⟩ | ⟨_, e⟩
      · rw [e] at h; cases h
      · rw [e, Out.bind_ok] at h
        by_cases hb : setStatus (bools d1 a) (bools d2 b) = .success
        · rw [if_neg (not_not.mpr hb)] at h
          rcases pairsOut_cases (pairs d1 a) (pairs d2 b) with ⟨ho, e⟩ | e
          · rw [e] at h; cases h
          · rw [e] at h
            have h := Out.ok.inj h
            by_cases hk : setStatus ((pairs d1 a).map (·.1)) ((pairs d2 b).map (·.1)) = .success
            · rw [if_neg (not_not.mpr hk)] at h
              exact ⟨e1, e2, e3, e4, fun _ => setStatus_success hb, fun _ => setStatus_success hk,
                fun _ => setStatus_success h⟩
            · rw [if_pos hk] at h; exact absurd h hk
        · rw [if_pos hb] at h; exact absurd (Out.ok.inj h) hb
    · exact ⟨e1, e2, e3, e4, fun h => absurd h hd, fun h => absurd h hd, fun h => absurd h hd⟩
  · rw [if_pos ht] at h
    exact absurd (Out.ok.inj h) ht

/-- Nodes of the document have a kind the comparison knows. -/
def Known (d : Dom) (n : Nat) : Prop := typeOf d n = some .text ∨ typeOf d n = some .document ∨ typeOf d n = some .root

theorem labelSpec_same {a b : Nat} (hk : Known d1 a) (h : SameContent d1 d2 a b) :
    labelSpec d1 a d2 b = .ok .success ∨ (labelSpec d1 a d2 b = .longjmp ∧ TooMany d1 a) := by
  have ht : tagStatus d1 a d2 b = .success := by
    unfold tagStatus
    rw [if_neg (not_not.mpr h.type)]
    rcases hk with hk | hk | hk
    · rw [if_pos hk, if_pos h.text]
    · rw [if_neg (by rw [hk]; simp), if_pos hk, if_neg (not_not.mpr h.paired), if_neg (not_not.mpr h.tag)]
    · rw [if_neg (by rw [hk]; simp), if_neg (by rw [hk]; simp), if_pos hk]
  rcases labelSpec_total (d1 := d1) (d2 := d2) a b with ⟨st, e⟩ | ⟨e, ho⟩
  · left
    have h' := e
    unfold labelSpec at h'
    rw [if_neg (not_not.mpr ht)] at h'
    by_cases hd : typeOf d1 a = some .document
    · rw [if_pos hd] at h'
      rcases boolsOut_cases (bools d1 a) (bools d2 b) with ⟨ho, e'⟩ | ⟨_, e'⟩
      · rw [e'] at h'; cases h'
      · rw [e', Out.bind_ok, h.bools, setStatus_self, if_neg (by simp)] at h'
        rcases pairsOut_cases (pairs d1 a) (pairs d2 b) with ⟨ho, e'⟩ | e'
        · rw [e'] at h'; cases h'
        · rw [e', h.pairs, setStatus_self, setStatus_self, if_neg (by simp)] at h'
          rw [e, ← h']
    · rw [if_neg hd] at h'
      rw [e, ← h']
  · right
    refine ⟨e, ?_⟩
    rcases ho with ho | ho
    · exact ho
    · unfold TooMany at ho ⊢
      rw [h.bools, h.pairs]; exact ho

/-! ## Comparing trees -/

/-- Comparing two lists of nodes one by one. -/
def cmpL (cmp : Nat → Nat → Out CResult) (p1 p2 : Nat) : List Nat → List Nat → Out CResult
  | [], [] => .ok ⟨.success, p1, p2⟩
  | x :: xs, y :: ys => do
    let r ← cmp x y
    if r.status ≠ .success then .ok r else cmpL cmp p1 p2 xs ys
  | _, _ => .ok ⟨.differentSizes, p1, p2⟩

/-- `compareNode` on child lists. -/
noncomputable def cmpT (d1 d2 : Dom) : Nat → Nat → Nat → Out CResult
  | 0, _, _ => .hang
  | f + 1, a, b => do
    let st ← labelSpec d1 a d2 b
    if st ≠ .success then .ok ⟨st, a, b⟩ else cmpL (cmpT d1 d2 f) a b (kids d1 a) (kids d2 b)

/-- The two results of a comparison, exchanged. -/
def CResult.swap (r : CResult) : CResult := ⟨r.status, r.node2, r.node1⟩

def swapOut : Out CResult → Out CResult
  | .ok r => .ok r.swap
  | .longjmp => .longjmp
  | .ub w => .ub w
  | .hang => .hang

theorem cmpL_swap {cmp cmp' : Nat → Nat → Out CResult} (h : ∀ x y, cmp' y x = swapOut (cmp x y)) (p1 p2 : Nat) :
    ∀ xs ys : List Nat, cmpL cmp' p2 p1 ys xs = swapOut (cmpL cmp p1 p2 xs ys) := by
  intro xs
  induction xs with
  | nil => intro ys; cases ys <;> rfl
  | cons x xs ih =>
    intro ys
    cases ys with
    | nil => rfl
    | cons y ys =>
      unfold cmpL
      rw [h x y]
      cases cmp x y with
      | ok r =>
        show (if r.swap.status ≠ .success then _ else _) = swapOut (if r.status ≠ .success then _ else _)
        by_cases hs : r.status = .success
        · rw [if_neg (not_not.mpr hs), if_neg (not_not.mpr (by exact hs))]; exact ih ys
        · rw [if_pos hs, if_pos (by exact hs)]; rfl
      | longjmp => rfl
      | ub w => rfl
      | hang => rfl

theorem cmpT_swap : ∀ (f a b : Nat), cmpT d2 d1 f b a = swapOut (cmpT d1 d2 f a b) := by
  intro f
  induction f with
  | zero => intro a b; rfl
  | succ f ih =>
    intro a b
    unfold cmpT
    rw [← labelSpec_comm a b]
    cases labelSpec d1 a d2 b with
    | ok st =>
      rw [Out.bind_ok, Out.bind_ok]
      by_cases hs : st = .success
      · rw [if_neg (not_not.mpr hs), if_neg (not_not.mpr hs)]
        exact cmpL_swap (fun x y => ih x y) a b _ _
      · rw [if_pos hs, if_pos hs]; rfl
    | longjmp => rfl
    | ub w => rfl
    | hang => rfl

theorem cmpL_mono {cmp cmp' : Nat → Nat → Out CResult} (p1 p2 : Nat) : ∀ xs ys : List Nat,
    (∀ x ∈ xs, ∀ y, cmp' x y = cmp x y) → cmpL cmp' p1 p2 xs ys = cmpL cmp p1 p2 xs ys := by
  intro xs
  induction xs with
  | nil => intro ys _; cases ys <;> rfl
  | cons x xs ih =>
    intro ys h
    cases ys with
    | nil => rfl
    | cons y ys =>
      unfold cmpL
      rw [h x List.mem_cons_self y, ih ys (fun x hx => h x (List.mem_cons_of_mem _ hx))]

/-- The recursion needs at most as much fuel as there are identifiers above `a`. -/
theorem cmpT_fuel {c1 : Nat → List Nat} (h1 : DomI d1 c1) : ∀ (f g a b : Nat), d1.nodes.length - a < f →
    d1.nodes.length - a < g → cmpT d1 d2 f a b = cmpT d1 d2 g a b := by
  intro f
  induction f with
  | zero => intro g a b hf; omega
  | succ f ih =>
    intro g a b hf hg
    obtain ⟨g, rfl⟩ : ∃ k, g = k + 1 := ⟨g - 1, by omega⟩
    unfold cmpT
    rw [cmpL_mono (cmp' := cmpT d1 d2 f) (cmp := cmpT d1 d2 g)]
    intro x hx y
    have := h1.linked.range a x (h1.linked.mem_kids hx).2
    exact ih g x y (by omega) (by omega)

theorem xor_zero_ne {a : Nat} (h : a ≠ 0) : a ^^^ 0 ≠ 0 ∧ 0 ^^^ a ≠ 0 := by
  rw [Nat.xor_zero, Nat.zero_xor]; exact ⟨h, h⟩

theorem compareChildren_eq {cmp : Nat → Nat → Out CResult} (p1 p2 : Nat) : ∀ (xs ys : List Nat) (f : Nat),
    Chain d1 xs → Chain d2 ys → xs.length < f →
    compareChildren cmp d1 d2 p1 p2 f (xs.headD 0) (ys.headD 0) = cmpL cmp p1 p2 xs ys := by
  intro xs
  induction xs with
  | nil =>
    intro ys f hx hy hf
    obtain ⟨f, rfl⟩ : ∃ k, f = k + 1 := ⟨f - 1, by omega⟩
    unfold compareChildren
    rw [if_neg (by simp)]
    cases ys with
    | nil => rfl
    | cons y ys =>
      have := hy.pos y List.mem_cons_self
      rw [if_pos (by simpa using this)]; rfl
  | cons x xs ih =>
    intro ys f hx hy hf
    obtain ⟨f, rfl⟩ : ∃ k, f = k + 1 := ⟨f - 1, by omega⟩
    have hx0 := hx.pos x List.mem_cons_self
    unfold compareChildren
    cases ys with
    | nil =>
      rw [if_neg (by simp), if_pos (by simpa using hx0)]; rfl
    | cons y ys =>
      have hy0 := hy.pos y List.mem_cons_self
      rw [if_pos ⟨by simpa using hx0, by simpa using hy0⟩]
      unfold cmpL
      simp only [List.headD_cons]
      rw [hx.getNext_head, hy.getNext_head, ih ys f hx.tail hy.tail (by simp at hf; omega)]

theorem compareNodeF_eq {c1 c2 : Nat → List Nat} (h1 : DomI d1 c1) (h2 : DomI d2 c2) : ∀ (f a b : Nat), a ≠ 0 →
    a < d1.nodes.length → b ≠ 0 → b < d2.nodes.length → compareNodeF d1 d2 f a b = cmpT d1 d2 f a b := by
  intro f
  induction f with
  | zero => intro a b _ _ _ _; rfl
  | succ f ih =>
    intro a b ha0 ha hb0 hb
    have hx := List.getElem?_eq_getElem ha
    have hy := List.getElem?_eq_getElem hb
    have hkids : ∀ st : CStatus, compareChildren (compareNodeF d1 d2 f) d1 d2 a b (d1.nn.length + 2)
        (getFirstChild a d1) (getFirstChild b d2) = cmpL (cmpT d1 d2 f) a b (kids d1 a) (kids d2 b) := by
      intro _
      have e1 := h1.linked.navOK.first a
      have e2 := h2.linked.navOK.first b
      rw [e1, e2, h1.linked.kids_eq ha0, h2.linked.kids_eq hb0,
        compareChildren_eq a b (c1 a) (c2 b) (d1.nn.length + 2) (h1.linked.chain a (l₁ := []) rfl)
          (h2.linked.chain b (l₁ := []) rfl) (by have := h1.linked.length_nn a; omega)]
      have key : ∀ xs ys : List Nat, (∀ x ∈ xs, x ≠ 0 ∧ x < d1.nodes.length) → (∀ y ∈ ys, y ≠ 0 ∧ y < d2.nodes.length) →
          cmpL (compareNodeF d1 d2 f) a b xs ys = cmpL (cmpT d1 d2 f) a b xs ys := by
        intro xs
        induction xs with
        | nil => intro ys _ _; cases ys <;> rfl
        | cons x xs ihx =>
          intro ys h3 h4
          cases ys with
          | nil => rfl
          | cons y ys =>
            unfold cmpL
            obtain ⟨q1, q2⟩ := h3 x List.mem_cons_self
            obtain ⟨q3, q4⟩ := h4 y List.mem_cons_self
            rw [ih x y q1 q2 q3 q4, ihx ys (fun x hx => h3 x (List.mem_cons_of_mem _ hx))
              (fun y hy => h4 y (List.mem_cons_of_mem _ hy))]
      apply key
      · intro x hx
        have := h1.linked.range a x hx
        omega
      · intro y hy
        have := h2.linked.range b y hy
        omega
    unfold compareNodeF cmpT labelSpec Dom.node
    rw [hx, hy, Out.bind_ok, Out.bind_ok, compareTags_eq hx hy (h1.good _ _ hx) (h2.good _ _ hy), Out.bind_ok,
      compareBoolProps_eq h1.names h2.names, compareProps_eq h1.names h2.names, typeOf_eq hx]
    by_cases h : tagStatus d1 a d2 b = .success
    · rw [if_neg (not_not.mpr h), if_neg (not_not.mpr h)]
      rw [hkids .success]
      by_cases hd : (d1.nodes[a]).type = .document
      · rw [if_pos hd, if_pos (by rw [hd])]
        cases boolsOut (bools d1 a) (bools d2 b) with
        | ok st =>
          simp only [Out.bind_ok]
          by_cases hs : st = .success
          · simp [hs]
          · simp [hs]
        | longjmp => rfl
        | ub w => rfl
        | hang => rfl
      · rw [if_neg hd, if_neg (by simpa using hd)]
    · rw [if_pos h, if_pos h]
      rw [Out.bind_ok, if_pos h]

/-- Every comparison of nodes of two documents ends with a status, or jumps because of too many attributes. -/
theorem cmpT_total {c1 : Nat → List Nat} (h1 : DomI d1 c1) : ∀ (f a b : Nat), d1.nodes.length - a < f → Live d1 a →
    Live d2 b → (∃ r, cmpT d1 d2 f a b = .ok r) ∨
      (cmpT d1 d2 f a b = .longjmp ∧ ((∃ n, Live d1 n ∧ TooMany d1 n) ∨ (∃ n, Live d2 n ∧ TooMany d2 n))) := by
  intro f
  induction f with
  | zero => intro a b hf; omega
  | succ f ih =>
    intro a b hf ha hb
    unfold cmpT
    rcases labelSpec_total (d1 := d1) (d2 := d2) a b with ⟨st, e⟩ | ⟨e, ho⟩
    · rw [e, Out.bind_ok]
      by_cases hs : st = .success
      · rw [if_neg (not_not.mpr hs)]
        have key : ∀ xs ys : List Nat, (∀ x ∈ xs, x ∈ kids d1 a) → (∀ y ∈ ys, y ∈ kids d2 b) →
            (∃ r, cmpL (cmpT d1 d2 f) a b xs ys = .ok r) ∨ (cmpL (cmpT d1 d2 f) a b xs ys = .longjmp ∧
              ((∃ n, Live d1 n ∧ TooMany d1 n) ∨ (∃ n, Live d2 n ∧ TooMany d2 n))) := by
          intro xs
          induction xs with
          | nil => intro ys _ _; cases ys <;> exact Or.inl ⟨_, rfl⟩
          | cons x xs ihx =>
            intro ys h3 h4
            cases ys with
            | nil => exact Or.inl ⟨_, rfl⟩
            | cons y ys =>
              unfold cmpL
              have hr := h1.linked.range a x (h1.linked.mem_kids (h3 x List.mem_cons_self)).2
              rcases ih x y (by omega) (.child ha (h3 x List.mem_cons_self)) (.child hb (h4 y List.mem_cons_self)) with ⟨r, e⟩ | ⟨e, ho⟩
              · rw [e, Out.bind_ok]
                by_cases hs : r.status = .success
                · rw [if_neg (not_not.mpr hs)]
                  exact ihx ys (fun x hx => h3 x (List.mem_cons_of_mem _ hx)) (fun y hy => h4 y (List.mem_cons_of_mem _ hy))
                · rw [if_pos hs]; exact Or.inl ⟨_, rfl⟩
              · rw [e]; exact Or.inr ⟨rfl, ho⟩
        exact key _ _ (fun _ h => h) (fun _ h => h)
      · rw [if_pos hs]; exact Or.inl ⟨_, rfl⟩
    · rw [e]
      right
      refine ⟨rfl, ?_⟩
      rcases ho with ho | ho
      · exact Or.inl ⟨a, ha, ho⟩
      · exact Or.inr ⟨b, hb, ho⟩

theorem cmpL_success {cmp : Nat → Nat → Out CResult} {p1 p2 : Nat} : ∀ {xs ys : List Nat} {r : CResult},
    cmpL cmp p1 p2 xs ys = .ok r → r.status = .success →
    xs.length = ys.length ∧ ∀ (i x y : Nat), xs[i]? = some x → ys[i]? = some y → ∃ r', cmp x y = .ok r' ∧ r'.status = .success := by
  intro xs
  induction xs with
  | nil =>
    intro ys r h hs
    cases ys with
    | nil => exact ⟨rfl, by intro i x y hx; simp at hx⟩
    | cons y ys => unfold cmpL at h; cases h; cases hs
  | cons x xs ih =>
    intro ys r h hs
    cases ys with
    | nil => unfold cmpL at h; cases h; cases hs
    | cons y ys =>
      unfold cmpL at h
      cases hc : cmp x y with
      | ok r1 =>
        rw [hc, Out.bind_ok] at h
        by_cases h1 : r1.status = .success
        · rw [if_neg (not_not.mpr h1)] at h
          obtain ⟨e1, e2⟩ := ih h hs
          refine ⟨by simp [e1], ?_⟩
          intro i u v hu hv
          cases i with
          | zero => simp at hu hv; subst hu; subst hv; exact ⟨r1, hc, h1⟩
          | succ i => exact e2 i u v (by simpa using hu) (by simpa using hv)
        · rw [if_pos h1] at h; cases h; exact absurd hs h1
      | longjmp => rw [hc] at h; cases h
      | ub w => rw [hc] at h; cases h
      | hang => rw [hc] at h; cases h

theorem cmpT_sound : ∀ (f a b : Nat) (r : CResult), cmpT d1 d2 f a b = .ok r → r.status = .success →
    SameTree (fun a b => labelSpec d1 a d2 b = .ok .success) d1 d2 a b := by
  intro f
  induction f with
  | zero => intro a b r h; cases h
  | succ f ih =>
    intro a b r h hs
    unfold cmpT at h
    cases hl : labelSpec d1 a d2 b with
    | ok st =>
      rw [hl, Out.bind_ok] at h
      by_cases h1 : st = .success
      · rw [if_neg (not_not.mpr h1)] at h
        obtain ⟨e1, e2⟩ := cmpL_success h hs
        refine .node (by rw [hl, h1]) e1 ?_
        intro i x y hx hy
        obtain ⟨r', q1, q2⟩ := e2 i x y hx hy
        exact ih x y r' q1 q2
      · rw [if_pos h1] at h; cases h; exact absurd hs h1
    | longjmp => rw [hl] at h; cases h
    | ub w => rw [hl] at h; cases h
    | hang => rw [hl] at h; cases h

theorem cmpL_complete {cmp : Nat → Nat → Out CResult} {p1 p2 : Nat} {P : Prop} : ∀ {xs ys : List Nat},
    xs.length = ys.length →
    (∀ (i x y : Nat), xs[i]? = some x → ys[i]? = some y → (∃ r, cmp x y = .ok r ∧ r.status = .success) ∨ (cmp x y = .longjmp ∧ P)) →
    cmpL cmp p1 p2 xs ys = .ok ⟨.success, p1, p2⟩ ∨ (cmpL cmp p1 p2 xs ys = .longjmp ∧ P) := by
  intro xs
  induction xs with
  | nil =>
    intro ys hl _
    cases ys with
    | nil => left; rfl
    | cons y ys => cases hl
  | cons x xs ih =>
    intro ys hl h
    cases ys with
    | nil => cases hl
    | cons y ys =>
      unfold cmpL
      rcases h 0 x y rfl rfl with ⟨r, e, hs⟩ | ⟨e, hP⟩
      · rw [e, Out.bind_ok, if_neg (not_not.mpr hs)]
        exact ih (by simpa using hl) (fun i u v hu hv => h (i + 1) u v (by simpa using hu) (by simpa using hv))
      · rw [e]; exact Or.inr ⟨rfl, hP⟩

theorem cmpT_complete {c1 : Nat → List Nat} (h1 : DomI d1 c1) {R : Nat → Nat → Prop} {P : Prop}
    (hR : ∀ a b, R a b → Live d1 a → labelSpec d1 a d2 b = .ok .success ∨ (labelSpec d1 a d2 b = .longjmp ∧ P))
    {a b : Nat} (h : SameTree R d1 d2 a b) (ha : Live d1 a) (f : Nat) (hf : d1.nodes.length - a < f) :
    cmpT d1 d2 f a b = .ok ⟨.success, a, b⟩ ∨ (cmpT d1 d2 f a b = .longjmp ∧ P) := by
  induction h generalizing f with
  | node hr hlen hk ih =>
    rename_i a b
    obtain ⟨f, rfl⟩ : ∃ k, f = k + 1 := ⟨f - 1, by omega⟩
    unfold cmpT
    rcases hR a b hr ha with e | ⟨e, hP⟩
    · rw [e, Out.bind_ok, if_neg (by simp)]
      apply cmpL_complete hlen
      intro i x y hx hy
      have hm : x ∈ kids d1 a := List.mem_of_getElem? hx
      have hrange := h1.linked.range a x (h1.linked.mem_kids hm).2
      rcases ih i x y hx hy (.child ha hm) f (by omega) with q | q
      · exact Or.inl ⟨_, q, rfl⟩
      · exact Or.inr q
    · rw [e]; exact Or.inr ⟨rfl, hP⟩

theorem equals_eq {c1 c2 : Nat → List Nat} (h1 : DomI d1 c1) (h2 : DomI d2 c2) {f : Nat} (hf : d1.nodes.length ≤ f) :
    equals d1 d2 = (do
      let r ← cmpT d1 d2 f 1 1
      if r.status ≠ .success then .ok r else .ok ⟨.success, 0, 0⟩) := by
  have t1 := h1.linked.two
  have t2 := h2.linked.two
  unfold equals
  show equalsLoop d1 d2 (d1.nn.length + 1 + 1) 1 1 = _
  unfold equalsLoop
  rw [if_pos ⟨by decide, by decide⟩, compareNodeF_eq h1 h2 _ 1 1 (by omega) (by omega) (by omega) (by omega),
    cmpT_fuel h1 (d1.nodes.length + 1) f 1 1 (by omega) (by omega)]
  cases cmpT d1 d2 f 1 1 with
  | ok r =>
    rw [Out.bind_ok, Out.bind_ok]
    by_cases hs : r.status = .success
    · rw [if_neg (not_not.mpr hs), if_neg (not_not.mpr hs), h1.linked.getNext_root, h2.linked.getNext_root]
      rfl
    · rw [if_pos hs, if_pos hs]
  | longjmp => rfl
  | ub w => rfl
  | hang => rfl

theorem live_known {c1 : Nat → List Nat} (h1 : DomI d1 c1) {n : Nat} (hn : Live d1 n) : Known d1 n := by
  cases hn with
  | root => exact Or.inr (Or.inr h1.root)
  | child _ hc =>
    rcases h1.kind _ _ (h1.linked.mem_kids hc).2 with h | h
    · exact Or.inl h
    · exact Or.inr (Or.inl h)

theorem sameTree_refl {c1 : Nat → List Nat} (h1 : DomI d1 c1) {R : Nat → Nat → Prop} (hR : ∀ a, R a a) (hk : kids d2 = kids d1) :
    ∀ (k a : Nat), d1.nodes.length - a < k → SameTree R d1 d2 a a := by
  intro k
  induction k with
  | zero => intro a h; omega
  | succ k ih =>
    intro a h
    refine .node (hR a) (by rw [hk]) ?_
    intro i x y hx hy
    rw [hk] at hy
    rw [hx] at hy; cases hy
    have := h1.linked.range a x (h1.linked.mem_kids (List.mem_of_getElem? hx)).2
    exact ih x (by omega)

end
end Flo
