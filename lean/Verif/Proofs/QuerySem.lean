import Verif.Proofs.QueryText
import Verif.Proofs.Kids
/-!
# The meaning of a query on the document tree
-/
namespace Flo
open Spec

/-! ## Commas -/

theorem blank_noComma {w : Str} (h : Blanks w) : (44 : UInt8) ∉ w := fun hc => (blank_facts (h 44 hc)).2.2.2.2.2.2.2.2.2.2 rfl

theorem word_noComma {w : Str} (h : Word w) : (44 : UInt8) ∉ w := fun hc => (wordStop_iff (h.2 44 hc)).2 rfl

theorem tagWord_noComma {w : Str} (h : TagWord w) : (44 : UInt8) ∉ w := fun hc => (tagStop_iff (h.2 44 hc)).2 rfl

theorem cond_noComma {c : Cond} (h : c.WF) : (44 : UInt8) ∉ c.text := by
  cases c with
  | flag w1 n w2 =>
    have h1 := blank_noComma h.1
    have h2 := word_noComma h.2.1
    have h3 := blank_noComma h.2.2
    simp [Cond.text, h1, h2, h3]
  | eq w1 k w2 w3 v w4 =>
    obtain ⟨a, b, c, d, e, f⟩ := h
    simp [Cond.text, blank_noComma a, word_noComma b, blank_noComma c, blank_noComma d, word_noComma e, blank_noComma f]

theorem compound_noComma {c : Compound} {last : Bool} (h : c.WF last) : (44 : UInt8) ∉ c.text := by
  cases c with
  | any => decide
  | mk t cs fin =>
    obtain ⟨h1, h2, h3, _⟩ := h
    simp only [Compound.text, List.mem_append, not_or, List.mem_flatMap, not_exists, not_and]
    refine ⟨?_, fun c hc => cond_noComma (h2 c hc), ?_⟩
    · cases t with
      | none => simp
      | some x => exact tagWord_noComma (h1 x rfl)
    · cases fin with
      | none => simp
      | some f =>
        have := word_noComma (h3 f rfl).2
        cases f <;> simpa [Final.text, Final.word] using this

theorem comb_noComma {k : Comb} (h : k.WF) : (44 : UInt8) ∉ k.text := by
  have h1 := blank_noComma h.1
  have h2 := blank_noComma h.2.1
  have h3 : (44 : UInt8) ∉ k.kind.text := by cases k.kind <;> decide
  simp [Comb.text, h1, h2, h3]

theorem rest_noComma {r : List (Comb × Compound)} (h : restWF r) : (44 : UInt8) ∉ restText r := by
  induction r with
  | nil => simp [restText]
  | cons a r ih =>
    obtain ⟨k, c⟩ := a
    have h1 := comb_noComma h.1
    have h2 := compound_noComma h.2.1
    have h3 := ih h.2.2.2
    unfold restText at h3 ⊢
    rw [List.flatMap_cons]
    simp only [List.mem_append, not_or]
    exact ⟨⟨h1, h2⟩, h3⟩

theorem part_noComma {p : Part} (h : p.WF) : (44 : UInt8) ∉ p.text := by
  obtain ⟨h1, h2, h3, h4⟩ := h
  simp [Part.text, blank_noComma h1, blank_noComma h2, compound_noComma h3, rest_noComma h4]

theorem split_query (q : Query) (h : ∀ p ∈ q.parts, p.WF) : splitComma q.text = q.parts.map Part.text := by
  have : ∀ (tail : List Part) (acc : Str), (∀ p ∈ tail, p.WF) →
      splitComma (tail.foldl (fun acc p => acc ++ 44 :: p.text) acc) = splitComma acc ++ tail.map Part.text := by
    intro tail
    induction tail with
    | nil => intro acc _; simp
    | cons p tail ih =>
      intro acc hw
      rw [List.foldl_cons, ih _ (fun p hp => hw p (by simp [hp])), splitComma_append,
        splitComma_none (part_noComma (hw p (by simp)))]
      simp
  have hh := this q.tail q.head.text (fun p hp => h p (by simp [Query.parts, hp]))
  rw [splitComma_none (part_noComma (h q.head (by simp [Query.parts])))] at hh
  exact hh

/-! ## Known names and the number of filters -/

theorem MapOK.known {m : AutoMap} {reg : List Str} (h : MapOK m reg) (k : Str) : m.contains k = 0 ↔ k ∉ reg.tail := by
  constructor
  · intro hz hk
    obtain ⟨i, hi⟩ := List.mem_iff_getElem?.mp hk
    have : reg[i + 1]? = some k := by rw [← hi]; cases reg <;> simp
    have := (h.iff k (i + 1) (by omega)).mpr this
    omega
  · intro hk
    by_contra hz
    have := (h.iff k _ hz).mp rfl
    apply hk
    obtain ⟨v, hv⟩ := Nat.exists_eq_succ_of_ne_zero hz
    rw [hv] at this
    rw [List.mem_iff_getElem?]
    exact ⟨v, by rw [← this]; cases reg <;> simp⟩

section
variable {d : Dom}

theorem condFilter_some (h : NamesOK d) (c : Cond) : condFilter d c = none ↔ ¬c.known d := by
  cases c with
  | flag w1 b w2 =>
    have := h.bool.known b
    simp only [condFilter, Cond.known]
    split
    · rename_i e; rw [this] at e; simpa using e
    · rename_i e; rw [this] at e; simpa using e
  | eq w1 k w2 w3 v w4 =>
    have h1 := h.key.known k
    have h2 := h.val.known v
    simp only [condFilter, Cond.known]
    split
    · rename_i e; rw [h1, h2] at e; simp; tauto
    · rename_i e; rw [h1, h2] at e; simp; tauto

theorem finFilter_some (h : NamesOK d) (f : Final) : finFilter d f = none ↔ ¬f.known d := by
  have h1 := h.key.known (finKey f)
  have h2 := h.val.known f.word
  have hk : f.known d ↔ (finKey f ∈ d.keyReg.tail ∧ f.word ∈ d.valReg.tail) := by cases f <;> rfl
  rw [hk]
  unfold finFilter
  split
  · rename_i e; rw [h1, h2] at e; simp; tauto
  · rename_i e; rw [h1, h2] at e; simp; tauto

theorem tagFilter_some (h : NamesOK d) (x : Str) : tagFilter d x = none ↔ x ∉ (d.tagReg.map (·.1)).tail := by
  rw [← h.tag.known]
  unfold tagFilter
  split <;> simp [*]

/-- The filters of a selector whose names are known. -/
def allFilters (d : Dom) : Compound → List Filter
  | .any => [.all]
  | .mk t cs fin => t.toList.filterMap (tagFilter d) ++ (condList d cs fin).filterMap id

theorem addConds_go : ∀ (os : List (Option Filter)) (fs : List Filter), (∀ o ∈ os, o ≠ none) → fs.length + os.length ≤ 8 →
    addConds os fs = .go (fs ++ os.filterMap id) := by
  intro os
  induction os with
  | nil => intro fs _ _; simp [addConds]
  | cons o os ih =>
    intro fs h1 h2
    simp only [List.length_cons] at h2
    unfold addConds
    rw [if_neg (by unfold maxFilters; omega)]
    cases o with
    | none => exact absurd rfl (h1 none (by simp))
    | some f =>
      simp only
      rw [ih _ (fun o ho => h1 o (by simp [ho])) (by simp; omega)]
      simp

theorem addConds_notSeen : ∀ (os : List (Option Filter)) (fs : List Filter), none ∈ os → fs.length + os.length ≤ 8 →
    addConds os fs = .fail .notSeenBefore := by
  intro os
  induction os with
  | nil => intro fs h; simp at h
  | cons o os ih =>
    intro fs h1 h2
    simp only [List.length_cons] at h2
    unfold addConds
    rw [if_neg (by unfold maxFilters; omega)]
    cases o with
    | none => rfl
    | some f =>
      simp only
      exact ih _ (by simpa using h1) (by simp; omega)

theorem addConds_tooMany : ∀ (os : List (Option Filter)) (fs : List Filter), (∀ o ∈ os, o ≠ none) →
    8 < fs.length + os.length → fs.length ≤ 8 → addConds os fs = .fail .tooManyFilters := by
  intro os
  induction os with
  | nil => intro fs _ h1 h2; simp at h1; omega
  | cons o os ih =>
    intro fs h1 h2 h3
    simp only [List.length_cons] at h2
    unfold addConds
    by_cases hm : fs.length ≥ maxFilters
    · rw [if_pos hm]
    · rw [if_neg hm]
      unfold maxFilters at hm
      cases o with
      | none => exact absurd rfl (h1 none (by simp))
      | some f =>
        simp only
        exact ih _ (fun o ho => h1 o (by simp [ho])) (by simp; omega) (by simp; omega)

theorem condList_known (h : NamesOK d) (cs : List Cond) (fin : Option Final) :
    (∀ o ∈ condList d cs fin, o ≠ none) ↔ (∀ c ∈ cs, c.known d) ∧ ∀ f, fin = some f → f.known d := by
  unfold condList
  constructor
  · intro ha
    constructor
    · intro c hc
      by_contra hk
      exact ha _ (List.mem_append_left _ (List.mem_map_of_mem hc)) ((condFilter_some h c).mpr hk)
    · rintro f rfl
      by_contra hk
      exact ha _ (List.mem_append_right _ (by simp)) ((finFilter_some h f).mpr hk)
  · rintro ⟨h1, h2⟩ o ho
    rcases List.mem_append.mp ho with ho | ho
    · obtain ⟨c, hc, rfl⟩ := List.mem_map.mp ho
      intro e
      exact (condFilter_some h c).mp e (h1 c hc)
    · cases fin with
      | none => simp at ho
      | some f =>
        simp at ho; subst ho
        intro e
        exact (finFilter_some h f).mp e (h2 f rfl)

theorem compFilters_go (h : NamesOK d) {c : Compound} (hk : c.known d) (hs : c.size ≤ 8) :
    compFilters d c = .go (allFilters d c) := by
  cases c with
  | any => rfl
  | mk t cs fin =>
    obtain ⟨k1, k2⟩ := hk
    have hl := (condList_known h cs fin).mpr k2
    have hlen : (condList d cs fin).length = cs.length + fin.toList.length := by simp [condList]
    cases t with
    | none =>
      show addConds _ _ = _
      rw [addConds_go _ _ hl (by simp [Compound.size] at hs ⊢; omega)]
      rfl
    | some x =>
      have hcf : compFilters d (.mk (some x) cs fin) = match tagFilter d x with
          | none => .fail .notSeenBefore
          | some f => addConds (condList d cs fin) [f] := rfl
      rw [hcf]
      cases htf : tagFilter d x with
      | none => exact absurd (k1 x rfl) ((tagFilter_some h x).mp htf)
      | some f =>
        simp only
        rw [addConds_go _ _ hl (by simp [Compound.size] at hs ⊢; omega)]
        simp [allFilters, htf]

theorem compFilters_notSeen (h : NamesOK d) {c : Compound} (hk : ¬c.known d) (hs : c.size ≤ 8) :
    compFilters d c = .fail .notSeenBefore := by
  cases c with
  | any => exact absurd trivial hk
  | mk t cs fin =>
    have hlen : (condList d cs fin).length = cs.length + fin.toList.length := by simp [condList]
    have hnone : ∀ fs, (∀ x, t = some x → x ∈ (d.tagReg.map (·.1)).tail) → fs.length + (condList d cs fin).length ≤ 8 →
        addConds (condList d cs fin) fs = .fail .notSeenBefore := by
      intro fs ht hle
      refine addConds_notSeen _ _ ?_ hle
      by_contra hn
      exact hk ⟨ht, (condList_known h cs fin).mp (fun o ho e => hn (e ▸ ho))⟩
    cases t with
    | none =>
      show addConds _ _ = _
      exact hnone _ (by simp) (by simp [Compound.size] at hs ⊢; omega)
    | some x =>
      have hcf : compFilters d (.mk (some x) cs fin) = match tagFilter d x with
          | none => .fail .notSeenBefore
          | some f => addConds (condList d cs fin) [f] := rfl
      rw [hcf]
      cases htf : tagFilter d x with
      | none => rfl
      | some f =>
        refine hnone _ ?_ (by simp [Compound.size] at hs ⊢; omega)
        intro y hy; cases hy
        by_contra hc
        rw [(tagFilter_some h x).mpr hc] at htf; cases htf

theorem compFilters_tooMany (h : NamesOK d) {c : Compound} (hk : c.known d) (hs : ¬c.size ≤ 8) :
    compFilters d c = .fail .tooManyFilters := by
  cases c with
  | any => simp [Compound.size] at hs
  | mk t cs fin =>
    obtain ⟨k1, k2⟩ := hk
    have hl := (condList_known h cs fin).mpr k2
    have hlen : (condList d cs fin).length = cs.length + fin.toList.length := by simp [condList]
    cases t with
    | none =>
      show addConds _ _ = _
      rw [addConds_tooMany _ _ hl (by simp [Compound.size] at hs ⊢; omega) (by simp)]
    | some x =>
      have hcf : compFilters d (.mk (some x) cs fin) = match tagFilter d x with
          | none => .fail .notSeenBefore
          | some f => addConds (condList d cs fin) [f] := rfl
      rw [hcf]
      cases htf : tagFilter d x with
      | none => exact absurd (k1 x rfl) ((tagFilter_some h x).mp htf)
      | some f =>
        simp only
        rw [addConds_tooMany _ _ hl (by simp [Compound.size] at hs ⊢; omega) (by simp)]

theorem stepsRes_go (h : NamesOK d) : ∀ (r : List (Combinator × Compound)), (∀ a ∈ r, a.2.known d ∧ a.2.size ≤ 8) →
    stepsRes d r = .go (r.map (fun a => (a.1, allFilters d a.2))) := by
  intro r
  induction r with
  | nil => intro _; rfl
  | cons a r ih =>
    obtain ⟨k, c⟩ := a
    intro hr
    unfold stepsRes
    have := hr (k, c) (by simp)
    rw [compFilters_go h this.1 this.2, ih (fun a ha => hr a (by simp [ha]))]
    rfl

theorem stepsRes_notSeen (h : NamesOK d) : ∀ (r : List (Combinator × Compound)), (∀ a ∈ r, a.2.size ≤ 8) →
    (∃ a ∈ r, ¬a.2.known d) → stepsRes d r = .fail .notSeenBefore := by
  intro r
  induction r with
  | nil => rintro _ ⟨a, ha, _⟩; simp at ha
  | cons a r ih =>
    obtain ⟨k, c⟩ := a
    rintro h1 ⟨a, ha, hna⟩
    have hs := h1 (k, c) (by simp)
    unfold stepsRes
    by_cases hk : c.known d
    · rw [compFilters_go h hk hs]
      simp only
      rw [ih (fun a ha => h1 a (by simp [ha])) ?_]
      rcases List.mem_cons.mp ha with rfl | ha
      · exact absurd hk hna
      · exact ⟨a, ha, hna⟩
    · rw [compFilters_notSeen h hk hs]

theorem stepsRes_tooMany (h : NamesOK d) : ∀ (r : List (Combinator × Compound)), (∀ a ∈ r, a.2.known d) →
    (∃ a ∈ r, ¬a.2.size ≤ 8) → stepsRes d r = .fail .tooManyFilters := by
  intro r
  induction r with
  | nil => rintro _ ⟨a, ha, _⟩; simp at ha
  | cons a r ih =>
    obtain ⟨k, c⟩ := a
    rintro h1 ⟨a, ha, hna⟩
    have hk := h1 (k, c) (by simp)
    unfold stepsRes
    by_cases hs : c.size ≤ 8
    · rw [compFilters_go h hk hs]
      simp only
      rw [ih (fun a ha => h1 a (by simp [ha])) ?_]
      rcases List.mem_cons.mp ha with rfl | ha
      · exact absurd hs hna
      · exact ⟨a, ha, hna⟩
    · rw [compFilters_tooMany h hk hs]

/-- The steps of a part. -/
def specSteps (p : Part) : List (Combinator × Compound) :=
  (.none, p.first) :: p.rest.map (fun r => (kindOf r.1.kind, r.2))

theorem specSteps_mem (p : Part) (P : Compound → Prop) : (∀ a ∈ specSteps p, P a.2) ↔ ∀ c ∈ p.compounds, P c := by
  unfold specSteps Part.compounds
  constructor
  · intro h c hc
    rcases List.mem_cons.mp hc with rfl | hc
    · exact h (.none, p.first) (by simp)
    · obtain ⟨r, hr, rfl⟩ := List.mem_map.mp hc
      exact h (kindOf r.1.kind, r.2) (List.mem_cons_of_mem _ (List.mem_map.mpr ⟨r, hr, rfl⟩))
  · intro h a ha
    rcases List.mem_cons.mp ha with rfl | ha
    · exact h p.first (by simp)
    · obtain ⟨r, hr, rfl⟩ := List.mem_map.mp ha
      exact h r.2 (List.mem_cons_of_mem _ (List.mem_map.mpr ⟨r, hr, rfl⟩))

theorem partRes_go (h : NamesOK d) {p : Part} (hk : p.known d) (hs : p.Small) :
    partRes d p = .go ((specSteps p).map (fun a => (a.1, allFilters d a.2))) :=
  stepsRes_go h _ ((specSteps_mem p (fun c => c.known d ∧ c.size ≤ 8)).mpr (fun c hc => ⟨hk c hc, hs c hc⟩))

theorem partRes_notSeen (h : NamesOK d) {p : Part} (hk : ¬p.known d) (hs : p.Small) :
    partRes d p = .fail .notSeenBefore := by
  refine stepsRes_notSeen h _ ((specSteps_mem p (fun c => c.size ≤ 8)).mpr hs) ?_
  by_contra hc
  push Not at hc
  exact hk ((specSteps_mem p (fun c => c.known d)).mp hc)

theorem partRes_tooMany (h : NamesOK d) {p : Part} (hk : p.known d) (hs : ¬p.Small) :
    partRes d p = .fail .tooManyFilters := by
  refine stepsRes_tooMany h _ ((specSteps_mem p (fun c => c.known d)).mpr hk) ?_
  by_contra hc
  push Not at hc
  exact hs ((specSteps_mem p (fun c => c.size ≤ 8)).mp hc)

/-! ## What a filter list says about a node -/

variable {pun : Nat → Nat} {n : Nat}

theorem fsat_append_noall {fs gs : List Filter} (h : .all ∉ fs) :
    fsat pun d n (fs ++ gs) = (fsat pun d n fs && fsat pun d n gs) := by
  induction fs with
  | nil => simp [fsat]
  | cons f fs ih =>
    simp only [List.mem_cons, not_or] at h
    cases f with
    | all => exact absurd rfl h.1
    | tag t => simp [fsat, ih h.2, Bool.and_assoc]
    | bool b => simp [fsat, ih h.2, Bool.and_assoc]
    | prop k v => simp [fsat, ih h.2, Bool.and_assoc]

theorem prop_holds (h : NamesOK d) (hn : n ≠ 0) {k v : Str} (hk : d.keyMap.contains k ≠ 0) (hv : d.valMap.contains v ≠ 0) :
    fsat pun d n [.prop (d.keyMap.contains k) (d.valMap.contains v)] = true ↔ (k, v) ∈ pairs d n := by
  rw [← hasProperty_iff h hn]
  unfold hasProperty fsat fsat
  simp only
  rw [if_neg hk, if_neg hk]
  simp

theorem bool_holds (h : NamesOK d) (hn : n ≠ 0) {b : Str} (hb : d.boolMap.contains b ≠ 0) :
    fsat pun d n [.bool (d.boolMap.contains b)] = true ↔ b ∈ bools d n := by
  rw [← hasBoolProp_iff h hn]
  unfold hasBoolProp fsat fsat
  simp only
  rw [if_neg hb]
  simp

theorem condFilter_holds (h : NamesOK d) (hn : n ≠ 0) {c : Cond} {f : Filter} (hf : condFilter d c = some f) :
    f ≠ .all ∧ (fsat pun d n [f] = true ↔ c.holds d n) := by
  cases c with
  | flag w1 b w2 =>
    simp only [condFilter] at hf
    split at hf
    · cases hf
    · cases hf
      rename_i hb
      exact ⟨by simp, bool_holds h hn hb⟩
  | eq w1 k w2 w3 v w4 =>
    simp only [condFilter] at hf
    split at hf
    · cases hf
    · cases hf
      rename_i hb
      simp only [not_or] at hb
      exact ⟨by simp, prop_holds h hn hb.1 hb.2⟩

theorem finFilter_holds (h : NamesOK d) (hn : n ≠ 0) {c : Final} {f : Filter} (hf : finFilter d c = some f) :
    f ≠ .all ∧ (fsat pun d n [f] = true ↔ c.holds d n) := by
  unfold finFilter at hf
  split at hf
  · cases hf
  · cases hf
    rename_i hb
    simp only [not_or] at hb
    refine ⟨by simp, (prop_holds h hn hb.1 hb.2).trans ?_⟩
    cases c <;> rfl

theorem filterMap_holds {P : Nat → Prop} {os : List (Option Filter)} (hos : ∀ o ∈ os, ∀ f, o = some f → f ≠ .all) :
    .all ∉ os.filterMap id ∧ (fsat pun d n (os.filterMap id) = true ↔
      ∀ o ∈ os, ∀ f, o = some f → fsat pun d n [f] = true) := by
  induction os with
  | nil => simp [fsat]
  | cons o os ih =>
    obtain ⟨i1, i2⟩ := ih (fun o ho => hos o (by simp [ho]))
    cases o with
    | none =>
      rw [List.filterMap_cons_none rfl]
      refine ⟨i1, i2.trans ?_⟩
      simp
    | some f =>
      have hf := hos (some f) (by simp) f rfl
      rw [show List.filterMap id (some f :: os) = f :: List.filterMap id os from rfl]
      refine ⟨?_, ?_⟩
      · simp only [List.mem_cons, not_or]
        exact ⟨Ne.symm hf, i1⟩
      · have := fsat_append_noall (pun := pun) (d := d) (n := n) (fs := [f]) (gs := os.filterMap id) (by simpa using Ne.symm hf)
        rw [List.singleton_append] at this
        rw [this, Bool.and_eq_true, i2]
        simp

/-- Reading the tag of any node. -/
theorem tag_finds (hnm : NamesOK d) {x : Str} {f : Filter} (hf : tagFilter d x = some f) :
    f ≠ .all ∧ (fsat pun d n [f] = true ↔ storedTag pun d n = some x) := by
  unfold tagFilter at hf
  split at hf
  · cases hf
  · cases hf
    rename_i hz
    refine ⟨by simp, ?_⟩
    have hfs : fsat pun d n [.tag (d.tagMap.contains x)] = d.nodes[n]?.any (fun nd => nd.getTag pun n == d.tagMap.contains x) := by
      simp [fsat]
    rw [hfs]
    have hname : ∀ t, t = d.tagMap.contains x ↔ tagName d t = some x := by
      intro t
      unfold tagName
      by_cases ht : t = 0
      · rw [if_pos ht]; simp [ht, Ne.symm hz]
      · rw [if_neg ht]
        have := hnm.tag.iff x t ht
        rw [List.getElem?_map] at this
        rw [← this]; exact eq_comm
    unfold storedTag
    cases hnd : d.nodes[n]? with
    | none => simp
    | some nd =>
      obtain ⟨ty, pl⟩ := nd
      cases pl with
      | tag t => simp only [Option.any_some, Node.getTag, beq_iff_eq]; exact hname t
      | text s => simp only [Option.any_some, Node.getTag, beq_iff_eq]; exact hname (pun n)

/-- For a node of the document the tag that is read is its tag. -/
theorem stored_live (hd : DomI d (kids d)) (hp : ∀ t, textOf d n = some t → pun n = 0 ∨ d.tagReg.length ≤ pun n) (hn : Live d n) :
    storedTag pun d n = tagOf d n := by
  have hcase : n = 1 ∨ IsKid d n := by
    cases hn with
    | root => exact Or.inl rfl
    | child _ hc => exact Or.inr (hd.kind _ _ hc)
  rcases hcase with rfl | hk | hk
  · simp [storedTag, tagOf, hd.rootN, tagName]
  · obtain ⟨nd, h1, h2⟩ := typeOf_some hk
    obtain ⟨t, h3⟩ := (hd.good n nd h1).text h2
    obtain ⟨ty, pl⟩ := nd
    simp only at h2 h3
    subst h2 h3
    have ht : textOf d n = some t := textOf_eq.mpr h1
    have := hp t ht
    have htag : tagOf d n = none := by simp [tagOf, h1]
    rw [htag]
    simp only [storedTag, h1, tagName]
    split
    · rfl
    · rcases this with e | e
      · contradiction
      · rw [List.getElem?_eq_none e]; rfl
  · obtain ⟨nd, h1, h2⟩ := typeOf_some hk
    obtain ⟨t, h3, h4, h5⟩ := (hd.good n nd h1).doc h2
    obtain ⟨ty, pl⟩ := nd
    simp only at h2 h3
    subst h2 h3
    simp [storedTag, tagOf, h1, tagName, h4]

theorem compound_finds (hnm : NamesOK d) (hn0 : n ≠ 0) {c : Compound}
    (hk : c.known d) : fsat pun d n (allFilters d c) = true ↔ c.finds pun d n := by
  cases c with
  | any => simp [allFilters, fsat, Compound.finds]
  | mk t cs fin =>
    obtain ⟨k1, k2, k3⟩ := hk
    have hos : ∀ o ∈ condList d cs fin, ∀ f, o = some f → f ≠ .all := by
      rintro o ho f rfl
      rcases List.mem_append.mp ho with ho | ho
      · obtain ⟨c, _, hc⟩ := List.mem_map.mp ho
        exact (condFilter_holds (pun := pun) hnm hn0 hc).1
      · obtain ⟨c, _, hc⟩ := List.mem_map.mp ho
        exact (finFilter_holds (pun := pun) hnm hn0 hc).1
    have hcond := (filterMap_holds (P := fun _ => True) (pun := pun) (d := d) (n := n) hos).2
    have hcond' : fsat pun d n ((condList d cs fin).filterMap id) = true ↔
        (∀ c ∈ cs, c.holds d n) ∧ ∀ f, fin = some f → f.holds d n := by
      rw [hcond]
      constructor
      · intro h
        constructor
        · intro c hc
          obtain ⟨f, hf⟩ := Option.ne_none_iff_exists'.mp (fun e => (condFilter_some hnm c).mp e (k2 c hc))
          exact (condFilter_holds hnm hn0 hf).2.mp (h _ (List.mem_append_left _ (List.mem_map_of_mem hc)) f hf)
        · rintro x rfl
          obtain ⟨f, hf⟩ := Option.ne_none_iff_exists'.mp (fun e => (finFilter_some hnm x).mp e (k3 x rfl))
          exact (finFilter_holds hnm hn0 hf).2.mp (h _ (List.mem_append_right _ (by simp)) f hf)
      · rintro ⟨h1, h2⟩ o ho f rfl
        rcases List.mem_append.mp ho with ho | ho
        · obtain ⟨c, hc, he⟩ := List.mem_map.mp ho
          exact (condFilter_holds hnm hn0 he).2.mpr (h1 c hc)
        · obtain ⟨c, hc, he⟩ := List.mem_map.mp ho
          exact (finFilter_holds hnm hn0 he).2.mpr (h2 c (by simpa using hc))
    cases t with
    | none =>
      show fsat pun d n ((condList d cs fin).filterMap id) = true ↔ _
      rw [hcond']
      simp [Compound.finds]
    | some x =>
      obtain ⟨f, hf⟩ := Option.ne_none_iff_exists'.mp (fun e => (tagFilter_some hnm x).mp e (k1 x rfl))
      obtain ⟨t1, t2⟩ := tag_finds (pun := pun) (n := n) hnm hf
      have e : allFilters d (.mk (some x) cs fin) = [f] ++ (condList d cs fin).filterMap id := by
        simp [allFilters, hf]
      rw [e, fsat_append_noall (by simpa using Ne.symm t1), Bool.and_eq_true, t2, hcond']
      simp [Compound.finds]

theorem finds_live (hd : DomI d (kids d)) (hp : ∀ t, textOf d n = some t → pun n = 0 ∨ d.tagReg.length ≤ pun n) (hn : Live d n)
    (c : Compound) : c.finds pun d n ↔ c.holds d n := by
  cases c with
  | any => exact Iff.rfl
  | mk t cs fin => unfold Compound.finds Compound.holds; rw [stored_live hd hp hn]

/-! ## The relations, seen from a node of the document -/

theorem live_ne_zero (hd : DomI d (kids d)) (hn : Live d n) : n ≠ 0 ∧ n < d.nodes.length := by
  have h2 := hd.linked.two
  cases hn with
  | root => exact ⟨by decide, by show 1 < _; omega⟩
  | child _ hc => have := hd.linked.range _ _ hc; omega

theorem live_parent (hd : DomI d (kids d)) {p c : Nat} (hc : c ∈ kids d p) (hl : Live d c) : Live d p := by
  cases hl with
  | root => have := hd.linked.range _ _ hc; exact absurd this.2.1 (by decide)
  | child hq hc' => rw [hd.linked.uniq _ _ _ hc hc']; exact hq

theorem live_sibling (hd : DomI d (kids d)) {p a b : Nat} (ha : a ∈ kids d p) (hb : b ∈ kids d p) (hl : Live d b) : Live d a :=
  .child (live_parent hd hb hl) ha

theorem live_hasParent (hd : DomI d (kids d)) (hn : Live d n) (h : n ≠ 1) : ∃ p, n ∈ kids d p := by
  cases hn with
  | root => exact absurd rfl h
  | child _ hc => exact ⟨_, hc⟩

theorem pc_live (hd : DomI d (kids d)) (h0 : kids d 0 = []) {v : Nat} (hn : Live d n) : Pc d v n ↔ ElemChild d v n := by
  constructor
  · rintro ⟨h1, h2⟩
    refine ⟨?_, h2⟩
    have := live_ne_zero hd hn
    have hr := hd.linked.pcLt v n h1 this.1
    obtain ⟨p, hp⟩ := live_hasParent hd hn (by omega)
    rw [hd.linked.pcOwn p v n h1 hp]; exact hp
  · rintro ⟨h1, h2⟩
    refine ⟨hd.linked.pcM v n ?_ h1, h2⟩
    rintro rfl
    rw [h0] at h1; cases h1

theorem nx_live (hd : DomI d (kids d)) {v : Nat} (hn : Live d n) : Nx d v n ↔ ∃ p, Adj (kids d p) v n := by
  constructor
  · rintro ⟨h1, h2⟩
    have hrow : (v, n) ∈ d.nn := h1 ▸ getNext_row (by omega)
    have hv : v ≠ 0 := by
      rintro rfl
      exact nx_zero hd.linked ⟨h1, h2⟩
    have hlt := hd.linked.nnLt v n hrow hv
    obtain ⟨p, hp⟩ := live_hasParent hd hn (by omega)
    exact ⟨p, hd.linked.nnOwn p v n hrow (Or.inr hp)⟩
  · rintro ⟨p, hp⟩
    refine ⟨hd.linked.getNext_eq hp, ?_⟩
    have := hd.linked.range p n (adj_mem_right hp)
    omega

theorem trans_live {R R' : Nat → Nat → Prop} (h1 : ∀ a b, Live d b → (R a b ↔ R' a b))
    (h2 : ∀ a b, Live d b → R' a b → Live d a) {v : Nat} (hn : Live d n) :
    (Relation.TransGen R v n ↔ Relation.TransGen R' v n) ∧ (Relation.TransGen R' v n → Live d v) := by
  have a1 : ∀ n, Relation.TransGen R v n → Live d n → Relation.TransGen R' v n := by
    intro n h
    induction h with
    | single h => intro hn; exact .single ((h1 _ _ hn).mp h)
    | tail _ h ih =>
      intro hn
      have := (h1 _ _ hn).mp h
      exact .tail (ih (h2 _ _ hn this)) this
  have a2 : ∀ n, Relation.TransGen R' v n → Live d n → Relation.TransGen R v n ∧ Live d v := by
    intro n h
    induction h with
    | single h => intro hn; exact ⟨.single ((h1 _ _ hn).mpr h), h2 _ _ hn h⟩
    | tail _ h ih =>
      intro hn
      obtain ⟨i1, i2⟩ := ih (h2 _ _ hn h)
      exact ⟨.tail i1 ((h1 _ _ hn).mpr h), i2⟩
  exact ⟨⟨fun h => a1 n h hn, fun h => (a2 n h hn).1⟩, fun h => (a2 n h hn).2⟩

theorem siblings_iff (hd : DomI d (kids d)) {v : Nat} :
    Relation.TransGen (fun a b => ∃ p, Adj (kids d p) a b) v n ↔ ∃ p l₁ l₂, kids d p = l₁ ++ v :: l₂ ∧ n ∈ l₂ := by
  constructor
  · intro h
    induction h with
    | single h =>
      obtain ⟨p, h⟩ := h
      obtain ⟨l₁, l₂, e⟩ := adj_iff_split.mp h
      exact ⟨p, l₁, _, e, by simp⟩
    | tail _ h ih =>
      rename_i b c hb
      obtain ⟨p, l₁, l₂, e, hm⟩ := ih
      obtain ⟨q, hq⟩ := h
      obtain rfl := hd.linked.uniq p q b (by rw [e]; simp [hm]) (adj_mem_left hq)
      obtain ⟨l₃, l₄, e'⟩ := List.append_of_mem hm
      rw [e'] at e
      refine ⟨p, l₁, l₂, by rw [e', e], ?_⟩
      rw [e']
      -- c follows b
      cases l₄ with
      | nil =>
        have hl : (kids d p).getLast? = some b := by
          rw [e, List.getLast?_append, ← List.cons_append, List.getLast?_append]; simp
        exact absurd hq (not_adj_last (hd.linked.nodup p) hl)
      | cons x l₄ =>
        have : Adj (kids d p) b x := adj_iff_split.mpr ⟨l₁ ++ v :: l₃, l₄, by rw [e]; simp⟩
        rw [adj_right_unique (hd.linked.nodup p) hq this]
        simp
  · rintro ⟨p, l₁, l₂, e, hm⟩
    obtain ⟨l₃, l₄, e'⟩ := List.append_of_mem hm
    rw [e'] at e
    clear hm e'
    induction l₃ generalizing v l₁ with
    | nil => exact .single ⟨p, adj_iff_split.mpr ⟨l₁, l₄, e⟩⟩
    | cons x l₃ ih =>
      refine .head ⟨p, adj_iff_split.mpr ⟨l₁, l₃ ++ n :: l₄, by simpa using e⟩⟩ (ih (l₁ := l₁ ++ [v]) ?_)
      simpa using e

theorem adj_spec {v : Nat} : (∃ p, Adj (kids d p) v n) ↔ ∃ p l₁ l₂, kids d p = l₁ ++ v :: n :: l₂ := by
  constructor
  · rintro ⟨p, h⟩
    exact ⟨p, adj_iff_split.mp h⟩
  · rintro ⟨p, h⟩
    exact ⟨p, adj_iff_split.mpr h⟩

/-- The code's relation and the tree's relation agree below nodes of the document. -/
theorem rel_live (hd : DomI d (kids d)) (h0 : kids d 0 = []) (k : CombKind) {fs : List Filter} {S : Nat → Prop}
    (hn : Live d n) : sem pun d (kindOf k) fs S n ↔ fsat pun d n fs = true ∧ ∃ v, S v ∧ k.rel d v n ∧ Live d v := by
  have up1 : ∀ a b, Live d b → ElemChild d a b → Live d a := fun a b hb h => live_parent hd h.1 hb
  have up2 : ∀ a b, Live d b → (∃ p, Adj (kids d p) a b) → Live d a := by
    rintro a b hb ⟨p, h⟩
    exact live_sibling hd (adj_mem_left h) (adj_mem_right h) hb
  cases k with
  | child =>
    show (_ ∧ ∃ v, S v ∧ Pc d v n) ↔ _
    refine and_congr_right fun _ => exists_congr fun v => and_congr_right fun _ => ?_
    rw [pc_live hd h0 hn]
    exact ⟨fun h => ⟨h, up1 _ _ hn h⟩, fun h => h.1⟩
  | descendant =>
    show (_ ∧ ∃ v, S v ∧ Relation.TransGen (Pc d) v n) ↔ _
    refine and_congr_right fun _ => exists_congr fun v => and_congr_right fun _ => ?_
    obtain ⟨t1, t2⟩ := trans_live (R := Pc d) (R' := ElemChild d) (fun a b hb => pc_live hd h0 hb) up1 (v := v) hn
    rw [t1]
    exact ⟨fun h => ⟨h, t2 h⟩, fun h => h.1⟩
  | adjacent =>
    show (_ ∧ ∃ v, S v ∧ Nx d v n) ↔ _
    refine and_congr_right fun _ => exists_congr fun v => and_congr_right fun _ => ?_
    rw [nx_live hd hn]
    show _ ↔ (∃ p l₁ l₂, kids d p = l₁ ++ v :: n :: l₂) ∧ _
    rw [← adj_spec]
    exact ⟨fun h => ⟨h, up2 _ _ hn h⟩, fun h => h.1⟩
  | sibling =>
    show (_ ∧ ∃ v, S v ∧ Relation.TransGen (Nx d) v n) ↔ _
    refine and_congr_right fun _ => exists_congr fun v => and_congr_right fun _ => ?_
    obtain ⟨t1, t2⟩ := trans_live (R := Nx d) (R' := fun a b => ∃ p, Adj (kids d p) a b) (fun a b hb => nx_live hd hb) up2 (v := v) hn
    rw [t1]
    show _ ↔ (∃ p l₁ l₂, kids d p = l₁ ++ v :: l₂ ∧ n ∈ l₂) ∧ _
    rw [← siblings_iff hd]
    exact ⟨fun h => ⟨h, t2 h⟩, fun h => h.1⟩

theorem rest_live (hd : DomI d (kids d)) (h0 : kids d 0 = []) {H : Compound → Nat → Prop}
    (hH : ∀ m c, Live d m → c.known d → (fsat pun d m (allFilters d c) = true ↔ H c m)) :
    ∀ (rest : List (Comb × Compound)) (S S' : Nat → Prop), (∀ a ∈ rest, a.2.known d) →
    (∀ n, Live d n → (S n ↔ S' n)) → ∀ n, Live d n →
    (evalSteps pun d (rest.map (fun r => (kindOf r.1.kind, allFilters d r.2))) S n ↔ restSelects H d rest S' n) := by
  intro rest
  induction rest with
  | nil => intro S S' _ hS n hn; exact hS n hn
  | cons a rest ih =>
    obtain ⟨k, c⟩ := a
    intro S S' hk hS n hn
    refine ih _ _ (fun a ha => hk a (by simp [ha])) ?_ n hn
    intro m hm
    rw [rel_live hd h0 k.kind hm, hH m c hm (hk (k, c) (by simp))]
    refine and_congr_right fun _ => exists_congr fun v => ?_
    constructor
    · rintro ⟨h1, h2, h3⟩; exact ⟨(hS v h3).mp h1, h2⟩
    · rintro ⟨h1, h2⟩
      have hv : Live d v := by
        cases hkk : k.kind with
        | child => rw [hkk] at h2; exact live_parent hd h2.1 hm
        | descendant =>
          rw [hkk] at h2
          exact (trans_live (R := ElemChild d) (R' := ElemChild d) (fun _ _ _ => Iff.rfl)
            (fun a b hb h => live_parent hd h.1 hb) hm).2 h2
        | adjacent =>
          rw [hkk] at h2
          obtain ⟨p, l₁, l₂, e⟩ := h2
          exact live_sibling hd (p := p) (by rw [e]; simp) (by rw [e]; simp) hm
        | sibling =>
          rw [hkk] at h2
          obtain ⟨p, l₁, l₂, e, h⟩ := h2
          exact live_sibling hd (p := p) (by rw [e]; simp) (by rw [e]; simp [h]) hm
      exact ⟨(hS v hv).mpr h1, h2, hv⟩

theorem part_live (hd : DomI d (kids d)) (h0 : kids d 0 = []) {H : Compound → Nat → Prop}
    (hH : ∀ m c, Live d m → c.known d → (fsat pun d m (allFilters d c) = true ↔ H c m)) {p : Part} (hk : p.known d)
    (hn : Live d n) :
    evalSteps pun d ((specSteps p).map (fun a => (a.1, allFilters d a.2))) (fun _ => False) n ↔
      restSelects H d p.rest (fun n => IsNode d n ∧ H p.first n) n := by
  unfold specSteps
  rw [List.map_cons, List.map_map]
  refine rest_live hd h0 hH p.rest _ _ (fun a ha => hk a.2 ?_) ?_ n hn
  · simp only [Part.compounds, List.mem_cons, List.mem_map]
    exact Or.inr ⟨a, ha, rfl⟩
  · intro m hm
    have hm' := live_ne_zero hd hm
    have := hH m p.first hm (hk p.first (by simp [Part.compounds]))
    show (False ∨ _) ↔ _
    rw [false_or, this]
    constructor
    · rintro ⟨h1, h2, h3⟩; exact ⟨⟨h1, h2⟩, h3⟩
    · rintro ⟨⟨h1, h2⟩, h3⟩; exact ⟨h1, h2, h3⟩

/-- **What a well-formed query returns.** -/
theorem query_by (hd : DomI d (kids d)) (h0 : kids d 0 = []) {H : Compound → Nat → Prop}
    (hH : ∀ m c, Live d m → c.known d → (fsat pun d m (allFilters d c) = true ↔ H c m)) {q : Query}
    (hw : ∀ p ∈ q.parts, p.WF) (hk : ∀ p ∈ q.parts, p.known d) (hs : ∀ p ∈ q.parts, p.Small) :
    ∃ L, querySelectorAll pun q.text d = .ok (.go L) ∧ L.Nodup ∧ (∀ n ∈ L, n ≠ 0 ∧ n < d.nodes.length) ∧
      ∀ n, Live d n →
        (n ∈ L ↔ ∃ p ∈ q.parts, restSelects H d p.rest (fun n => IsNode d n ∧ H p.first n) n) := by
  have hres : ∀ p ∈ q.parts, partSteps p.text d = .ok (.go ((specSteps p).map (fun a => (a.1, allFilters d a.2)))) := by
    intro p hpp
    rw [part_text (hw p hpp), partRes_go hd.names (hk p hpp) (hs p hpp)]
  have hnof : ∀ ps : List Part, (∀ p ∈ ps, p ∈ q.parts) → firstFail d (ps.map Part.text) = none := by
    intro ps
    induction ps with
    | nil => intro _; rfl
    | cons p ps ih =>
      intro hps
      rw [List.map_cons, firstFail, hres p (hps p (by simp))]
      exact ih (fun p hp => hps p (by simp [hp]))
  rcases querySelectorAll_eval hd pun q.text with ⟨st, e, _⟩ | ⟨_, L, e1, e2, e3, e4⟩
  · rw [split_query q hw, hnof q.parts (fun _ h => h)] at e; cases e
  · refine ⟨L, e1, e2, e4, fun n hn => ?_⟩
    rw [e3, split_query q hw]
    unfold partsSem
    constructor
    · rintro ⟨x, hx, l, hl, hn'⟩
      obtain ⟨p, hpp, rfl⟩ := List.mem_map.mp hx
      rw [hres p hpp] at hl
      cases hl
      exact ⟨p, hpp, (part_live hd h0 hH (hk p hpp) hn).mp hn'⟩
    · rintro ⟨p, hpp, hn'⟩
      exact ⟨p.text, List.mem_map_of_mem hpp, _, hres p hpp, (part_live hd h0 hH (hk p hpp) hn).mpr hn'⟩

theorem query_live (hd : DomI d (kids d)) (h0 : kids d 0 = []) (hp : PunFree pun d) {q : Query}
    (hw : ∀ p ∈ q.parts, p.WF) (hk : ∀ p ∈ q.parts, p.known d) (hs : ∀ p ∈ q.parts, p.Small) :
    ∃ L, querySelectorAll pun q.text d = .ok (.go L) ∧ L.Nodup ∧ (∀ n ∈ L, n ≠ 0 ∧ n < d.nodes.length) ∧
      ∀ n, Live d n → (n ∈ L ↔ q.selects d n) :=
  query_by (H := fun c n => c.holds d n) hd h0 (fun m c hm hc =>
    (compound_finds hd.names (live_ne_zero hd hm).1 hc).trans (finds_live hd (hp m) hm c)) hw hk hs

theorem query_finds (hd : DomI d (kids d)) (h0 : kids d 0 = []) {q : Query}
    (hw : ∀ p ∈ q.parts, p.WF) (hk : ∀ p ∈ q.parts, p.known d) (hs : ∀ p ∈ q.parts, p.Small) :
    ∃ L, querySelectorAll pun q.text d = .ok (.go L) ∧ L.Nodup ∧ (∀ n ∈ L, n ≠ 0 ∧ n < d.nodes.length) ∧
      ∀ n, Live d n → (n ∈ L ↔ q.finds pun d n) :=
  query_by (H := fun c n => c.finds pun d n) hd h0 (fun m c hm hc => compound_finds hd.names (live_ne_zero hd hm).1 hc) hw hk hs

/-- Why a well-formed query is refused. -/
theorem query_fail (hd : DomI d (kids d)) {q : Query} (hw : ∀ p ∈ q.parts, p.WF) :
    ((∀ p ∈ q.parts, p.Small) → (∃ p ∈ q.parts, ¬p.known d) →
      querySelectorAll pun q.text d = .ok (.fail .notSeenBefore)) ∧
    ((∀ p ∈ q.parts, p.known d) → (∃ p ∈ q.parts, ¬p.Small) →
      querySelectorAll pun q.text d = .ok (.fail .tooManyFilters)) := by
  have key : ∀ (P Q : Part → Prop) (st : QStatus),
      (∀ p ∈ q.parts, P p → Q p → ∃ l, partRes d p = .go l) → (∀ p ∈ q.parts, P p → ¬Q p → partRes d p = .fail st) →
      (∀ p ∈ q.parts, P p) → (∃ p ∈ q.parts, ¬Q p) → querySelectorAll pun q.text d = .ok (.fail st) := by
    intro P Q st h1 h2 h3 h4
    have : ∀ ps : List Part, (∀ p ∈ ps, p ∈ q.parts) → (∃ p ∈ ps, ¬Q p) → firstFail d (ps.map Part.text) = some st := by
      intro ps
      induction ps with
      | nil => rintro _ ⟨p, hp, _⟩; simp at hp
      | cons p ps ih =>
        rintro hps ⟨p', hp', hn⟩
        have hpm := hps p (by simp)
        rw [List.map_cons, firstFail, part_text (hw p hpm)]
        by_cases hq : Q p
        · obtain ⟨l, hl⟩ := h1 p hpm (h3 p hpm) hq
          rw [hl]
          simp only
          refine ih (fun p hp => hps p (by simp [hp])) ?_
          rcases List.mem_cons.mp hp' with rfl | hp'
          · exact absurd hq hn
          · exact ⟨p', hp', hn⟩
        · rw [h2 p hpm (h3 p hpm) hq]
    rcases querySelectorAll_eval hd pun q.text with ⟨st', e, e'⟩ | ⟨e, _⟩
    · rw [split_query q hw, this q.parts (fun _ h => h) h4] at e
      cases e; exact e'
    · rw [split_query q hw, this q.parts (fun _ h => h) h4] at e
      cases e
  constructor
  · exact key (fun p => p.Small) (fun p => p.known d) _ (fun p _ hs hk => ⟨_, partRes_go hd.names hk hs⟩)
      (fun p _ hs hk => partRes_notSeen hd.names hk hs)
  · exact key (fun p => p.known d) (fun p => p.Small) _ (fun p _ hk hs => ⟨_, partRes_go hd.names hk hs⟩)
      (fun p _ hk hs => partRes_tooMany hd.names hk hs)

/-- A single compound selector: which of all identifiers it answers. -/
theorem compound_all (hd : DomI d (kids d)) {c : Compound} {lead trail : Str}
    (hw : Part.WF ⟨lead, c, [], trail⟩) (hk : c.known d) (hs : c.size ≤ 8) :
    ∃ L, querySelectorAll pun (lead ++ (c.text ++ trail)) d = .ok (.go L) ∧ L.Nodup ∧
      ∀ n, n ∈ L ↔ IsNode d n ∧ c.finds pun d n := by
  have htext : lead ++ (c.text ++ trail) = Part.text ⟨lead, c, [], trail⟩ := by simp [Part.text, restText]
  have hres : partSteps (Part.text ⟨lead, c, [], trail⟩) d = .ok (.go [(.none, allFilters d c)]) := by
    rw [part_text hw, partRes_go hd.names (by intro c' hc'; simp [Part.compounds] at hc'; exact hc' ▸ hk)
      (by intro c' hc'; simp [Part.compounds] at hc'; exact hc' ▸ hs)]
    rfl
  have hsplit : splitComma (Part.text ⟨lead, c, [], trail⟩) = [Part.text ⟨lead, c, [], trail⟩] :=
    splitComma_none (part_noComma hw)
  rw [htext]
  rcases querySelectorAll_eval hd pun (Part.text ⟨lead, c, [], trail⟩) with ⟨st, e, _⟩ | ⟨_, L, e1, e2, e3, e4⟩
  · rw [hsplit, firstFail, hres] at e; cases e
  · refine ⟨L, e1, e2, fun n => ?_⟩
    rw [e3, hsplit]
    constructor
    · rintro ⟨x, hx, l, hl, he⟩
      simp at hx; subst hx
      rw [hres] at hl; cases hl
      rcases he with he | ⟨h1, h2, he⟩
      · exact False.elim he
      · exact ⟨⟨h1, h2⟩, (compound_finds hd.names h1 hk).mp he⟩
    · rintro ⟨⟨h1, h2⟩, h⟩
      exact ⟨_, by simp, _, hres, Or.inr ⟨h1, h2, (compound_finds hd.names h1 hk).mpr h⟩⟩

/-- The same for one node of the document; nothing is assumed about other nodes. -/
theorem compound_live (hd : DomI d (kids d)) (hn : Live d n)
    (hp : ∀ t, textOf d n = some t → pun n = 0 ∨ d.tagReg.length ≤ pun n) {c : Compound} {lead trail : Str}
    (hw : Part.WF ⟨lead, c, [], trail⟩) (hk : c.known d) (hs : c.size ≤ 8) :
    ∃ L, querySelectorAll pun (lead ++ (c.text ++ trail)) d = .ok (.go L) ∧ L.Nodup ∧ (n ∈ L ↔ c.holds d n) := by
  obtain ⟨L, e1, e2, e3⟩ := compound_all (pun := pun) hd hw hk hs
  refine ⟨L, e1, e2, ?_⟩
  rw [e3, finds_live hd hp hn]
  exact ⟨fun h => h.2, fun h => ⟨live_ne_zero hd hn, h⟩⟩

/-! ## Statuses -/

theorem attrFilters_status {s : Str} : ∀ (f idx : Nat) (fs : List Filter) (st : QStatus),
    attrFilters s d f idx fs = .ok (.fail st) → st = .tooManyFilters ∨ st = .notSeenBefore := by
  intro f
  induction f with
  | zero => intro idx fs st h; simp [attrFilters] at h
  | succ f ih =>
    intro idx fs st h
    unfold attrFilters at h
    cases hc : s[idx]? with
    | none => rw [hc] at h; cases h
    | some c =>
      rw [hc] at h
      simp only at h
      by_cases hs : (c == 91 || c == 46 || c == 35) = true
      · rw [if_pos hs] at h
        by_cases hm : fs.length ≥ maxFilters
        · rw [if_pos hm] at h; cases h; exact Or.inl rfl
        rw [if_neg hm] at h
        rw [Out.bind_eq_ok] at h
        obtain ⟨⟨t, i⟩, _, h⟩ := h
        simp only at h
        by_cases hcls : (c == 46 || c == 35) = true
        · rw [if_pos hcls] at h
          generalize (if (c == 46) = true then b!"class" else b!"id") = key at h
          split at h
          · cases h; exact Or.inr rfl
          · split at h
            · cases h; exact Or.inr rfl
            · exact ih _ _ _ h
        · rw [if_neg hcls] at h
          by_cases hb : (currentChar s i == 93) = true
          · rw [if_pos hb] at h
            split at h
            · cases h; exact Or.inr rfl
            · exact ih _ _ _ h
          · rw [if_neg hb] at h
            by_cases he : (currentChar s i == cEq) = true
            · rw [if_pos he] at h
              split at h
              · cases h; exact Or.inr rfl
              · rw [Out.bind_eq_ok] at h
                obtain ⟨⟨v, i'⟩, _, h⟩ := h
                simp only at h
                split at h
                · cases h; exact Or.inr rfl
                · exact ih _ _ _ h
            · rw [if_neg he] at h
              exact ih _ _ _ h
      · rw [if_neg hs] at h; cases h

theorem leadFilter_status {s : Str} {idx : Nat} {st : QStatus} (h : leadFilter s d idx = .ok (.fail st)) : st = .notSeenBefore := by
  unfold leadFilter at h
  simp only at h
  split at h
  · rw [Out.bind_eq_ok] at h
    obtain ⟨t, _, h⟩ := h
    split at h
    · cases h; rfl
    · cases h
  · split at h <;> cases h

theorem parseSteps_status {s : Str} : ∀ (f idx : Nat) (c : Combinator) (st : QStatus),
    parseSteps s d f idx c = .ok (.fail st) → st = .tooManyFilters ∨ st = .notSeenBefore ∨ st = .invalidElement := by
  intro f
  induction f with
  | zero => intro idx c st h; simp [parseSteps] at h
  | succ f ih =>
    intro idx c st h
    unfold parseSteps at h
    split at h
    · rw [Out.bind_eq_ok] at h
      obtain ⟨r, h1, h⟩ := h
      cases r with
      | fail st' => cases h; exact Or.inr (Or.inl (leadFilter_status h1))
      | go a =>
        obtain ⟨j, fs⟩ := a
        simp only at h
        rw [Out.bind_eq_ok] at h
        obtain ⟨r, h2, h⟩ := h
        cases r with
        | fail st' =>
          cases h
          rcases attrFilters_status _ _ _ _ h2 with e | e
          · exact Or.inl e
          · exact Or.inr (Or.inl e)
        | go a =>
          obtain ⟨j', fs'⟩ := a
          simp only at h
          split at h
          · cases h; exact Or.inr (Or.inr rfl)
          · rw [Out.bind_eq_ok] at h
            obtain ⟨r, h3, h⟩ := h
            cases r with
            | fail st' => cases h; exact ih _ _ _ h3
            | go l => cases h
    · cases h

theorem firstFail_status : ∀ {ps : List Str} {st : QStatus}, firstFail d ps = some st →
    st = .tooManyFilters ∨ st = .notSeenBefore ∨ st = .invalidElement := by
  intro ps
  induction ps with
  | nil => intro st h; cases h
  | cons p ps ih =>
    intro st h
    unfold firstFail at h
    split at h
    · rename_i st' e
      cases h
      exact parseSteps_status _ _ _ _ e
    · exact ih h

/-! ## querySelector -/

theorem selectorLoop_find {L : List Nat} : ∀ (f c : Nat) (l : List Nat), walkFrom (fun c => traverseDom c d) f c = .ok l →
    selectorLoop d L f c = .ok (l.find? (fun x => L.contains x)) := by
  intro f
  induction f with
  | zero => intro c l h; cases h
  | succ f ih =>
    intro c l h
    unfold walkFrom at h
    unfold selectorLoop
    by_cases hc : c = 0
    · rw [if_pos hc] at h; cases h
      rw [if_neg (by simpa using hc)]; rfl
    · rw [if_neg hc, Out.bind_eq_ok] at h
      obtain ⟨n, h1, h⟩ := h
      rw [Out.bind_eq_ok] at h
      obtain ⟨l', h2, h⟩ := h
      cases h
      rw [if_pos hc]
      by_cases hm : L.contains c = true
      · rw [if_pos hm, List.find?_cons_of_pos (by exact hm)]
      · rw [if_neg hm, h1]
        simp only [Out.bind_ok]
        rw [ih n l' h2, List.find?_cons_of_neg (by exact hm)]

theorem querySelector_eval (hd : DomI d (kids d)) (css : Str) :
    (∃ st, querySelectorAll pun css d = .ok (.fail st) ∧ querySelector pun css d = .ok (.fail st)) ∨
    (∃ L, querySelectorAll pun css d = .ok (.go L) ∧
      querySelector pun css d = .ok (.go (if L = [] then some 0 else (preorder d rootID).find? (fun x => L.contains x)))) := by
  have h2 := hd.linked.two
  rcases querySelectorAll_eval hd pun css with ⟨st, _, e⟩ | ⟨_, L, e, _⟩
  · exact Or.inl ⟨st, e, by unfold querySelector; rw [e]; rfl⟩
  · refine Or.inr ⟨L, e, ?_⟩
    unfold querySelector
    rw [e]
    simp only [Out.bind_ok]
    have hlen : L.length = 0 ↔ L = [] := List.length_eq_zero_iff
    by_cases hL : L = []
    · rw [if_pos (hlen.mpr hL), if_pos hL]
    · rw [if_neg (by rwa [hlen]), if_neg hL, selectorLoop_find _ _ _ (walkDom hd.linked (by omega))]
      rw [preorder_eq hd.linked (p := rootID) (by decide) (by show 1 < _; omega)]
      rfl

end
end Flo
