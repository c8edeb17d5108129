import Verif.Proofs.DomInv
import Verif.Spec.Store
/-!
# Attribute operations
-/
namespace Flo
open Spec

section
variable {d : Dom}

/-- An identifier is the one of a name iff the registry says so. -/
theorem MapOK.name_iff {m : AutoMap} {reg : List Str} (h : MapOK m reg) {k : Nat} (hk : k ≠ 0) (hlt : k < reg.length)
    (s : Str) : reg.getD k [] = s ↔ k = m.contains s := by
  have := h.iff s k hk
  rw [List.getElem?_eq_getElem hlt] at this
  rw [List.getD_eq_getElem?_getD, List.getElem?_eq_getElem hlt]
  simp only [Option.getD_some, Option.some.injEq] at this ⊢
  rw [← this]
  exact eq_comm

theorem NamesOK.key_iff (h : NamesOK d) {r : PropRow} (hr : r ∈ d.props) (hn : r.node ≠ 0) (key : Str) :
    d.keyReg.getD r.key [] = key ↔ r.key = d.keyMap.contains key :=
  h.key.name_iff (h.propsNz r hr hn).1 (h.propsLt r hr).1 key

theorem NamesOK.val_iff (h : NamesOK d) {r : PropRow} (hr : r ∈ d.props) (hn : r.node ≠ 0) (v : Str) :
    d.valReg.getD r.value [] = v ↔ r.value = d.valMap.contains v :=
  h.val.name_iff (h.propsNz r hr hn).2 (h.propsLt r hr).2 v

theorem NamesOK.bool_iff (h : NamesOK d) {r : Row} (hr : r ∈ d.boolProps) (hn : r.1 ≠ 0) (s : Str) :
    d.boolReg.getD r.2 [] = s ↔ r.2 = d.boolMap.contains s :=
  h.bool.name_iff (h.boolsNz r hr hn) (h.boolsLt r hr) s

theorem mem_pairs {n : Nat} {k v : Str} : (k, v) ∈ pairs d n ↔
    ∃ r ∈ d.props, r.node = n ∧ d.keyReg.getD r.key [] = k ∧ d.valReg.getD r.value [] = v := by
  simp only [pairs, List.mem_map, List.mem_filter, beq_iff_eq, Prod.mk.injEq]
  constructor
  · rintro ⟨r, ⟨h1, h2⟩, h3, h4⟩; exact ⟨r, h1, h2, h3, h4⟩
  · rintro ⟨r, h1, h2, h3, h4⟩; exact ⟨r, ⟨h1, h2⟩, h3, h4⟩

theorem mem_bools {n : Nat} {s : Str} : s ∈ bools d n ↔
    ∃ r ∈ d.boolProps, r.1 = n ∧ d.boolReg.getD r.2 [] = s := by
  simp only [bools, List.mem_map, List.mem_filter, beq_iff_eq]
  constructor
  · rintro ⟨r, ⟨h1, h2⟩, h3⟩; exact ⟨r, h1, h2, h3⟩
  · rintro ⟨r, h1, h2, h3⟩; exact ⟨r, ⟨h1, h2⟩, h3⟩

theorem hasPropKey_iff (h : NamesOK d) {n : Nat} (hn : n ≠ 0) (key : Str) :
    hasPropKey n key d = true ↔ ∃ v, (key, v) ∈ pairs d n := by
  unfold hasPropKey
  simp only [mem_pairs]
  have hnz := h.propsNz
  constructor
  · intro hx
    split at hx
    · cases hx
    · simp only [List.any_eq_true, Bool.and_eq_true, beq_iff_eq] at hx
      obtain ⟨r, h1, h2, h3⟩ := hx
      exact ⟨_, r, h1, h2, (h.key_iff h1 (by omega) key).mpr h3, rfl⟩
  · rintro ⟨v, r, h1, h2, h3, _⟩
    have h4 := (h.key_iff h1 (by omega) key).mp h3
    have h5 := (hnz r h1 (by omega)).1
    rw [if_neg (by omega)]
    simp only [List.any_eq_true, Bool.and_eq_true, beq_iff_eq]
    exact ⟨r, h1, h2, h4⟩

theorem hasPropValue_iff (h : NamesOK d) {n : Nat} (hn : n ≠ 0) (v : Str) :
    hasPropValue n v d = true ↔ ∃ k, (k, v) ∈ pairs d n := by
  unfold hasPropValue
  simp only [mem_pairs]
  constructor
  · intro hx
    split at hx
    · cases hx
    · simp only [List.any_eq_true, Bool.and_eq_true, beq_iff_eq] at hx
      obtain ⟨r, h1, h2, h3⟩ := hx
      exact ⟨_, r, h1, h2, rfl, (h.val_iff h1 (by omega) v).mpr h3⟩
  · rintro ⟨k, r, h1, h2, _, h3⟩
    have h4 := (h.val_iff h1 (by omega) v).mp h3
    have h5 := (h.propsNz r h1 (by omega)).2
    rw [if_neg (by omega)]
    simp only [List.any_eq_true, Bool.and_eq_true, beq_iff_eq]
    exact ⟨r, h1, h2, h4⟩

theorem hasProperty_iff (h : NamesOK d) {n : Nat} (hn : n ≠ 0) (k v : Str) :
    hasProperty n k v d = true ↔ (k, v) ∈ pairs d n := by
  unfold hasProperty
  simp only [mem_pairs]
  constructor
  · intro hx
    split at hx
    · cases hx
    · simp only [List.any_eq_true, Bool.and_eq_true, beq_iff_eq] at hx
      obtain ⟨r, h1, ⟨h2, h3⟩, h4⟩ := hx
      exact ⟨r, h1, h2, (h.key_iff h1 (by omega) k).mpr h3, (h.val_iff h1 (by omega) v).mpr h4⟩
  · rintro ⟨r, h1, h2, h3, h4⟩
    have h5 := (h.key_iff h1 (by omega) k).mp h3
    have h6 := (h.val_iff h1 (by omega) v).mp h4
    have h7 := (h.propsNz r h1 (by omega)).1
    rw [if_neg (by omega)]
    rw [if_neg (by omega)]
    simp only [List.any_eq_true, Bool.and_eq_true, beq_iff_eq]
    exact ⟨r, h1, ⟨h2, h5⟩, h6⟩

theorem hasBoolProp_iff (h : NamesOK d) {n : Nat} (hn : n ≠ 0) (s : Str) :
    hasBoolProp n s d = true ↔ s ∈ bools d n := by
  unfold hasBoolProp
  simp only [mem_bools]
  constructor
  · intro hx
    split at hx
    · cases hx
    · simp only [List.any_eq_true, Bool.and_eq_true, beq_iff_eq] at hx
      obtain ⟨r, h1, h2, h3⟩ := hx
      exact ⟨r, h1, h2, (h.bool_iff h1 (by omega) s).mpr h3⟩
  · rintro ⟨r, h1, h2, h3⟩
    have h4 := (h.bool_iff h1 (by omega) s).mp h3
    have h5 := h.boolsNz r h1 (by omega)
    rw [if_neg (by omega)]
    simp only [List.any_eq_true, Bool.and_eq_true, beq_iff_eq]
    exact ⟨r, h1, h2, h4⟩

/-- The first row of a node with a given key, by identifier or by name. -/
theorem find_key (h : NamesOK d) {n : Nat} (hn : n ≠ 0) (key : Str) (l : List PropRow) (hl : ∀ r ∈ l, r ∈ d.props) :
    (l.find? (fun r => r.node == n && r.key == d.keyMap.contains key)).map (fun r => d.valReg.getD r.value []) =
      lookup key ((l.filter (fun r => r.node == n)).map
        (fun r => (d.keyReg.getD r.key [], d.valReg.getD r.value []))) := by
  induction l with
  | nil => rfl
  | cons r l ih =>
    have ih := ih (fun r hr => hl r (List.mem_cons_of_mem _ hr))
    have hr := hl r (by simp)
    by_cases hnode : r.node = n
    · have := h.key_iff hr (by omega) key
      by_cases hk : r.key = d.keyMap.contains key
      · rw [List.find?_cons_of_pos (by simp [hnode, hk]), List.filter_cons_of_pos (by simp [hnode]),
          List.map_cons, lookup, if_pos (this.mpr hk)]
        rfl
      · rw [List.find?_cons_of_neg (by simp [hk]), List.filter_cons_of_pos (by simp [hnode]),
          List.map_cons, lookup, if_neg (fun e => hk (this.mp e)), ih]
    · rw [List.find?_cons_of_neg (by simp [hnode]), List.filter_cons_of_neg (by simp [hnode]), ih]

theorem getValue_eq (h : NamesOK d) {n : Nat} (hn : n ≠ 0) (key : Str) :
    getValue n key d = .ok ((lookup key (pairs d n)).getD []) := by
  have hf := find_key h hn key d.props (fun _ hr => hr)
  unfold getValue pairs
  rw [← hf]
  dsimp only
  split
  · rename_i hz
    have : d.props.find? (fun r => r.node == n && r.key == d.keyMap.contains key) = none := by
      rw [List.find?_eq_none]
      intro r hr
      simp only [Bool.and_eq_true, beq_iff_eq, not_and]
      intro e1 e2
      exact (h.propsNz r hr (by omega)).1 (by omega)
    rw [this]; rfl
  · cases hc : d.props.find? (fun r => r.node == n && r.key == d.keyMap.contains key) with
    | none => rfl
    | some r =>
      have hm := List.mem_of_find?_eq_some hc
      have hlt := (h.propsLt r hm).2
      simp [List.getElem?_eq_getElem hlt, List.getD_eq_getElem?_getD]

/-! ## Setting and removing -/

/-- Changing the first row with a given key changes the first pair with that key. -/
theorem modify_key (h : NamesOK d) {n : Nat} (hn : n ≠ 0) (key : Str) (g : PropRow → PropRow)
    (f f' : PropRow → Str × Str)
    (hf : ∀ r ∈ d.props, f r = (d.keyReg.getD r.key [], d.valReg.getD r.value []))
    (hf' : ∀ r ∈ d.props, f' r = f r) (value : Str)
    (hg : ∀ r ∈ d.props, (g r).node = r.node ∧ f' (g r) = ((f r).1, value)) (m : Nat) :
    ∀ (l : List PropRow), (∀ r ∈ l, r ∈ d.props) → ∀ i,
    l.findIdx? (fun r => r.node == n && r.key == d.keyMap.contains key) = some i →
      ((l.modify i g).filter (fun r => r.node == m)).map f' =
        if m = n then setFirst key value ((l.filter (fun r => r.node == m)).map f)
        else (l.filter (fun r => r.node == m)).map f := by
  intro l
  induction l with
  | nil => intro _ i h; simp at h
  | cons r l ih =>
    intro hl i hi
    have hr := hl r (by simp)
    have hkey := fun hnode : r.node = n => h.key_iff hr (by omega) key
    have hrest : (l.filter (fun r => r.node == m)).map f' = (l.filter (fun r => r.node == m)).map f := by
      apply List.map_congr_left
      intro x hx
      exact hf' x (hl x (List.mem_cons_of_mem _ (List.mem_of_mem_filter hx)))
    rw [List.findIdx?_cons] at hi
    by_cases hc : r.node = n ∧ r.key = d.keyMap.contains key
    · rw [if_pos (by simp [hc.1, hc.2])] at hi
      cases hi
      rw [List.modify_zero_cons]
      obtain ⟨g1, g2⟩ := hg r hr
      by_cases hm : m = n
      · subst hm
        rw [if_pos rfl, List.filter_cons_of_pos (by rw [g1]; simp [hc.1]), List.filter_cons_of_pos (by simp [hc.1]),
          List.map_cons, List.map_cons, g2, hrest]
        have : (f r).1 = key := by rw [hf r hr]; exact (hkey hc.1).mpr hc.2
        rw [show f r = ((f r).1, (f r).2) from rfl, setFirst, if_pos this]
      · rw [if_neg hm, List.filter_cons_of_neg (by rw [g1]; simp; omega),
          List.filter_cons_of_neg (by simp; omega), hrest]
    · rw [if_neg (by simpa using hc)] at hi
      simp only [Option.map_eq_some_iff] at hi
      obtain ⟨j, hj, rfl⟩ := hi
      have ih := ih (fun r hr => hl r (List.mem_cons_of_mem _ hr)) j hj
      rw [List.modify_succ_cons]
      by_cases hrm : r.node = m
      · rw [List.filter_cons_of_pos (by simp [hrm]), List.filter_cons_of_pos (by simp [hrm]), List.map_cons,
          List.map_cons, ih, hf' r hr]
        by_cases hm : m = n
        · subst hm
          rw [if_pos rfl, if_pos rfl]
          have : (f r).1 ≠ key := by
            rw [hf r hr]
            exact fun e => hc ⟨hrm, (hkey hrm).mp e⟩
          rw [show f r = ((f r).1, (f r).2) from rfl, setFirst, if_neg this]
        · rw [if_neg hm, if_neg hm]
      · rw [List.filter_cons_of_neg (by simp [hrm]), List.filter_cons_of_neg (by simp [hrm]), ih]

theorem remove_key (h : NamesOK d) {n : Nat} (hn : n ≠ 0) (key : Str) {m : Nat} (hm0 : m ≠ 0)
    (f : PropRow → Str × Str)
    (hf : ∀ r ∈ d.props, f r = (d.keyReg.getD r.key [], d.valReg.getD r.value [])) :
    ∀ (l : List PropRow), (∀ r ∈ l, r ∈ d.props) → ∀ i,
    l.findIdx? (fun r => r.node == n && r.key == d.keyMap.contains key) = some i →
      ((l.set i ⟨0, 0, 0⟩).filter (fun r => r.node == m)).map f =
        if m = n then removeFirst key ((l.filter (fun r => r.node == m)).map f)
        else (l.filter (fun r => r.node == m)).map f := by
  intro l
  induction l with
  | nil => intro _ i h; simp at h
  | cons r l ih =>
    intro hl i hi
    have hr := hl r (by simp)
    have hkey := fun hnode : r.node = n => h.key_iff hr (by omega) key
    rw [List.findIdx?_cons] at hi
    by_cases hc : r.node = n ∧ r.key = d.keyMap.contains key
    · rw [if_pos (by simp [hc.1, hc.2])] at hi
      cases hi
      rw [List.set_cons_zero, List.filter_cons_of_neg (by simp; omega)]
      by_cases hm : m = n
      · subst hm
        rw [if_pos rfl, List.filter_cons_of_pos (by simp [hc.1]), List.map_cons]
        have : (f r).1 = key := by rw [hf r hr]; exact (hkey hc.1).mpr hc.2
        rw [show f r = ((f r).1, (f r).2) from rfl, removeFirst, if_pos this]
      · rw [if_neg hm, List.filter_cons_of_neg (by simp; omega)]
    · rw [if_neg (by simpa using hc)] at hi
      simp only [Option.map_eq_some_iff] at hi
      obtain ⟨j, hj, rfl⟩ := hi
      have ih := ih (fun r hr => hl r (List.mem_cons_of_mem _ hr)) j hj
      rw [List.set_cons_succ]
      by_cases hrm : r.node = m
      · rw [List.filter_cons_of_pos (by simp [hrm]), List.filter_cons_of_pos (by simp [hrm]), List.map_cons,
          List.map_cons, ih]
        by_cases hm : m = n
        · subst hm
          rw [if_pos rfl, if_pos rfl]
          have : (f r).1 ≠ key := by
            rw [hf r hr]
            exact fun e => hc ⟨hrm, (hkey hrm).mp e⟩
          rw [show f r = ((f r).1, (f r).2) from rfl, removeFirst, if_neg this]
        · rw [if_neg hm, if_neg hm]
      · rw [List.filter_cons_of_neg (by simp [hrm]), List.filter_cons_of_neg (by simp [hrm]), ih]

theorem remove_bool (h : NamesOK d) {n : Nat} (hn : n ≠ 0) (name : Str) {m : Nat} (hm0 : m ≠ 0) :
    ∀ (l : List Row), (∀ r ∈ l, r ∈ d.boolProps) → ∀ i,
    l.findIdx? (fun r => r.1 == n && r.2 == d.boolMap.contains name) = some i →
      ((l.set i (0, 0)).filter (fun r => r.1 == m)).map (fun r => d.boolReg.getD r.2 []) =
        if m = n then ((l.filter (fun r => r.1 == m)).map (fun r => d.boolReg.getD r.2 [])).erase name
        else (l.filter (fun r => r.1 == m)).map (fun r => d.boolReg.getD r.2 []) := by
  intro l
  induction l with
  | nil => intro _ i h; simp at h
  | cons r l ih =>
    intro hl i hi
    have hr := hl r (by simp)
    have hkey := fun hnode : r.1 = n => h.bool_iff hr (by omega) name
    rw [List.findIdx?_cons] at hi
    by_cases hc : r.1 = n ∧ r.2 = d.boolMap.contains name
    · rw [if_pos (by simp [hc.1, hc.2])] at hi
      cases hi
      rw [List.set_cons_zero, List.filter_cons_of_neg (by simp; omega)]
      by_cases hm : m = n
      · subst hm
        rw [if_pos rfl, List.filter_cons_of_pos (by simp [hc.1]), List.map_cons]
        rw [(hkey hc.1).mpr hc.2, List.erase_cons_head]
      · rw [if_neg hm, List.filter_cons_of_neg (by simp; omega)]
    · rw [if_neg (by simpa using hc)] at hi
      simp only [Option.map_eq_some_iff] at hi
      obtain ⟨j, hj, rfl⟩ := hi
      have ih := ih (fun r hr => hl r (List.mem_cons_of_mem _ hr)) j hj
      rw [List.set_cons_succ]
      by_cases hrm : r.1 = m
      · rw [List.filter_cons_of_pos (by simp [hrm]), List.filter_cons_of_pos (by simp [hrm]), List.map_cons,
          List.map_cons, ih]
        by_cases hm : m = n
        · subst hm
          rw [if_pos rfl, if_pos rfl, List.erase_cons_tail]
          simp only [beq_iff_eq]
          exact fun e => hc ⟨hrm, (hkey hrm).mp e⟩
        · rw [if_neg hm, if_neg hm]
      · rw [List.filter_cons_of_neg (by simp [hrm]), List.filter_cons_of_neg (by simp [hrm]), ih]

theorem setFirst_absent {key v : Str} : ∀ {l : List (Str × Str)}, lookup key l = none → setFirst key v l = l := by
  intro l
  induction l with
  | nil => intro _; rfl
  | cons p l ih =>
    obtain ⟨a, b⟩ := p
    intro h
    unfold lookup at h
    split at h
    · cases h
    · rw [setFirst, if_neg ‹_›, ih h]

theorem removeFirst_absent {key : Str} : ∀ {l : List (Str × Str)}, lookup key l = none → removeFirst key l = l := by
  intro l
  induction l with
  | nil => intro _; rfl
  | cons p l ih =>
    obtain ⟨a, b⟩ := p
    intro h
    unfold lookup at h
    split at h
    · cases h
    · rw [removeFirst, if_neg ‹_›, ih h]

theorem getProperty_lookup (h : NamesOK d) {n : Nat} (hn : n ≠ 0) (key : Str) :
    getProperty n (d.keyMap.contains key) d = none ↔ lookup key (pairs d n) = none := by
  have hf := find_key h hn key d.props (fun _ hr => hr)
  unfold pairs
  rw [← hf]
  unfold getProperty
  simp only [Option.map_eq_none_iff, List.find?_eq_none, List.findIdx?_eq_none_iff]
  constructor <;> intro hx r hr
  · rw [hx r hr]; simp
  · have := hx r hr; cases h : (r.node == n && r.key == d.keyMap.contains key) <;> simp_all

theorem contains_zero_absent (h : NamesOK d) {n : Nat} (hn : n ≠ 0) {key : Str} (hz : d.keyMap.contains key = 0) :
    lookup key (pairs d n) = none := by
  rw [← getProperty_lookup h hn]
  unfold getProperty
  simp only [List.findIdx?_eq_none_iff]
  intro r hr
  by_cases h1 : r.node = n
  · have := (h.propsNz r hr (by omega)).1
    simp [hz, this]
  · simp [h1]

theorem ite_same_apply {α : Type} {c : Prop} [Decidable c] {a : α} {f : α → α} (h : c → f a = a) :
    (if c then f a else a) = a := by
  split
  · exact h ‹_›
  · rfl

/-- What an attribute operation may change. -/
structure AttrStep (d d' : Dom) (n : Nat) (f : List (Str × Str) → List (Str × Str)) (g : List Str → List Str) : Prop where
  shape : SameShape d d'
  names : NamesOK d'
  pairs : ∀ m, m ≠ 0 → pairs d' m = if m = n then f (pairs d m) else pairs d m
  bools : ∀ m, m ≠ 0 → bools d' m = if m = n then g (bools d m) else bools d m

theorem addProperty_step (hd : NamesOK d) {n : Nat} {k v : Str} {d' : Dom} (h : addProperty n k v d = .ok d') :
    AttrStep d d' n (· ++ [(k, v)]) id := by
  obtain ⟨h1, h2, h3, h4⟩ := addProperty_spec hd h
  exact ⟨h1, h2, fun m _ => h4 m, fun m _ => by rw [h3]; simp⟩

theorem addBoolProperty_step (hd : NamesOK d) {n : Nat} {b : Str} {d' : Dom} (h : addBoolProperty n b d = .ok d') :
    AttrStep d d' n id (· ++ [b]) := by
  obtain ⟨h1, h2, h3, h4⟩ := addBoolProperty_spec hd h
  exact ⟨h1, h2, fun m _ => by rw [h3]; simp, fun m _ => h4 m⟩

theorem setPropertyValue_post (n : Nat) (k v : Str) (d : Dom) : Post NoUB (fun _ => True) (setPropertyValue n k v d) := by
  unfold setPropertyValue
  dsimp only
  split
  · trivial
  · split
    · trivial
    · exact (internVal_post v d).bindP (fun _ _ => trivial)

theorem setPropertyValue_step (hd : NamesOK d) {n : Nat} (hn : n ≠ 0) {k v : Str} {r : Bool × Dom}
    (h : setPropertyValue n k v d = .ok r) :
    AttrStep d r.2 n (setFirst k v) id ∧ (r.1 = true ↔ lookup k (pairs d n) ≠ none) := by
  have keep : lookup k (pairs d n) = none → AttrStep d d n (setFirst k v) id := by
    intro hl
    refine ⟨SameShape.refl d, hd, fun m _ => ?_, fun m _ => by simp⟩
    symm
    apply ite_same_apply
    rintro rfl
    exact setFirst_absent hl
  unfold setPropertyValue at h
  dsimp only at h
  split at h
  · rename_i hz
    cases h
    have hl := contains_zero_absent hd hn hz
    exact ⟨keep hl, by simp [hl]⟩
  · have hpl := getProperty_lookup hd hn k
    cases hi : getProperty n (d.keyMap.contains k) d with
    | none =>
      rw [hi] at h
      cases h
      have hl := hpl.mp hi
      exact ⟨keep hl, by simp [hl]⟩
    | some i =>
      rw [hi] at h
      simp only [Out.bind_eq_ok] at h
      obtain ⟨⟨v', d1⟩, h1, h2⟩ := h
      cases h2
      obtain ⟨⟨m, reg, rfl⟩, hv0, hreg, hpre, hn1⟩ := internVal_spec hd h1
      dsimp only at hreg hpre hn1 ⊢
      have hmem : ∀ r ∈ d.props.modify i (fun r => { r with value := v' }),
          ∃ r0 ∈ d.props, r = r0 ∨ r = { r0 with value := v' } := by
        intro r hr
        rw [List.mem_iff_getElem?] at hr
        obtain ⟨j, hj⟩ := hr
        rw [List.getElem?_modify] at hj
        simp only [Option.map_eq_map, Option.map_eq_some_iff] at hj
        obtain ⟨r0, h5, h6⟩ := hj
        refine ⟨r0, List.mem_of_getElem? h5, ?_⟩
        split at h6
        · exact Or.inr h6.symm
        · exact Or.inl h6.symm
      refine ⟨⟨⟨rfl, rfl, rfl, rfl, rfl⟩, ?_, ?_, ?_⟩, ?_⟩
      · refine { hn1 with propsLt := ?_, propsNz := ?_ }
        · intro r hr
          obtain ⟨r0, hr0, rfl | rfl⟩ := hmem r hr
          · exact hn1.propsLt r hr0
          · exact ⟨(hn1.propsLt r0 hr0).1, lt_of_some hreg⟩
        · intro r hr hnz
          obtain ⟨r0, hr0, rfl | rfl⟩ := hmem r hr
          · exact hn1.propsNz r hr0 hnz
          · exact ⟨(hn1.propsNz r0 hr0 hnz).1, hv0⟩
      · intro q hq
        unfold Spec.pairs
        refine modify_key hd hn k _ _ _ (fun r _ => rfl) ?_ v ?_ q d.props (fun _ hr => hr) i hi
        · intro r hr
          dsimp only
          rw [prefix_getD hpre (hd.propsLt r hr).2]
        · intro r _
          refine ⟨rfl, ?_⟩
          dsimp only
          rw [getD_of_some hreg]
      · intro q _
        rw [ite_same_apply (f := id) (fun _ => rfl)]; rfl
      · have : lookup k (Spec.pairs d n) ≠ none := fun e => by rw [hpl.mpr e] at hi; cases hi
        simp [this]

theorem removeProperty_step (hd : NamesOK d) {n : Nat} (hn : n ≠ 0) (k : Str) :
    AttrStep d (removeProperty n k d) n (removeFirst k) id := by
  have keep : lookup k (pairs d n) = none → AttrStep d d n (removeFirst k) id := by
    intro hl
    refine ⟨SameShape.refl d, hd, fun m _ => ?_, fun m _ => by simp⟩
    symm
    apply ite_same_apply
    rintro rfl
    exact removeFirst_absent hl
  unfold removeProperty
  dsimp only
  split
  · cases hi : getProperty n (d.keyMap.contains k) d with
    | none => exact keep ((getProperty_lookup hd hn k).mp hi)
    | some i =>
      dsimp only
      have hmem : ∀ r ∈ d.props.set i ⟨0, 0, 0⟩, r ∈ d.props ∨ r = ⟨0, 0, 0⟩ := fun r hr =>
        List.mem_or_eq_of_mem_set hr
      refine ⟨⟨rfl, rfl, rfl, rfl, rfl⟩, ?_, ?_, fun q _ => ?_⟩
      · refine { hd with propsLt := ?_, propsNz := ?_ }
        · intro r hr
          rcases hmem r hr with hr | rfl
          · exact hd.propsLt r hr
          · have h1 := hd.key.len
            have h2 := hd.val.len
            exact ⟨by show 0 < d.keyReg.length; omega, by show 0 < d.valReg.length; omega⟩
        · intro r hr hnz
          rcases hmem r hr with hr | rfl
          · exact hd.propsNz r hr hnz
          · exact absurd rfl hnz
      · intro q hq
        unfold Spec.pairs
        exact remove_key hd hn k hq _ (fun r _ => rfl) d.props (fun _ hr => hr) i hi
      · rw [ite_same_apply (f := id) (fun _ => rfl)]; rfl
  · exact keep (contains_zero_absent hd hn (by omega))

theorem removeBoolProperty_step (hd : NamesOK d) {n : Nat} (hn : n ≠ 0) (name : Str) :
    AttrStep d (removeBoolProperty n name d) n id (fun l => l.erase name) := by
  have keep : name ∉ bools d n → AttrStep d d n id (fun l => l.erase name) := by
    intro hl
    refine ⟨SameShape.refl d, hd, fun m _ => by simp, fun m _ => ?_⟩
    symm
    refine ite_same_apply (f := (fun l : List Str => l.erase name)) ?_
    rintro rfl
    exact List.erase_of_not_mem hl
  unfold removeBoolProperty
  dsimp only
  split
  · cases hi : getBooleanProperty n (d.boolMap.contains name) d with
    | none =>
      apply keep
      intro hx
      obtain ⟨r, h1, h2, h3⟩ := mem_bools.mp hx
      unfold getBooleanProperty at hi
      rw [List.findIdx?_eq_none_iff] at hi
      have := hi r h1
      have h4 := (hd.bool_iff h1 (by omega) name).mp h3
      simp [h2, h4] at this
    | some i =>
      dsimp only
      have hmem : ∀ r ∈ d.boolProps.set i (0, 0), r ∈ d.boolProps ∨ r = (0, 0) := fun r hr =>
        List.mem_or_eq_of_mem_set hr
      refine ⟨⟨rfl, rfl, rfl, rfl, rfl⟩, ?_, fun q _ => ?_, ?_⟩
      · refine { hd with boolsLt := ?_, boolsNz := ?_ }
        · intro r hr
          rcases hmem r hr with hr | rfl
          · exact hd.boolsLt r hr
          · have h1 := hd.bool.len
            show 0 < d.boolReg.length; omega
        · intro r hr hnz
          rcases hmem r hr with hr | rfl
          · exact hd.boolsNz r hr hnz
          · exact absurd rfl hnz
      · rw [ite_same_apply (f := id) (fun _ => rfl)]; rfl
      · intro q hq
        unfold Spec.bools
        exact remove_bool hd hn name hq d.boolProps (fun _ hr => hr) i hi
  · apply keep
    intro hx
    obtain ⟨r, h1, h2, h3⟩ := mem_bools.mp hx
    have h4 := (hd.bool_iff h1 (by omega) name).mp h3
    have h5 := hd.boolsNz r h1 (by omega)
    omega

/-- The invariant of the DOM survives an attribute operation on an existing node. -/
theorem AttrStep.domI {d' : Dom} {n : Nat} {ch : Nat → List Nat} {f : List (Str × Str) → List (Str × Str)}
    {g : List Str → List Str} (s : AttrStep d d' n f g) (h : DomI d ch) (hn : n < d.nodes.length) : DomI d' ch := by
  have hty : ∀ i, typeOf d' i = typeOf d i := fun i => by simp [typeOf, s.shape.nodes]
  have h2 := h.linked.two
  refine ⟨?_, s.names, ?_, by rw [s.shape.nodes]; exact h.cap, by rw [hty]; exact h.zero, by rw [s.shape.nodes]; exact h.rootN, ?_, ?_⟩
  · unfold LinkedD
    rw [s.shape.nodes, s.shape.fc, s.shape.pc, s.shape.nn]; exact h.linked
  · intro m hm
    rw [s.shape.nodes] at hm
    rw [s.pairs m (by omega), s.bools m (by omega), if_neg (by omega), if_neg (by omega)]
    exact h.fresh m hm
  · intro i nd hi
    rw [s.shape.nodes] at hi
    rw [s.shape.tagReg]; exact h.good i nd hi
  · intro p c hc
    unfold IsKid
    rw [hty]; exact h.kind p c hc

theorem AttrStep.same {d' : Dom} {n : Nat} {f : List (Str × Str) → List (Str × Str)}
    {g : List Str → List Str} (s : AttrStep d d' n f g) {m : Nat} (hm : m ≠ 0) (hn : m ≠ n) : SameNode d d' m := by
  refine ⟨by simp [typeOf, s.shape.nodes], by simp [textOf, s.shape.nodes], by simp [tagOf, s.shape.nodes, s.shape.tagReg],
    ?_, ?_⟩
  · rw [s.pairs m hm, if_neg hn]
  · rw [s.bools m hm, if_neg hn]

end
end Flo
