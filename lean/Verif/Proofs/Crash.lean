import Verif.Spec.Crash
import Verif.Proofs.Print
import Verif.Proofs.DomInv
import Verif.Props.Attrs
/-!
# The DOM a failing call leaves: what was there before is untouched (C125–C127)
-/
namespace Flo.Crash
open Spec CM

/-! ## Extensions -/

/-- The map `m'` knows what `m` knows; names it knows besides have numbers that `m` never gave. -/
structure MapExt (m m' : AutoMap) : Prop where
  keep : ∀ k, m.contains k ≠ 0 → m'.contains k = m.contains k
  new : ∀ k, m.contains k = 0 → m'.contains k = 0 ∨ m.identity < m'.contains k
  id : m.identity ≤ m'.identity

theorem MapExt.rfl' (m : AutoMap) : MapExt m m := ⟨fun _ _ => rfl, fun _ h => Or.inl h, Nat.le_refl _⟩

theorem MapExt.insert {m m' : AutoMap} (h : MapExt m m') {s : Str} {r : Inserted} (hr : m'.insert s = .ok r) : MapExt m r.map := by
  unfold AutoMap.insert at hr
  have hnew := ATrie.insert_new autoSlot (t := m'.root) s (m'.identity + 1) (hashDjb2 s)
  have hne := fun k' (hk : k' ≠ s) => ATrie.find_insert_ne autoSlot (t := m'.root) hk (m'.identity + 1)
    (hashDjb2 s) (hashDjb2 k')
  rcases he : m'.root.insert autoSlot s (m'.identity + 1) (hashDjb2 s) with ⟨o, t⟩
  rw [he] at hr hnew hne
  cases o with
  | some v => cases hr; exact h
  | none =>
    dsimp only at hr hnew hne
    split at hr
    · cases hr
    · cases hr
      obtain ⟨h1, h2⟩ := hnew rfl
      have hs : m.contains s = 0 := by
        by_contra hc
        have := h.keep s hc
        rw [show m'.contains s = 0 from h1] at this
        exact hc this.symm
      have e : ∀ k, k ≠ s → AutoMap.contains ⟨m'.identity + 1, t⟩ k = m'.contains k := fun k hk => hne k hk
      have es : AutoMap.contains ⟨m'.identity + 1, t⟩ s = m'.identity + 1 := h2
      have := h.id
      refine ⟨fun k hk => ?_, fun k hk => ?_, ?_⟩
      · by_cases hks : k = s
        · subst hks; exact absurd hs hk
        · rw [e k hks]; exact h.keep k hk
      · by_cases hks : k = s
        · subst hks; right; rw [es]; omega
        · rw [e k hks]; exact h.new k hk
      · show m.identity ≤ m'.identity + 1
        omega

/-- `b` is `a` with rows behind it that satisfy `P`. -/
def Rows {α : Type} (P : α → Prop) (a b : List α) : Prop := ∃ r, b = a ++ r ∧ ∀ x ∈ r, P x

theorem Rows.rfl' {α : Type} {P : α → Prop} (a : List α) : Rows P a a := ⟨[], by simp, by simp⟩

theorem Rows.push {α : Type} {P : α → Prop} {a b : List α} (h : Rows P a b) {x : α} (hx : P x) : Rows P a (b ++ [x]) := by
  obtain ⟨r, rfl, hr⟩ := h
  refine ⟨r ++ [x], by simp, fun y hy => ?_⟩
  rcases List.mem_append.mp hy with hy | hy
  · exact hr y hy
  · rw [List.mem_singleton.mp hy]; exact hx

structure Ext (d d' : Dom) : Prop where
  nodes : d.nodes <+: d'.nodes
  fc : Rows (fun r => d.nodes.length ≤ r.1 ∧ d.nodes.length ≤ r.2) d.fc d'.fc
  pc : Rows (fun r => d.nodes.length ≤ r.1 ∧ d.nodes.length ≤ r.2) d.pc d'.pc
  nn : Rows (fun r => d.nodes.length ≤ r.1 ∧ d.nodes.length ≤ r.2) d.nn d'.nn
  bools : Rows (fun r => d.nodes.length ≤ r.1) d.boolProps d'.boolProps
  props : Rows (fun r => d.nodes.length ≤ r.node) d.props d'.props
  tagReg : d.tagReg <+: d'.tagReg
  boolReg : d.boolReg <+: d'.boolReg
  keyReg : d.keyReg <+: d'.keyReg
  valReg : d.valReg <+: d'.valReg
  tagMap : MapExt d.tagMap d'.tagMap
  boolMap : MapExt d.boolMap d'.boolMap
  keyMap : MapExt d.keyMap d'.keyMap
  valMap : MapExt d.valMap d'.valMap

theorem Ext.rfl' (d : Dom) : Ext d d :=
  ⟨List.prefix_rfl, .rfl' _, .rfl' _, .rfl' _, .rfl' _, .rfl' _, List.prefix_rfl, List.prefix_rfl, List.prefix_rfl, List.prefix_rfl,
    .rfl' _, .rfl' _, .rfl' _, .rfl' _⟩

section Read
variable {d d' : Dom} (h : Ext d d')
include h

theorem Ext.get {n : Nat} (hn : n < d.nodes.length) : d'.nodes[n]? = d.nodes[n]? := by
  obtain ⟨r, hr⟩ := h.nodes
  rw [← hr, List.getElem?_append_left hn]

theorem prefix_some {α : Type} {l l' : List α} (hp : l <+: l') {i : Nat} {x : α} (hx : l[i]? = some x) : l'[i]? = some x := by
  obtain ⟨r, rfl⟩ := hp
  rw [List.getElem?_append_left (lt_of_some' hx), hx]
where lt_of_some' {α : Type} {l : List α} {i : Nat} {x : α} (h : l[i]? = some x) : i < l.length := (List.getElem?_eq_some_iff.mp h).1

omit h in
theorem rows_find {α : Type} {P : α → Prop} {a b : List α} (hr : Rows P a b) {q : α → Bool} (hq : ∀ x, P x → q x = false) :
    b.findIdx? q = a.findIdx? q := by
  obtain ⟨r, rfl, hr⟩ := hr
  rw [List.findIdx?_append]
  cases e : a.findIdx? q with
  | some i => simp
  | none =>
    have : r.findIdx? q = none := by
      rw [List.findIdx?_eq_none_iff]
      exact fun x hx => hq x (hr x hx)
    simp [this]

omit h in
theorem rows_at {P : Row → Prop} {a b : List Row} (hr : Rows P a b) {q : Row → Bool} {i : Nat} (hi : a.findIdx? q = some i) :
    rowAt b i = rowAt a i := by
  obtain ⟨r, rfl, hr⟩ := hr
  have : i < a.length := by
    have := List.findIdx?_eq_some_iff_findIdx_eq.mp hi
    exact this.1
  unfold rowAt
  rw [List.getD_eq_getElem?_getD, List.getD_eq_getElem?_getD, List.getElem?_append_left this]

theorem Ext.first {n : Nat} (hn : n < d.nodes.length) : getFirstChild n d' = getFirstChild n d := by
  have e := rows_find h.fc (q := fun r => r.1 == n) fun x hx => by
    simp only [beq_eq_false_iff_ne]; omega
  unfold getFirstChild getFirstChildNode
  rw [e]
  cases hi : d.fc.findIdx? (fun r => r.1 == n) with
  | none => rfl
  | some i => exact congrArg Prod.snd (rows_at h.fc hi)

theorem Ext.next {n : Nat} (hn : n < d.nodes.length) : getNext n d' = getNext n d := by
  have e := rows_find h.nn (q := fun r => r.1 == n) fun x hx => by
    simp only [beq_eq_false_iff_ne]; omega
  unfold getNext getNextNode
  rw [e]
  cases hi : d.nn.findIdx? (fun r => r.1 == n) with
  | none => rfl
  | some i => exact congrArg Prod.snd (rows_at h.nn hi)

theorem Ext.previous {n : Nat} (hn : n < d.nodes.length) : getPrevious n d' = getPrevious n d := by
  have e := rows_find h.nn (q := fun r => r.2 == n) fun x hx => by
    simp only [beq_eq_false_iff_ne]; omega
  unfold getPrevious getPreviousNode
  rw [e]
  cases hi : d.nn.findIdx? (fun r => r.2 == n) with
  | none => rfl
  | some i => exact congrArg Prod.fst (rows_at h.nn hi)

theorem Ext.parent {n : Nat} (hn : n < d.nodes.length) : getParent n d' = getParent n d := by
  have e := rows_find h.pc (q := fun r => r.2 == n) fun x hx => by
    simp only [beq_eq_false_iff_ne]; omega
  unfold getParent getParentNode
  rw [e]
  cases hi : d.pc.findIdx? (fun r => r.2 == n) with
  | none => rfl
  | some i => exact congrArg Prod.fst (rows_at h.pc hi)

omit h in
theorem rows_any {α : Type} {P : α → Prop} {a b : List α} (hr : Rows P a b) {q : α → Bool} (hq : ∀ x, P x → q x = false) :
    b.any q = a.any q := by
  obtain ⟨r, rfl, hr⟩ := hr
  rw [List.any_append]
  have : r.any q = false := by
    rw [List.any_eq_false]
    intro x hx; rw [hq x (hr x hx)]; simp
  rw [this, Bool.or_false]

omit h in
theorem rows_filter {α : Type} {P : α → Prop} {a b : List α} (hr : Rows P a b) {q : α → Bool} (hq : ∀ x, P x → q x = false) :
    b.filter q = a.filter q := by
  obtain ⟨r, rfl, hr⟩ := hr
  rw [List.filter_append]
  have : r.filter q = [] := by
    rw [List.filter_eq_nil_iff]
    intro x hx; rw [hq x (hr x hx)]; simp
  rw [this, List.append_nil]

variable (hN : NamesOK d)
include hN

theorem Ext.hasPropKey {n : Nat} (hn : n < d.nodes.length) (key : Str) : hasPropKey n key d' = hasPropKey n key d := by
  have e := fun k => rows_any h.props (q := fun r => r.node == n && r.key == k) fun x hx => by
    rw [Bool.and_eq_false_iff]; left; simp only [beq_eq_false_iff_ne]; omega
  unfold Flo.hasPropKey
  simp only [e]
  by_cases hk : d.keyMap.contains key = 0
  · rw [if_pos hk]
    rcases h.keyMap.new key hk with h1 | h1
    · rw [if_pos h1]
    · rw [if_neg (by omega), List.any_eq_false]
      intro r hr
      have := (hN.propsLt r hr).1
      have := hN.key.len
      simp only [Bool.and_eq_true, beq_iff_eq, not_and]
      omega
  · rw [h.keyMap.keep key hk]

theorem Ext.hasPropValue {n : Nat} (hn : n < d.nodes.length) (value : Str) : hasPropValue n value d' = hasPropValue n value d := by
  have e := fun k => rows_any h.props (q := fun r => r.node == n && r.value == k) fun x hx => by
    rw [Bool.and_eq_false_iff]; left; simp only [beq_eq_false_iff_ne]; omega
  unfold Flo.hasPropValue
  simp only [e]
  by_cases hk : d.valMap.contains value = 0
  · rw [if_pos hk]
    rcases h.valMap.new value hk with h1 | h1
    · rw [if_pos h1]
    · rw [if_neg (by omega), List.any_eq_false]
      intro r hr
      have := (hN.propsLt r hr).2
      have := hN.val.len
      simp only [Bool.and_eq_true, beq_iff_eq, not_and]
      omega
  · rw [h.valMap.keep value hk]

theorem Ext.hasBoolProp {n : Nat} (hn : n < d.nodes.length) (name : Str) : hasBoolProp n name d' = hasBoolProp n name d := by
  have e := fun k => rows_any h.bools (q := fun r => r.1 == n && r.2 == k) fun x hx => by
    rw [Bool.and_eq_false_iff]; left; simp only [beq_eq_false_iff_ne]; omega
  unfold Flo.hasBoolProp
  simp only [e]
  by_cases hk : d.boolMap.contains name = 0
  · rw [if_pos hk]
    rcases h.boolMap.new name hk with h1 | h1
    · rw [if_pos h1]
    · rw [if_neg (by omega), List.any_eq_false]
      intro r hr
      have := hN.boolsLt r hr
      have := hN.bool.len
      simp only [Bool.and_eq_true, beq_iff_eq, not_and]
      omega
  · rw [h.boolMap.keep name hk]

theorem Ext.hasProperty {n : Nat} (h0 : n ≠ 0) (hn : n < d.nodes.length) (key value : Str) :
    hasProperty n key value d' = hasProperty n key value d := by
  have e := fun k v => rows_any h.props (q := fun r => r.node == n && r.key == k && r.value == v) fun x hx => by
    rw [Bool.and_eq_false_iff, Bool.and_eq_false_iff]; left; left; simp only [beq_eq_false_iff_ne]; omega
  unfold Flo.hasProperty
  simp only [e]
  by_cases hk : d.keyMap.contains key = 0
  · rw [if_pos hk]
    rcases h.keyMap.new key hk with h1 | h1
    · rw [if_pos h1]
    · rw [if_neg (by omega), if_neg (by omega), List.any_eq_false]
      intro r hr
      have := (hN.propsLt r hr).1
      have := hN.key.len
      simp only [Bool.and_eq_true, beq_iff_eq, not_and]
      omega
  · rw [h.keyMap.keep key hk, if_neg hk, if_neg hk, if_neg hk, if_neg hk]
    by_cases hv : d.valMap.contains value = 0
    · rw [hv]
      have no : ∀ v, (v = 0 ∨ d.valMap.identity < v) →
          (d.props.any fun r => r.node == n && r.key == d.keyMap.contains key && r.value == v) = false := by
        intro v hv
        rw [List.any_eq_false]
        intro r hr
        have := (hN.propsLt r hr).2
        have := hN.val.len
        have h3 := hN.propsNz r hr
        simp only [Bool.and_eq_true, beq_iff_eq, not_and]
        rintro ⟨h1, _⟩
        have := (h3 (h1 ▸ h0)).2
        omega
      rw [no 0 (Or.inl rfl), no _ (h.valMap.new value hv)]
    · rw [h.valMap.keep value hv]

theorem Ext.getValue {n : Nat} (hn : n < d.nodes.length) (key : Str) : getValue n key d' = getValue n key d := by
  obtain ⟨R, hR, hR'⟩ := h.props
  have hno : ∀ k, R.find? (fun r => r.node == n && r.key == k) = none := by
    intro k
    rw [List.find?_eq_none]
    intro x hx
    have := hR' x hx
    simp only [Bool.and_eq_true, beq_iff_eq, not_and]
    intro; omega
  have e : ∀ k, d'.props.find? (fun r => r.node == n && r.key == k) = d.props.find? (fun r => r.node == n && r.key == k) := by
    intro k
    rw [hR, List.find?_append, hno k, Option.or_none]
  unfold Flo.getValue
  simp only [e]
  by_cases hk : d.keyMap.contains key = 0
  · rw [if_pos hk]
    rcases h.keyMap.new key hk with h1 | h1
    · rw [if_pos h1]
    · rw [if_neg (by omega)]
      have : d.props.find? (fun r => r.node == n && r.key == d'.keyMap.contains key) = none := by
        rw [List.find?_eq_none]
        intro r hr
        have := (hN.propsLt r hr).1
        have := hN.key.len
        simp only [Bool.and_eq_true, beq_iff_eq, not_and]
        omega
      rw [this]
  · rw [h.keyMap.keep key hk, if_neg hk, if_neg hk]
    cases hf : d.props.find? (fun r => r.node == n && r.key == d.keyMap.contains key) with
    | none => rfl
    | some r =>
      have hlt := (hN.propsLt r (List.mem_of_find?_eq_some hf)).2
      obtain ⟨r', hr'⟩ := h.valReg
      dsimp only
      rw [← hr', List.getElem?_append_left hlt]

theorem Ext.pairs {n : Nat} (hn : n < d.nodes.length) : Spec.pairs d' n = Spec.pairs d n := by
  have e := rows_filter h.props (q := fun r => r.node == n) fun x hx => by simp only [beq_eq_false_iff_ne]; omega
  unfold Spec.pairs
  rw [e]
  refine List.map_congr_left fun r hr => ?_
  have hm := (List.mem_filter.mp hr).1
  obtain ⟨h1, h2⟩ := hN.propsLt r hm
  rw [prefix_getD h.keyReg h1, prefix_getD h.valReg h2]

theorem Ext.boolsOf {n : Nat} (hn : n < d.nodes.length) : Spec.bools d' n = Spec.bools d n := by
  have e := rows_filter h.bools (q := fun r => r.1 == n) fun x hx => by simp only [beq_eq_false_iff_ne]; omega
  unfold Spec.bools
  rw [e]
  refine List.map_congr_left fun r hr => ?_
  have hm := (List.mem_filter.mp hr).1
  rw [prefix_getD h.boolReg (hN.boolsLt r hm)]

end Read

/-! ## Printing -/

section Print
variable {d d' : Dom} (h : Ext d d')

theorem node_lt {n : Nat} {x : Node} (e : d.node n = .ok x) : n < d.nodes.length ∧ d.nodes[n]? = some x := by
  unfold Dom.node at e
  cases hn : d.nodes[n]? with
  | none => rw [hn] at e; cases e
  | some y => rw [hn] at e; cases e; exact ⟨(List.getElem?_eq_some_iff.mp hn).1, rfl⟩

include h

theorem Ext.node {n : Nat} {x : Node} (e : d.node n = .ok x) : d'.node n = .ok x := by
  obtain ⟨h1, h2⟩ := node_lt e
  unfold Dom.node
  rw [h.get h1, h2]

omit h in
theorem regAt_prefix {α : Type} {l l' : List α} (hp : l <+: l') {i : Nat} {x : α} (e : regAt l i = .ok x) : regAt l' i = .ok x := by
  unfold regAt at e ⊢
  cases hx : l[i]? with
  | none => rw [hx] at e; cases e
  | some y =>
    rw [hx] at e; cases e
    obtain ⟨r, rfl⟩ := hp
    rw [List.getElem?_append_left (List.getElem?_eq_some_iff.mp hx).1, hx]

theorem Ext.printBools {n : Nat} : ∀ (rs : List Row) (t : Str), Flo.printBools n d rs = .ok t → Flo.printBools n d' rs = .ok t
  | [], t, e => e
  | r :: rs, t, e => by
    unfold Flo.printBools at e ⊢
    split
    · rename_i hr
      rw [if_pos hr, Out.bind_eq_ok] at e
      obtain ⟨b, hb, e⟩ := e
      rw [Out.bind_eq_ok] at e
      obtain ⟨x, hx, e⟩ := e
      rw [regAt_prefix h.boolReg hb, Out.bind_ok, Ext.printBools rs x hx, Out.bind_ok]
      exact e
    · rename_i hr
      rw [if_neg hr] at e
      exact Ext.printBools rs t e

theorem Ext.printProps {n : Nat} : ∀ (rs : List PropRow) (t : Str), Flo.printProps n d rs = .ok t → Flo.printProps n d' rs = .ok t
  | [], t, e => e
  | r :: rs, t, e => by
    unfold Flo.printProps at e ⊢
    split
    · rename_i hr
      rw [if_pos hr, Out.bind_eq_ok] at e
      obtain ⟨b, hb, e⟩ := e
      rw [Out.bind_eq_ok] at e
      obtain ⟨v, hv, e⟩ := e
      rw [Out.bind_eq_ok] at e
      obtain ⟨x, hx, e⟩ := e
      rw [regAt_prefix h.keyReg hb, Out.bind_ok, regAt_prefix h.valReg hv, Out.bind_ok, Ext.printProps rs x hx, Out.bind_ok]
      exact e
    · rename_i hr
      rw [if_neg hr] at e
      exact Ext.printProps rs t e

omit h in
theorem printBools_skip {n : Nat} {R : List Row} (hR : ∀ x ∈ R, x.1 ≠ n) : ∀ (rs : List Row),
    Flo.printBools n d' (rs ++ R) = Flo.printBools n d' rs
  | [] => by
    induction R with
    | nil => rfl
    | cons r R ih =>
      rw [List.nil_append] at ih ⊢
      show (if r.1 = n then _ else Flo.printBools n d' R) = _
      rw [if_neg (hR r (.head _))]
      exact ih fun x hx => hR x (.tail _ hx)
  | r :: rs => by
    rw [List.cons_append, Flo.printBools, Flo.printBools, printBools_skip hR rs]

omit h in
theorem printProps_skip {n : Nat} {R : List PropRow} (hR : ∀ x ∈ R, x.node ≠ n) : ∀ (rs : List PropRow),
    Flo.printProps n d' (rs ++ R) = Flo.printProps n d' rs
  | [] => by
    induction R with
    | nil => rfl
    | cons r R ih =>
      rw [List.nil_append] at ih ⊢
      show (if r.node = n then _ else Flo.printProps n d' R) = _
      rw [if_neg (hR r (.head _))]
      exact ih fun x hx => hR x (.tail _ hx)
  | r :: rs => by
    rw [List.cons_append, Flo.printProps, Flo.printProps, printProps_skip hR rs]

theorem Ext.allBools {n : Nat} (hn : n < d.nodes.length) {t : Str} (e : Flo.printBools n d d.boolProps = .ok t) :
    Flo.printBools n d' d'.boolProps = .ok t := by
  obtain ⟨R, hR, hR'⟩ := h.bools
  rw [hR, printBools_skip (fun x hx => by have := hR' x hx; omega)]
  exact h.printBools _ _ e

theorem Ext.allProps {n : Nat} (hn : n < d.nodes.length) {t : Str} (e : Flo.printProps n d d.props = .ok t) :
    Flo.printProps n d' d'.props = .ok t := by
  obtain ⟨R, hR, hR'⟩ := h.props
  rw [hR, printProps_skip (fun x hx => by have := hR' x hx; omega)]
  exact h.printProps _ _ e

theorem Ext.children {pr pr' : Nat → Out Str} (hp : ∀ n t, pr n = .ok t → n < d.nodes.length ∧ pr' n = .ok t) :
    ∀ (f f' c : Nat) (t : Str), f ≤ f' → Flo.printChildren pr d f c = .ok t → Flo.printChildren pr' d' f' c = .ok t
  | 0, _, _, _, _, e => by cases e
  | f + 1, f', c, t, hf, e => by
    obtain ⟨g, rfl⟩ : ∃ g, f' = g + 1 := ⟨f' - 1, by omega⟩
    unfold Flo.printChildren at e ⊢
    by_cases hc : c ≠ 0
    · rw [if_pos hc, Out.bind_eq_ok] at e
      obtain ⟨a, ha, e⟩ := e
      rw [Out.bind_eq_ok] at e
      obtain ⟨b, hb, e⟩ := e
      obtain ⟨h1, h2⟩ := hp c a ha
      rw [if_pos hc, h2, Out.bind_ok, h.next h1, Ext.children hp f g _ b (by omega) hb, Out.bind_ok]
      exact e
    · rw [if_neg hc] at e ⊢; exact e

theorem Ext.fuel : d.nn.length ≤ d'.nn.length := by
  obtain ⟨R, hR, _⟩ := h.nn
  rw [hR]; simp

theorem Ext.printNode : ∀ (f f' n : Nat) (t : Str), f ≤ f' → printNodeF d f n = .ok t → n < d.nodes.length ∧ printNodeF d' f' n = .ok t
  | 0, _, _, _, _, e => by cases e
  | f + 1, f', n, t, hf, e => by
    obtain ⟨g, rfl⟩ : ∃ g, f' = g + 1 := ⟨f' - 1, by omega⟩
    have ih := fun n t (e : printNodeF d f n = .ok t) => Ext.printNode f g n t (by omega) e
    unfold printNodeF at e ⊢
    rw [Out.bind_eq_ok] at e
    obtain ⟨x, hx, e⟩ := e
    have hn := (node_lt hx).1
    refine ⟨hn, ?_⟩
    have kids : ∀ t, Flo.printChildren (printNodeF d f) d (d.nn.length + 2) (getFirstChild n d) = .ok t →
        Flo.printChildren (printNodeF d' g) d' (d'.nn.length + 2) (getFirstChild n d') = .ok t := by
      intro t e
      rw [h.first hn]
      exact h.children ih _ _ _ _ (by have := h.fuel; omega) e
    rw [h.node hx, Out.bind_ok]
    have doc : ∀ t, (do
        let t ← x.docTag
        let reg ← regAt d.tagReg t
        let bs ← Flo.printBools n d d.boolProps
        let ps ← Flo.printProps n d d.props
        if !reg.2 then
          (.ok (b!"<" ++ reg.1 ++ bs ++ ps ++ (if strEq reg.1 b!"!DOCTYPE" then b!">" else b!"/>")) : Out Str)
        else do
          let cs ← Flo.printChildren (printNodeF d f) d (d.nn.length + 2) (getFirstChild n d)
          .ok (b!"<" ++ reg.1 ++ bs ++ ps ++ b!">" ++ cs ++ b!"</" ++ reg.1 ++ b!">")) = .ok t → (do
        let t ← x.docTag
        let reg ← regAt d'.tagReg t
        let bs ← Flo.printBools n d' d'.boolProps
        let ps ← Flo.printProps n d' d'.props
        if !reg.2 then
          (.ok (b!"<" ++ reg.1 ++ bs ++ ps ++ (if strEq reg.1 b!"!DOCTYPE" then b!">" else b!"/>")) : Out Str)
        else do
          let cs ← Flo.printChildren (printNodeF d' g) d' (d'.nn.length + 2) (getFirstChild n d')
          .ok (b!"<" ++ reg.1 ++ bs ++ ps ++ b!">" ++ cs ++ b!"</" ++ reg.1 ++ b!">")) = .ok t := by
      intro t e
      simp only [Out.bind_eq_ok] at e ⊢
      obtain ⟨tag, h1, reg, h2, bs, h3, ps, h4, e⟩ := e
      refine ⟨tag, h1, reg, regAt_prefix h.tagReg h2, bs, h.allBools hn h3, ps, h.allProps hn h4, ?_⟩
      split
      · rename_i hr; rw [if_pos hr] at e; exact e
      · rename_i hr
        rw [if_neg hr, Out.bind_eq_ok] at e
        obtain ⟨cs, h5, e⟩ := e
        rw [kids cs h5, Out.bind_ok]
        exact e
    cases hty : x.type <;> simp only [hty] at e ⊢
    · exact kids t e
    · exact doc t e
    · exact e
    · exact doc t e
    · exact e

theorem Ext.print {t : Str} (e : printHTML d = .ok t) : printHTML d' = .ok t := by
  unfold printHTML at e ⊢
  have hl : d.nodes.length ≤ d'.nodes.length := h.nodes.length_le
  exact h.children (fun n t e => h.printNode _ _ n t (by omega) e) _ _ _ _ (by have := h.fuel; omega) e

end Print

/-- What was there before is read as before. -/
theorem Ext.same {d d' : Dom} (h : Ext d d') {ch : Nat → List Nat} (hi : DomI d ch) : SameReadings d d' := by
  have hN := hi.names
  refine ⟨fun n h0 hn => ⟨?_, ?_, ?_, h.pairs hN hn, h.boolsOf hN hn⟩, fun n _ hn => h.first hn, fun n _ hn => h.next hn,
    fun n _ hn => h.previous hn, fun n _ hn => h.parent hn, fun n k _ hn => h.hasPropKey hN hn k, fun n k _ hn => h.hasPropValue hN hn k,
    fun n k v h0 hn => h.hasProperty hN h0 hn k v, fun n k _ hn => h.hasBoolProp hN hn k, fun n k _ hn => h.getValue hN hn k,
    fun t e => h.print e⟩
  · unfold typeOf; rw [h.get hn]
  · unfold textOf; rw [h.get hn]
  · unfold tagOf; rw [h.get hn]
    cases hx : d.nodes[n]? with
    | none => rfl
    | some x =>
      have hg := hi.good n x hx
      obtain ⟨ty, pl⟩ := x
      cases ty <;> cases pl <;> try rfl
      rename_i t
      have ht : t < d.tagReg.length := by
        obtain ⟨t', e, _, ht⟩ := hg.doc rfl
        cases e; exact ht
      obtain ⟨r, hr⟩ := h.tagReg
      dsimp only
      rw [← hr, List.getElem?_append_left ht]

/-! ## A logic for programs that may fail -/

/-- From a DOM with `P` the program is done with `Q`, or fails with `F`. -/
def Tri {α : Type} (P : Dom → Prop) (m : CM α) (Q : α → Dom → Prop) (F : Dom → Prop) : Prop :=
  ∀ k d, P d → match m k d with
    | .done a d' _ => Q a d'
    | .fail d' => F d'
    | .stop => True

section Logic
variable {α β : Type} {P Q : Dom → Prop} {F : Dom → Prop}

theorem bind_run (m : CM α) (f : α → CM β) (k : Nat) (d : Dom) : (m >>= f) k d = match m k d with
    | .done a d k => f a k d
    | .fail d => .fail d
    | .stop => .stop := rfl

theorem Tri.bind {m : CM α} {f : α → CM β} {R : α → Dom → Prop} {S : β → Dom → Prop} (h : Tri P m R F)
    (hf : ∀ a, Tri (R a) (f a) S F) : Tri P (m >>= f) S F := by
  intro k d hp
  have := h k d hp
  rw [bind_run]
  cases e : m k d with
  | done a d' k' => rw [e] at this; exact hf a k' d' this
  | fail d' => rw [e] at this; exact this
  | stop => trivial

theorem Tri.pure {R : α → Dom → Prop} {a : α} (h : ∀ d, P d → R a d) : Tri P (pure a : CM α) R F := fun _ d hp => h d hp

theorem Tri.read (f : Dom → α) : Tri P (read f) (fun a d => P d ∧ a = f d) F := fun _ _ hp => ⟨hp, rfl⟩

theorem Tri.write {f : Dom → Dom} (h : ∀ d, P d → Q (f d)) : Tri P (write f) (fun _ => Q) F := fun _ d hp => h d hp

theorem Tri.point (h : ∀ d, P d → F d) : Tri P point (fun _ => P) F := by
  intro k d hp
  cases k with
  | zero => exact h d hp
  | succ k => exact hp

theorem Tri.push {f : Dom → Dom} (hF : ∀ d, P d → F d) (h : ∀ d, P d → Q (f d)) : Tri P (push f) (fun _ => Q) F :=
  (Tri.point hF).bind fun _ => Tri.write h

theorem Tri.ask {f : Dom → Out α} (hF : ∀ d, P d → F d) : Tri P (ask f) (fun a d => P d ∧ f d = .ok a) F := by
  intro k d hp
  unfold CM.ask
  cases e : f d with
  | ok a => exact ⟨hp, e⟩
  | longjmp => exact hF d hp
  | ub w => trivial
  | hang => trivial

theorem Tri.mono {m : CM α} {R R' : α → Dom → Prop} {F' P' : Dom → Prop} (h : Tri P m R F) (hP : ∀ d, P' d → P d)
    (hR : ∀ a d, R a d → R' a d) (hF : ∀ d, F d → F' d) : Tri P' m R' F' := by
  intro k d hp
  have := h k d (hP d hp)
  cases e : m k d with
  | done a d' k' => rw [e] at this; exact hR _ _ this
  | fail d' => rw [e] at this; exact hF _ this
  | stop => trivial

theorem Tri.iteC {c : Prop} [Decidable c] {m m' : CM α} {R : α → Dom → Prop} (h : c → Tri P m R F) (h' : ¬c → Tri P m' R F) :
    Tri P (if c then m else m') R F := by
  split
  · exact h ‹_›
  · exact h' ‹_›

theorem Tri.fails {m : CM α} {R : α → Dom → Prop} (h : Tri P m R F) {k : Nat} {d d' : Dom} (hp : P d) (e : m k d = .fail d') : F d' := by
  have := h k d hp
  rw [e] at this
  exact this

end Logic

/-- What registering a name keeps. -/
structure Interning (I : Dom → Prop) : Prop where
  boolMap : ∀ {d s r}, I d → d.boolMap.insert s = .ok r → I { d with boolMap := r.map }
  keyMap : ∀ {d s r}, I d → d.keyMap.insert s = .ok r → I { d with keyMap := r.map }
  valMap : ∀ {d s r}, I d → d.valMap.insert s = .ok r → I { d with valMap := r.map }
  tagMap : ∀ {d s r}, I d → d.tagMap.insert s = .ok r → I { d with tagMap := r.map }
  boolReg : ∀ {d s}, I d → I { d with boolReg := d.boolReg ++ [s] }
  keyReg : ∀ {d s}, I d → I { d with keyReg := d.keyReg ++ [s] }
  valReg : ∀ {d s}, I d → I { d with valReg := d.valReg ++ [s] }
  tagReg : ∀ {d s}, I d → I { d with tagReg := d.tagReg ++ [s] }

/-- What building new nodes keeps. -/
structure Closed (L : Nat) (I : Dom → Prop) : Prop extends Interning I where
  len : ∀ {d}, I d → L ≤ d.nodes.length
  props : ∀ {d r}, I d → L ≤ r.node → I { d with props := d.props ++ [r] }
  bools : ∀ {d r}, I d → L ≤ r.1 → I { d with boolProps := d.boolProps ++ [r] }
  create : ∀ {d x}, I d → d.nodes.length ≤ 65534 → I { d with nodes := d.nodes ++ [x] }
  set : ∀ {d n x}, I d → L ≤ n → I (d.setNode n x)

theorem prefix_push {α : Type} {l l' : List α} (h : l <+: l') (x : α) : l <+: l' ++ [x] := h.trans (List.prefix_append _ _)

theorem prefix_set {α : Type} {l l' : List α} (h : l <+: l') {n : Nat} (hn : l.length ≤ n) (x : α) : l <+: l'.set n x := by
  obtain ⟨r, rfl⟩ := h
  rw [List.set_append_right _ _ hn]
  exact List.prefix_append _ _

theorem closed_ext (d : Dom) : Closed d.nodes.length (Ext d) where
  len h := h.nodes.length_le
  boolMap h e := { h with boolMap := h.boolMap.insert e }
  keyMap h e := { h with keyMap := h.keyMap.insert e }
  valMap h e := { h with valMap := h.valMap.insert e }
  tagMap h e := { h with tagMap := h.tagMap.insert e }
  boolReg h := { h with boolReg := prefix_push h.boolReg _ }
  keyReg h := { h with keyReg := prefix_push h.keyReg _ }
  valReg h := { h with valReg := prefix_push h.valReg _ }
  tagReg h := { h with tagReg := prefix_push h.tagReg _ }
  props h hr := { h with props := h.props.push hr }
  bools h hr := { h with bools := h.bools.push hr }
  create h _ := { h with nodes := prefix_push h.nodes _ }
  set h hn := { h with nodes := prefix_set h.nodes hn _ }

/-- New nodes, not linked to anything. -/
structure Built (d d' : Dom) : Prop where
  ext : Ext d d'
  fc : d'.fc = d.fc
  pc : d'.pc = d.pc
  nn : d'.nn = d.nn

theorem closed_built (d : Dom) : Closed d.nodes.length (Built d) where
  len h := h.ext.nodes.length_le
  boolMap h e := ⟨(closed_ext d).boolMap h.ext e, h.fc, h.pc, h.nn⟩
  keyMap h e := ⟨(closed_ext d).keyMap h.ext e, h.fc, h.pc, h.nn⟩
  valMap h e := ⟨(closed_ext d).valMap h.ext e, h.fc, h.pc, h.nn⟩
  tagMap h e := ⟨(closed_ext d).tagMap h.ext e, h.fc, h.pc, h.nn⟩
  boolReg h := ⟨(closed_ext d).boolReg h.ext, h.fc, h.pc, h.nn⟩
  keyReg h := ⟨(closed_ext d).keyReg h.ext, h.fc, h.pc, h.nn⟩
  valReg h := ⟨(closed_ext d).valReg h.ext, h.fc, h.pc, h.nn⟩
  tagReg h := ⟨(closed_ext d).tagReg h.ext, h.fc, h.pc, h.nn⟩
  props h hr := ⟨(closed_ext d).props h.ext hr, h.fc, h.pc, h.nn⟩
  bools h hr := ⟨(closed_ext d).bools h.ext hr, h.fc, h.pc, h.nn⟩
  create h hn := ⟨(closed_ext d).create h.ext hn, h.fc, h.pc, h.nn⟩
  set h hn := ⟨(closed_ext d).set h.ext hn, h.fc, h.pc, h.nn⟩

/-- New nodes, not linked to anything, with identifiers that fit. -/
theorem closed_fits (d : Dom) : Closed d.nodes.length (fun x => Built d x ∧ x.nodes.length ≤ 65535) where
  len h := h.1.ext.nodes.length_le
  boolMap h e := ⟨(closed_built d).boolMap h.1 e, h.2⟩
  keyMap h e := ⟨(closed_built d).keyMap h.1 e, h.2⟩
  valMap h e := ⟨(closed_built d).valMap h.1 e, h.2⟩
  tagMap h e := ⟨(closed_built d).tagMap h.1 e, h.2⟩
  boolReg h := ⟨(closed_built d).boolReg h.1, h.2⟩
  keyReg h := ⟨(closed_built d).keyReg h.1, h.2⟩
  valReg h := ⟨(closed_built d).valReg h.1, h.2⟩
  tagReg h := ⟨(closed_built d).tagReg h.1, h.2⟩
  props h hr := ⟨(closed_built d).props h.1 hr, h.2⟩
  bools h hr := ⟨(closed_built d).bools h.1 hr, h.2⟩
  create h hn := ⟨(closed_built d).create h.1 hn, by
    show (_ ++ [_]).length ≤ 65535
    rw [List.length_append, List.length_singleton]; omega⟩
  set h hn := ⟨(closed_built d).set h.1 hn, by
    show (List.set _ _ _).length ≤ 65535
    rw [List.length_set]; exact h.2⟩

section Names
variable {I : Dom → Prop} (hI : Interning I)
include hI

theorem internBool_tri (s : Str) : Tri I (internBoolC s) (fun _ => I) I := by
  unfold internBoolC
  refine (Tri.ask fun _ h => h).bind fun r => ?_
  refine Tri.iteC (fun _ => ?_) fun _ => Tri.pure fun d h => h.1
  exact (Tri.push (fun d h => h.1) fun d h => hI.boolMap h.1 h.2).bind fun _ =>
    (Tri.push (fun d h => h) fun d h => hI.boolReg h).bind fun _ => Tri.pure fun d h => h

theorem internKey_tri (s : Str) : Tri I (internKeyC s) (fun _ => I) I := by
  unfold internKeyC
  refine (Tri.ask fun _ h => h).bind fun r => ?_
  refine Tri.iteC (fun _ => ?_) fun _ => Tri.pure fun d h => h.1
  exact (Tri.push (fun d h => h.1) fun d h => hI.keyMap h.1 h.2).bind fun _ =>
    (Tri.push (fun d h => h) fun d h => hI.keyReg h).bind fun _ => Tri.pure fun d h => h

theorem internVal_tri (s : Str) : Tri I (internValC s) (fun _ => I) I := by
  unfold internValC
  refine (Tri.ask fun _ h => h).bind fun r => ?_
  refine Tri.iteC (fun _ => ?_) fun _ => Tri.pure fun d h => h.1
  exact (Tri.push (fun d h => h.1) fun d h => hI.valMap h.1 h.2).bind fun _ =>
    (Tri.push (fun d h => h) fun d h => hI.valReg h).bind fun _ => Tri.pure fun d h => h

theorem addProperty_fail (n : Nat) (k v : Str) : Tri I (addPropertyC n k v) (fun _ _ => True) I :=
  (internKey_tri hI k).bind fun _ => (internVal_tri hI v).bind fun _ => Tri.push (Q := fun _ => True) (fun _ h => h) fun _ _ => trivial

theorem addBool_fail (n : Nat) (b : Str) : Tri I (addBoolPropertyC n b) (fun _ _ => True) I :=
  (internBool_tri hI b).bind fun _ => Tri.push (Q := fun _ => True) (fun _ h => h) fun _ _ => trivial

theorem setValue_fail (n : Nat) (k v : Str) : Tri I (setPropertyValueC n k v) (fun _ _ => True) I := by
  unfold setPropertyValueC
  refine (Tri.read _).bind fun k => Tri.iteC (fun _ => Tri.pure fun _ _ => trivial) fun _ => (Tri.read _).bind fun i => ?_
  cases i with
  | none => exact Tri.pure fun _ _ => trivial
  | some i =>
    exact ((internVal_tri hI v).mono (fun _ h => h.1.1) (fun _ _ h => h) fun _ h => h).bind fun _ =>
      (Tri.write (Q := fun _ => True) fun _ _ => trivial).bind fun _ => Tri.pure fun _ _ => trivial

theorem addText_fail (n : Nat) (t : Str) (e : Bool) : Tri I (addTextToTextNodeC n t e) (fun _ _ => True) I :=
  (Tri.ask fun _ h => h).bind fun _ => (Tri.ask fun _ h => h.1).bind fun _ =>
    Tri.push (Q := fun _ => True) (fun _ h => h.1.1) fun _ _ => trivial

theorem setTag_fail (t : Str) (n : Nat) (p : Bool) : Tri I (setTagC t n p) (fun _ _ => True) I := by
  unfold setTagC
  refine (Tri.ask fun _ h => h).bind fun r => Tri.iteC (fun _ => ?_) fun _ => ?_
  · exact (Tri.push (fun d h => h.1) fun d h => hI.tagMap h.1 h.2).bind fun _ =>
      (Tri.push (fun d h => h) fun d h => hI.tagReg h).bind fun _ => (Tri.ask fun _ h => h).bind fun _ =>
        Tri.write (Q := fun _ => True) fun _ _ => trivial
  · exact (Tri.ask fun _ h => h.1).bind fun _ => Tri.write (Q := fun _ => True) fun _ _ => trivial

theorem tryMerge_fail (i j : Nat) (e : Bool) : Tri I (tryMergeC i j e) (fun b d => b = false → I d) I := by
  unfold tryMergeC
  refine (Tri.ask fun _ h => h).bind fun nd => Tri.iteC (fun _ => ?_) fun _ => Tri.pure fun _ h _ => h.1
  exact (Tri.ask fun _ h => h.1).bind fun _ => (Tri.ask fun _ h => h.1.1).bind fun _ =>
    ((addText_fail hI i _ e).mono (fun _ h => h.1.1.1) (fun _ _ h => h) fun _ h => h).bind fun _ => Tri.pure fun _ _ h => by cases h

end Names

section Programs
variable {L : Nat} {I : Dom → Prop} (hI : Closed L I)
include hI

theorem addProperty_tri {n : Nat} (hn : L ≤ n) (k v : Str) : Tri I (addPropertyC n k v) (fun _ => I) I :=
  (internKey_tri hI.toInterning k).bind fun _ => (internVal_tri hI.toInterning v).bind fun _ => Tri.push (fun _ h => h) fun _ h => hI.props h hn

theorem addBool_tri {n : Nat} (hn : L ≤ n) (b : Str) : Tri I (addBoolPropertyC n b) (fun _ => I) I :=
  (internBool_tri hI.toInterning b).bind fun _ => Tri.push (fun _ h => h) fun _ h => hI.bools h hn

theorem setTag_tri (t : Str) {n : Nat} (hn : L ≤ n) (p : Bool) : Tri I (setTagC t n p) (fun _ => I) I := by
  unfold setTagC
  refine (Tri.ask fun _ h => h).bind fun r => Tri.iteC (fun _ => ?_) fun _ => ?_
  · exact (Tri.push (fun d h => h.1) fun d h => hI.tagMap h.1 h.2).bind fun _ =>
      (Tri.push (fun d h => h) fun d h => hI.tagReg h).bind fun _ => (Tri.ask fun _ h => h).bind fun _ =>
        Tri.write fun _ h => hI.set h.1 hn
  · exact (Tri.ask fun _ h => h.1).bind fun _ => Tri.write fun _ h => hI.set h.1.1 hn

theorem createNode_tri (ty : NodeType) : Tri I (createNodeC ty) (fun n d => I d ∧ L ≤ n) I := by
  unfold createNodeC
  refine (Tri.read _).bind fun n => Tri.iteC (fun _ => ?_) fun hc => ?_
  · exact fun k d h => h.1
  · exact (Tri.push (Q := fun d => I d ∧ L ≤ n) (fun _ h => h.1) fun d h =>
      ⟨hI.create h.1 (by have := h.2; omega), (by have := hI.len h.1; rw [h.2]; exact this)⟩).bind fun _ => Tri.pure fun _ h => h

theorem parseTextElement_tri (t : Str) : Tri I (parseTextElementC t) (fun n d => I d ∧ L ≤ n) I := by
  unfold parseTextElementC
  exact (createNode_tri hI _).bind fun n => (Tri.ask fun _ h => h.1).bind fun _ =>
    (Tri.push (Q := fun d => I d ∧ L ≤ n) (fun _ h => h.1.1) fun d h => ⟨hI.set h.1.1 h.1.2, h.1.2⟩).bind fun _ => Tri.pure fun _ h => h

omit hI in
theorem Tri.hyp {α : Type} {P F : Dom → Prop} {c : Prop} {m : CM α} {R : α → Dom → Prop} (h : c → Tri P m R F) :
    Tri (fun d => P d ∧ c) m R F := fun k d hp => h hp.2 k d hp.1

theorem addBools_tri {n : Nat} (hn : L ≤ n) : ∀ bs, Tri I (addBoolsC n bs) (fun _ => I) I
  | [] => Tri.pure fun _ h => h
  | b :: bs => (addBool_tri hI hn b).bind fun _ => addBools_tri hn bs

theorem addProps_tri {n : Nat} (hn : L ≤ n) : ∀ ps, Tri I (addPropsC n ps) (fun _ => I) I
  | [] => Tri.pure fun _ h => h
  | (k, v) :: ps => (addProperty_tri hI hn k v).bind fun _ => addProps_tri hn ps

theorem parseDocumentElement_tri (doc : DocNode) : Tri I (parseDocumentElementC doc) (fun n d => I d ∧ L ≤ n) I := by
  unfold parseDocumentElementC
  exact (createNode_tri hI _).bind fun n => Tri.hyp fun hn => (setTag_tri hI _ hn _).bind fun _ =>
    (addBools_tri hI hn _).bind fun _ => (addProps_tri hI hn _).bind fun _ => Tri.pure fun _ h => ⟨h, hn⟩

theorem attrLoop_tri (s : Str) {n : Nat} (hn : L ≤ n) : ∀ f idx can, Tri I (attrLoopC s n f idx can) (fun _ => I) I
  | 0, _, _ => (Tri.ask fun _ h => h).mono (fun _ h => h) (fun _ _ h => h.1) fun _ h => h
  | f + 1, idx, can => by
    unfold attrLoopC
    cases s[idx]? with
    | none => exact Tri.pure fun _ h => h
    | some ch =>
      dsimp only
      refine Tri.iteC (fun _ => Tri.pure fun _ h => h) fun _ => Tri.iteC (fun _ => attrLoop_tri s hn f _ _) fun _ =>
        Tri.iteC (fun _ => ?_) fun _ => attrLoop_tri s hn f _ _
      refine (Tri.ask fun _ h => h).bind fun key => Tri.iteC (fun _ => ?_) fun _ => ?_
      · refine (Tri.ask fun _ h => h.1).bind fun value => ?_
        exact ((addProperty_tri hI hn _ _).mono (fun _ h => h.1.1) (fun _ _ h => h) fun _ h => h).bind fun _ => attrLoop_tri s hn f _ _
      · exact ((addBool_tri hI hn _).mono (fun _ h => h.1) (fun _ _ h => h) fun _ h => h).bind fun _ => attrLoop_tri s hn f _ _

theorem parseDocumentNode_tri (s : Str) (idx : Nat) (ex : Bool) : Tri I (parseDocumentNodeC s idx ex) (fun r d => I d ∧ L ≤ r.id) I := by
  unfold parseDocumentNodeC
  refine (createNode_tri hI _).bind fun n => Tri.hyp fun hn => ?_
  refine (Tri.ask fun _ h => h).bind fun _ => (Tri.ask fun _ h => h.1).bind fun _ => ?_
  exact ((attrLoop_tri hI s hn _ _ _).mono (fun _ h => h.1.1) (fun _ _ h => h) fun _ h => h).bind fun _ =>
    (setTag_tri hI _ hn _).bind fun _ => Tri.pure fun _ h => ⟨h, hn⟩

theorem parseTextNode_tri (s : Str) (idx : Nat) (tag : Str) : Tri I (parseTextNodeC s idx tag) (fun r d => I d ∧ L ≤ r.1) I := by
  unfold parseTextNodeC
  refine (createNode_tri hI _).bind fun n => Tri.hyp fun hn => ?_
  exact (Tri.ask fun _ h => h).bind fun _ => (Tri.point fun _ h => h.1).bind fun _ => (Tri.ask fun _ h => h.1).bind fun _ =>
    (Tri.write fun _ h => hI.set h.1.1 hn).bind fun _ => Tri.pure fun _ h => ⟨h, hn⟩

end Programs

/-! ## A fragment -/

/-- What the parser's loop keeps: the open elements and the previous node are new. -/
structure NewState (L : Nat) (st : PStateC) : Prop where
  stack : ∀ e ∈ st.stack, L ≤ e.1
  prev : st.prev = 0 ∨ L ≤ st.prev

section Parse
variable (d : Dom)

theorem updateRefs_tri {new prev : Nat} {stack : List (Nat × Str)} (hn : d.nodes.length ≤ new) (hs : ∀ e ∈ stack, d.nodes.length ≤ e.1)
    (hp : prev = 0 ∨ d.nodes.length ≤ prev) : Tri (Ext d) (parserUpdateReferencesC new prev stack) (fun _ => Ext d) (Ext d) := by
  unfold parserUpdateReferencesC
  refine Tri.iteC (fun hc => ?_) fun _ => Tri.pure fun _ h => h
  have hp : d.nodes.length ≤ prev := by omega
  cases stack with
  | nil => exact Tri.push (fun _ h => h) fun x h => { h with nn := h.nn.push ⟨hp, hn⟩ }
  | cons e es =>
    obtain ⟨p, t⟩ := e
    have he : d.nodes.length ≤ p := hs _ (.head _)
    refine (Tri.push (Q := Ext d) (fun _ h => h) fun x h => { h with pc := h.pc.push ⟨he, hn⟩ }).bind fun _ => Tri.iteC (fun _ => ?_) fun _ => ?_
    · exact Tri.push (fun _ h => h) fun x h => { h with fc := h.fc.push ⟨he, hn⟩ }
    · exact Tri.push (fun _ h => h) fun x h => { h with nn := h.nn.push ⟨hp, hn⟩ }

/-- What an iteration leaves. -/
def NextOK (r : Option PStateC) (x : Dom) : Prop := Ext d x ∧ ∀ st, r = some st → NewState d.nodes.length st

theorem parseText_tri (s : Str) (idx : Nat) {st : PStateC} (hs : NewState d.nodes.length st) :
    Tri (Ext d) (parseTextC s idx st) (NextOK d) (Ext d) := by
  unfold parseTextC
  refine (parseTextNode_tri (closed_ext d) s idx _).bind fun r => Tri.hyp fun hn => ?_
  refine (updateRefs_tri d hn hs.stack hs.prev).bind fun _ => Tri.pure fun x h => ⟨h, fun st' e => ?_⟩
  cases e
  exact ⟨hs.stack, Or.inr hn⟩

theorem parseElement_tri (s : Str) (idx : Nat) {st : PStateC} (hs : NewState d.nodes.length st) :
    Tri (Ext d) (parseElementC s idx st) (NextOK d) (Ext d) := by
  unfold parseElementC
  refine (parseDocumentNode_tri (closed_ext d) s idx _).bind fun r => Tri.hyp fun hn => ?_
  refine (updateRefs_tri d hn hs.stack hs.prev).bind fun _ => Tri.iteC (fun _ => Tri.iteC (fun _ => ?_) fun _ => ?_) fun _ => ?_
  · exact Tri.pure fun x h => ⟨h, fun _ e => by cases e⟩
  · refine Tri.pure fun x h => ⟨h, fun st' e => ?_⟩
    cases e
    refine ⟨fun e he => ?_, Or.inr hn⟩
    rcases List.mem_cons.mp he with rfl | he
    · exact hn
    · exact hs.stack e he
  · refine Tri.pure fun x h => ⟨h, fun st' e => ?_⟩
    cases e
    exact ⟨hs.stack, Or.inr hn⟩

theorem endTag_new {L : Nat} (s : Str) (n : Nat) {st : PStateC} (hs : NewState L st) : NewState L (parseEndTagC s n st) := by
  unfold parseEndTagC
  dsimp only
  split
  · rename_i id t rest e
    split
    · exact ⟨fun x hx => hs.stack x (by rw [e]; exact .tail _ hx), Or.inr (hs.stack _ (by rw [e]; exact .head _))⟩
    · exact ⟨hs.stack, hs.prev⟩
  · exact ⟨hs.stack, hs.prev⟩

theorem parseStep_tri (junk : Nat → Out Bool) (s : Str) (n : Nat) {st : PStateC} (hs : NewState d.nodes.length st) :
    Tri (Ext d) (parseStepC junk s n st) (NextOK d) (Ext d) := by
  unfold parseStepC
  refine Tri.iteC (fun _ => ?_) fun _ => parseText_tri d s _ hs
  refine (Tri.ask fun _ h => h).bind fun c => Tri.iteC (fun _ => ?_) fun _ => ?_
  · refine (Tri.ask fun _ h => h.1).bind fun i => Tri.pure fun x h => ⟨h.1.1, fun st' e => ?_⟩
    cases e
    exact ⟨hs.stack, hs.prev⟩
  · refine (Tri.ask fun _ h => h.1).bind fun e => Tri.iteC (fun _ => ?_) fun _ => Tri.iteC (fun _ => ?_) fun _ => ?_
    · refine Tri.pure fun x h => ⟨h.1.1, fun st' e => ?_⟩
      cases e
      exact endTag_new s n hs
    · exact (parseElement_tri d s _ hs).mono (fun _ h => h.1.1) (fun _ _ h => h) fun _ h => h
    · exact (parseText_tri d s _ hs).mono (fun _ h => h.1.1) (fun _ _ h => h) fun _ h => h

theorem parseLoop_tri (junk : Nat → Out Bool) (s : Str) (n : Nat) : ∀ (f : Nat) {st : PStateC}, NewState d.nodes.length st →
    Tri (Ext d) (parseLoopC junk s n f st) (fun _ => Ext d) (Ext d)
  | 0, _, _ => (Tri.ask fun _ h => h).mono (fun _ h => h) (fun _ _ h => h.1) fun _ h => h
  | f + 1, st, hs => by
    unfold parseLoopC
    refine Tri.iteC (fun _ => ?_) fun _ => Tri.pure fun _ h => h
    refine (parseStep_tri d junk s n hs).bind fun r => ?_
    cases r with
    | none => exact Tri.pure fun _ h => h.1
    | some st' => exact fun k x h => parseLoop_tri junk s n f (h.2 st' rfl) k x h.1

theorem parseExtra_tri (junk : Nat → Out Bool) (s : Str) : Tri (Ext d) (parseExtraC junk s) (fun _ => Ext d) (Ext d) :=
  parseLoop_tri d junk s 0 _ ⟨fun _ h => (by cases h), Or.inl rfl⟩

end Parse

end Flo.Crash
