import Verif.Proofs.Msi
import Verif.Proofs.DomInv
import Verif.Model.Query
import Mathlib.Logic.Relation
/-!
# Queries at the level of sets of nodes
-/
namespace Flo
open Spec

/-- What `filterNode` answers for a node in range. -/
def fsat (pun : Nat → Nat) (d : Dom) (n : Nat) : List Filter → Bool
  | [] => true
  | .all :: _ => true
  | .tag t :: fs => (d.nodes[n]?.any (fun nd => nd.getTag pun n == t)) && fsat pun d n fs
  | .bool b :: fs => d.boolProps.any (fun r => r.1 == n && r.2 == b) && fsat pun d n fs
  | .prop k v :: fs => d.props.any (fun r => r.node == n && r.key == k && r.value == v) && fsat pun d n fs

theorem or3 {a b c : Prop} : ((a ∨ b) ∨ c) ↔ (b ∨ (a ∨ c)) := by tauto

theorem filterNode_eq {pun : Nat → Nat} {d : Dom} {n : Nat} (hn : n < d.nodes.length) :
    ∀ fs, filterNode pun n d fs = .ok (fsat pun d n fs) := by
  intro fs
  induction fs with
  | nil => rfl
  | cons f fs ih =>
    cases f with
    | all => rfl
    | tag t =>
      unfold filterNode fsat Dom.node
      rw [List.getElem?_eq_getElem hn]
      simp only [Out.bind_ok, Option.any_some]
      by_cases ht : d.nodes[n].getTag pun n = t
      · rw [if_neg (by simpa using ht), ih]; simp [ht]
      · rw [if_pos ht]; simp [ht]
    | bool b =>
      unfold filterNode fsat
      split
      · rename_i h; rw [ih]; simp [h]
      · rename_i h; simp [h]
    | prop k v =>
      unfold filterNode fsat
      split
      · rename_i h; rw [ih]; simp [h]
      · rename_i h; simp [h]

/-- `b` is the next sibling of `a`, as the code looks it up. -/
def Nx (d : Dom) (a b : Nat) : Prop := getNext a d = b ∧ b ≠ 0

/-- `c` is an element recorded as a child of `p`. -/
def Pc (d : Dom) (p c : Nat) : Prop := (p, c) ∈ d.pc ∧ typeOf d c = some .document

/-- The effect of one step of a query on the current set. -/
def sem (pun : Nat → Nat) (d : Dom) (c : Combinator) (fs : List Filter) (S : Nat → Prop) (n : Nat) : Prop :=
  match c with
  | .none => S n ∨ (n ≠ 0 ∧ n < d.nodes.length ∧ fsat pun d n fs = true)
  | .adjacent => fsat pun d n fs = true ∧ ∃ v, S v ∧ Nx d v n
  | .general => fsat pun d n fs = true ∧ ∃ v, S v ∧ Relation.TransGen (Nx d) v n
  | .child => fsat pun d n fs = true ∧ ∃ v, S v ∧ Pc d v n
  | .descendant => fsat pun d n fs = true ∧ ∃ v, S v ∧ Relation.TransGen (Pc d) v n

section
variable {pun : Nat → Nat} {d : Dom} {ch : Nat → List Nat} {fs : List Filter}

/-- Contents of a set after a step. -/
structure SetIs (S : Nat → Prop) (m : U16Set) : Prop where
  ok : U16OK hashID m
  mem : ∀ n, n ∈ m.toList 0 ↔ S n
  range : ∀ n, S n → n ≠ 0

theorem SetIs.insert {S : Nat → Prop} {m : U16Set} (h : SetIs S m) {v : Nat} (hv : v ≠ 0) (hlt : v < 65536) :
    ∃ m', u16Insert v m = .ok m' ∧ SetIs (fun n => n = v ∨ S n) m' ∧ (U16Exact m → U16Exact m') := by
  obtain ⟨m', h1, h2, h3, h4⟩ := h.ok.insert hv hlt
  refine ⟨m', h1, ⟨h2, ?_, ?_⟩, h4⟩
  · intro n; rw [h3, h.mem]
  · rintro n (rfl | hn)
    · exact hv
    · exact h.range n hn

theorem SetIs.congr {S T : Nat → Prop} {m : U16Set} (h : SetIs S m) (hST : ∀ n, S n ↔ T n) : SetIs T m :=
  ⟨h.ok, fun n => (h.mem n).trans (hST n), fun n hn => h.range n ((hST n).mpr hn)⟩

theorem SetIs.of {m : U16Set} (h : U16OK hashID m) : SetIs (fun n => n ∈ m.toList 0) m :=
  ⟨h, fun _ => Iff.rfl, fun _ hn => (mem_toList.mp hn).1⟩

/-! ### No combinator -/

theorem allNodes_ok (hcap : d.nodes.length ≤ 65535) : ∀ (l : List Nat) (S : Nat → Prop) (m : U16Set),
    SetIs S m → (∀ i ∈ l, i ≠ 0 ∧ i < d.nodes.length) →
    ∃ m', allNodesLoop pun fs d l m = .ok m' ∧ SetIs (fun n => S n ∨ (n ∈ l ∧ fsat pun d n fs = true)) m' ∧
      (U16Exact m → U16Exact m') := by
  intro l
  induction l with
  | nil => intro S m h _; exact ⟨m, rfl, h.congr (by simp), id⟩
  | cons i l ih =>
    intro S m h hl
    have hi := hl i (by simp)
    unfold allNodesLoop
    rw [filterNode_eq hi.2]
    simp only [Out.bind_ok]
    by_cases hs : fsat pun d i fs = true
    · rw [if_pos hs]
      obtain ⟨m1, h1, h2, hx1⟩ := h.insert hi.1 (by omega : i < 65536)
      rw [h1]
      obtain ⟨m', h3, h4, hx2⟩ := ih _ m1 h2 (fun j hj => hl j (List.mem_cons_of_mem _ hj))
      refine ⟨m', h3, h4.congr ?_, fun hx => hx2 (hx1 hx)⟩
      intro n
      simp only [List.mem_cons]
      constructor
      · rintro ((rfl | h) | ⟨h, h'⟩)
        · exact Or.inr ⟨Or.inl rfl, hs⟩
        · exact Or.inl h
        · exact Or.inr ⟨Or.inr h, h'⟩
      · rintro (h | ⟨rfl | h, h'⟩)
        · exact Or.inl (Or.inr h)
        · exact Or.inl (Or.inl rfl)
        · exact Or.inr ⟨h, h'⟩
    · rw [if_neg hs]
      obtain ⟨m', h3, h4, hx2⟩ := ih _ m h (fun j hj => hl j (List.mem_cons_of_mem _ hj))
      refine ⟨m', h3, h4.congr ?_, hx2⟩
      intro n
      simp only [List.mem_cons]
      constructor
      · rintro (h | ⟨h, h'⟩)
        · exact Or.inl h
        · exact Or.inr ⟨Or.inr h, h'⟩
      · rintro (h | ⟨rfl | h, h'⟩)
        · exact Or.inl h
        · exact absurd h' hs
        · exact Or.inr ⟨h, h'⟩

theorem nodesWithout_ok (hcap : d.nodes.length ≤ 65535) (h2 : 2 ≤ d.nodes.length) {S : Nat → Prop} {m : U16Set}
    (h : SetIs S m) (hx : U16Exact m) :
    ∃ m', nodesWithoutCombinator pun fs d m = .ok m' ∧ SetIs (sem pun d .none fs S) m' := by
  have hrange : List.range d.nodes.length = 0 :: (List.range (d.nodes.length - 1)).map (· + 1) := by
    conv_lhs => rw [show d.nodes.length = (d.nodes.length - 1) + 1 by omega, List.range_succ_eq_map]
  have hl : ∀ i ∈ (List.range (d.nodes.length - 1)).map (· + 1), i ≠ 0 ∧ i < d.nodes.length := by
    intro i hi
    simp only [List.mem_map, List.mem_range] at hi
    omega
  have hmem : ∀ n, n ∈ (List.range (d.nodes.length - 1)).map (· + 1) ↔ n ≠ 0 ∧ n < d.nodes.length := by
    intro n
    refine ⟨hl n, fun hn => ?_⟩
    simp only [List.mem_map, List.mem_range]
    exact ⟨n - 1, by omega, by omega⟩
  have fin : ∀ m1, SetIs S m1 → ∃ m', allNodesLoop pun fs d ((List.range (d.nodes.length - 1)).map (· + 1)) m1 = .ok m' ∧
      SetIs (sem pun d .none fs S) m' := by
    intro m1 h1
    obtain ⟨m', h3, h4, _⟩ := allNodes_ok (pun := pun) (fs := fs) hcap _ S m1 h1 hl
    refine ⟨m', h3, h4.congr ?_⟩
    intro n
    unfold sem
    simp only [hmem, and_assoc]
  unfold nodesWithoutCombinator
  rw [hrange]
  unfold allNodesLoop
  rw [filterNode_eq (by omega : 0 < d.nodes.length)]
  simp only [Out.bind_ok]
  by_cases hs : fsat pun d 0 fs = true
  · rw [if_pos hs]
    obtain ⟨m1, e1, e2, e3⟩ := h.ok.insert_zero hx
    have e1 : u16Insert 0 m = .ok m1 := e1
    rw [e1]
    exact fin m1 ⟨e2, fun n => (e3 n).trans (h.mem n), h.range⟩
  · rw [if_neg hs]
    exact fin m h

/-! ### Siblings -/

theorem getNext_row {a : Nat} (h : getNext a d ≠ 0) : (a, getNext a d) ∈ d.nn := by
  unfold getNext getNextNode at h ⊢
  cases hf : d.nn.findIdx? (·.1 == a) with
  | none => rw [hf] at h; exact absurd rfl h
  | some i =>
    obtain ⟨b, hb⟩ := findFst_some hf
    simp only [rowAt, List.getD_eq_getElem?_getD, hb, Option.getD_some]
    exact List.mem_of_getElem? hb

theorem nx_zero (h : LinkedD d ch) {c : Nat} : ¬Nx d 0 c := by
  rintro ⟨h1, h2⟩
  rw [h.getNext_zero] at h1
  exact h2 h1.symm

theorem nx_range (h : LinkedD d ch) {a b : Nat} (hn : Nx d a b) : b < d.nodes.length := by
  by_cases ha : a = 0
  · subst ha; exact absurd hn (nx_zero h)
  · have := getNext_row (d := d) (a := a) (by rw [hn.1]; exact hn.2)
    rw [hn.1] at this
    exact (h.nnLt a b this ha).2.2

/-- The sibling loop without a limit. -/
theorem siblings_all (h : LinkedD d ch) (hcap : d.nodes.length ≤ 65535) {rank : Nat → Nat}
    (hrank : ∀ a b, (a, b) ∈ d.nn → a ≠ 0 → rank a < rank b) : ∀ (f next : Nat) (S : Nat → Prop) (m : U16Set),
    SetIs S m → next < d.nodes.length → (d.nn.filter (fun r => rank next ≤ rank r.1)).length + 1 < f →
    ∃ m', siblingsLoop pun fs d f none next m = .ok m' ∧
      SetIs (fun n => S n ∨ (fsat pun d n fs = true ∧ next ≠ 0 ∧ Relation.ReflTransGen (Nx d) next n)) m' := by
  intro f
  induction f with
  | zero => intro next S m _ _ hf; omega
  | succ f ih =>
    intro next S m hm hlt hf
    unfold siblingsLoop
    by_cases h0 : next = 0
    · subst h0
      rw [if_neg (by simp)]
      exact ⟨m, rfl, hm.congr (by simp)⟩
    · rw [if_pos ⟨by simp, Nat.pos_of_ne_zero h0⟩, filterNode_eq hlt]
      simp only [Out.bind_ok, Option.map_none]
      have step : ∀ S1 m1, SetIs S1 m1 → (∀ n, S1 n ↔ S n ∨ (n = next ∧ fsat pun d n fs = true)) →
          ∃ m', siblingsLoop pun fs d f none (getNext next d) m1 = .ok m' ∧
          SetIs (fun n => S n ∨ (fsat pun d n fs = true ∧ next ≠ 0 ∧ Relation.ReflTransGen (Nx d) next n)) m' := by
        intro S1 m1 hm1 hS1
        by_cases hb : getNext next d = 0
        · cases f with
          | zero => omega
          | succ f =>
            rw [hb]
            unfold siblingsLoop
            rw [if_neg (by simp)]
            refine ⟨m1, rfl, hm1.congr ?_⟩
            intro n
            rw [hS1]
            constructor
            · rintro (hs | ⟨rfl, hs⟩)
              · exact Or.inl hs
              · exact Or.inr ⟨hs, h0, Relation.ReflTransGen.refl⟩
            · rintro (hs | ⟨hs, _, hr⟩)
              · exact Or.inl hs
              · rcases Relation.ReflTransGen.cases_head hr with rfl | ⟨x, hx, _⟩
                · exact Or.inr ⟨rfl, hs⟩
                · exact absurd (hx.1.symm.trans hb) hx.2
        · have hrow := getNext_row hb
          have hN : Nx d next (getNext next d) := ⟨rfl, hb⟩
          have hlt' : (d.nn.filter (fun r => rank (getNext next d) ≤ rank r.1)).length + 1 ≤
              (d.nn.filter (fun r => rank next ≤ rank r.1)).length := by
            have hr := hrank _ _ hrow h0
            obtain ⟨l₁, l₂, e⟩ := List.append_of_mem hrow
            generalize getNext next d = b at *
            rw [e]
            simp only [List.filter_append, List.length_append]
            rw [List.filter_cons_of_neg (by simpa using hr), List.filter_cons_of_pos (by simp), List.length_cons]
            have mono : ∀ l : List Row, (l.filter (fun r => rank b ≤ rank r.1)).length ≤
                (l.filter (fun r => rank next ≤ rank r.1)).length := by
              intro l
              apply List.Sublist.length_le
              apply List.monotone_filter_right
              intro x hx
              simp only [decide_eq_true_eq] at hx ⊢
              omega
            have := mono l₁
            have := mono l₂
            omega
          obtain ⟨m', e1, e2⟩ := ih (getNext next d) S1 m1 hm1 (nx_range h hN) (by omega)
          refine ⟨m', e1, e2.congr ?_⟩
          intro n
          rw [hS1]
          constructor
          · rintro ((hs | ⟨rfl, hs⟩) | ⟨hs, _, hr⟩)
            · exact Or.inl hs
            · exact Or.inr ⟨hs, h0, Relation.ReflTransGen.refl⟩
            · exact Or.inr ⟨hs, h0, Relation.ReflTransGen.head hN hr⟩
          · rintro (hs | ⟨hs, _, hr⟩)
            · exact Or.inl (Or.inl hs)
            · rcases Relation.ReflTransGen.cases_head hr with rfl | ⟨x, hx, hr⟩
              · exact Or.inl (Or.inr ⟨rfl, hs⟩)
              · obtain ⟨rfl, _⟩ := hx
                exact Or.inr ⟨hs, hb, hr⟩
      by_cases hs : fsat pun d next fs = true
      · rw [if_pos hs]
        obtain ⟨m1, e1, e2, _⟩ := hm.insert h0 (by omega : next < 65536)
        rw [e1]
        apply step _ m1 e2
        intro n
        constructor
        · rintro (rfl | hn)
          · exact Or.inr ⟨rfl, hs⟩
          · exact Or.inl hn
        · rintro (hn | ⟨rfl, _⟩)
          · exact Or.inr hn
          · exact Or.inl rfl
      · rw [if_neg hs]
        apply step _ m hm
        intro n
        constructor
        · exact Or.inl
        · rintro (hn | ⟨rfl, h'⟩)
          · exact hn
          · exact absurd h' hs

/-- The sibling loop limited to one sibling. -/
theorem siblings_one (hcap : d.nodes.length ≤ 65535) {f next : Nat} {S : Nat → Prop} {m : U16Set}
    (hm : SetIs S m) (hlt : next < d.nodes.length) (hf : 2 ≤ f) :
    ∃ m', siblingsLoop pun fs d f (some 1) next m = .ok m' ∧
      SetIs (fun n => S n ∨ (fsat pun d n fs = true ∧ next ≠ 0 ∧ n = next)) m' := by
  obtain ⟨f, rfl⟩ : ∃ g, f = g + 2 := ⟨f - 2, by omega⟩
  unfold siblingsLoop
  by_cases h0 : next = 0
  · subst h0
    rw [if_neg (by simp)]
    exact ⟨m, rfl, hm.congr (by simp)⟩
  · rw [if_pos ⟨by simp, Nat.pos_of_ne_zero h0⟩, filterNode_eq hlt]
    simp only [Out.bind_ok, Option.map_some]
    have stop : ∀ x m1, siblingsLoop pun fs d (f + 1) (some (1 - 1)) x m1 = .ok m1 := by
      intro x m1
      unfold siblingsLoop
      rw [if_neg (by simp)]
    by_cases hs : fsat pun d next fs = true
    · rw [if_pos hs]
      obtain ⟨m1, e1, e2, _⟩ := hm.insert h0 (by omega : next < 65536)
      rw [e1]
      refine ⟨m1, stop (getNext next d) m1, e2.congr ?_⟩
      intro n
      constructor
      · rintro (rfl | hn)
        · exact Or.inr ⟨hs, h0, rfl⟩
        · exact Or.inl hn
      · rintro (hn | ⟨_, _, rfl⟩)
        · exact Or.inr hn
        · exact Or.inl rfl
    · rw [if_neg hs]
      refine ⟨m, stop (getNext next d) m, hm.congr ?_⟩
      intro n
      constructor
      · exact Or.inl
      · rintro (hn | ⟨h', _, rfl⟩)
        · exact hn
        · exact absurd h' hs

theorem getNext_lt (h : LinkedD d ch) (v : Nat) : getNext v d < d.nodes.length := by
  by_cases hb : getNext v d = 0
  · rw [hb]; have := h.two; omega
  · exact nx_range h ⟨rfl, hb⟩

theorem adjacents_ok (h : LinkedD d ch) (hcap : d.nodes.length ≤ 65535) (all : Bool) :
    ∀ (l : List Nat) (S : Nat → Prop) (m : U16Set), SetIs S m →
    ∃ m', adjacentsLoop pun fs d (if all then none else some 1) l m = .ok m' ∧
      SetIs (fun n => S n ∨ (fsat pun d n fs = true ∧ ∃ v ∈ l,
        if all then Relation.TransGen (Nx d) v n else Nx d v n)) m' := by
  obtain ⟨rank, hrank⟩ := h.nnUp
  intro l
  induction l with
  | nil => intro S m hm; exact ⟨m, rfl, hm.congr (by simp)⟩
  | cons v l ih =>
    intro S m hm
    unfold adjacentsLoop
    have hgo : ∃ m1, siblingsLoop pun fs d (d.nn.length + 2) (if all then none else some 1) (getNext v d) m = .ok m1 ∧
        SetIs (fun n => S n ∨ (fsat pun d n fs = true ∧
          if all then Relation.TransGen (Nx d) v n else Nx d v n)) m1 := by
      cases all with
      | true =>
        obtain ⟨m1, e1, e2⟩ := siblings_all (pun := pun) (fs := fs) h hcap hrank (d.nn.length + 2) (getNext v d) S m hm
          (getNext_lt h v) (by have := List.length_filter_le (fun r : Row => decide (rank (getNext v d) ≤ rank r.1)) d.nn; omega)
        refine ⟨m1, e1, e2.congr ?_⟩
        intro n
        simp only [if_true]
        constructor
        · rintro (hn | ⟨hs, h0, hr⟩)
          · exact Or.inl hn
          · exact Or.inr ⟨hs, Relation.TransGen.head' ⟨rfl, h0⟩ hr⟩
        · rintro (hn | ⟨hs, hr⟩)
          · exact Or.inl hn
          · obtain ⟨x, ⟨rfl, hx⟩, hr⟩ := Relation.TransGen.head'_iff.mp hr
            exact Or.inr ⟨hs, hx, hr⟩
      | false =>
        obtain ⟨m1, e1, e2⟩ := siblings_one (pun := pun) (fs := fs) hcap hm (getNext_lt h v) (f := d.nn.length + 2) (by omega)
        refine ⟨m1, e1, e2.congr ?_⟩
        intro n
        unfold Nx
        constructor
        · rintro (hn | ⟨hs, h0, rfl⟩)
          · exact Or.inl hn
          · exact Or.inr ⟨hs, by simpa using h0⟩
        · rintro (hn | ⟨hs, hr⟩)
          · exact Or.inl hn
          · simp at hr
            obtain ⟨rfl, h0⟩ := hr
            exact Or.inr ⟨hs, h0, rfl⟩
    obtain ⟨m1, e1, e2⟩ := hgo
    rw [e1]
    obtain ⟨m', e3, e4⟩ := ih _ m1 e2
    refine ⟨m', e3, e4.congr ?_⟩
    intro n
    simp only [List.mem_cons]
    constructor
    · rintro ((hn | ⟨hs, hr⟩) | ⟨hs, w, hw, hr⟩)
      · exact Or.inl hn
      · exact Or.inr ⟨hs, v, Or.inl rfl, hr⟩
      · exact Or.inr ⟨hs, w, Or.inr hw, hr⟩
    · rintro (hn | ⟨hs, w, rfl | hw, hr⟩)
      · exact Or.inl (Or.inl hn)
      · exact Or.inl (Or.inr ⟨hs, hr⟩)
      · exact Or.inr ⟨hs, w, hw, hr⟩

/-! ### Descendants -/

theorem pc_up (h : LinkedD d ch) (hz : typeOf d 0 = some .error) {p c : Nat} (hp : Pc d p c) :
    p < c ∧ c ≠ 0 ∧ c < d.nodes.length := by
  have hc0 : c ≠ 0 := by
    rintro rfl
    have := hp.2
    rw [hz] at this; cases this
  have := h.pcLt p c hp.1 hc0
  omega

theorem descPass_ok (h : LinkedD d ch) (hcap : d.nodes.length ≤ 65535) (hz : typeOf d 0 = some .error)
    {F : Nat → Prop} {filled : U16Set} (hF : SetIs F filled) :
    ∀ (rows : List Row), (∀ r ∈ rows, r ∈ d.pc) → ∀ (T S : Nat → Prop) (toFill set : U16Set), SetIs T toFill →
    SetIs S set →
    ∃ t' s', descPass pun fs d filled rows toFill set = .ok (t', s') ∧
      SetIs (fun n => T n ∨ ∃ v, F v ∧ (v, n) ∈ rows ∧ typeOf d n = some .document) t' ∧
      SetIs (fun n => S n ∨ (fsat pun d n fs = true ∧ ∃ v, F v ∧ (v, n) ∈ rows ∧ typeOf d n = some .document)) s' ∧
      (U16Exact toFill → U16Exact t') := by
  intro rows
  induction rows with
  | nil => intro _ T S t s ht hs; exact ⟨t, s, rfl, ht.congr (by simp), hs.congr (by simp), id⟩
  | cons r rows ih =>
    obtain ⟨p, c⟩ := r
    intro hrows T S t s ht hs
    have hr : (p, c) ∈ d.pc := hrows _ (by simp)
    have hrest : ∀ r ∈ rows, r ∈ d.pc := fun r hr => hrows r (List.mem_cons_of_mem _ hr)
    have hc : c < d.nodes.length := by
      by_cases hc0 : c = 0
      · have := h.two; omega
      · exact (h.pcLt p c hr hc0).2.2
    unfold descPass Dom.node
    rw [List.getElem?_eq_getElem hc]
    simp only [Out.bind_ok]
    have hty : typeOf d c = some d.nodes[c].type := typeOf_eq (List.getElem?_eq_getElem hc)
    have skip : (¬F p ∨ typeOf d c ≠ some .document) →
        ∃ t' s', descPass pun fs d filled rows t s = .ok (t', s') ∧
          SetIs (fun n => T n ∨ ∃ v, F v ∧ (v, n) ∈ (p, c) :: rows ∧ typeOf d n = some .document) t' ∧
          SetIs (fun n => S n ∨ (fsat pun d n fs = true ∧ ∃ v, F v ∧ (v, n) ∈ (p, c) :: rows ∧
            typeOf d n = some .document)) s' ∧ (U16Exact t → U16Exact t') := by
      intro hno
      obtain ⟨t', s', e1, e2, e3, e4⟩ := ih hrest T S t s ht hs
      have hiff : ∀ n, (∃ v, F v ∧ (v, n) ∈ (p, c) :: rows ∧ typeOf d n = some .document) ↔
          ∃ v, F v ∧ (v, n) ∈ rows ∧ typeOf d n = some .document := by
        intro n
        constructor
        · rintro ⟨v, h1, h2, h3⟩
          rcases List.mem_cons.mp h2 with e | h2
          · cases e
            rcases hno with hno | hno
            · exact absurd h1 hno
            · exact absurd h3 hno
          · exact ⟨v, h1, h2, h3⟩
        · rintro ⟨v, h1, h2, h3⟩; exact ⟨v, h1, List.mem_cons_of_mem _ h2, h3⟩
      exact ⟨t', s', e1, e2.congr (fun n => by rw [hiff]), e3.congr (fun n => by rw [hiff]), e4⟩
    by_cases hdoc : d.nodes[c].type = .document
    · rw [if_pos hdoc, hF.ok.contains]
      simp only [Out.bind_ok]
      by_cases hp : p ∈ filled.toList 0
      · simp only [hp, decide_true, if_true]
        have hc0 : c ≠ 0 := by
          rintro rfl
          rw [hz, hdoc] at hty
          cases hty
        obtain ⟨t1, f1, f2, f3⟩ := ht.insert hc0 (by omega : c < 65536)
        rw [f1, filterNode_eq hc]
        simp only [Out.bind_ok]
        have hiff : ∀ n, (∃ v, F v ∧ (v, n) ∈ (p, c) :: rows ∧ typeOf d n = some .document) ↔
            n = c ∨ ∃ v, F v ∧ (v, n) ∈ rows ∧ typeOf d n = some .document := by
          intro n
          constructor
          · rintro ⟨v, h1, h2, h3⟩
            rcases List.mem_cons.mp h2 with e | h2
            · cases e; exact Or.inl rfl
            · exact Or.inr ⟨v, h1, h2, h3⟩
          · rintro (rfl | ⟨v, h1, h2, h3⟩)
            · exact ⟨p, (hF.mem p).mp hp, by simp, by rw [hty, hdoc]⟩
            · exact ⟨v, h1, List.mem_cons_of_mem _ h2, h3⟩
        by_cases hk : fsat pun d c fs = true
        · rw [if_pos hk]
          obtain ⟨s1, g1, g2, _⟩ := hs.insert hc0 (by omega : c < 65536)
          rw [g1]
          obtain ⟨t', s', e1, e2, e3, e4⟩ := ih hrest _ _ t1 s1 f2 g2
          refine ⟨t', s', e1, e2.congr ?_, e3.congr ?_, fun hx => e4 (f3 hx)⟩
          · intro n; rw [hiff]; exact or3
          · intro n; rw [hiff]
            constructor
            · rintro ((rfl | hn) | ⟨h1, h2⟩)
              · exact Or.inr ⟨hk, Or.inl rfl⟩
              · exact Or.inl hn
              · exact Or.inr ⟨h1, Or.inr h2⟩
            · rintro (hn | ⟨h1, rfl | h2⟩)
              · exact Or.inl (Or.inr hn)
              · exact Or.inl (Or.inl rfl)
              · exact Or.inr ⟨h1, h2⟩
        · rw [if_neg hk]
          obtain ⟨t', s', e1, e2, e3, e4⟩ := ih hrest _ _ t1 s f2 hs
          refine ⟨t', s', e1, e2.congr ?_, e3.congr ?_, fun hx => e4 (f3 hx)⟩
          · intro n; rw [hiff]; exact or3
          · intro n; rw [hiff]
            constructor
            · rintro (hn | ⟨h1, h2⟩)
              · exact Or.inl hn
              · exact Or.inr ⟨h1, Or.inr h2⟩
            · rintro (hn | ⟨h1, rfl | h2⟩)
              · exact Or.inl hn
              · exact absurd h1 hk
              · exact Or.inr ⟨h1, h2⟩
      · simp only [hp, decide_false, Bool.false_eq_true, if_false]
        exact skip (Or.inl (fun hf => hp ((hF.mem p).mpr hf)))
    · rw [if_neg hdoc]
      simp only [Out.bind_ok, Bool.false_eq_true, if_false]
      exact skip (Or.inr (by rw [hty]; simpa using hdoc))

theorem exact_len {S : Nat → Prop} {m : U16Set} (h : SetIs S m) (hx : U16Exact m) : m.len > 0 ↔ ∃ n, S n := by
  rw [hx]
  constructor
  · intro hl
    obtain ⟨n, hn⟩ := List.exists_mem_of_length_pos hl
    exact ⟨n, (h.mem n).mp hn⟩
  · rintro ⟨n, hn⟩
    exact List.length_pos_of_mem ((h.mem n).mpr hn)

theorem len_pos {S : Nat → Prop} {m : U16Set} (h : SetIs S m) {n : Nat} (hn : S n) : m.len > 0 := by
  have := List.length_pos_of_mem ((h.mem n).mpr hn)
  have := h.ok.le
  omega

theorem SetIs.reset {S : Nat → Prop} {m : U16Set} (h : SetIs S m) :
    SetIs (fun _ => False) (u16Reset m) ∧ U16Exact (u16Reset m) := by
  obtain ⟨h1, h2, h3⟩ := h.ok.reset
  exact ⟨⟨h1, by rw [h3]; simp, fun _ hf => False.elim hf⟩, h2⟩

/-- One level. -/
theorem desc_one (h : LinkedD d ch) (hcap : d.nodes.length ≤ 65535) (hz : typeOf d 0 = some .error)
    {F : Nat → Prop} {filled toFill set : U16Set} (hF : SetIs F filled) (hT : SetIs (fun _ => False) toFill)
    (hS : SetIs (fun _ => False) set) {f : Nat} (hf : 2 ≤ f) :
    ∃ s', descLoop pun fs d f (some 1) filled toFill set = .ok s' ∧ SetIs (sem pun d .child fs F) s' := by
  obtain ⟨f, rfl⟩ : ∃ g, f = g + 2 := ⟨f - 2, by omega⟩
  unfold descLoop
  by_cases hl : filled.len > 0
  · rw [if_pos ⟨by simp, hl⟩]
    obtain ⟨t', s', e1, e2, e3, e4⟩ := descPass_ok (pun := pun) (fs := fs) h hcap hz hF d.pc (fun _ hr => hr) _ _ _ _ hT hS
    rw [e1]
    simp only [Out.bind_ok, Option.map_some]
    have stop : descLoop pun fs d (f + 1) (some (1 - 1)) t' (u16Reset filled) s' = .ok s' := by
      unfold descLoop
      rw [if_neg (by simp)]
    refine ⟨s', stop, e3.congr ?_⟩
    intro n
    unfold sem Pc
    simp
  · rw [if_neg (by simp [hl])]
    refine ⟨set, rfl, hS.congr ?_⟩
    intro n
    unfold sem
    constructor
    · exact False.elim
    · rintro ⟨_, v, hv, _⟩
      exact hl (len_pos hF hv)

/-- All levels. -/
theorem desc_all (h : LinkedD d ch) (hcap : d.nodes.length ≤ 65535) (hz : typeOf d 0 = some .error) :
    ∀ (f t : Nat) (F S : Nat → Prop) (filled toFill set : U16Set), SetIs F filled → SetIs (fun _ => False) toFill →
    U16Exact toFill → SetIs S set → (∀ v, F v → t ≤ v) → 1 ≤ f → d.nodes.length + 1 ≤ f + t →
    ((U16Exact filled ∧ ∀ v, F v → v < d.nodes.length) ∨ 2 ≤ f) →
    ∃ s', descLoop pun fs d f none filled toFill set = .ok s' ∧
      SetIs (fun n => S n ∨ (fsat pun d n fs = true ∧ ∃ v, F v ∧ Relation.TransGen (Pc d) v n)) s' := by
  intro f
  induction f with
  | zero => intro t F S filled toFill set _ _ _ _ _ hf; omega
  | succ f ih =>
    intro t F S filled toFill set hF hT hTx hS ht _ hft hx
    unfold descLoop
    by_cases hl : filled.len > 0
    · rw [if_pos ⟨by simp, hl⟩]
      have hf2 : 2 ≤ f + 1 := by
        rcases hx with ⟨hx, hr⟩ | hx
        · obtain ⟨v, hv⟩ := (exact_len hF hx).mp hl
          have := ht v hv
          have := hr v hv
          omega
        · exact hx
      obtain ⟨t', s', e1, e2, e3, e4⟩ := descPass_ok (pun := pun) (fs := fs) h hcap hz hF d.pc (fun _ hr => hr) _ _ _ _ hT hS
      rw [e1]
      simp only [Out.bind_ok, Option.map_none]
      have hF' : SetIs (fun n => ∃ v, F v ∧ Pc d v n) t' := e2.congr (by intro n; unfold Pc; simp)
      obtain ⟨r1, r2⟩ := hF.reset
      obtain ⟨s'', g1, g2⟩ := ih (t + 1) _ _ t' (u16Reset filled) s' hF' r1 r2 e3 (by
        rintro n ⟨v, hv, hp⟩
        have := ht v hv
        have := pc_up h hz hp
        omega) (by omega) (by omega) (Or.inl ⟨e4 hTx, by
          rintro n ⟨v, hv, hp⟩
          exact (pc_up h hz hp).2.2⟩)
      refine ⟨s'', g1, g2.congr ?_⟩
      intro n
      constructor
      · rintro ((hn | ⟨hs, v, hv, hp⟩) | ⟨hs, w, ⟨v, hv, hp⟩, hr⟩)
        · exact Or.inl hn
        · exact Or.inr ⟨hs, v, hv, Relation.TransGen.single hp⟩
        · exact Or.inr ⟨hs, v, hv, Relation.TransGen.head hp hr⟩
      · rintro (hn | ⟨hs, v, hv, hr⟩)
        · exact Or.inl (Or.inl hn)
        · rcases Relation.TransGen.head'_iff.mp hr with ⟨w, hp, hr⟩
          rcases Relation.reflTransGen_iff_eq_or_transGen.mp hr with rfl | hr
          · exact Or.inl (Or.inr ⟨hs, v, hv, hp⟩)
          · exact Or.inr ⟨hs, w, ⟨v, hv, hp⟩, hr⟩
    · rw [if_neg (by simp [hl])]
      refine ⟨set, rfl, hS.congr ?_⟩
      intro n
      constructor
      · exact Or.inl
      · rintro (hn | ⟨_, v, hv, _⟩)
        · exact hn
        · exact absurd (len_pos hF hv) hl

/-- What evaluating a query needs to know of a DOM: its links, that identifiers fit, and that node 0 is the error node. -/
structure Walkable (d : Dom) (ch : Nat → List Nat) : Prop where
  linked : LinkedD d ch
  cap : d.nodes.length ≤ 65535
  zero : typeOf d 0 = some .error

theorem DomI.walk (h : DomI d ch) : Walkable d ch := ⟨h.linked, h.cap, h.zero⟩

/-- **One query step.** -/
theorem applyCombinator_ok (h : Walkable d ch) (c : Combinator) {S : Nat → Prop} {m : U16Set} (hm : SetIs S m)
    (hx : c = .none → U16Exact m) :
    ∃ m', applyCombinator pun c fs d m = .ok m' ∧ SetIs (sem pun d c fs S) m' := by
  have hcap := h.cap
  have hl := h.linked
  have fresh : SetIs (fun _ => False) U16Set.fresh := by
    obtain ⟨h1, h2, h3⟩ := U16OK.fresh hashID
    exact ⟨h1, by rw [h3]; simp, fun _ hf => False.elim hf⟩
  have adj : ∀ all : Bool, ∃ m', filteredAdjacents pun fs d (if all then none else some 1) m = .ok m' ∧
      SetIs (fun n => fsat pun d n fs = true ∧ ∃ v, S v ∧ if all then Relation.TransGen (Nx d) v n else Nx d v n) m' := by
    intro all
    obtain ⟨m', e1, e2⟩ := adjacents_ok (pun := pun) (fs := fs) hl hcap all (m.toList 0) _ _ fresh
    refine ⟨m', e1, e2.congr ?_⟩
    intro n
    simp only [hm.mem, false_or]
  cases c with
  | none => exact nodesWithout_ok hcap hl.two hm (hx rfl)
  | adjacent =>
    obtain ⟨m', e1, e2⟩ := adj false
    exact ⟨m', e1, e2.congr (fun n => by simp [sem])⟩
  | general =>
    obtain ⟨m', e1, e2⟩ := adj true
    exact ⟨m', e1, e2.congr (fun n => by simp [sem])⟩
  | child =>
    obtain ⟨n, e1, e2, e3, e4⟩ := hm.ok.new
    unfold applyCombinator filteredDescendants
    simp only [e1, Out.bind_ok]
    obtain ⟨r1, _⟩ := hm.reset
    exact desc_one hl hcap h.zero hm ⟨e2, by rw [e4]; simp, fun _ hf => False.elim hf⟩ r1 (by omega)
  | descendant =>
    obtain ⟨n, e1, e2, e3, e4⟩ := hm.ok.new
    unfold applyCombinator filteredDescendants
    simp only [e1, Out.bind_ok]
    obtain ⟨r1, _⟩ := hm.reset
    obtain ⟨s', g1, g2⟩ := desc_all (pun := pun) (fs := fs) hl hcap h.zero (d.nodes.length + 2) 0 S _ m n (u16Reset m) hm
      ⟨e2, by rw [e4]; simp, fun _ hf => False.elim hf⟩ e3 r1 (fun _ _ => Nat.zero_le _) (by omega) (by omega) (Or.inr (by omega))
    exact ⟨s', g1, g2.congr (fun n => by simp [sem])⟩

end

end Flo
