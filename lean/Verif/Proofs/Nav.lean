import Verif.Proofs.Link
import Verif.Spec.Tree
import Mathlib.Data.List.Perm.Subperm
import Mathlib.Data.List.NodupEquivFin
/-!
# The navigation functions on a linked DOM
-/
namespace Flo
open Spec

abbrev LinkedD (d : Dom) (ch : Nat → List Nat) : Prop := Linked d.nodes.length d.fc d.pc d.nn ch

/-- A chain in the next-sibling table: consecutive elements are linked. -/
def ChainIn (nn : List Row) (l : List Nat) : Prop := ∀ a b, Adj l a b → (a, b) ∈ nn

theorem adj_pairs_length {nn : List Row} {l : List Nat} (hn : l.Nodup) (h : ChainIn nn l) :
    l.length ≤ nn.length + 1 := by
  have hsub : (l.zip l.tail) ⊆ nn := by
    intro ⟨a, b⟩ hab
    apply h
    clear h hn
    induction l with
    | nil => simp at hab
    | cons x l ih =>
      cases l with
      | nil => simp at hab
      | cons y l =>
        simp only [List.tail_cons, List.zip_cons_cons, List.mem_cons] at hab
        rcases hab with hab | hab
        · cases hab; simp [Adj]
        · rw [adj_cons]; right; exact ih (by simpa using hab)
  have hnd : (l.zip l.tail).Nodup := by
    apply List.Nodup.of_map Prod.snd
    rw [List.map_snd_zip (by simp)]
    exact hn.sublist (List.tail_sublist _)
  have := (hnd.subperm hsub).length_le
  simp at this
  omega

theorem length_lt_of_range {l : List Nat} {N : Nat} (hn : l.Nodup) (h : ∀ c ∈ l, 2 ≤ c ∧ c < N) :
    l.length ≤ N - 2 := by
  have hsub : l ⊆ List.range' 2 (N - 2) := by
    intro c hc
    have := h c hc
    rw [List.mem_range'_1]; omega
  have := (hn.subperm hsub).length_le
  simpa using this

namespace Linked
variable {d : Dom} {ch : Nat → List Nat}

theorem length_nn (h : LinkedD d ch) (p : Nat) : (ch p).length ≤ d.nn.length + 1 :=
  adj_pairs_length (h.nodup p) (h.nnAdj p)

theorem length_lt (h : LinkedD d ch) (p : Nat) : (ch p).length + 2 ≤ d.nodes.length := by
  have := length_lt_of_range (h.nodup p) (fun c hc => (h.range p c hc).2)
  have := h.two
  omega

theorem pos (h : LinkedD d ch) {p c : Nat} (hc : c ∈ ch p) : c ≠ 0 := by
  have := h.range p c hc; omega

theorem nextNode (h : LinkedD d ch) {p a b : Nat} (hab : Adj (ch p) a b) :
    ∃ i, getNextNode a d = some i ∧ d.nn[i]? = some (a, b) :=
  findFst_of_mem (h.nnAdj p a b hab)
    (fun _ hc => h.nnG.fst_unique (h.pos (adj_mem_left hab)) hc (h.nnAdj p a b hab))

theorem nextNode_none (h : LinkedD d ch) {p a : Nat} (ha : (ch p).getLast? = some a) :
    getNextNode a d = none := findFst_none.mpr (h.no_next_last ha)

theorem prevNode (h : LinkedD d ch) {p a b : Nat} (hab : Adj (ch p) a b) :
    ∃ i, getPreviousNode b d = some i ∧ d.nn[i]? = some (a, b) :=
  findSnd_of_mem (h.nnAdj p a b hab)
    (fun _ hc => h.nnG.snd_unique (h.pos (adj_mem_right hab)) hc (h.nnAdj p a b hab))

theorem prevNode_none (h : LinkedD d ch) {p a : Nat} (ha : (ch p).head? = some a) :
    getPreviousNode a d = none := findSnd_none.mpr (h.no_prev_head ha)

theorem firstNode (h : LinkedD d ch) {p c : Nat} (hp : p ≠ 0) (hc : (ch p).head? = some c) :
    ∃ i, getFirstChildNode p d = some i ∧ d.fc[i]? = some (p, c) :=
  findFst_of_mem ((h.fcM p c hp).mpr hc)
    (fun _ hc' => h.fcG.fst_unique hp hc' ((h.fcM p c hp).mpr hc))

theorem firstNode_none (h : LinkedD d ch) {p : Nat} (hp : p ≠ 0) (hc : ch p = []) :
    getFirstChildNode p d = none := findFst_none.mpr (fun c hm => by
      have := (h.fcM p c hp).mp hm; rw [hc] at this; simp at this)

theorem parentNode (h : LinkedD d ch) {p c : Nat} (hp : p ≠ 0) (hc : c ∈ ch p) :
    ∃ i, getParentNode c d = some i ∧ d.pc[i]? = some (p, c) :=
  findSnd_of_mem (h.pcM p c hp hc) (fun x hx => h.pcOwn p x c hx hc)

theorem parentNode_none (h : LinkedD d ch) {c : Nat} (hc : c ∈ ch 0) : getParentNode c d = none := by
  refine findSnd_none.mpr (fun x hx => ?_)
  have := h.pcOwn 0 x c hx hc
  subst this
  exact h.pos hc ((h.pcNz 0 c hx).1 rfl)

theorem getNext_eq (h : LinkedD d ch) {p a b : Nat} (hab : Adj (ch p) a b) : getNext a d = b := by
  obtain ⟨i, h1, h2⟩ := h.nextNode hab
  simp [getNext, h1, rowAt_eq h2]

theorem getNext_last (h : LinkedD d ch) {p a : Nat} (ha : (ch p).getLast? = some a) : getNext a d = 0 := by
  simp [getNext, h.nextNode_none ha]

theorem getPrevious_eq (h : LinkedD d ch) {p a b : Nat} (hab : Adj (ch p) a b) : getPrevious b d = a := by
  obtain ⟨i, h1, h2⟩ := h.prevNode hab
  simp [getPrevious, h1, rowAt_eq h2]

theorem getPrevious_first (h : LinkedD d ch) {p a : Nat} (ha : (ch p).head? = some a) :
    getPrevious a d = 0 := by
  simp [getPrevious, h.prevNode_none ha]

theorem getFirstChild_eq (h : LinkedD d ch) {p : Nat} (hp : p ≠ 0) :
    getFirstChild p d = (ch p).headD 0 := by
  cases hc : ch p with
  | nil => simp [getFirstChild, h.firstNode_none hp hc]
  | cons c l =>
    obtain ⟨i, h1, h2⟩ := h.firstNode hp (c := c) (by rw [hc]; rfl)
    simp [getFirstChild, h1, rowAt_eq h2]

theorem getFirstChild_zero (h : LinkedD d ch) : getFirstChild 0 d = 0 := by
  unfold getFirstChild
  split
  · rfl
  · rename_i i hi
    obtain ⟨b, hb⟩ := findFst_some hi
    rw [rowAt_eq hb]
    exact (h.fcG.nz' (List.mem_of_getElem? hb)).mp rfl

theorem getNext_zero (h : LinkedD d ch) : getNext 0 d = 0 := by
  unfold getNext
  split
  · rfl
  · rename_i i hi
    obtain ⟨b, hb⟩ := findFst_some hi
    rw [rowAt_eq hb]
    exact (h.nnG.nz' (List.mem_of_getElem? hb)).mp rfl

theorem getParent_eq (h : LinkedD d ch) {p c : Nat} (hc : c ∈ ch p) : getParent c d = p := by
  by_cases hp : p = 0
  · subst hp; simp [getParent, h.parentNode_none hc]
  · obtain ⟨i, h1, h2⟩ := h.parentNode hp hc
    simp [getParent, h1, rowAt_eq h2]

theorem root_no_pc (h : LinkedD d ch) (x : Nat) : (x, 1) ∉ d.pc := fun hr => by
  have := h.pcLt x 1 hr (by omega); omega

theorem root_no_nn (h : LinkedD d ch) (x : Nat) : (1, x) ∉ d.nn := fun hr => by
  have := h.nnLt 1 x hr (by omega); omega

theorem root_no_nn' (h : LinkedD d ch) (x : Nat) : (x, 1) ∉ d.nn := fun hr => by
  have := h.nnLt x 1 hr (fun e => by have := (h.nnG.nz' hr).mp e; omega); omega

theorem getParent_root (h : LinkedD d ch) : getParent 1 d = 0 := by
  simp [getParent, getParentNode, findSnd_none.mpr h.root_no_pc]

theorem getNext_root (h : LinkedD d ch) : getNext 1 d = 0 := by
  simp [getNext, getNextNode, findFst_none.mpr h.root_no_nn]

theorem getPrevious_root (h : LinkedD d ch) : getPrevious 1 d = 0 := by
  simp [getPrevious, getPreviousNode, findSnd_none.mpr h.root_no_nn']

/-! ## Child lists as seen through the API -/

theorem chainFrom_eq (h : LinkedD d ch) (p : Nat) : ∀ (l₂ l₁ : List Nat) (c f : Nat),
    ch p = l₁ ++ c :: l₂ → l₂.length < f → chainFrom d f c = c :: l₂ := by
  intro l₂
  induction l₂ with
  | nil =>
    intro l₁ c f he hf
    obtain ⟨f, rfl⟩ : ∃ g, f = g + 1 := ⟨f - 1, by simp at hf; omega⟩
    have hc : c ≠ 0 := h.pos (p := p) (by rw [he]; simp)
    rw [chainFrom, if_neg hc, h.getNext_last (p := p) (by rw [he]; simp)]
    cases f <;> simp [chainFrom]
  | cons b l ih =>
    intro l₁ c f he hf
    obtain ⟨f, rfl⟩ : ∃ g, f = g + 1 := ⟨f - 1, by simp at hf; omega⟩
    have hc : c ≠ 0 := h.pos (p := p) (by rw [he]; simp)
    rw [chainFrom, if_neg hc, h.getNext_eq (p := p) (adj_iff_split.mpr ⟨l₁, l, he⟩),
      ih (l₁ ++ [c]) b f (by rw [he]; simp) (by simp at hf ⊢; omega)]

theorem kids_eq (h : LinkedD d ch) {p : Nat} (hp : p ≠ 0) : kids d p = ch p := by
  unfold kids
  rw [h.getFirstChild_eq hp]
  have hl := h.length_lt p
  cases hc : ch p with
  | nil =>
    simp only [List.headD_nil]
    cases d.nodes.length <;> simp [chainFrom]
  | cons c l =>
    simp only [List.headD_cons]
    exact h.chainFrom_eq p l [] c _ hc (by rw [hc] at hl; simp at hl ⊢; omega)

theorem kids_zero (h : LinkedD d ch) : kids d 0 = [] := by
  unfold kids
  rw [h.getFirstChild_zero]
  cases d.nodes.length <;> simp [chainFrom]

theorem mem_kids (h : LinkedD d ch) {p c : Nat} (hc : c ∈ kids d p) : p ≠ 0 ∧ c ∈ ch p := by
  by_cases hp : p = 0
  · subst hp; rw [h.kids_zero] at hc; simp at hc
  · rw [h.kids_eq hp] at hc; exact ⟨hp, hc⟩

theorem navOK (h : LinkedD d ch) : NavOK d where
  nodup p := by
    by_cases hp : p = 0
    · subst hp; rw [h.kids_zero]; simp
    · rw [h.kids_eq hp]; exact h.nodup p
  disjoint p q c hp hq := h.uniq p q c (h.mem_kids hp).2 (h.mem_kids hq).2
  range p c hc := h.range p c (h.mem_kids hc).2
  parent p c hc := h.getParent_eq (h.mem_kids hc).2
  first p := by
    by_cases hp : p = 0
    · subst hp; rw [h.kids_zero, h.getFirstChild_zero]; rfl
    · rw [h.kids_eq hp]; exact h.getFirstChild_eq hp
  next p l₁ a b l₂ he := by
    have ⟨hp, _⟩ := h.mem_kids (p := p) (c := a) (by rw [he]; simp)
    rw [h.kids_eq hp] at he
    have hab := adj_iff_split.mpr ⟨l₁, l₂, he⟩
    exact ⟨h.getNext_eq hab, h.getPrevious_eq hab⟩
  lastNext p l a he := by
    have ⟨hp, _⟩ := h.mem_kids (p := p) (c := a) (by rw [he]; simp)
    rw [h.kids_eq hp] at he
    exact h.getNext_last (p := p) (by rw [he]; simp)
  firstPrev p a l he := by
    have ⟨hp, _⟩ := h.mem_kids (p := p) (c := a) (by rw [he]; simp)
    rw [h.kids_eq hp] at he
    exact h.getPrevious_first (p := p) (by rw [he]; simp)
  root := ⟨h.getParent_root, h.getNext_root, h.getPrevious_root⟩

end Linked

/-! ## Walking along a chain in the next-sibling table -/

/-- `l` is a maximal chain of next-sibling links starting at its head. -/
structure Chain (d : Dom) (l : List Nat) : Prop where
  adj : ∀ a b, Adj l a b → getNextNode a d ≠ none ∧ getNext a d = b
  last : ∀ a, l.getLast? = some a → getNextNode a d = none
  pos : ∀ a ∈ l, a ≠ 0
  len : l.length ≤ d.nn.length + 1

theorem Linked.chain {d : Dom} {ch : Nat → List Nat} (h : LinkedD d ch) (p : Nat) {l₁ l₂ : List Nat}
    (he : ch p = l₁ ++ l₂) : Chain d l₂ where
  adj a b hab := by
    have hab' : Adj (ch p) a b := by rw [he, adj_append]; tauto
    obtain ⟨i, h1, _⟩ := h.nextNode hab'
    exact ⟨by rw [h1]; simp, h.getNext_eq hab'⟩
  last a ha := h.nextNode_none (p := p) (by
    rw [he, List.getLast?_append_of_ne_nil _ (by rintro rfl; simp at ha)]; exact ha)
  pos a ha := h.pos (p := p) (by rw [he]; simp [ha])
  len := by have := h.length_nn p; rw [he] at this; simp at this; omega

theorem Loose.chain {d : Dom} {ch : Nat → List Nat} {F : List Nat} (hg : Good d.nn)
    (h : Loose d.nodes.length d.pc d.nn ch F) : Chain d F where
  adj a b hab := by
    have ha : a ≠ 0 := by have := h.range a (adj_mem_left hab); omega
    obtain ⟨i, h1, h2⟩ := findFst_of_mem (h.adj a b hab) (fun _ hc => hg.fst_unique ha hc (h.adj a b hab))
    exact ⟨by show d.nn.findIdx? _ ≠ none; rw [h1]; simp, by
      show (match d.nn.findIdx? (·.1 == a) with | none => 0 | some i => (rowAt d.nn i).2) = b
      rw [h1]; simp [rowAt_eq h2]⟩
  last a ha := findFst_none.mpr (h.no_next_last ha)
  pos a ha := by have := h.range a ha; omega
  len := adj_pairs_length h.nodup h.adj

theorem Chain.tail {d : Dom} {x : Nat} {l : List Nat} (h : Chain d (x :: l)) : Chain d l where
  adj a b hab := h.adj a b (by rw [adj_cons]; tauto)
  last a ha := h.last a (by
    cases l with
    | nil => simp at ha
    | cons y l => rw [List.getLast?_cons_cons]; exact ha)
  pos a ha := h.pos a (by simp [ha])
  len := by have := h.len; simp at this; omega

theorem Chain.getNext_head {d : Dom} {x : Nat} {l : List Nat} (h : Chain d (x :: l)) :
    getNext x d = l.headD 0 := by
  cases l with
  | nil =>
    have := h.last x (by simp)
    simp [getNext, this]
  | cons y l => exact (h.adj x y (by simp [Adj])).2

theorem Chain.lastNextLoop {d : Dom} : ∀ (l : List Nat) (x f : Nat), Chain d (x :: l) → l.length < f →
    Flo.lastNextLoop d f x = .ok ((x :: l).getLast (by simp)) := by
  intro l
  induction l with
  | nil =>
    intro x f h hf
    obtain ⟨f, rfl⟩ : ∃ g, f = g + 1 := ⟨f - 1, by simp at hf; omega⟩
    rw [Flo.lastNextLoop, h.last x (by simp)]; simp
  | cons y l ih =>
    intro x f h hf
    obtain ⟨f, rfl⟩ : ∃ g, f = g + 1 := ⟨f - 1, by simp at hf; omega⟩
    have h2 := h.adj x y (by simp [Adj])
    cases hn : getNextNode x d with
    | none => exact absurd hn h2.1
    | some i =>
      have e : (rowAt d.nn i).2 = y := by
        have := h2.2; simp only [getNext, hn] at this; exact this
      simp only [Flo.lastNextLoop, hn, e]
      rw [ih y f h.tail (by simp at hf; omega)]
      simp [List.getLast_cons]

theorem Chain.getLastNext {d : Dom} {x : Nat} {l : List Nat} (h : Chain d (x :: l)) :
    Flo.getLastNext x d = .ok ((x :: l).getLast (by simp)) :=
  Chain.lastNextLoop l x _ h (by have := h.len; simp at this; omega)

end Flo
