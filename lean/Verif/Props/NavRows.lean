import Verif.Props.Nav
/-!
# The row-returning navigation functions and the last sibling (C118)

`flo_html_getFirstChildNode`, `flo_html_getParentNode`, `flo_html_getNextNode`, `flo_html_getPreviousNode` and
`flo_html_getLastNextNode` return a pointer to a row of one of the link tables (or `NULL`); the caller writes
through that pointer.  The model returns the index of the row.
-/
namespace Flo
open Spec

/-- The list of indices a walk along rows goes through ends at the row of the last two elements. -/
theorem Linked.lastNextNodeLoop {d : Dom} {ch : Nat → List Nat} (h : LinkedD d ch) {p : Nat} :
    ∀ (l : List Nat) (l₁ : List Nat) (a b f i : Nat), ch p = l₁ ++ a :: b :: l → d.nn[i]? = some (a, b) →
    l.length < f → ∃ j m x y, Flo.lastNextNodeLoop d f i = .ok j ∧ d.nn[j]? = some (x, y) ∧
      a :: b :: l = m ++ [x, y] := by
  intro l
  induction l with
  | nil =>
    intro l₁ a b f i he hi hf
    obtain ⟨f, rfl⟩ : ∃ g, f = g + 1 := ⟨f - 1, by omega⟩
    have hn : getNextNode b d = none := h.nextNode_none (p := p) (by rw [he]; simp)
    exact ⟨i, [], a, b, by simp only [Flo.lastNextNodeLoop, rowAt_eq hi, hn], hi, rfl⟩
  | cons c l ih =>
    intro l₁ a b f i he hi hf
    obtain ⟨f, rfl⟩ : ∃ g, f = g + 1 := ⟨f - 1, by omega⟩
    obtain ⟨k, h1, h2⟩ := h.nextNode (p := p) (a := b) (b := c) (by
      rw [he, adj_append]; right; left; simp [Adj])
    obtain ⟨j, m, x, y, e1, e2, e3⟩ := ih (l₁ ++ [a]) b c f k (by rw [he]; simp) h2 (by simp at hf; omega)
    exact ⟨j, a :: m, x, y, by simp only [Flo.lastNextNodeLoop, rowAt_eq hi, h1]; exact e1, e2, by rw [e3]; rfl⟩

/-- In every reachable DOM, following next siblings from a child of any node comes to the last child of that
node. -/
theorem C118_last (d : Dom) (h : Reachable d) (p n : Nat) (l₁ l₂ : List Nat) (he : kids d p = l₁ ++ n :: l₂) :
    getLastNext n d = .ok ((kids d p).getLast (by simp [he])) := by
  obtain ⟨hi, _⟩ := reach_domI h
  rw [(hi.linked.chain p he).getLastNext]
  simp [he]

/-- The row version: `NULL` exactly for the last child; otherwise the row that links the last but one child of
the parent to the last. -/
theorem C118_last_row (d : Dom) (h : Reachable d) (p n : Nat) (l₁ l₂ : List Nat)
    (he : kids d p = l₁ ++ n :: l₂) :
    (l₂ = [] → getLastNextNode n d = .ok none) ∧
    (l₂ ≠ [] → ∃ j m x y, getLastNextNode n d = .ok (some j) ∧ d.nn[j]? = some (x, y) ∧
      kids d p = m ++ [x, y]) := by
  obtain ⟨hi, _⟩ := reach_domI h
  have hl := hi.linked
  refine ⟨?_, ?_⟩
  · rintro rfl
    have : getNextNode n d = none := hl.nextNode_none (p := p) (by rw [he]; simp)
    simp only [getLastNextNode, this]
  · intro h2
    obtain ⟨b, l, rfl⟩ := List.exists_cons_of_ne_nil h2
    obtain ⟨i, e1, e2⟩ := hl.nextNode (p := p) (a := n) (b := b) (by
      rw [he, adj_append]; right; left; simp [Adj])
    obtain ⟨j, m, x, y, f1, f2, f3⟩ := hl.lastNextNodeLoop l l₁ n b (d.nn.length + 1) i he e2 (by
      have := hl.length_nn p; rw [he] at this; simp at this; omega)
    refine ⟨j, l₁ ++ m, x, y, by simp only [getLastNextNode, e1, f1]; rfl, f2, by rw [he, f3]; simp⟩

/-- The other row-returning functions: each gives the row of its table that holds the link, or `NULL` when
there is no such link. -/
theorem C118_rows (d : Dom) (h : Reachable d) (p : Nat) (hp : p ≠ 0) :
    (kids d p = [] → getFirstChildNode p d = none) ∧
    (∀ c l, kids d p = c :: l → ∃ i, getFirstChildNode p d = some i ∧ d.fc[i]? = some (p, c)) ∧
    (∀ c ∈ kids d p, ∃ i, getParentNode c d = some i ∧ d.pc[i]? = some (p, c)) ∧
    (∀ l₁ a b l₂, kids d p = l₁ ++ a :: b :: l₂ →
      (∃ i, getNextNode a d = some i ∧ d.nn[i]? = some (a, b)) ∧
      ∃ i, getPreviousNode b d = some i ∧ d.nn[i]? = some (a, b)) ∧
    (∀ l a, kids d p = l ++ [a] → getNextNode a d = none) ∧
    (∀ a l, kids d p = a :: l → getPreviousNode a d = none) := by
  obtain ⟨hi, _⟩ := reach_domI h
  have hl := hi.linked
  refine ⟨hl.firstNode_none hp, fun c l e => hl.firstNode hp (by rw [e]; rfl), fun c hc => hl.parentNode hp hc,
    fun l₁ a b l₂ e => ?_, fun l a e => hl.nextNode_none (p := p) (by rw [e]; simp),
    fun a l e => hl.prevNode_none (p := p) (by rw [e]; rfl)⟩
  have hab : Adj (kids d p) a b := by rw [e, adj_append]; right; left; simp [Adj]
  exact ⟨hl.nextNode hab, hl.prevNode hab⟩

/-- The root has no parent, no siblings, and is its own last sibling. -/
theorem C118_root (d : Dom) (h : Reachable d) : getParentNode rootID d = none ∧ getNextNode rootID d = none ∧
    getPreviousNode rootID d = none ∧ getLastNext rootID d = .ok rootID ∧ getLastNextNode rootID d = .ok none := by
  obtain ⟨hi, _⟩ := reach_domI h
  have hl := hi.linked
  have h1 : getNextNode rootID d = none := findFst_none.mpr (fun x => hl.root_no_nn x)
  refine ⟨findSnd_none.mpr (fun x => hl.root_no_pc x), h1, findSnd_none.mpr (fun x => hl.root_no_nn' x), ?_, ?_⟩
  · simp only [getLastNext, lastNextLoop, h1]
  · simp only [getLastNextNode, h1]

/-- non-vacuity: four children; the last row is found from the first child on. -/
example : ∃ d, Reachable d ∧ decide (kids d 1 = [2, 3, 4, 5] ∧ getLastNext 2 d = .ok 5) = true ∧
    okAnd (getLastNextNode 2 d) (fun o => decide (o.map (rowAt d.nn) = some (4, 5))) = true := by
  obtain ⟨d, h, hd⟩ := someAnd_ex (x := createDom b!"<a></a>x<b></b>y")
    (p := fun d => decide (kids d 1 = [2, 3, 4, 5] ∧ getLastNext 2 d = .ok 5) &&
      okAnd (getLastNextNode 2 d) (fun o => decide (o.map (rowAt d.nn) = some (4, 5)))) (by decide +kernel)
  rw [Bool.and_eq_true] at hd
  exact ⟨d, .parsed h, hd.1, hd.2⟩

end Flo
