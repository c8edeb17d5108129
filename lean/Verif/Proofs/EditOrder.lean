import Verif.Props.EditLaws
/-!
# Lemmas for C132: edits of the children of different nodes
-/
namespace Flo
open Spec
namespace Laws

/-- A change of nodes that leaves texts alone and makes none. -/
structure Gentle (φ : PTree → PTree) : Prop where
  text : ∀ n ks, ∃ n' ks', ∀ a, φ (.node n (.text a) ks) = .node n' (.text a) ks'
  other : ∀ n l ks, l.isText = false → ∃ n' l' ks', φ (.node n l ks) = .node n' l' ks' ∧ l'.isText = false

theorem isText_cases (t : PTree) : (∃ n a ks, t = .node n (.text a) ks) ∨ (∃ n l ks, t = .node n l ks ∧ l.isText = false) := by
  obtain ⟨n, l, ks⟩ := t
  cases l with
  | text a => exact .inl ⟨_, _, _, rfl⟩
  | elem a b c => exact .inr ⟨_, _, _, rfl, rfl⟩
  | root => exact .inr ⟨_, _, _, rfl, rfl⟩

theorem mergeLeft_other_new {before rest : List PTree} {n : Nat} {l : Label} {ks : List PTree} (h : l.isText = false) :
    mergeLeft before (.node n l ks :: rest) = (before, .node n l ks :: rest) := by
  unfold mergeLeft
  cases l with
  | text a => cases h
  | elem a b c => split <;> simp_all
  | root => split <;> simp_all

theorem mergeLeft_other_old {before new : List PTree} {n : Nat} {l : Label} {ks : List PTree} (h : l.isText = false) :
    mergeLeft (before ++ [.node n l ks]) new = (before ++ [.node n l ks], new) := by
  unfold mergeLeft
  rw [List.getLast?_concat]
  cases l with
  | text a => cases h
  | elem a b c => rfl
  | root => rfl

theorem mergeLeft_texts {before rest : List PTree} {n m : Nat} {a b : Str} {ks js : List PTree} :
    mergeLeft (before ++ [.node n (.text a) ks]) (.node m (.text b) js :: rest) = (before ++ [.node n (.text (a ++ b!" " ++ b)) ks], rest) := by
  unfold mergeLeft
  rw [List.getLast?_concat]
  simp

theorem mergeLeft_nil (new : List PTree) : mergeLeft [] new = ([], new) := rfl
theorem mergeLeft_none (before : List PTree) : mergeLeft before [] = (before, []) := by
  unfold mergeLeft
  split
  · rename_i h; cases h
  · rfl

theorem mergeRight_other_old {new rest : List PTree} {n : Nat} {l : Label} {ks : List PTree} (h : l.isText = false) :
    mergeRight new (.node n l ks :: rest) = (new, .node n l ks :: rest) := by
  unfold mergeRight
  cases l with
  | text a => cases h
  | elem a b c => split <;> simp_all
  | root => split <;> simp_all

theorem mergeRight_other_new {new behind : List PTree} {n : Nat} {l : Label} {ks : List PTree} (h : l.isText = false) :
    mergeRight (new ++ [.node n l ks]) behind = (new ++ [.node n l ks], behind) := by
  unfold mergeRight
  rw [List.getLast?_concat]
  cases l with
  | text a => cases h
  | elem a b c => rfl
  | root => rfl

theorem mergeRight_texts {new rest : List PTree} {n m : Nat} {a b : Str} {ks js : List PTree} :
    mergeRight (new ++ [.node n (.text b) js]) (.node m (.text a) ks :: rest) = (new, .node m (.text (b ++ b!" " ++ a)) ks :: rest) := by
  unfold mergeRight
  rw [List.getLast?_concat]
  simp

theorem mergeRight_nil (behind : List PTree) : mergeRight [] behind = ([], behind) := rfl
theorem mergeRight_none (new : List PTree) : mergeRight new [] = (new, []) := by
  unfold mergeRight
  split
  · rename_i h; cases h
  · rfl

variable {φ : PTree → PTree}

theorem mergeLeft_gentle (h : Gentle φ) (a b : List PTree) :
    mergeLeft (a.map φ) (b.map φ) = ((mergeLeft a b).1.map φ, (mergeLeft a b).2.map φ) := by
  rcases List.eq_nil_or_concat a with rfl | ⟨a, t, rfl⟩
  · rfl
  cases b with
  | nil => rw [List.map_nil, mergeLeft_none, mergeLeft_none]; rfl
  | cons u b =>
    rw [List.concat_eq_append, List.map_append, List.map_cons, List.map_nil, List.map_cons]
    rcases isText_cases t with ⟨n, x, ks, rfl⟩ | ⟨n, l, ks, rfl, hl⟩
    · rcases isText_cases u with ⟨m, y, js, rfl⟩ | ⟨m, l, js, rfl, hl⟩
      · obtain ⟨n', ks', e⟩ := h.text n ks
        obtain ⟨m', js', e'⟩ := h.text m js
        rw [e, e', mergeLeft_texts, mergeLeft_texts, List.map_append, List.map_cons, List.map_nil, e]
      · obtain ⟨m', l', js', e, hl'⟩ := h.other m l js hl
        rw [mergeLeft_other_new hl, e, mergeLeft_other_new hl', List.map_append, List.map_cons, List.map_nil, List.map_cons, e]
    · obtain ⟨n', l', ks', e, hl'⟩ := h.other n l ks hl
      rw [mergeLeft_other_old hl, e, mergeLeft_other_old hl', List.map_append, List.map_cons, List.map_nil, List.map_cons, e]

theorem mergeRight_gentle (h : Gentle φ) (a b : List PTree) :
    mergeRight (a.map φ) (b.map φ) = ((mergeRight a b).1.map φ, (mergeRight a b).2.map φ) := by
  rcases List.eq_nil_or_concat a with rfl | ⟨a, t, rfl⟩
  · rfl
  cases b with
  | nil => rw [List.map_nil, mergeRight_none, mergeRight_none]; rfl
  | cons u b =>
    rw [List.concat_eq_append, List.map_append, List.map_cons, List.map_nil, List.map_cons]
    rcases isText_cases u with ⟨n, x, ks, rfl⟩ | ⟨n, l, ks, rfl, hl⟩
    · rcases isText_cases t with ⟨m, y, js, rfl⟩ | ⟨m, l, js, rfl, hl⟩
      · obtain ⟨n', ks', e⟩ := h.text n ks
        obtain ⟨m', js', e'⟩ := h.text m js
        rw [e, e', mergeRight_texts, mergeRight_texts, List.map_cons, e]
      · obtain ⟨m', l', js', e, hl'⟩ := h.other m l js hl
        rw [mergeRight_other_new hl, e, mergeRight_other_new hl', List.map_append, List.map_cons, List.map_nil, List.map_cons, e]
    · obtain ⟨n', l', ks', e, hl'⟩ := h.other n l ks hl
      rw [mergeRight_other_old hl, e, mergeRight_other_old hl', List.map_append, List.map_cons, List.map_nil, List.map_cons, e]

theorem between_gentle (h : Gentle φ) (a b c : List PTree) : between (a.map φ) (b.map φ) (c.map φ) = (between a b c).map φ := by
  unfold between
  rw [mergeLeft_gentle h]
  dsimp only
  rw [mergeRight_gentle h, List.map_append, List.map_append]

/-! ## Two changes of children -/

theorem within_gentle (p : Nat) (f : List PTree → List PTree) : Gentle (PTree.within p f) where
  text n ks := ⟨n, if n = p then f ks else withinAll p f ks, fun a => by rw [PTree.within]⟩
  other n l ks h := ⟨n, l, if n = p then f ks else withinAll p f ks, by rw [PTree.within], h⟩

mutual
theorem within_comm {p q : Nat} (hne : p ≠ q) {F G : List PTree → List PTree} (hF : ∀ ks, withinAll q G (F ks) = F (withinAll q G ks))
    (hG : ∀ ks, withinAll p F (G ks) = G (withinAll p F ks)) : ∀ t : PTree, (t.within p F).within q G = (t.within q G).within p F
  | .node m l ks => by
    rw [PTree.within, PTree.within, PTree.within, PTree.within]
    by_cases e : m = p
    · have e' : m ≠ q := fun x => hne (e.symm.trans x)
      rw [if_pos e, if_neg e', if_neg e', if_pos e, hF]
    · by_cases e' : m = q
      · rw [if_neg e, if_pos e', if_pos e', if_neg e, hG]
      · rw [if_neg e, if_neg e', if_neg e', if_neg e, withinAll_comm hne hF hG ks]
theorem withinAll_comm {p q : Nat} (hne : p ≠ q) {F G : List PTree → List PTree} (hF : ∀ ks, withinAll q G (F ks) = F (withinAll q G ks))
    (hG : ∀ ks, withinAll p F (G ks) = G (withinAll p F ks)) : ∀ ts : List PTree,
    withinAll q G (withinAll p F ts) = withinAll p F (withinAll q G ts)
  | [] => rfl
  | t :: ts => by rw [withinAll, withinAll, withinAll, withinAll, within_comm hne hF hG t, withinAll_comm hne hF hG ts]
end

/-- New nodes at the end, or at the beginning, of the children. -/
def side (first : Bool) (new ks : List PTree) : List PTree := if first then between [] new ks else between ks new []

theorem side_gentle (h : Gentle φ) (s : Bool) (new ks : List PTree) : (side s new ks).map φ = side s (new.map φ) (ks.map φ) := by
  cases s
  · exact (between_gentle h ks new []).symm
  · exact (between_gentle h [] new ks).symm

theorem side_comm {p q : Nat} (hne : p ≠ q) (s s' : Bool) {M M' : List PTree} (h : q ∉ idsAll M) (h' : p ∉ idsAll M') (t : PTree) :
    (t.within p (side s M)).within q (side s' M') = (t.within q (side s' M')).within p (side s M) := by
  refine within_comm hne (fun ks => ?_) (fun ks => ?_) t
  · rw [withinAll_map, side_gentle (within_gentle _ _), ← withinAll_map, ← withinAll_map, withinAll_out _ h]
  · rw [withinAll_map, side_gentle (within_gentle _ _), ← withinAll_map, ← withinAll_map, withinAll_out _ h']

/-! ## Forgetting the numbers of new nodes -/

mutual
/-- All numbers from `N` on become `N`. -/
def mask (N : Nat) : PTree → PTree
  | .node n l ks => .node (min n N) l (maskAll N ks)
def maskAll (N : Nat) : List PTree → List PTree
  | [] => []
  | t :: ts => mask N t :: maskAll N ts
end

theorem maskAll_map (N : Nat) : ∀ ts, maskAll N ts = ts.map (mask N)
  | [] => rfl
  | t :: ts => by rw [maskAll, maskAll_map, List.map_cons]

theorem mask_gentle (N : Nat) : Gentle (mask N) where
  text n ks := ⟨min n N, maskAll N ks, fun a => by rw [mask]⟩
  other n l ks h := ⟨min n N, l, maskAll N ks, by rw [mask], h⟩

mutual
theorem mask_plain (N : Nat) : ∀ t : PTree, (mask N t).plain = t.plain
  | .node n (.text a) ks => by rw [mask, PTree.plain, PTree.plain]
  | .node n (.elem a b c) ks => by rw [mask, PTree.plain, PTree.plain, maskAll_plain N ks]
  | .node n .root ks => by rw [mask, PTree.plain, PTree.plain, maskAll_plain N ks]
theorem maskAll_plain (N : Nat) : ∀ ts : List PTree, plainAll (maskAll N ts) = plainAll ts
  | [] => rfl
  | t :: ts => by rw [maskAll, plainAll, plainAll, mask_plain N t, maskAll_plain N ts]
end

mutual
theorem mask_within {N p : Nat} (hp : p < N) {f F : List PTree → List PTree} (hf : ∀ ks, maskAll N (f ks) = F (maskAll N ks)) :
    ∀ t : PTree, mask N (t.within p f) = (mask N t).within p F
  | .node m l ks => by
    rw [PTree.within, mask, mask, PTree.within]
    by_cases e : m = p
    · rw [if_pos e, if_pos (by omega), hf]
    · rw [if_neg e, if_neg (by omega), maskAll_within hp hf ks]
theorem maskAll_within {N p : Nat} (hp : p < N) {f F : List PTree → List PTree} (hf : ∀ ks, maskAll N (f ks) = F (maskAll N ks)) :
    ∀ ts : List PTree, maskAll N (withinAll p f ts) = withinAll p F (maskAll N ts)
  | [] => rfl
  | t :: ts => by rw [withinAll, maskAll, maskAll, withinAll, mask_within hp hf t, maskAll_within hp hf ts]
end

mutual
theorem mask_number (N : Nat) : ∀ (t : Tree) (k k' : Nat), N ≤ k → N ≤ k' → mask N (t.number k) = mask N (t.number k')
  | .text a, k, k', h, h' => by rw [Tree.number, Tree.number, mask, mask, Nat.min_eq_right h, Nat.min_eq_right h']
  | .elem a b c ts, k, k', h, h' => by
    rw [Tree.number, Tree.number, mask, mask, Nat.min_eq_right h, Nat.min_eq_right h', maskAll_number N ts (k + 1) (k' + 1) (by omega) (by omega)]
theorem maskAll_number (N : Nat) : ∀ (ts : List Tree) (k k' : Nat), N ≤ k → N ≤ k' → maskAll N (numberAll k ts) = maskAll N (numberAll k' ts)
  | [], _, _, _, _ => rfl
  | t :: ts, k, k', h, h' => by
    rw [numberAll, numberAll, maskAll, maskAll, mask_number N t k k' h h', maskAll_number N ts (k + t.size) (k' + t.size) (by omega) (by omega)]
end

mutual
theorem mask_ids (N : Nat) : ∀ (t : Tree) (k : Nat), N ≤ k → ∀ x ∈ (mask N (t.number k)).ids, x = N
  | .text a, k, h, x, hx => by
    rw [Tree.number, mask, ids_node, Nat.min_eq_right h] at hx
    simpa [maskAll, idsAll_nil] using hx
  | .elem a b c ts, k, h, x, hx => by
    rw [Tree.number, mask, ids_node, Nat.min_eq_right h, List.mem_cons] at hx
    rcases hx with hx | hx
    · exact hx
    · exact maskAll_ids N ts (k + 1) (by omega) x hx
theorem maskAll_ids (N : Nat) : ∀ (ts : List Tree) (k : Nat), N ≤ k → ∀ x ∈ idsAll (maskAll N (numberAll k ts)), x = N
  | [], _, _, x, hx => by cases hx
  | t :: ts, k, h, x, hx => by
    rw [numberAll, maskAll, idsAll_cons, List.mem_append] at hx
    rcases hx with hx | hx
    · exact mask_ids N t k h x hx
    · exact maskAll_ids N ts _ (by omega) x hx
end

theorem side_mask (N : Nat) (s : Bool) (new ks : List PTree) : maskAll N (side s new ks) = side s (maskAll N new) (maskAll N ks) := by
  rw [maskAll_map, maskAll_map, maskAll_map, side_gentle (mask_gentle N)]

/-- New nodes in two places, in either order. -/
theorem two_sides {p q N : Nat} (hne : p ≠ q) (hp : p < N) (hq : q < N) (s s' : Bool) (A B : List Tree) {k1 k2 k3 k4 : Nat} (h1 : N ≤ k1)
    (h2 : N ≤ k2) (h3 : N ≤ k3) (h4 : N ≤ k4) (t : PTree) :
    ((t.within p (side s (numberAll k1 A))).within q (side s' (numberAll k2 B))).plain =
    ((t.within q (side s' (numberAll k3 B))).within p (side s (numberAll k4 A))).plain := by
  rw [← mask_plain N, ← mask_plain N (PTree.within p _ _)]
  rw [mask_within hq (side_mask N s' _), mask_within hp (side_mask N s _), mask_within hp (side_mask N s _), mask_within hq (side_mask N s' _),
    maskAll_number N A k4 k1 h4 h1, maskAll_number N B k3 k2 h3 h2]
  rw [side_comm hne s s' (fun h => ?_) (fun h => ?_)]
  · have := maskAll_ids N A k1 h1 _ h; omega
  · have := maskAll_ids N B k2 h2 _ h; omega

/-! ## A node that is no text stays -/

theorem mergeLeft_entry {q : Nat} {l : Label} (hl : l.isText = false) {a b : List PTree} (h : (q, l) ∈ entriesAll a) :
    (q, l) ∈ entriesAll (mergeLeft a b).1 := by
  rcases List.eq_nil_or_concat a with rfl | ⟨a, t, rfl⟩
  · exact h
  rw [List.concat_eq_append] at h ⊢
  cases b with
  | nil => rw [mergeLeft_none]; exact h
  | cons u b =>
    rcases isText_cases t with ⟨n, x, ks, rfl⟩ | ⟨n, l, ks, rfl, hl⟩
    · rcases isText_cases u with ⟨m, y, js, rfl⟩ | ⟨m, l, js, rfl, hl⟩
      · rw [mergeLeft_texts]
        rw [entriesAll_append, List.mem_append, entriesAll, PTree.entries, entriesAll, List.append_nil, List.mem_cons] at h ⊢
        rcases h with h | h | h
        · exact .inl h
        · cases h; cases hl
        · exact .inr (.inr h)
      · rw [mergeLeft_other_new hl]; exact h
    · rw [mergeLeft_other_old hl]; exact h

theorem mergeRight_entry {q : Nat} {l : Label} (hl : l.isText = false) {a b : List PTree} (h : (q, l) ∈ entriesAll b) :
    (q, l) ∈ entriesAll (mergeRight a b).2 := by
  rcases List.eq_nil_or_concat a with rfl | ⟨a, t, rfl⟩
  · exact h
  rw [List.concat_eq_append]
  cases b with
  | nil => cases h
  | cons u b =>
    rcases isText_cases u with ⟨n, x, ks, rfl⟩ | ⟨n, l, ks, rfl, hl⟩
    · rcases isText_cases t with ⟨m, y, js, rfl⟩ | ⟨m, l, js, rfl, hl⟩
      · rw [mergeRight_texts]
        rw [entriesAll, List.mem_append, PTree.entries, List.mem_cons] at h ⊢
        rcases h with (h | h) | h
        · cases h; cases hl
        · exact .inl (.inr h)
        · exact .inr h
      · rw [mergeRight_other_new hl]; exact h
    · rw [mergeRight_other_old hl]; exact h

theorem side_entry {q : Nat} {l : Label} (hl : l.isText = false) (s : Bool) {new ks : List PTree} (h : (q, l) ∈ entriesAll ks) :
    (q, l) ∈ entriesAll (side s new ks) := by
  unfold side
  cases s
  · rw [if_neg (by decide), between, entriesAll_append, List.mem_append, entriesAll_append, List.mem_append]
    exact .inl (.inl (mergeLeft_entry hl h))
  · rw [if_pos rfl, between, entriesAll_append, List.mem_append]
    exact .inr (mergeRight_entry hl h)

mutual
theorem within_keeps {p q : Nat} {l : Label} {f : List PTree → List PTree} (hf : ∀ ks, (q, l) ∈ entriesAll ks → (q, l) ∈ entriesAll (f ks)) :
    ∀ t : PTree, (q, l) ∈ t.entries → (q, l) ∈ (t.within p f).entries
  | .node m l' ks, h => by
    rw [PTree.entries, List.mem_cons] at h
    rw [PTree.within, PTree.entries, List.mem_cons]
    refine h.imp id fun h => ?_
    split
    · exact hf ks h
    · exact withinAll_keeps hf ks h
theorem withinAll_keeps {p q : Nat} {l : Label} {f : List PTree → List PTree} (hf : ∀ ks, (q, l) ∈ entriesAll ks → (q, l) ∈ entriesAll (f ks)) :
    ∀ ts : List PTree, (q, l) ∈ entriesAll ts → (q, l) ∈ entriesAll (withinAll p f ts)
  | [], h => by cases h
  | t :: ts, h => by
    rw [entriesAll, List.mem_append] at h
    rw [withinAll, entriesAll, List.mem_append]
    exact h.imp (within_keeps hf t) (withinAll_keeps hf ts)
end

/-! ## Attributes and tags next to children -/

mutual
theorem relabel_within {n p : Nat} {g : Label → Label} {f F : List PTree → List PTree}
    (hf : ∀ ks, relabelAll n g (f ks) = F (relabelAll n g ks)) : ∀ t : PTree, (t.within p f).relabel n g = (t.relabel n g).within p F
  | .node m l ks => by
    rw [PTree.within, PTree.relabel, PTree.relabel, PTree.within]
    by_cases e : m = p
    · rw [if_pos e, if_pos e, hf]
    · rw [if_neg e, if_neg e, relabelAll_within hf ks]
theorem relabelAll_within {n p : Nat} {g : Label → Label} {f F : List PTree → List PTree}
    (hf : ∀ ks, relabelAll n g (f ks) = F (relabelAll n g ks)) : ∀ ts : List PTree, relabelAll n g (withinAll p f ts) = withinAll p F (relabelAll n g ts)
  | [] => rfl
  | t :: ts => by rw [withinAll, relabelAll, relabelAll, withinAll, relabel_within hf t, relabelAll_within hf ts]
end

theorem relabelAll_map (n : Nat) (g : Label → Label) : ∀ ts, relabelAll n g ts = ts.map (PTree.relabel n g)
  | [] => rfl
  | t :: ts => by rw [relabelAll, relabelAll_map, List.map_cons]

theorem relabel_gentle (n : Nat) {g : Label → Label} (ht : ∀ a, g (.text a) = .text a) (ho : ∀ l, l.isText = false → (g l).isText = false) :
    Gentle (PTree.relabel n g) where
  text m ks := ⟨m, relabelAll n g ks, fun a => by rw [PTree.relabel, ht, ite_self]⟩
  other m l ks h := ⟨m, if m = n then g l else l, relabelAll n g ks, by rw [PTree.relabel], by split; exact ho l h; exact h⟩

/-- A new label and new children, in either order. -/
theorem relabel_side {n p : Nat} {g : Label → Label} (ht : ∀ a, g (.text a) = .text a) (ho : ∀ l, l.isText = false → (g l).isText = false)
    (s : Bool) {M : List PTree} (h : n ∉ idsAll M) (t : PTree) : (t.within p (side s M)).relabel n g = (t.relabel n g).within p (side s M) := by
  refine relabel_within (fun ks => ?_) t
  rw [relabelAll_map, side_gentle (relabel_gentle n ht ho), ← relabelAll_map, ← relabelAll_map, relabelAll_out _ h]

end Laws
end Flo
