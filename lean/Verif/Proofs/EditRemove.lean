import Verif.Props.EditOrder
/-!
# Lemmas for C132: removals
-/
namespace Flo
open Spec
namespace Laws

mutual
/-- The tree without the part at `n`. -/
def drop (n : Nat) : PTree → List PTree
  | .node m l ks => if m = n then [] else [.node m l (dropAll n ks)]
def dropAll (n : Nat) : List PTree → List PTree
  | [] => []
  | t :: ts => drop n t ++ dropAll n ts
end

/-- The node without the parts at `n` below it. -/
def prune (n : Nat) : PTree → PTree
  | .node m l ks => .node m l (dropAll n ks)

theorem dropAll_append (n : Nat) : ∀ a b : List PTree, dropAll n (a ++ b) = dropAll n a ++ dropAll n b
  | [], b => rfl
  | t :: a, b => by rw [List.cons_append, dropAll, dropAll, dropAll_append n a b, List.append_assoc]

theorem dropAll_one (n : Nat) (t : PTree) : dropAll n [t] = drop n t := by rw [dropAll, dropAll, List.append_nil]

theorem drop_id {n : Nat} {t : PTree} (h : t.id = n) : drop n t = [] := by
  obtain ⟨m, l, ks⟩ := t
  rw [drop]; exact if_pos h
theorem drop_ne {n : Nat} {t : PTree} (h : t.id ≠ n) : drop n t = [prune n t] := by
  obtain ⟨m, l, ks⟩ := t
  rw [drop]; exact if_neg h

theorem dropAll_tops {n : Nat} : ∀ ts : List PTree, n ∉ ts.map PTree.id → dropAll n ts = ts.map (prune n)
  | [], _ => rfl
  | t :: ts, h => by
    rw [List.map_cons, List.mem_cons, not_or] at h
    rw [dropAll, drop_ne (fun e => h.1 e.symm), dropAll_tops ts h.2, List.map_cons]; rfl

theorem dropAll_out {n : Nat} : ∀ ts : List PTree, n ∉ idsAll ts → dropAll n ts = ts
  | [], _ => rfl
  | .node m l ks :: ts, h => by
    rw [idsAll_cons, ids_node, List.mem_append, List.mem_cons, not_or, not_or] at h
    rw [dropAll, drop, if_neg (fun e => h.1.1 e.symm), dropAll_out ks h.1.2, dropAll_out ts h.2]; rfl

mutual
theorem drop_comm (n m : Nat) : ∀ t : PTree, dropAll m (drop n t) = dropAll n (drop m t)
  | .node k l ks => by
    by_cases e : k = n
    · rw [drop_id (n := n) (t := .node k l ks) e]
      by_cases e' : k = m
      · rw [drop_id (n := m) (t := .node k l ks) e']; rfl
      · rw [drop_ne (n := m) (t := .node k l ks) e', dropAll_one, prune, drop_id (n := n) (t := .node k l _) e]; rfl
    · rw [drop_ne (n := n) (t := .node k l ks) e, dropAll_one]
      by_cases e' : k = m
      · rw [drop_id (n := m) (t := .node k l ks) e', prune, drop_id (n := m) (t := .node k l _) e']; rfl
      · rw [drop_ne (n := m) (t := .node k l ks) e', dropAll_one, prune, prune, drop_ne (n := m) (t := .node k l _) e', drop_ne (n := n) (t := .node k l _) e,
          prune, prune, dropAll_comm n m ks]
theorem dropAll_comm (n m : Nat) : ∀ ts : List PTree, dropAll m (dropAll n ts) = dropAll n (dropAll m ts)
  | [] => rfl
  | t :: ts => by rw [dropAll, dropAll, dropAll_append, dropAll_append, drop_comm n m t, dropAll_comm n m ts]
end

theorem around_split {n : Nat} : ∀ {ts : List PTree} {x : List PTree × List PTree}, around n ts = some x →
    ∃ t, t.id = n ∧ ts = x.1 ++ t :: x.2 ∧ n ∉ x.1.map PTree.id
  | [], x, h => by cases h
  | t :: ts, x, h => by
    by_cases e : t.id = n
    · rw [around, if_pos e] at h; cases h
      exact ⟨t, e, rfl, List.not_mem_nil⟩
    · rw [around_cons_ne e, Option.map_eq_some_iff] at h
      obtain ⟨y, hy, rfl⟩ := h
      obtain ⟨u, h1, h2, h3⟩ := around_split hy
      refine ⟨u, h1, by rw [h2]; rfl, fun hc => ?_⟩
      rw [List.map_cons, List.mem_cons] at hc
      exact hc.elim (fun hc => e hc.symm) h3

mutual
/-- With each number used once, taking a node out is dropping it. -/
theorem instead_drop {n : Nat} : ∀ t : PTree, t.ids.Nodup → t.instead n (fun a b => a ++ b) = prune n t
  | .node m l ks, h => by
    rw [ids_node, List.nodup_cons] at h
    rw [PTree.instead, prune]
    cases ha : around n ks with
    | some x =>
      obtain ⟨t, ht, e, h1⟩ := around_split ha
      have hnd := h.2
      rw [e, idsAll_append, idsAll_cons] at hnd
      obtain ⟨n1, n2, n3⟩ := List.nodup_append.mp hnd
      obtain ⟨n4, n5, n6⟩ := List.nodup_append.mp n2
      have hin : n ∈ t.ids := ht ▸ id_mem t
      dsimp only
      rw [e, dropAll_append, dropAll, drop_id ht, dropAll_out _ (fun hc => n3 _ hc _ (List.mem_append_left _ hin) rfl),
        dropAll_out _ (fun hc => n6 _ hin _ hc rfl)]
      rfl
    | none =>
      dsimp only
      rw [insteadAll_drop ks h.2 (around_none.mp ha)]
theorem insteadAll_drop {n : Nat} : ∀ ts : List PTree, (idsAll ts).Nodup → n ∉ ts.map PTree.id → insteadAll n (fun a b => a ++ b) ts = dropAll n ts
  | [], _, _ => rfl
  | t :: ts, h, hn => by
    rw [idsAll_cons] at h
    obtain ⟨n1, n2, _⟩ := List.nodup_append.mp h
    rw [List.map_cons, List.mem_cons, not_or] at hn
    rw [insteadAll, dropAll, drop_ne (fun e => hn.1 e.symm), instead_drop t n1, insteadAll_drop ts n2 hn.2]; rfl
end

theorem prune_gentle (n : Nat) : Gentle (prune n) where
  text m ks := ⟨m, dropAll n ks, fun _ => rfl⟩
  other m l ks h := ⟨m, l, dropAll n ks, rfl, h⟩

theorem prune_side {n : Nat} {s : Bool} {M ks : List PTree} (hM : n ∉ idsAll M) (hk : n ∉ ks.map PTree.id) :
    (side s M ks).map (prune n) = side s M (dropAll n ks) := by
  rw [side_gentle (prune_gentle n), dropAll_tops ks hk, ← dropAll_tops M (fun h => hM (tops_mem h)), dropAll_out M hM]

theorem mergeLeft_tops {a b : List PTree} {n : Nat} (h : n ∉ a.map PTree.id) (h' : n ∉ b.map PTree.id) :
    n ∉ (mergeLeft a b).1.map PTree.id ∧ n ∉ (mergeLeft a b).2.map PTree.id := by
  rcases List.eq_nil_or_concat a with rfl | ⟨a, t, rfl⟩
  · exact ⟨h, h'⟩
  rw [List.concat_eq_append] at h ⊢
  cases b with
  | nil => rw [mergeLeft_none]; exact ⟨h, h'⟩
  | cons u b =>
    rcases isText_cases t with ⟨k, x, ks, rfl⟩ | ⟨k, l, ks, rfl, hl⟩
    · rcases isText_cases u with ⟨m, y, js, rfl⟩ | ⟨m, l, js, rfl, hl⟩
      · rw [mergeLeft_texts]
        rw [List.map_append, List.map_cons, List.map_nil] at h ⊢
        rw [List.map_cons, List.mem_cons, not_or] at h'
        exact ⟨h, h'.2⟩
      · rw [mergeLeft_other_new hl]; exact ⟨h, h'⟩
    · rw [mergeLeft_other_old hl]; exact ⟨h, h'⟩

theorem mergeRight_tops {a b : List PTree} {n : Nat} (h : n ∉ a.map PTree.id) (h' : n ∉ b.map PTree.id) :
    n ∉ (mergeRight a b).1.map PTree.id ∧ n ∉ (mergeRight a b).2.map PTree.id := by
  rcases List.eq_nil_or_concat a with rfl | ⟨a, t, rfl⟩
  · exact ⟨h, h'⟩
  rw [List.concat_eq_append] at h ⊢
  cases b with
  | nil => rw [mergeRight_none]; exact ⟨h, h'⟩
  | cons u b =>
    rcases isText_cases u with ⟨k, x, ks, rfl⟩ | ⟨k, l, ks, rfl, hl⟩
    · rcases isText_cases t with ⟨m, y, js, rfl⟩ | ⟨m, l, js, rfl, hl⟩
      · rw [mergeRight_texts]
        rw [List.map_append, List.mem_append, not_or] at h
        exact ⟨h.1, h'⟩
      · rw [mergeRight_other_new hl]; exact ⟨h, h'⟩
    · rw [mergeRight_other_old hl]; exact ⟨h, h'⟩

theorem side_tops {n : Nat} {s : Bool} {M ks : List PTree} (hM : n ∉ M.map PTree.id) (hk : n ∉ ks.map PTree.id) : n ∉ (side s M ks).map PTree.id := by
  have key : ∀ a b c : List PTree, n ∉ a.map PTree.id → n ∉ b.map PTree.id → n ∉ c.map PTree.id → n ∉ (between a b c).map PTree.id := by
    intro a b c ha hb hc
    obtain ⟨h1, h2⟩ := mergeLeft_tops ha hb
    obtain ⟨h3, h4⟩ := mergeRight_tops h2 hc
    rw [between, List.map_append, List.map_append, List.mem_append, List.mem_append]
    exact fun h => h.elim (fun h => h.elim h1 h3) h4
  unfold side
  cases s
  · exact key _ _ _ hk hM List.not_mem_nil
  · exact key _ _ _ List.not_mem_nil hM hk

section
variable {n p : Nat} {s : Bool} {M : List PTree}

mutual
/-- New children at `p`, and `n`, which is no child of `p`, taken out. -/
theorem drop_within (hM : n ∉ idsAll M) : ∀ t : PTree, (∀ l c, (p, l, c) ∈ t.rows → n ∉ c) →
    drop n (t.within p (side s M)) = withinAll p (side s M) (drop n t)
  | .node m l ks, h => by
    rw [PTree.within]
    by_cases e : m = n
    · rw [drop_id (n := n) (t := .node m l ks) e, drop_id (n := n) (t := .node m l _) e]; rfl
    · rw [drop_ne (n := n) (t := .node m l ks) e, drop_ne (n := n) (t := .node m l _) e, withinAll, withinAll, prune, prune, PTree.within]
      by_cases e' : m = p
      · have hk : n ∉ ks.map PTree.id := h l _ (by rw [PTree.rows, e']; exact .head _)
        rw [if_pos e', if_pos e', dropAll_tops _ (side_tops (fun hc => hM (tops_mem hc)) hk), prune_side hM hk]
      · rw [if_neg e', if_neg e', dropAll_within hM ks (fun l c hm => h l c (by rw [PTree.rows]; exact .tail _ hm))]
theorem dropAll_within (hM : n ∉ idsAll M) : ∀ ts : List PTree, (∀ l c, (p, l, c) ∈ rowsAll ts → n ∉ c) →
    dropAll n (withinAll p (side s M) ts) = withinAll p (side s M) (dropAll n ts)
  | [], _ => rfl
  | t :: ts, h => by
    rw [withinAll, dropAll, dropAll, drop_within hM t (fun l c hm => h l c (by rw [rowsAll]; exact List.mem_append_left _ hm)),
      dropAll_within hM ts (fun l c hm => h l c (by rw [rowsAll]; exact List.mem_append_right _ hm)), withinAll_map, withinAll_map, withinAll_map,
      List.map_append]
end

end
end Laws
end Flo
