import Verif.Props.Commute
/-!
# The laws of the attribute functions (C121)
-/
namespace Flo
namespace Spec

/-- The calls of a sequence of attribute functions, as operations of a session. -/
def attrCalls (os : List AttrOp) : List (Op × (Nat → Bool)) := os.map fun o => (.attr o, fun _ => true)

/-- Two attribute calls are about different attributes: about different keys, about different boolean attributes, or one about a key
and one about a boolean attribute; two calls that both add to the same list are not meant, because the order of the list is printed. -/
def AttrOp.Apart : AttrOp → AttrOp → Prop
  | .add _ _ _, .add _ _ _ | .addBool _ _, .addBool _ _ => False
  | .add _ k _, .set _ k' _ | .add _ k _, .remove _ k' | .set _ k _, .add _ k' _ | .remove _ k, .add _ k' _ => k ≠ k'
  | .set _ k _, .set _ k' _ | .set _ k _, .remove _ k' | .remove _ k, .set _ k' _ | .remove _ k, .remove _ k' => k ≠ k'
  | .addBool _ b, .removeBool _ b' | .removeBool _ b, .addBool _ b' => b ≠ b'
  | _, _ => True

end Spec
open Spec
namespace Laws

mutual
theorem relabel_congr {n : Nat} {f g : Label → Label} : ∀ t : PTree, (∀ l, (n, l) ∈ t.entries → f l = g l) → t.relabel n f = t.relabel n g
  | .node m l ks, h => by
    rw [PTree.relabel, PTree.relabel, relabelAll_congr ks (fun l' hl => h l' (by rw [PTree.entries]; exact .tail _ hl))]
    congr 1
    by_cases e : m = n
    · rw [if_pos e, if_pos e]; exact h l (by rw [PTree.entries, e]; exact .head _)
    · rw [if_neg e, if_neg e]
theorem relabelAll_congr {n : Nat} {f g : Label → Label} : ∀ ts : List PTree, (∀ l, (n, l) ∈ entriesAll ts → f l = g l) →
    relabelAll n f ts = relabelAll n g ts
  | [], _ => rfl
  | t :: ts, h => by
    rw [relabelAll, relabelAll, relabel_congr t (fun l hl => h l (by rw [entriesAll]; exact List.mem_append_left _ hl)),
      relabelAll_congr ts (fun l hl => h l (by rw [entriesAll]; exact List.mem_append_right _ hl))]
end

mutual
theorem relabel_comp {n : Nat} {f g : Label → Label} : ∀ t : PTree, (t.relabel n f).relabel n g = t.relabel n (fun l => g (f l))
  | .node m l ks => by
    rw [PTree.relabel, PTree.relabel, PTree.relabel, relabelAll_comp ks]
    congr 1
    by_cases e : m = n
    · rw [if_pos e, if_pos e, if_pos e]
    · rw [if_neg e, if_neg e, if_neg e]
theorem relabelAll_comp {n : Nat} {f g : Label → Label} : ∀ ts : List PTree, relabelAll n g (relabelAll n f ts) = relabelAll n (fun l => g (f l)) ts
  | [] => rfl
  | t :: ts => by rw [relabelAll, relabelAll, relabelAll, relabel_comp t, relabelAll_comp ts]
end

mutual
theorem relabel_noop {n : Nat} : ∀ t : PTree, t.relabel n (fun l => l) = t
  | .node m l ks => by rw [PTree.relabel, relabelAll_noop ks, ite_self]
theorem relabelAll_noop {n : Nat} : ∀ ts : List PTree, relabelAll n (fun l => l) ts = ts
  | [] => rfl
  | t :: ts => by rw [relabelAll, relabel_noop t, relabelAll_noop ts]
end

mutual
theorem relabel_entries {n : Nat} {f : Label → Label} : ∀ t : PTree, (t.relabel n f).entries.map Prod.fst = t.entries.map Prod.fst
  | .node m l ks => by rw [PTree.relabel, PTree.entries, PTree.entries, List.map_cons, List.map_cons, relabelAll_entries ks]
theorem relabelAll_entries {n : Nat} {f : Label → Label} : ∀ ts : List PTree,
    (entriesAll (relabelAll n f ts)).map Prod.fst = (entriesAll ts).map Prod.fst
  | [] => rfl
  | t :: ts => by rw [relabelAll, entriesAll, entriesAll, List.map_append, List.map_append, relabel_entries t, relabelAll_entries ts]
end

theorem allows {n : Nat} (os : List AttrOp) : ∀ (pg : Page) (_ : ∃ l, (n, l) ∈ pg.root.entries) (_ : ∀ o ∈ os, o.node = n),
    pg.AllowsAll (attrCalls os) := by
  induction os with
  | nil => intro pg _ _; trivial
  | cons o os ih =>
    intro pg hl ho
    have e := ho o (.head _)
    refine ⟨by rw [← e] at hl; exact hl, ih _ ?_ (fun o' h => ho o' (.tail _ h))⟩
    obtain ⟨l, hl⟩ := hl
    have : n ∈ (pg.root.relabel o.node (Label.attr o)).entries.map Prod.fst := by
      rw [relabel_entries]; exact List.mem_map.mpr ⟨_, hl, rfl⟩
    obtain ⟨⟨n', l'⟩, h1, h2⟩ := List.mem_map.mp this
    dsimp only at h2; subst h2
    exact ⟨l', h1⟩

theorem run_attrs {n : Nat} (os : List AttrOp) : ∀ (pg : Page) (_ : ∀ o ∈ os, o.node = n),
    pg.run (attrCalls os) = { pg with root := pg.root.relabel n (fun l => os.foldl (fun l o => l.attr o) l) } := by
  induction os with
  | nil => intro pg _; show pg = _; rw [show (fun l => List.foldl (fun l o => Label.attr o l) l []) = fun l : Label => l from rfl, relabel_noop]
  | cons o os ih =>
    intro pg ho
    show Page.run (attrCalls os) (pg.step _ (.attr o)) = _
    rw [ih _ (fun o' h => ho o' (.tail _ h))]
    show Page.mk (pg.next + 0) (pg.forms ++ []) ((pg.root.relabel o.node (Label.attr o)).relabel n _) = _
    rw [ho o (.head _), relabel_comp, Nat.add_zero, List.append_nil]
    rfl

theorem cost_attrs (os : List AttrOp) : ((attrCalls os).map fun o => o.1.cost).sum = (os.map attrCost).sum := by
  unfold attrCalls; rw [List.map_map]; rfl

/-- Two sequences of attribute calls for one node that have the same effect on the node's label have the same effect. -/
theorem same_effect {d : Dom} (h : Reachable d) {pg : Page} (hs : Shows d pg) {n : Nat} (hn : ∃ l, (n, l) ∈ pg.root.entries)
    (os os' : List AttrOp) (ho : ∀ o ∈ os, o.node = n) (ho' : ∀ o ∈ os', o.node = n)
    (he : ∀ l, (n, l) ∈ pg.root.entries → os.foldl (fun l o => l.attr o) l = os'.foldl (fun l o => l.attr o) l)
    (hr : Room d (os.map attrCost).sum) (hr' : Room d (os'.map attrCost).sum) :
    ∃ d1 d2 pg', runEach (attrCalls os) d = .ok d1 ∧ runEach (attrCalls os') d = .ok d2 ∧ Shows d1 pg' ∧ Shows d2 pg' ∧
      printHTML d1 = printHTML d2 := by
  obtain ⟨d1, e1, g1, s1, _⟩ := runEach_shows _ d h pg hs (allows os pg hn ho) 0 (by rw [cost_attrs]; exact hr)
  obtain ⟨d2, e2, g2, s2, _⟩ := runEach_shows _ d h pg hs (allows os' pg hn ho') 0 (by rw [cost_attrs]; exact hr')
  rw [run_attrs os pg ho] at s1
  rw [run_attrs os' pg ho', ← relabel_congr _ he] at s2
  exact ⟨d1, d2, _, e1, e2, s1, s2, by rw [(C95_print d1 g1 _ s1).1, (C95_print d2 g2 _ s2).1]⟩

/-- A sequence of attribute calls for one node that has no effect on the node's label has no effect. -/
theorem no_effect {d : Dom} (h : Reachable d) {pg : Page} (hs : Shows d pg) {n : Nat} (hn : ∃ l, (n, l) ∈ pg.root.entries)
    (os : List AttrOp) (ho : ∀ o ∈ os, o.node = n) (he : ∀ l, (n, l) ∈ pg.root.entries → os.foldl (fun l o => l.attr o) l = l)
    (hr : Room d (os.map attrCost).sum) :
    ∃ d1, runEach (attrCalls os) d = .ok d1 ∧ Shows d1 pg ∧ printHTML d1 = printHTML d := by
  obtain ⟨d1, e1, g1, s1, _⟩ := runEach_shows _ d h pg hs (allows os pg hn ho) 0 (by rw [cost_attrs]; exact hr)
  rw [run_attrs os pg ho, relabel_congr (g := fun l => l) _ he, relabel_noop] at s1
  exact ⟨d1, e1, s1, by rw [(C95_print d1 g1 _ s1).1, (C95_print d h _ hs).1]⟩

theorem label_unique {d : Dom} (h : Reachable d) {pg : Page} (hs : Shows d pg) {n : Nat} {l l' : Label} (h1 : (n, l) ∈ pg.root.entries)
    (h2 : (n, l') ∈ pg.root.entries) : l = l' := by
  have hnd : (pg.root.entries.map Prod.fst).Nodup := hs.nodup (reach_domI h).1
  revert h1 h2 hnd
  generalize pg.root.entries = es
  intro h1 h2 hnd
  induction es with
  | nil => cases h1
  | cons e es ih =>
    rw [List.map_cons, List.nodup_cons] at hnd
    rw [List.mem_cons] at h1 h2
    rcases h1 with h1 | h1 <;> rcases h2 with h2 | h2
    · exact congrArg Prod.snd (h1.trans h2.symm)
    · exact absurd (List.mem_map.mpr ⟨(n, l'), h2, (congrArg Prod.fst h1 : n = e.1)⟩) hnd.1
    · exact absurd (List.mem_map.mpr ⟨(n, l), h1, (congrArg Prod.fst h2 : n = e.1)⟩) hnd.1
    · exact ih h1 h2 hnd.2

theorem setFirst_setFirst (k v w : Str) : ∀ l, setFirst k w (setFirst k v l) = setFirst k w l
  | [] => rfl
  | (a, b) :: l => by
    simp only [setFirst]
    by_cases e : a = k
    · rw [if_pos e, if_pos e, setFirst, if_pos e]
    · rw [if_neg e, if_neg e, setFirst, if_neg e, setFirst_setFirst k v w l]

theorem removeFirst_setFirst (k v : Str) : ∀ l, removeFirst k (setFirst k v l) = removeFirst k l
  | [] => rfl
  | (a, b) :: l => by
    simp only [setFirst, removeFirst]
    by_cases e : a = k
    · rw [if_pos e, if_pos e, removeFirst, if_pos e]
    · rw [if_neg e, if_neg e, removeFirst, if_neg e, removeFirst_setFirst k v l]

theorem setFirst_comm {k k' : Str} (hk : k ≠ k') (v w : Str) : ∀ l, setFirst k' w (setFirst k v l) = setFirst k v (setFirst k' w l)
  | [] => rfl
  | (a, b) :: l => by
    simp only [setFirst]
    by_cases e : a = k
    · have e' : a ≠ k' := fun x => hk (e.symm.trans x)
      rw [if_pos e, if_neg e', setFirst, if_neg e', setFirst, if_pos e]
    · by_cases e' : a = k'
      · rw [if_neg e, if_pos e', setFirst, if_pos e', setFirst, if_neg e]
      · rw [if_neg e, if_neg e', setFirst, if_neg e', setFirst, if_neg e, setFirst_comm hk v w l]

theorem removeFirst_comm {k k' : Str} (hk : k ≠ k') : ∀ l, removeFirst k' (removeFirst k l) = removeFirst k (removeFirst k' l)
  | [] => rfl
  | (a, b) :: l => by
    simp only [removeFirst]
    by_cases e : a = k
    · have e' : a ≠ k' := fun x => hk (e.symm.trans x)
      rw [if_pos e, if_neg e', removeFirst, if_pos e]
    · by_cases e' : a = k'
      · rw [if_neg e, if_pos e', removeFirst, if_pos e']
      · rw [if_neg e, if_neg e', removeFirst, if_neg e', removeFirst, if_neg e, removeFirst_comm hk l]

theorem set_remove_comm {k k' : Str} (hk : k ≠ k') (v : Str) : ∀ l, removeFirst k' (setFirst k v l) = setFirst k v (removeFirst k' l)
  | [] => rfl
  | (a, b) :: l => by
    simp only [setFirst, removeFirst]
    by_cases e : a = k
    · have e' : a ≠ k' := fun x => hk (e.symm.trans x)
      rw [if_pos e, if_neg e', removeFirst, if_neg e', setFirst, if_pos e]
    · by_cases e' : a = k'
      · rw [if_neg e, if_pos e', removeFirst, if_pos e']
      · rw [if_neg e, if_neg e', removeFirst, if_neg e', setFirst, if_neg e, set_remove_comm hk v l]

theorem setFirst_add {k k' : Str} (hk : k ≠ k') (v w : Str) : ∀ l, setFirst k' w (l ++ [(k, v)]) = setFirst k' w l ++ [(k, v)]
  | [] => by simp [setFirst, hk]
  | (a, b) :: l => by
    simp only [List.cons_append, setFirst]
    by_cases e : a = k'
    · rw [if_pos e, if_pos e]; rfl
    · rw [if_neg e, if_neg e, setFirst_add hk v w l]; rfl

theorem removeFirst_add {k k' : Str} (hk : k ≠ k') (v : Str) : ∀ l, removeFirst k' (l ++ [(k, v)]) = removeFirst k' l ++ [(k, v)]
  | [] => by simp [removeFirst, hk]
  | (a, b) :: l => by
    simp only [List.cons_append, removeFirst]
    by_cases e : a = k'
    · rw [if_pos e, if_pos e]
    · rw [if_neg e, if_neg e, removeFirst_add hk v l]; rfl

theorem removeFirst_new (k v : Str) : ∀ l : List (Str × Str), (∀ w, (k, w) ∉ l) → removeFirst k (l ++ [(k, v)]) = l
  | [], _ => by simp [removeFirst]
  | (a, b) :: l, h => by
    simp only [List.cons_append, removeFirst]
    rw [if_neg (fun e => h b (by rw [← e]; exact .head _)), removeFirst_new k v l (fun w hw => h w (.tail _ hw))]

theorem setFirst_new (k v w : Str) : ∀ l : List (Str × Str), (∀ w, (k, w) ∉ l) → setFirst k w (l ++ [(k, v)]) = l ++ [(k, w)]
  | [], _ => by simp [setFirst]
  | (a, b) :: l, h => by
    simp only [List.cons_append, setFirst]
    rw [if_neg (fun e => h b (by rw [← e]; exact .head _)), setFirst_new k v w l (fun w hw => h w (.tail _ hw))]

theorem setFirst_absent (k v : Str) : ∀ l : List (Str × Str), (∀ w, (k, w) ∉ l) → setFirst k v l = l
  | [], _ => rfl
  | (a, b) :: l, h => by
    rw [setFirst, if_neg (fun e => h b (by rw [← e]; exact .head _)), setFirst_absent k v l (fun w hw => h w (.tail _ hw))]

theorem removeFirst_absent (k : Str) : ∀ l : List (Str × Str), (∀ w, (k, w) ∉ l) → removeFirst k l = l
  | [], _ => rfl
  | (a, b) :: l, h => by
    rw [removeFirst, if_neg (fun e => h b (by rw [← e]; exact .head _)), removeFirst_absent k l (fun w hw => h w (.tail _ hw))]

theorem setFirst_same (k : Str) : ∀ l : List (Str × Str), ∀ v, lookup k l = some v → setFirst k v l = l
  | [], _, h => by cases h
  | (a, b) :: l, v, h => by
    rw [lookup] at h
    rw [setFirst]
    split at h
    · next e => cases h; rw [if_pos e]
    · next e => rw [if_neg e, setFirst_same k l v h]

theorem erase_add {b b' : Str} (hb : b ≠ b') (l : List Str) : (l ++ [b]).erase b' = l.erase b' ++ [b] := by
  by_cases h : b' ∈ l
  · rw [List.erase_append_left _ h]
  · rw [List.erase_append_right _ h, List.erase_of_not_mem h, List.erase_of_not_mem]
    simp [Ne.symm hb]

theorem apart_comm {o o' : AttrOp} (h : o.Apart o') (l : Label) : (l.attr o).attr o' = (l.attr o').attr o := by
  cases l with
  | text r => rfl
  | root => rfl
  | elem tag ps bs =>
    cases o <;> cases o' <;> simp only [AttrOp.Apart] at h <;> simp only [Label.attr]
    case add.set n k v n' k' v' => rw [setFirst_add h]
    case add.remove n k v n' k' => rw [removeFirst_add h]
    case addBool.removeBool => rw [erase_add h]
    case set.add => rw [setFirst_add h.symm]
    case set.set => rw [setFirst_comm h]
    case set.remove => rw [set_remove_comm h]
    case remove.add => rw [removeFirst_add h.symm]
    case remove.set => rw [set_remove_comm h.symm]
    case remove.remove => rw [removeFirst_comm h]
    case removeBool.addBool => rw [erase_add h.symm]
    case removeBool.removeBool => rw [List.erase_comm]

end Laws

/-- The last write wins: setting an attribute's value twice has the effect of the second call alone; setting it and removing it has the
effect of removing it alone. -/
theorem C121_last_write (d : Dom) (h : Reachable d) (pg : Page) (hs : Shows d pg) (n : Nat) (hn : ∃ l, (n, l) ∈ pg.root.entries)
    (k v w : Str) (hr : Room d 2) :
    (∃ d1 d2 pg', runEach (attrCalls [.set n k v, .set n k w]) d = .ok d1 ∧ runEach (attrCalls [.set n k w]) d = .ok d2 ∧
      Shows d1 pg' ∧ Shows d2 pg' ∧ printHTML d1 = printHTML d2) ∧
    ∃ d1 d2 pg', runEach (attrCalls [.set n k v, .remove n k]) d = .ok d1 ∧ runEach (attrCalls [.remove n k]) d = .ok d2 ∧
      Shows d1 pg' ∧ Shows d2 pg' ∧ printHTML d1 = printHTML d2 := by
  constructor
  · refine Laws.same_effect h hs hn _ _ ?_ ?_ ?_ hr (hr.le (by simp [attrCost]))
    · intro o ho; simp only [List.mem_cons, List.not_mem_nil, or_false] at ho; rcases ho with rfl | rfl <;> rfl
    · intro o ho; simp only [List.mem_cons, List.not_mem_nil, or_false] at ho; subst ho; rfl
    · intro l _
      cases l with
      | elem tag ps bs => simp only [List.foldl, Label.attr, Laws.setFirst_setFirst]
      | text r => rfl
      | root => rfl
  · refine Laws.same_effect h hs hn _ _ ?_ ?_ ?_ (hr.le (by simp [attrCost])) (hr.le (by simp [attrCost]))
    · intro o ho; simp only [List.mem_cons, List.not_mem_nil, or_false] at ho; rcases ho with rfl | rfl <;> rfl
    · intro o ho; simp only [List.mem_cons, List.not_mem_nil, or_false] at ho; subst ho; rfl
    · intro l _
      cases l with
      | elem tag ps bs => simp only [List.foldl, Label.attr, Laws.removeFirst_setFirst]
      | text r => rfl
      | root => rfl

/-- Attribute calls for the same node that are about different attributes can be exchanged. -/
theorem C121_apart (d : Dom) (h : Reachable d) (pg : Page) (hs : Shows d pg) (n : Nat) (hn : ∃ l, (n, l) ∈ pg.root.entries)
    (o o' : AttrOp) (ho : o.node = n) (ho' : o'.node = n) (ha : o.Apart o') (hr : Room d 2) :
    ∃ d1 d2 pg', runEach (attrCalls [o, o']) d = .ok d1 ∧ runEach (attrCalls [o', o]) d = .ok d2 ∧
      Shows d1 pg' ∧ Shows d2 pg' ∧ printHTML d1 = printHTML d2 := by
  have hc : ∀ o : AttrOp, attrCost o ≤ 1 := fun o => by cases o <;> simp [attrCost]
  refine Laws.same_effect h hs hn _ _ ?_ ?_ (fun l _ => Laws.apart_comm ha l) (hr.le ?_) (hr.le ?_)
  · intro x hx; simp only [List.mem_cons, List.not_mem_nil, or_false] at hx; rcases hx with rfl | rfl <;> assumption
  · intro x hx; simp only [List.mem_cons, List.not_mem_nil, or_false] at hx; rcases hx with rfl | rfl <;> assumption
  · have := hc o; have := hc o'; simp only [List.map_cons, List.map_nil, List.sum_cons, List.sum_nil]; omega
  · have := hc o; have := hc o'; simp only [List.map_cons, List.map_nil, List.sum_cons, List.sum_nil]; omega

/-- On an element that has no attribute with this key: adding the attribute and removing it again changes nothing; adding it and
setting its value has the effect of adding it with that value; setting and removing change nothing. -/
theorem C121_new_key (d : Dom) (h : Reachable d) (pg : Page) (hs : Shows d pg) (n : Nat) (tag : Str) (ps : List (Str × Str))
    (bs : List Str) (hn : (n, .elem tag ps bs) ∈ pg.root.entries) (k v w : Str) (hk : ∀ u, (k, u) ∉ ps) (hr : Room d 2) :
    (∃ d1, runEach (attrCalls [.add n k v, .remove n k]) d = .ok d1 ∧ Shows d1 pg ∧ printHTML d1 = printHTML d) ∧
    (∃ d1 d2 pg', runEach (attrCalls [.add n k v, .set n k w]) d = .ok d1 ∧ runEach (attrCalls [.add n k w]) d = .ok d2 ∧
      Shows d1 pg' ∧ Shows d2 pg' ∧ printHTML d1 = printHTML d2) ∧
    (∃ d1, runEach (attrCalls [.set n k v]) d = .ok d1 ∧ Shows d1 pg ∧ printHTML d1 = printHTML d) ∧
    ∃ d1, runEach (attrCalls [.remove n k]) d = .ok d1 ∧ Shows d1 pg ∧ printHTML d1 = printHTML d := by
  have hun : ∀ l, (n, l) ∈ pg.root.entries → l = .elem tag ps bs := fun l hl => Laws.label_unique h hs hl hn
  have hat : ∃ l, (n, l) ∈ pg.root.entries := ⟨_, hn⟩
  have h2 : ∀ a b : AttrOp, a.node = n → b.node = n → ∀ o ∈ [a, b], o.node = n := fun a b ha hb o ho => by
    simp only [List.mem_cons, List.not_mem_nil, or_false] at ho; rcases ho with rfl | rfl <;> assumption
  have h1 : ∀ a : AttrOp, a.node = n → ∀ o ∈ [a], o.node = n := fun a ha o ho => by
    simp only [List.mem_cons, List.not_mem_nil, or_false] at ho; rw [ho]; exact ha
  refine ⟨Laws.no_effect h hs hat _ (h2 _ _ rfl rfl) (fun l hl => ?_) (hr.le (by simp [attrCost])),
    Laws.same_effect h hs hat _ _ (h2 _ _ rfl rfl) (h1 _ rfl) (fun l hl => ?_) hr (hr.le (by simp [attrCost])),
    Laws.no_effect h hs hat _ (h1 _ rfl) (fun l hl => ?_) (hr.le (by simp [attrCost])),
    Laws.no_effect h hs hat _ (h1 _ rfl) (fun l hl => ?_) (hr.le (by simp [attrCost]))⟩
  · rw [hun l hl]; simp only [List.foldl, Label.attr, Laws.removeFirst_new k v ps hk]
  · rw [hun l hl]; simp only [List.foldl, Label.attr, Laws.setFirst_new k v w ps hk]
  · rw [hun l hl]; simp only [List.foldl, Label.attr, Laws.setFirst_absent k v ps hk]
  · rw [hun l hl]; simp only [List.foldl, Label.attr, Laws.removeFirst_absent k ps hk]

/-- On an element that has the attribute with this value (the first one with the key): setting the value again changes nothing.  A
boolean attribute an element does not have, added and removed, leaves no trace, and removing one it does not have does nothing. -/
theorem C121_no_change (d : Dom) (h : Reachable d) (pg : Page) (hs : Shows d pg) (n : Nat) (tag : Str) (ps : List (Str × Str))
    (bs : List Str) (hn : (n, .elem tag ps bs) ∈ pg.root.entries) (hr : Room d 1) :
    (∀ k v, lookup k ps = some v → ∃ d1, runEach (attrCalls [.set n k v]) d = .ok d1 ∧ Shows d1 pg ∧ printHTML d1 = printHTML d) ∧
    ∀ b, b ∉ bs → (∃ d1, runEach (attrCalls [.addBool n b, .removeBool n b]) d = .ok d1 ∧ Shows d1 pg ∧ printHTML d1 = printHTML d) ∧
      ∃ d1, runEach (attrCalls [.removeBool n b]) d = .ok d1 ∧ Shows d1 pg ∧ printHTML d1 = printHTML d := by
  have hun : ∀ l, (n, l) ∈ pg.root.entries → l = .elem tag ps bs := fun l hl => Laws.label_unique h hs hl hn
  have hat : ∃ l, (n, l) ∈ pg.root.entries := ⟨_, hn⟩
  have h2 : ∀ a b : AttrOp, a.node = n → b.node = n → ∀ o ∈ [a, b], o.node = n := fun a b ha hb o ho => by
    simp only [List.mem_cons, List.not_mem_nil, or_false] at ho; rcases ho with rfl | rfl <;> assumption
  have h1 : ∀ a : AttrOp, a.node = n → ∀ o ∈ [a], o.node = n := fun a ha o ho => by
    simp only [List.mem_cons, List.not_mem_nil, or_false] at ho; rw [ho]; exact ha
  refine ⟨fun k v hk => Laws.no_effect h hs hat _ (h1 _ rfl) (fun l hl => ?_) hr, fun b hb =>
    ⟨Laws.no_effect h hs hat _ (h2 _ _ rfl rfl) (fun l hl => ?_) hr, Laws.no_effect h hs hat _ (h1 _ rfl) (fun l hl => ?_) (hr.le (by simp [attrCost]))⟩⟩
  · rw [hun l hl]; simp only [List.foldl, Label.attr, Laws.setFirst_same k ps v hk]
  · rw [hun l hl]; simp only [List.foldl, Label.attr]
    rw [List.erase_append_right _ hb, List.erase_cons_head, List.append_nil]
  · rw [hun l hl]; simp only [List.foldl, Label.attr, List.erase_of_not_mem hb]

/-! ## Concrete cases -/

/-- A document whose element 2 has an attribute and a boolean attribute. -/
example : ∃ d, createDom b!"<p a=\"1\" c>t</p>" = .ok (some d) ∧ Reachable d ∧ Shows d (Page.load b!"<p a=\"1\" c>t</p>") ∧
    (2, .elem b!"p" [(b!"a", b!"1")] [b!"c"]) ∈ (Page.load b!"<p a=\"1\" c>t</p>").root.entries ∧ (∀ u, (b!"k", u) ∉ [(b!"a", b!"1")]) ∧
    lookup b!"a" [(b!"a", b!"1")] = some b!"1" ∧ b!"d" ∉ [b!"c"] ∧ Room d 2 := by
  have hc := C93_every_input b!"<p a=\"1\" c>t</p>" (by decide)
  have ho : ∃ ts, outcome b!"<p a=\"1\" c>t</p>" = .document ts := ⟨_, rfl⟩
  obtain ⟨ts, ho⟩ := ho
  rw [ho] at hc
  obtain ⟨d, hd, _⟩ := hc
  exact ⟨d, hd, .parsed hd, C95_load _ d hd, .tail _ (.head _), (fun u hu => by simp at hu), rfl, (by decide),
    (createDom_room (k := 2) (by decide)).elim hd d rfl⟩

example : AttrOp.Apart (.set 2 b!"a" b!"2") (.remove 2 b!"b") ∧ AttrOp.Apart (.add 2 b!"a" b!"2") (.addBool 2 b!"a") ∧
    ¬ AttrOp.Apart (.set 2 b!"a" b!"2") (.remove 2 b!"a") := ⟨(by simp [AttrOp.Apart]), trivial, (by simp [AttrOp.Apart])⟩

end Flo
