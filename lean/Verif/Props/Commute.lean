import Verif.Proofs.Undo
/-!
# Attribute edits are independent of all other edits (C97)
-/
namespace Flo
open Spec

section
variable {n : Nat} {f : Label → Label}

theorem relabel_same (t : PTree) : (t.relabel n f).id = t.id := (passes_relabel n f True).id t

theorem relabel_node (m : Nat) (l : Label) (ks : List PTree) : (PTree.node m l ks).relabel n f = .node m (if m = n then f l else l) (ks.map (PTree.relabel n f)) := by
  rw [PTree.relabel, relabelAll_map]

theorem around_map (k : Nat) : ∀ ks : List PTree,
    around k (ks.map (PTree.relabel n f)) = (around k ks).map fun x => (x.1.map (PTree.relabel n f), x.2.map (PTree.relabel n f))
  | [] => rfl
  | t :: ts => by
    rw [List.map_cons, around, around, relabel_same]
    split
    · rfl
    · rw [around_map k ts]
      cases around k ts <;> rfl

/-- The change keeps texts as they are, and makes no texts. -/
structure KeepsTexts (f : Label → Label) : Prop where
  text : ∀ s, f (.text s) = .text s
  only : ∀ l s, f l = .text s → l = .text s

theorem relabel_text (hf : KeepsTexts f) (k : Nat) (s : Str) (ks : List PTree) :
    (PTree.node k (.text s) ks).relabel n f = .node k (.text s) (ks.map (PTree.relabel n f)) := by
  rw [relabel_node, hf.text]; split <;> rfl

theorem relabel_of_text (hf : KeepsTexts f) {t : PTree} {k : Nat} {s : Str} {ks : List PTree}
    (h : t.relabel n f = .node k (.text s) ks) : ∃ js, t = .node k (.text s) js := by
  cases t with
  | node m l js =>
    rw [relabel_node] at h
    injection h with h1 h2 h3
    subst h1
    refine ⟨js, ?_⟩
    congr 1
    split at h2
    · exact hf.only l s h2
    · exact h2

theorem mergeLeft_relabel (hf : KeepsTexts f) (a new : List PTree) :
    mergeLeft (a.map (PTree.relabel n f)) (new.map (PTree.relabel n f)) =
      ((mergeLeft a new).1.map (PTree.relabel n f), (mergeLeft a new).2.map (PTree.relabel n f)) := by
  by_cases h : ∃ A k s ks j b js X, a = A ++ [.node k (.text s) ks] ∧ new = .node j (.text b) js :: X
  · obtain ⟨A, k, s, ks, j, b, js, X, rfl, rfl⟩ := h
    rw [mergeLeft_merge, List.map_append, List.map_cons, List.map_cons, List.map_nil, relabel_text hf, relabel_text hf, mergeLeft_merge]
    simp only [List.map_append, List.map_cons, List.map_nil, relabel_text hf]
  · rw [mergeLeft_keep, mergeLeft_keep]
    · intro A k s ks j b js X e1 e2
      exact h ⟨A, k, s, ks, j, b, js, X, e1, e2⟩
    · intro A k s ks j b js X e1 e2
      rw [List.map_eq_append_iff] at e1
      obtain ⟨A', B', rfl, rfl, e4⟩ := e1
      rw [List.map_eq_cons_iff] at e2
      obtain ⟨t, X', rfl, e5, rfl⟩ := e2
      obtain ⟨js', rfl⟩ := relabel_of_text hf e5
      rw [List.map_eq_cons_iff] at e4
      obtain ⟨t', nil', rfl, e6, e7⟩ := e4
      obtain ⟨ks', rfl⟩ := relabel_of_text hf e6
      rw [List.map_eq_nil_iff] at e7
      subst e7
      exact h ⟨_, _, _, _, _, _, _, _, rfl, rfl⟩

theorem mergeRight_relabel (hf : KeepsTexts f) (new b : List PTree) :
    mergeRight (new.map (PTree.relabel n f)) (b.map (PTree.relabel n f)) =
      ((mergeRight new b).1.map (PTree.relabel n f), (mergeRight new b).2.map (PTree.relabel n f)) := by
  by_cases h : ∃ B k s ks j t js X, b = .node k (.text s) ks :: B ∧ new = X ++ [.node j (.text t) js]
  · obtain ⟨B, k, s, ks, j, t, js, X, rfl, rfl⟩ := h
    rw [mergeRight_merge, List.map_append, List.map_cons, List.map_cons, List.map_nil, relabel_text hf, relabel_text hf, mergeRight_merge]
    simp only [List.map_cons, relabel_text hf]
  · rw [mergeRight_keep, mergeRight_keep]
    · intro B k s ks j t js X e1 e2
      exact h ⟨B, k, s, ks, j, t, js, X, e1, e2⟩
    · intro B k s ks j t js X e1 e2
      rw [List.map_eq_append_iff] at e2
      obtain ⟨A', B', rfl, rfl, e4⟩ := e2
      rw [List.map_eq_cons_iff] at e1
      obtain ⟨u, X', rfl, e5, rfl⟩ := e1
      obtain ⟨js', rfl⟩ := relabel_of_text hf e5
      rw [List.map_eq_cons_iff] at e4
      obtain ⟨t', nil', rfl, e6, e7⟩ := e4
      obtain ⟨ks', rfl⟩ := relabel_of_text hf e6
      rw [List.map_eq_nil_iff] at e7
      subst e7
      exact h ⟨_, _, _, _, _, _, _, _, rfl, rfl⟩

theorem between_relabel (hf : KeepsTexts f) (a new b : List PTree) :
    between (a.map (PTree.relabel n f)) (new.map (PTree.relabel n f)) (b.map (PTree.relabel n f)) = (between a new b).map (PTree.relabel n f) := by
  unfold between
  rw [mergeLeft_relabel hf]
  dsimp only
  rw [mergeRight_relabel hf]
  simp only [List.map_append]

mutual
theorem within_relabel {p : Nat} {g : List PTree → List PTree} (hg : ∀ ks, g (ks.map (PTree.relabel n f)) = (g ks).map (PTree.relabel n f)) :
    ∀ t : PTree, (t.relabel n f).within p g = (t.within p g).relabel n f
  | .node m l ks => by
    rw [relabel_node, PTree.within, PTree.within, relabel_node]
    by_cases e : m = p
    · rw [if_pos e, if_pos e, hg]
    · rw [if_neg e, if_neg e, withinAll_relabel hg ks]
theorem withinAll_relabel {p : Nat} {g : List PTree → List PTree} (hg : ∀ ks, g (ks.map (PTree.relabel n f)) = (g ks).map (PTree.relabel n f)) :
    ∀ ts : List PTree, withinAll p g (ts.map (PTree.relabel n f)) = (withinAll p g ts).map (PTree.relabel n f)
  | [] => rfl
  | t :: ts => by rw [List.map_cons, withinAll, withinAll, List.map_cons, within_relabel hg t, withinAll_relabel hg ts]
end

mutual
theorem instead_relabel {k : Nat} {g : List PTree → List PTree → List PTree}
    (hg : ∀ a b, g (a.map (PTree.relabel n f)) (b.map (PTree.relabel n f)) = (g a b).map (PTree.relabel n f)) :
    ∀ t : PTree, (t.relabel n f).instead k g = (t.instead k g).relabel n f
  | .node m l ks => by
    rw [relabel_node, PTree.instead, PTree.instead, relabel_node, around_map]
    cases ha : around k ks with
    | some x => dsimp only [Option.map]; rw [hg]
    | none => dsimp only [Option.map]; rw [insteadAll_relabel hg ks]
theorem insteadAll_relabel {k : Nat} {g : List PTree → List PTree → List PTree}
    (hg : ∀ a b, g (a.map (PTree.relabel n f)) (b.map (PTree.relabel n f)) = (g a b).map (PTree.relabel n f)) :
    ∀ ts : List PTree, insteadAll k g (ts.map (PTree.relabel n f)) = (insteadAll k g ts).map (PTree.relabel n f)
  | [] => rfl
  | t :: ts => by rw [List.map_cons, insteadAll, insteadAll, List.map_cons, instead_relabel hg t, insteadAll_relabel hg ts]
end

mutual
theorem relabel_relabel {k : Nat} {g : Label → Label} (hc : k = n → ∀ l, g (f l) = f (g l)) :
    ∀ t : PTree, (t.relabel n f).relabel k g = (t.relabel k g).relabel n f
  | .node m l ks => by
    rw [relabel_node, relabel_node, relabel_node, relabel_node, ← relabelAll_map, ← relabelAll_map, ← relabelAll_map, ← relabelAll_map,
      relabelAll_relabel hc ks]
    congr 1
    by_cases h1 : m = n
    · by_cases h2 : m = k
      · rw [if_pos h1, if_pos h2, if_pos h2, if_pos h1, hc (h2.symm.trans h1)]
      · rw [if_pos h1, if_neg h2, if_neg h2, if_pos h1]
    · by_cases h2 : m = k
      · rw [if_neg h1, if_pos h2, if_neg h1]
      · rw [if_neg h1, if_neg h2, if_neg h1]
theorem relabelAll_relabel {k : Nat} {g : Label → Label} (hc : k = n → ∀ l, g (f l) = f (g l)) :
    ∀ ts : List PTree, relabelAll k g (relabelAll n f ts) = relabelAll n f (relabelAll k g ts)
  | [] => rfl
  | t :: ts => by rw [relabelAll, relabelAll, relabelAll, relabelAll, relabel_relabel hc t, relabelAll_relabel hc ts]
end

end

theorem keepsTexts_attr (op : AttrOp) : KeepsTexts (Label.attr op) where
  text s := rfl
  only l s h := by
    cases l with
    | elem tag ps bs => cases op <;> cases h
    | text r => exact h
    | root => exact h

theorem on_attr (o : AttrOp) (op : Op) (new : List PTree) (hn : o.node ∉ idsAll new) (hne : ∀ o', op = .attr o' → o'.node ≠ o.node) (t : PTree) :
    op.on new (t.relabel o.node (Label.attr o)) = (op.on new t).relabel o.node (Label.attr o) := by
  have hf := keepsTexts_attr o
  have hnew : new.map (PTree.relabel o.node (Label.attr o)) = new := by rw [← relabelAll_map]; exact relabelAll_out new hn
  have hap : ∀ a b, between (a.map (PTree.relabel o.node (Label.attr o))) new (b.map (PTree.relabel o.node (Label.attr o))) =
      (between a new b).map (PTree.relabel o.node (Label.attr o)) := fun a b => by
    rw [← between_relabel hf, hnew]
  cases op <;> simp only [Op.on]
  case attr o' => exact relabel_relabel (fun e => absurd e (hne o' rfl)) t
  case addText k s e =>
    refine relabel_relabel (fun _ l => ?_) t
    cases l with
    | elem tag ps bs => cases o <;> rfl
    | text r => rfl
    | root => rfl
  case setTag s k c =>
    refine relabel_relabel (fun _ l => ?_) t
    cases l with
    | elem tag ps bs => cases o <;> rfl
    | text r => rfl
    | root => rfl
  case setText k s => exact within_relabel (fun ks => hnew.symm) t
  case removeChildren k => exact within_relabel (g := fun _ => []) (fun ks => rfl) t
  case removeNode k => exact instead_relabel (fun a b => (List.map_append ..).symm) t
  case appendDoc => exact within_relabel (fun ks => hap ks []) t
  case appendText => exact within_relabel (fun ks => hap ks []) t
  case appendHTML => exact within_relabel (fun ks => hap ks []) t
  case prependDoc => exact within_relabel (fun ks => hap [] ks) t
  case prependText => exact within_relabel (fun ks => hap [] ks) t
  case prependHTML => exact within_relabel (fun ks => hap [] ks) t
  case replaceDoc => exact instead_relabel (fun a b => hap a b) t
  case replaceText => exact instead_relabel (fun a b => hap a b) t
  case replaceHTML => exact instead_relabel (fun a b => hap a b) t

mutual
theorem number_ids : ∀ (t : Tree) (k n : Nat), n ∈ (t.number k).ids → k ≤ n
  | .text raw, k, n, h => by
    rw [Tree.number, ids_node, idsAll_nil, List.mem_singleton] at h; omega
  | .elem tag ps bs ts, k, n, h => by
    rw [Tree.number, ids_node, List.mem_cons] at h
    rcases h with h | h
    · omega
    · have := numberAll_ids ts (k + 1) n h; omega
theorem numberAll_ids : ∀ (ts : List Tree) (k n : Nat), n ∈ idsAll (numberAll k ts) → k ≤ n
  | [], k, n, h => by cases h
  | t :: ts, k, n, h => by
    rw [numberAll, idsAll_cons, List.mem_append] at h
    rcases h with h | h
    · exact number_ids t k n h
    · have := numberAll_ids ts _ n h; omega
end

/-- Attribute calls are independent of all other edits: an attribute call and any other editing call (not an attribute call for the
same node), in either order, lead to the same page, if both are in order either way.  The printed text is the same. -/
theorem C97_attributes_commute (d : Dom) (h : Reachable d) (pg : Page) (hs : Shows d pg) (o : AttrOp) (op : Op) (answer : Nat → Bool)
    (hne : ∀ o', op = .attr o' → o'.node ≠ o.node)
    (h1 : pg.AllowsAll [(.attr o, answer), (op, answer)]) (h2 : pg.AllowsAll [(op, answer), (.attr o, answer)])
    (hr : Room d (attrCost o + op.cost)) :
    ∃ d1 d2 pg', runEach [(.attr o, answer), (op, answer)] d = .ok d1 ∧ runEach [(op, answer), (.attr o, answer)] d = .ok d2 ∧
      Shows d1 pg' ∧ Shows d2 pg' ∧ printHTML d1 = printHTML d2 := by
  have hi := (reach_domI h).1
  obtain ⟨l, hl⟩ := h1.1
  have hn : o.node < pg.next := by rw [← hs.next]; exact (hs.entry hi hl).2.2
  obtain ⟨d1, e1, g1, s1, _⟩ := runEach_shows _ d h pg hs h1 0 (hr.le (by simp [Op.cost]))
  obtain ⟨d2, e2, g2, s2, _⟩ := runEach_shows _ d h pg hs h2 0 (hr.le (by simp [Op.cost]; omega))
  have he : pg.run [(.attr o, answer), (op, answer)] = pg.run [(op, answer), (.attr o, answer)] := by
    have hroot := on_attr o op (numberAll pg.next (op.brings answer)) (fun hc => by have := numberAll_ids _ _ _ hc; omega) hne pg.root
    show Page.mk _ _ (op.on (numberAll (pg.next + 0) (op.brings answer)) (pg.root.relabel o.node (Label.attr o))) =
      Page.mk _ _ ((op.on (numberAll pg.next (op.brings answer)) pg.root).relabel o.node (Label.attr o))
    rw [Nat.add_zero, hroot]
    congr 1
    show (pg.forms ++ []) ++ op.names answer = (pg.forms ++ op.names answer) ++ []
    rw [List.append_nil, List.append_nil]
  rw [← he] at s2
  exact ⟨d1, d2, _, e1, e2, s1, s2, by rw [(C95_print d1 g1 _ s1).1, (C95_print d2 g2 _ s2).1]⟩

/-! ## A concrete case -/

example : (Page.load b!"<p>a</p>b").AllowsAll [(.attr (.add 2 b!"k" b!"v"), fun _ => true), (.appendHTML 2 b!"c<i>x</i>", fun _ => true)] ∧
    (Page.load b!"<p>a</p>b").AllowsAll [(.appendHTML 2 b!"c<i>x</i>", fun _ => true), (.attr (.add 2 b!"k" b!"v"), fun _ => true)] :=
  ⟨⟨⟨.elem b!"p" [] [], .tail _ (.head _)⟩, ⟨⟨.elem b!"p" [(b!"k", b!"v")] [], .tail _ (.head _), rfl⟩, _, rfl, List.cons_ne_nil _ _⟩, trivial⟩,
    ⟨⟨⟨.elem b!"p" [] [], .tail _ (.head _), rfl⟩, _, rfl, List.cons_ne_nil _ _⟩, ⟨.elem b!"p" [] [], .tail _ (.head _)⟩, trivial⟩⟩

end Flo
