import Verif.Proofs.EditRemove
/-!
# Removals in either order (C132)
-/
namespace Flo
open Spec
namespace Laws

theorem prune_comm (n m : Nat) (t : PTree) : prune m (prune n t) = prune n (prune m t) := by
  obtain ⟨k, l, ks⟩ := t
  rw [prune, prune, prune, prune, dropAll_comm]

theorem prune_within {n p : Nat} {s : Bool} {M : List PTree} (hM : n ∉ idsAll M) (t : PTree) (h : ∀ l c, (p, l, c) ∈ t.rows → n ∉ c) :
    prune n (t.within p (side s M)) = (prune n t).within p (side s M) := by
  obtain ⟨m, l, ks⟩ := t
  rw [PTree.within, prune, prune, PTree.within]
  by_cases e : m = p
  · have hk : n ∉ ks.map PTree.id := h l _ (by rw [PTree.rows, e]; exact .head _)
    rw [if_pos e, if_pos e, dropAll_tops _ (side_tops (fun hc => hM (tops_mem hc)) hk), prune_side hM hk]
  · rw [if_neg e, if_neg e, dropAll_within hM ks (fun l c hm => h l c (by rw [PTree.rows]; exact .tail _ hm))]

mutual
theorem drop_relabel {n m : Nat} {g : Label → Label} : ∀ t : PTree, drop m (t.relabel n g) = relabelAll n g (drop m t)
  | .node k l ks => by
    rw [PTree.relabel]
    by_cases e : k = m
    · rw [drop_id (n := m) (t := .node k l ks) e, drop_id (n := m) (t := .node k _ _) e]; rfl
    · rw [drop_ne (n := m) (t := .node k l ks) e, drop_ne (n := m) (t := .node k _ _) e, prune, prune, dropAll_relabel ks, relabelAll, PTree.relabel]; rfl
theorem dropAll_relabel {n m : Nat} {g : Label → Label} : ∀ ts : List PTree, dropAll m (relabelAll n g ts) = relabelAll n g (dropAll m ts)
  | [] => rfl
  | t :: ts => by rw [relabelAll, dropAll, dropAll, drop_relabel t, dropAll_relabel ts, relabelAll_append]
end

theorem prune_relabel {n m : Nat} {g : Label → Label} (t : PTree) : prune m (t.relabel n g) = (prune m t).relabel n g := by
  obtain ⟨k, l, ks⟩ := t
  rw [PTree.relabel, prune, prune, PTree.relabel, dropAll_relabel]

/-- After an operation that is in order, each number is still used once. -/
theorem step_nodup {d : Dom} (h : Reachable d) {pg : Page} (hs : Shows d pg) {answer : Nat → Bool} {op : Op} (ha : pg.Allows answer op)
    (hr : Room d op.cost) : (pg.step answer op).root.ids.Nodup := by
  obtain ⟨d1, _, h1, s1, _⟩ := C95_step d h pg hs answer op ha hr
  exact s1.nodup (reach_domI h1).1

end Laws

/-- Removing two nodes: if the two calls are in order either way (neither node is below the other), the order does not matter. -/
theorem C132_removals (d : Dom) (h : Reachable d) (pg : Page) (hs : Shows d pg) (n m : Nat) (answer : Nat → Bool)
    (h1 : pg.AllowsAll [(.removeNode n, answer), (.removeNode m, answer)]) (h2 : pg.AllowsAll [(.removeNode m, answer), (.removeNode n, answer)])
    (hr : Room d 0) :
    SameEffect d [(.removeNode n, answer), (.removeNode m, answer)] [(.removeNode m, answer), (.removeNode n, answer)] := by
  have hnd := hs.nodup (reach_domI h).1
  have n1 := Laws.step_nodup h hs h1.1 hr
  have n2 := Laws.step_nodup h hs h2.1 hr
  refine Laws.same_run h hs h1 h2 ?_ hr hr
  have e : ∀ k, (pg.step answer (.removeNode k)).root = Laws.prune k pg.root := fun k => Laws.instead_drop _ hnd
  have x1 : ((pg.step answer (.removeNode n)).step answer (.removeNode m)).root = Laws.prune m (Laws.prune n pg.root) := by
    rw [← e n]; exact Laws.instead_drop _ n1
  have x2 : ((pg.step answer (.removeNode m)).step answer (.removeNode n)).root = Laws.prune n (Laws.prune m pg.root) := by
    rw [← e m]; exact Laws.instead_drop _ n2
  show Page.mk _ _ ((pg.step answer (.removeNode n)).step answer (.removeNode m)).root =
    Page.mk _ _ ((pg.step answer (.removeNode m)).step answer (.removeNode n)).root
  rw [x1, x2, Laws.prune_comm]
  rfl

/-- Removing a node and putting something among the children of a node that is not its parent: if the two calls are in order either way,
the order does not matter.  (For the parent it does: see `C132_neighbour`.) -/
theorem C132_removal (d : Dom) (h : Reachable d) (pg : Page) (hs : Shows d pg) (n p : Nat) (l : Label) (cs : List Nat) (hp : pg.Has p l cs)
    (hn : n ∉ cs) (x : Put) (first : Bool) (answer answer' : Nat → Bool)
    (h1 : pg.AllowsAll [(.removeNode n, answer), (x.at first p, answer')]) (h2 : pg.AllowsAll [(x.at first p, answer'), (.removeNode n, answer)])
    (hr : Room d (x.at first p).cost) :
    SameEffect d [(.removeNode n, answer), (x.at first p, answer')] [(x.at first p, answer'), (.removeNode n, answer)] := by
  have hi := (reach_domI h).1
  have hnd := hs.nodup hi
  have n2 := Laws.step_nodup h hs h2.1 hr
  refine Laws.same_run h hs h1 h2 ?_ (by simpa [Op.cost] using hr) (by simpa [Op.cost] using hr)
  have hM : n ∉ idsAll (numberAll pg.next ((x.at first p).brings answer')) := by
    intro hc
    rw [numberAll_range, List.mem_range'_1] at hc
    obtain ⟨y, hy⟩ : ∃ y, pg.root.siblings n = some y := h1.1
    obtain ⟨q, hk, _⟩ := hs.siblings_of hy
    have hm : n ∈ kids d q := by rw [hk]; simp
    exact Nat.not_le.mpr (hs.next ▸ (hi.linked.range q n hm).2.2) hc.1
  have e1 : (pg.step answer (.removeNode n)).root = Laws.prune n pg.root := Laws.instead_drop _ hnd
  have e2 : (pg.step answer' (x.at first p)).root = pg.root.within p (Laws.side first (numberAll pg.next ((x.at first p).brings answer'))) := by
    show (x.at first p).on _ pg.root = _
    rw [Laws.at_on]
  have x1 : ((pg.step answer (.removeNode n)).step answer' (x.at first p)).root =
      (Laws.prune n pg.root).within p (Laws.side first (numberAll pg.next ((x.at first p).brings answer'))) := by
    rw [← e1]
    show (x.at first p).on (numberAll (pg.next + 0) _) _ = _
    rw [Laws.at_on, Nat.add_zero]
  have x2 : ((pg.step answer' (x.at first p)).step answer (.removeNode n)).root =
      Laws.prune n (pg.root.within p (Laws.side first (numberAll pg.next ((x.at first p).brings answer')))) := by
    rw [← e2]; exact Laws.instead_drop _ n2
  show Page.mk (pg.next + 0 + _) ((pg.forms ++ []) ++ _) ((pg.step answer (.removeNode n)).step answer' (x.at first p)).root =
    Page.mk (pg.next + _ + 0) ((pg.forms ++ _) ++ []) ((pg.step answer' (x.at first p)).step answer (.removeNode n)).root
  rw [x1, x2, Laws.prune_within hM, Nat.add_zero, Nat.add_zero, List.append_nil, List.append_nil]
  intro l' c hc
  rw [Laws.has_unique h hs hp l' c hc]
  exact hn

/-- Removing a node, and changing the attributes, the text or the tag of a node: if the two calls are in order either way, the order does not
matter. -/
theorem C132_removal_label (d : Dom) (h : Reachable d) (pg : Page) (hs : Shows d pg) (n m : Nat) (o : Op) (ho : o.relabels = some n)
    (answer answer' : Nat → Bool) (h1 : pg.AllowsAll [(.removeNode m, answer), (o, answer')])
    (h2 : pg.AllowsAll [(o, answer'), (.removeNode m, answer)]) (hr : Room d o.cost) :
    SameEffect d [(.removeNode m, answer), (o, answer')] [(o, answer'), (.removeNode m, answer)] := by
  have hnd := hs.nodup (reach_domI h).1
  have n2 := Laws.step_nodup h hs h2.1 hr
  obtain ⟨hb, g, hon, _⟩ := Laws.target_on ho answer'
  refine Laws.same_run h hs h1 h2 ?_ (by simpa [Op.cost] using hr) (by simpa [Op.cost] using hr)
  have e1 : (pg.step answer (.removeNode m)).root = Laws.prune m pg.root := Laws.instead_drop _ hnd
  have e2 : (pg.step answer' o).root = pg.root.relabel n g := by show o.on _ pg.root = _; rw [hon]
  have x1 : ((pg.step answer (.removeNode m)).step answer' o).root = (Laws.prune m pg.root).relabel n g := by
    rw [← e1]; show o.on _ _ = _; rw [hon]
  have x2 : ((pg.step answer' o).step answer (.removeNode m)).root = Laws.prune m (pg.root.relabel n g) := by
    rw [← e2]; exact Laws.instead_drop _ n2
  show Page.mk (pg.next + 0 + _) ((pg.forms ++ []) ++ _) ((pg.step answer (.removeNode m)).step answer' o).root =
    Page.mk (pg.next + _ + 0) ((pg.forms ++ _) ++ []) ((pg.step answer' o).step answer (.removeNode m)).root
  rw [x1, x2, Laws.prune_relabel, Nat.add_zero, Nat.add_zero, List.append_nil, List.append_nil]

/-- At the parent the order does matter: a text appended after the removal of the last child is merged into the text before that child. -/
theorem C132_neighbour : ∃ (d : Dom) (pg : Page) (answer : Nat → Bool) (d1 d2 : Dom), Reachable d ∧ Shows d pg ∧
    pg.Has 2 (.elem b!"p" [] []) [3, 4] ∧
    runEach [(.removeNode 4, answer), ((Put.text b!"z").at false 2, answer)] d = .ok d1 ∧
    runEach [((Put.text b!"z").at false 2, answer), (.removeNode 4, answer)] d = .ok d2 ∧ kids d1 2 = [3] ∧ kids d2 2 = [3, 5] := by
  obtain ⟨d, hd, hp⟩ := someAnd_ex (x := createDom b!"<p>a<i></i></p>") (p := fun d =>
    (okAnd (runEach [(.removeNode 4, fun _ => false), ((Put.text b!"z").at false 2, fun _ => false)] d) fun x => decide (kids x 2 = [3])) &&
    (okAnd (runEach [((Put.text b!"z").at false 2, fun _ => false), (.removeNode 4, fun _ => false)] d) fun x => decide (kids x 2 = [3, 5]))) (by decide +kernel)
  rw [Bool.and_eq_true] at hp
  obtain ⟨d1, e1, p1⟩ := okAnd_ex hp.1
  obtain ⟨d2, e2, p2⟩ := okAnd_ex hp.2
  exact ⟨d, _, _, d1, d2, .parsed hd, C95_load _ d hd, .tail _ (.head _), e1, e2, of_decide_eq_true p1, of_decide_eq_true p2⟩

/-- A concrete case: in `<p>a<i></i></p><u></u>` the nodes 4 and 5 are removed, or 4 is removed and 5 gets a child. -/
example : ∃ d, createDom b!"<p>a<i></i></p><u></u>" = .ok (some d) ∧ Reachable d ∧ Shows d (Page.load b!"<p>a<i></i></p><u></u>") ∧ Room d 60000 ∧
    (Page.load b!"<p>a<i></i></p><u></u>").AllowsAll [(.removeNode 4, fun _ => true), (.removeNode 5, fun _ => true)] ∧
    (Page.load b!"<p>a<i></i></p><u></u>").AllowsAll [(.removeNode 5, fun _ => true), (.removeNode 4, fun _ => true)] ∧
    (Page.load b!"<p>a<i></i></p><u></u>").Has 5 (.elem b!"u" [] []) [] ∧
    (Page.load b!"<p>a<i></i></p><u></u>").AllowsAll [(.removeNode 4, fun _ => true), ((Put.text b!"z").at false 5, fun _ => true)] ∧
    (Page.load b!"<p>a<i></i></p><u></u>").AllowsAll [((Put.text b!"z").at false 5, fun _ => true), (.removeNode 4, fun _ => true)] ∧
    (Page.load b!"<p>a<i></i></p><u></u>").AllowsAll [(.removeNode 4, fun _ => true), (.addText 3 b!"z" true, fun _ => true)] ∧
    (Page.load b!"<p>a<i></i></p><u></u>").AllowsAll [(.addText 3 b!"z" true, fun _ => true), (.removeNode 4, fun _ => true)] := by
  have hc := C93_every_input b!"<p>a<i></i></p><u></u>" (by decide)
  obtain ⟨d, hd, _⟩ : ∃ d, createDom b!"<p>a<i></i></p><u></u>" = .ok (some d) ∧ _ := hc
  refine ⟨d, hd, .parsed hd, C95_load _ d hd, (createDom_room (k := 60000) (by decide)).elim hd d rfl, ⟨⟨_, rfl⟩, ⟨_, rfl⟩, trivial⟩,
    ⟨⟨_, rfl⟩, ⟨_, rfl⟩, trivial⟩, ?_, ⟨⟨_, rfl⟩, ⟨.elem b!"u" [] [], ?_, rfl⟩, trivial⟩, ⟨⟨.elem b!"u" [] [], ?_, rfl⟩, ⟨_, rfl⟩, trivial⟩,
    ⟨⟨_, rfl⟩, ⟨b!"a", ?_⟩, trivial⟩, ⟨⟨b!"a", ?_⟩, ⟨_, rfl⟩, trivial⟩⟩
  · exact .tail _ (.tail _ (.tail _ (.tail _ (.head _))))
  · exact .tail _ (.tail _ (.tail _ (.head _)))
  · exact .tail _ (.tail _ (.tail _ (.tail _ (.head _))))
  · exact .tail _ (.tail _ (.head _))
  · exact .tail _ (.tail _ (.head _))

end Flo
