import Verif.Proofs.Undo
/-!
# Edits that leave no trace (C96)
-/
namespace Flo
open Spec

mutual
theorem siblings_of_mem {n : Nat} : ∀ t : PTree, n ∈ t.ids → n ≠ t.id → ∃ x, t.siblings n = some x
  | .node m l ks, h, hn => by
    have hn : n ≠ m := hn
    rw [ids_node, List.mem_cons] at h
    rw [PTree.siblings]
    cases ha : around n ks with
    | some x => exact ⟨x, rfl⟩
    | none =>
      rcases h with h | h
      · exact absurd h hn
      · obtain ⟨x, hx⟩ := siblingsAll_of_mem ks h (around_none.mp ha)
        exact ⟨x, by rw [hx]; rfl⟩
theorem siblingsAll_of_mem {n : Nat} : ∀ ts : List PTree, n ∈ idsAll ts → n ∉ ts.map PTree.id → ∃ x, siblingsAll n ts = some x
  | [], h, _ => by cases h
  | t :: ts, h, hn => by
    rw [idsAll_cons, List.mem_append] at h
    rw [List.map_cons, List.mem_cons, not_or] at hn
    rw [siblingsAll]
    cases ht : t.siblings n with
    | some x => exact ⟨x, rfl⟩
    | none =>
      rcases h with h | h
      · obtain ⟨x, hx⟩ := siblings_of_mem t h hn.1
        rw [ht] at hx; cases hx
      · obtain ⟨x, hx⟩ := siblingsAll_of_mem ts h hn.2
        exact ⟨x, by rw [hx]; rfl⟩
end

mutual
theorem within_mem {p N : Nat} {g : List PTree → List PTree} (hg : ∀ ks, N ∈ idsAll (g ks)) : ∀ t : PTree, p ∈ t.ids → N ∈ (t.within p g).ids
  | .node m l ks, h => by
    rw [PTree.within, ids_node]
    refine List.mem_cons_of_mem _ ?_
    by_cases e : m = p
    · rw [if_pos e]; exact hg ks
    · rw [if_neg e]
      rw [ids_node, List.mem_cons] at h
      rcases h with h | h
      · exact absurd h.symm e
      · exact withinAll_mem hg ks h
theorem withinAll_mem {p N : Nat} {g : List PTree → List PTree} (hg : ∀ ks, N ∈ idsAll (g ks)) : ∀ ts : List PTree, p ∈ idsAll ts →
    N ∈ idsAll (withinAll p g ts)
  | [], h => by cases h
  | t :: ts, h => by
    rw [idsAll_cons, List.mem_append] at h
    rw [withinAll, idsAll_cons, List.mem_append]
    rcases h with h | h
    · exact Or.inl (within_mem hg t h)
    · exact Or.inr (withinAll_mem hg ts h)
end

/-- An operation that adds one element puts the element, and nothing else, between children. -/
theorem addsOne_on {answer : Nat → Bool} {op : Op} (ha : op.AddsOne answer) {pg : Page} (hw : pg.Allows answer op) (N : Nat) :
    ∃ p g, op.on (numberAll N (op.brings answer)) = PTree.within p g ∧ p ∈ pg.root.ids ∧
      ∀ ks, ∃ a new b, ks = a ++ b ∧ g ks = a ++ new :: b ∧ new.id = N := by
  obtain ⟨⟨tag, ps, bs, ts, hb⟩, hm⟩ := ha
  rw [hb]
  have hn : numberAll N [.elem tag ps bs ts] = [.node N (.elem tag ps bs) (numberAll (N + 1) ts)] := rfl
  rw [hn]
  have hap : ∀ p l, (p, l) ∈ pg.root.entries → ∃ p' g, PTree.within p (fun ks => between ks [.node N (.elem tag ps bs) (numberAll (N + 1) ts)] []) =
      PTree.within p' g ∧ p' ∈ pg.root.ids ∧ ∀ ks, ∃ a new b, ks = a ++ b ∧ g ks = a ++ new :: b ∧ new.id = N := fun p l hl =>
    ⟨p, _, rfl, List.mem_map.mpr ⟨_, hl, rfl⟩, fun ks => ⟨ks, _, [], (List.append_nil ks).symm, between_append, rfl⟩⟩
  have hpp : ∀ p l, (p, l) ∈ pg.root.entries → ∃ p' g, PTree.within p (fun ks => between [] [.node N (.elem tag ps bs) (numberAll (N + 1) ts)] ks) =
      PTree.within p' g ∧ p' ∈ pg.root.ids ∧ ∀ ks, ∃ a new b, ks = a ++ b ∧ g ks = a ++ new :: b ∧ new.id = N := fun p l hl =>
    ⟨p, _, rfl, List.mem_map.mpr ⟨_, hl, rfl⟩, fun ks => ⟨[], _, ks, rfl, between_prepend, rfl⟩⟩
  cases op <;> simp only [Page.Allows] at hm hw
  case appendDoc p doc => obtain ⟨l, hl, _⟩ := hw; exact hap p l hl
  case prependDoc p doc => obtain ⟨l, hl, _⟩ := hw; exact hpp p l hl
  case appendHTML p html => obtain ⟨⟨l, hl, _⟩, _⟩ := hw; exact hap p l hl
  case prependHTML p html => obtain ⟨⟨l, hl, _⟩, _⟩ := hw; exact hpp p l hl

/-- Undo: an element (with whatever is in it) that has been appended or prepended and is then removed leaves the document as it was:
the same nodes with the same identifiers, children, texts, names and attributes, and the same printed text. -/
theorem C96_undo (d : Dom) (h : Reachable d) (pg : Page) (hs : Shows d pg) (answer : Nat → Bool) (op : Op) (ha : pg.Allows answer op)
    (ho : op.AddsOne answer) (hr : Room d op.cost) :
    ∃ d1 d2, runOp (fun i => .ok (answer i)) op d = .ok d1 ∧ removeNode pg.next d1 = .ok d2 ∧
      Shows d2 { pg with next := (pg.step answer op).next, forms := (pg.step answer op).forms } ∧ printHTML d2 = printHTML d := by
  obtain ⟨hi, _⟩ := reach_domI h
  obtain ⟨d1, e1, h1, s1, r1⟩ := C95_step d h pg hs answer op ha hr
  obtain ⟨p, g, hon, hp, hg⟩ := addsOne_on ho ha pg.next
  have hroot : (pg.step answer op).root = pg.root.within p g := by show op.on _ pg.root = _; rw [hon]
  have hmem : pg.next ∈ (pg.root.within p g).ids := within_mem (fun ks => by
    obtain ⟨a, new, b, _, h2, h3⟩ := hg ks
    rw [h2, ← h3]
    exact mem_idsAll (by simp) _ (id_mem new)) _ hp
  have hne : pg.next ≠ (pg.root.within p g).id := by
    rw [(passes_within p g True).id]
    intro e
    exact hs.fresh hi (by rw [e]; exact id_mem _)
  obtain ⟨x, hx⟩ := siblings_of_mem _ hmem hne
  obtain ⟨d2, e2, h2, s2, _⟩ := C95_step d1 h1 _ s1 answer (.removeNode pg.next) ⟨x, by rw [hroot]; exact hx⟩ (r1 0 hr)
  have hback : ((pg.step answer op).step answer (.removeNode pg.next)).root = pg.root := by
    show PTree.instead pg.next _ (pg.step answer op).root = _
    rw [hroot]
    exact undo_tree hg _ (hs.fresh hi)
  have s3 : Shows d2 { pg with next := (pg.step answer op).next, forms := (pg.step answer op).forms } := by
    refine ⟨s2.next, fun tag => ?_, hs.root, ?_⟩
    · have := s2.forms tag
      rw [show ((pg.step answer op).step answer (.removeNode pg.next)).forms = (pg.step answer op).forms ++ [] from rfl, List.append_nil] at this
      exact this
    · show pg.root.Shown d2
      rw [← hback]; exact s2.tree
  refine ⟨d1, d2, e1, e2, s3, ?_⟩
  rw [(C95_print d2 h2 _ s3).1, (C95_print d h pg hs).1]
  congr 1
  exact print_more hi hs rfl rfl

theorem insideAll_root {n : Nat} (f : List PTree → List PTree → List PTree) (ops : List (Op × (Nat → Bool))) : ∀ (d : Dom) (_ : Reachable d)
    (pg : Page) (_ : Shows d pg) (_ : pg.AllowsAll ops) (_ : pg.InsideAll n ops) (_ : n ≠ rootID)
    (_ : Room d (ops.map fun o => o.1.cost).sum),
    (pg.run ops).root.siblings n = pg.root.siblings n ∧ (pg.run ops).root.instead n f = pg.root.instead n f := by
  induction ops with
  | nil => intro d h pg hs _ _ _ _; exact ⟨rfl, rfl⟩
  | cons o ops ih =>
    intro d h pg hs ha hin hn hr
    rw [List.map_cons, List.sum_cons] at hr
    obtain ⟨d1, e1, h1, s1, r1⟩ := C95_step d h pg hs o.2 o.1 ha.1 (hr.le (by omega))
    obtain ⟨i1, i2⟩ := ih d1 h1 _ s1 ha.2 hin.2 hn (r1 _ hr)
    obtain ⟨⟨sub, l, hp, ht, htk⟩, _⟩ := hin
    obtain ⟨p1, p2⟩ := pass_tree (f := f) (passes_on o.1 (numberAll pg.next (o.1.brings o.2))) htk (List.mem_map.mpr ⟨_, ht, rfl⟩) pg.root
      (hs.nodup (reach_domI h).1) (by rw [hs.id]; exact hn.symm) hp
    rw [Page.run]
    exact ⟨i1.trans p1, i2.trans p2⟩

/-- No trace: whatever is done to a node that has a parent, and to the nodes below it, is gone when the node is removed: the document
is the one that results from removing the node at once. -/
theorem C96_no_trace (d : Dom) (h : Reachable d) (pg : Page) (hs : Shows d pg) (n : Nat) (x : List PTree × List PTree)
    (hn : pg.root.siblings n = some x) (ops : List (Op × (Nat → Bool))) (ha : pg.AllowsAll ops) (hin : pg.InsideAll n ops)
    (hr : Room d (ops.map fun o => o.1.cost).sum) :
    ∃ d1 d2 d', runEach ops d = .ok d1 ∧ removeNode n d1 = .ok d2 ∧ removeNode n d = .ok d' ∧
      (∃ pg2 pg', Shows d2 pg2 ∧ Shows d' pg' ∧ pg2.root = pg'.root) ∧ printHTML d2 = printHTML d' := by
  have hi := (reach_domI h).1
  have hroot : n ≠ rootID := by
    obtain ⟨q, hq, _⟩ := hs.siblings_of hn
    have := hi.linked.range q n (by rw [hq]; simp)
    show n ≠ 1; omega
  obtain ⟨q1, q2⟩ := insideAll_root (n := n) (fun a b => a ++ b) ops d h pg hs ha hin hroot hr
  obtain ⟨d1, e1, h1, s1, r1⟩ := runEach_shows ops d h pg hs ha 0 hr
  obtain ⟨d2, e2, h2, s2, _⟩ := C95_step d1 h1 _ s1 (fun _ => true) (.removeNode n) ⟨x, by rw [q1]; exact hn⟩ r1
  obtain ⟨d', e', h', s', _⟩ := C95_step d h _ hs (fun _ => true) (.removeNode n) ⟨x, hn⟩ (hr.le (by show 0 ≤ _; omega))
  refine ⟨d1, d2, d', e1, e2, e', ⟨_, _, s2, s', q2⟩, ?_⟩
  rw [(C95_print d2 h2 _ s2).1, (C95_print d' h' _ s').1]
  congr 1
  obtain ⟨us, hus⟩ := run_forms ops pg
  refine print_more (reach_domI h').1 s' q2 (us := us) ?_
  show (pg.run ops).forms ++ [] = (pg.forms ++ []) ++ us
  rw [hus, List.append_nil, List.append_nil]

/-! ## Concrete cases -/

example : Op.AddsOne (fun _ => true) (.prependHTML 2 b!"<i k=v>x<b>y</b></i>") := ⟨⟨_, _, _, _, rfl⟩, trivial⟩
example : (Page.load b!"<p>a</p>b").Allows (fun _ => true) (.prependHTML 2 b!"<i k=v>x<b>y</b></i>") :=
  ⟨⟨.elem b!"p" [] [], .tail _ (.head _), rfl⟩, _, rfl, List.cons_ne_nil _ _⟩

/-- Edits below node 2 of `<p>a</p>b`: a fragment is appended, its element replaced, the node itself renamed. -/
def insideOps : List (Op × (Nat → Bool)) :=
  [(.appendHTML 2 b!"<i>x</i>y", fun _ => true), (.replaceText 5 b!"z", fun _ => true), (.setTag b!"q" 2 true, fun _ => true)]
example : (Page.load b!"<p>a</p>b").AllowsAll insideOps :=
  ⟨⟨⟨.elem b!"p" [] [], .tail _ (.head _), rfl⟩, _, rfl, List.cons_ne_nil _ _⟩, ⟨_, rfl⟩, ⟨b!"p", [], [], .tail _ (.head _)⟩, trivial⟩
example : (Page.load b!"<p>a</p>b").InsideAll 2 insideOps :=
  ⟨⟨_, .elem b!"p" [] [], rfl, .head _, fun h => by cases h⟩, ⟨_, .elem b!"i" [] [], rfl, .tail _ (.tail _ (.head _)), fun _ => by decide⟩,
    ⟨_, .elem b!"p" [] [], rfl, .head _, fun h => by cases h⟩, trivial⟩
example : ((Page.load b!"<p>a</p>b").run insideOps).print = b!"<q>a zy</q>b" := by decide +kernel

end Flo
