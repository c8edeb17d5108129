import Verif.Proofs.PageLoad
import Verif.Props.Compare
/-!
# The editing API is a document machine (C95)

`Page` (`Spec/Page.lean`) is a tree of numbered nodes with one operation per mutating function.  A DOM obtained by any sequence of
calls is the page obtained by the same sequence of operations, and prints as that page.
-/
namespace Flo
open Spec

/-- A freshly parsed document is the page of its input. -/
theorem C95_load (s : Str) (d : Dom) (h : createDom s = .ok (some d)) : Shows d (Page.load s) := shows_load h

/-- One call: an operation that is in order on the page, and for which there is room, returns normally, and the DOM is then the
page after the operation. -/
theorem C95_step (d : Dom) (h : Reachable d) (pg : Page) (hs : Shows d pg) (answer : Nat → Bool) (op : Op) (ha : pg.Allows answer op)
    (hr : Room d op.cost) :
    ∃ d', runOp (fun i => .ok (answer i)) op d = .ok d' ∧ Reachable d' ∧ Shows d' (pg.step answer op) ∧
      ∀ k, Room d (op.cost + k) → Room d' k :=
  page_step h hs (fun _ => rfl) op ha hr

theorem runEach_shows (ops : List (Op × (Nat → Bool))) : ∀ (d : Dom) (_ : Reachable d) (pg : Page) (_ : Shows d pg)
    (_ : pg.AllowsAll ops) (k : Nat) (_ : Room d ((ops.map fun o => o.1.cost).sum + k)),
    ∃ d', runEach ops d = .ok d' ∧ Reachable d' ∧ Shows d' (pg.run ops) ∧ Room d' k := by
  induction ops with
  | nil => intro d h pg hs _ k hr; exact ⟨d, rfl, h, hs, by simpa using hr⟩
  | cons o ops ih =>
    intro d h pg hs ha k hr
    rw [List.map_cons, List.sum_cons, Nat.add_assoc] at hr
    obtain ⟨d1, e1, h1, s1, r1⟩ := C95_step d h pg hs o.2 o.1 ha.1 (hr.le (by omega))
    obtain ⟨d2, e2, h2, s2, r2⟩ := ih d1 h1 _ s1 ha.2 k (r1 _ hr)
    exact ⟨d2, by rw [runEach, e1]; exact e2, h2, s2, r2⟩

/-- What a page prints as is what the DOM prints as; its trees are the DOM's. -/
theorem C95_print (d : Dom) (h : Reachable d) (pg : Page) (hs : Shows d pg) :
    printHTML d = .ok pg.print ∧ RepL d pg.trees (kids d 1) :=
  ⟨shows_print (reach_domI h).1 hs, shows_trees (reach_domI h).1 hs⟩

/-- A whole session: any input that stands for a document, then any sequence of operations that are in order on the page, within
65533 bytes, nodes and names in total.  Every call succeeds, the DOM is the page, and it prints as the page. -/
theorem C95_session (s : Str) (ts : List Tree) (ho : outcome s = .document ts) (ops : List (Op × (Nat → Bool)))
    (ha : (Page.load s).AllowsAll ops) (hlen : s.length + (ops.map fun o => o.1.cost).sum ≤ 65533) :
    ∃ d d', createDom s = .ok (some d) ∧ runEach ops d = .ok d' ∧ Reachable d' ∧ Shows d' ((Page.load s).run ops) ∧
      printHTML d' = .ok ((Page.load s).run ops).print := by
  have hc := C93_every_input s (by omega)
  rw [ho] at hc
  obtain ⟨d, hd, _⟩ := hc
  obtain ⟨d', e, h', s', _⟩ := runEach_shows ops d (.parsed hd) _ (C95_load s d hd) ha 0 ((createDom_room hlen).elim hd d rfl)
  exact ⟨d, d', hd, e, h', s', (C95_print d' h' _ s').1⟩

/-- A copy is the same page, so that it goes on like the original. -/
theorem C95_duplicate (d d' : Dom) (h : Reachable d) (hd : duplicateDom d = .ok d') (pg : Page) (hs : Shows d pg) : Shows d' pg := by
  obtain ⟨d1, e, _, hk, hl, _⟩ := C39_duplicate d h
  rw [hd] at e; cases e
  refine ⟨hl.trans hs.next, fun tag => (C74_duplicate d d' hd tag).trans (hs.forms tag), hs.root, ?_⟩
  obtain ⟨tm, bm, km, vm, e, _⟩ := duplicate_inv (reach_domI h).1
  rw [hd] at e; cases e
  exact shown_keep (d := d) (d' := { d with tagMap := tm, boolMap := bm, keyMap := km, valMap := vm }) (G := fun _ => True) (fun q _ => ⟨⟨rfl, rfl, rfl, rfl, rfl⟩, (hk q).2, fun _ _ => trivial⟩) _ hs.tree trivial

mutual
theorem shown_unique {d : Dom} (hi : DomI d (kids d)) : ∀ (t t' : PTree), t.Shown d → t'.Shown d → t.id = t'.id → t = t'
  | .node n l ks, .node n' l' ks', h, h', e => by
    have e : n = n' := e
    subst e
    simp only [PTree.Shown] at h h'
    have hl : l = l' := h.1.unique hi h'.1
    have hk : ks.map PTree.id = ks'.map PTree.id := h.2.1.symm.trans h'.2.1
    rw [hl, shownAll_unique hi ks ks' h.2.2.2 h'.2.2.2 hk]
theorem shownAll_unique {d : Dom} (hi : DomI d (kids d)) : ∀ (ts ts' : List PTree), ShownAll d ts → ShownAll d ts' →
    ts.map PTree.id = ts'.map PTree.id → ts = ts'
  | [], [], _, _, _ => rfl
  | [], _ :: _, _, _, e => by simp at e
  | _ :: _, [], _, _, e => by simp at e
  | t :: ts, t' :: ts', h, h', e => by
    simp only [ShownAll, List.map_cons, List.cons.injEq] at h h' e
    rw [shown_unique hi t t' h.1 h'.1 e.1, shownAll_unique hi ts ts' h.2 h'.2 e.2]
end

/-- A DOM is at most one page: the number of its next node, and its tree, are determined by what the API shows. -/
theorem C95_one_page (d : Dom) (h : Reachable d) (pg pg' : Page) (hs : Shows d pg) (hs' : Shows d pg') :
    pg.next = pg'.next ∧ pg.root = pg'.root ∧ ∀ tag, firstForm pg.forms tag = firstForm pg'.forms tag :=
  ⟨hs.next.symm.trans hs'.next, shown_unique (reach_domI h).1 _ _ hs.tree hs'.tree ((Shows.id hs).trans (Shows.id hs').symm),
    fun tag => (hs.forms tag).symm.trans (hs'.forms tag)⟩

/-! ## A concrete session -/

/-- Fragments that begin and end with texts, merged into the texts beside them; a replacement, a removal, attributes, a new name. -/
def pageOps : List (Op × (Nat → Bool)) :=
  [(.appendHTML 2 b!"c<i>x</i>y", fun _ => true), (.replaceHTML 6 b!"z<br>w", fun _ => true), (.attr (.add 2 b!"k" b!"v"), fun _ => true),
   (.removeNode 4, fun _ => true), (.setTag b!"q" 2 true, fun _ => true), (.prependText 1 b!"t", fun _ => true)]

example : outcome b!"<p>a</p>b" = .document [.elem b!"p" [] [] [.text b!"a"], .text b!"b"] := rfl
example : (Page.load b!"<p>a</p>b").AllowsAll pageOps := by
  refine ⟨⟨⟨.elem b!"p" [] [], ?_, rfl⟩, _, rfl, List.cons_ne_nil _ _⟩, ⟨_, rfl, ⟨_, rfl, List.cons_ne_nil _ _⟩, ?_⟩, ⟨.elem b!"p" [] [], ?_⟩, ⟨_, rfl⟩,
    ⟨b!"p", [(b!"k", b!"v")], [], ?_⟩, ⟨.root, ?_, rfl⟩, trivial⟩
  · exact .tail _ (.head _)
  · exact ⟨(fun h => by cases h.1), fun h => by cases h.1⟩
  · exact .tail _ (.head _)
  · exact .tail _ (.head _)
  · exact .head _
example : ((Page.load b!"<p>a</p>b").run pageOps).print = b!"t<q k=\"v\">a c z<br/>w y</q>" := by decide +kernel

end Flo
