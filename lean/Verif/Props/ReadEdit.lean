import Verif.Props.QueryEdit
import Verif.Props.PageSame
/-!
# Edits of attributes and tags leave all the rest as it was (C134)
-/
namespace Flo
open Spec
namespace Laws

theorem words_change {o : Op} (h : o.ofElement) (l : Label) : (change o l).words = l.words := by
  cases o <;> simp only [Op.ofElement] at h
  case attr op => cases l <;> cases op <;> rfl
  case setTag t n p => cases l <;> rfl

mutual
theorem relabel_part {n : Nat} {g : Label → Label} (m : Nat) : ∀ t : PTree, (t.relabel n g).part m = (t.part m).map (PTree.relabel n g)
  | .node k l ks => by
    rw [PTree.relabel, PTree.part, PTree.part]
    split
    · rw [Option.map_some, PTree.relabel]
    · exact relabelAll_part m ks
theorem relabelAll_part {n : Nat} {g : Label → Label} (m : Nat) : ∀ ts : List PTree,
    partAll m (relabelAll n g ts) = (partAll m ts).map (PTree.relabel n g)
  | [] => rfl
  | t :: ts => by
    rw [relabelAll, partAll, partAll, relabel_part m t, relabelAll_part m ts]
    cases t.part m <;> rfl
end

theorem relabelled_entries {n : Nat} {g : Label → Label} (t : PTree) :
    (t.relabel n g).entries = t.entries.map fun e => (e.1, if e.1 = n then g e.2 else e.2) := by
  rw [← Flo.rows_entries, ← Flo.rows_entries, relabel_rows, List.map_map, List.map_map]
  rfl

theorem relabel_texts {n : Nat} {g : Label → Label} (hg : ∀ l, (g l).words = l.words) (es : List (Nat × Label)) :
    texts (es.map fun e => (e.1, if e.1 = n then g e.2 else e.2)) = texts es := by
  unfold texts
  rw [List.filterMap_map]
  refine congrArg (fun f => List.filterMap f es) (funext fun e => ?_)
  show (if e.1 = n then g e.2 else e.2).words = e.2.words
  split
  · exact hg _
  · rfl

end Laws

namespace Laws
section
variable {d d' : Dom} {pg pg' : Page} {n : Nat} {g : Label → Label}

theorem relabel_navigation (hr : pg'.root = pg.root.relabel n g) (N : NavigatesPage d pg) (N' : NavigatesPage d' pg')
    (hi : DomI d (kids d)) (hs : Shows d pg) (hs' : Shows d' pg') {m : Nat} (hm : pg.On m) :
    getFirstChild m d' = getFirstChild m d ∧ getParent m d' = getParent m d ∧ getNext m d' = getNext m d ∧ getPrevious m d' = getPrevious m d := by
  have up : ∀ {k l cs}, pg.Has k l cs → ∃ l', pg'.Has k l' cs := fun {k l cs} x => (has_children hr k cs).mpr ⟨l, x⟩
  obtain ⟨l, cs, hh⟩ := id hm
  obtain ⟨l', hh'⟩ := up hh
  refine ⟨by rw [N.first m l cs hh, N'.first m l' cs hh'], ?_⟩
  cases (hs.on_live hi).1 hm with
  | root =>
    obtain ⟨ks, hk⟩ := hs.root
    obtain ⟨ks', hk'⟩ := hs'.root
    obtain ⟨a1, a2, a3⟩ := N.top _ (show pg.Has rootID .root (ks.map PTree.id) by unfold Page.Has; rw [hk]; exact .head _)
    obtain ⟨b1, b2, b3⟩ := N'.top _ (show pg'.Has rootID .root (ks'.map PTree.id) by unfold Page.Has; rw [hk']; exact .head _)
    rw [a1, a2, a3, b1, b2, b3]; exact ⟨rfl, rfl, rfl⟩
  | @child p _ hp hc =>
    obtain ⟨lp, hp⟩ := kids_has hi hs hp
    obtain ⟨lp', hp'⟩ := up hp
    refine ⟨by rw [N.parent p lp _ hp m hc, N'.parent p lp' _ hp' m hc], ?_, ?_⟩
    · obtain ⟨l₁, l₂, e⟩ := List.append_of_mem hc
      rw [e] at hp hp'
      cases l₂ with
      | nil => rw [N.last p lp l₁ m hp, N'.last p lp' l₁ m hp']
      | cons b l₂ => rw [N.next p lp l₁ m b l₂ hp, N'.next p lp' l₁ m b l₂ hp']
    · obtain ⟨l₁, l₂, e⟩ := List.append_of_mem hc
      rw [e] at hp hp'
      rcases List.eq_nil_or_concat l₁ with rfl | ⟨l₁, a, rfl⟩
      · rw [N.firstPrevious p lp m l₂ hp, N'.firstPrevious p lp' m l₂ hp']
      · rw [List.concat_eq_append, List.append_assoc] at hp hp'
        rw [N.previous p lp l₁ a m l₂ hp, N'.previous p lp' l₁ a m l₂ hp']

theorem hasNext_relabel (hr : pg'.root = pg.root.relabel n g) (m : Nat) : pg'.HasNext m ↔ pg.HasNext m := by
  constructor
  · rintro ⟨p, l, l₁, b, l₂, h⟩
    obtain ⟨l, h⟩ := (has_children hr p _).mp ⟨l, h⟩
    exact ⟨p, l, l₁, b, l₂, h⟩
  · rintro ⟨p, l, l₁, b, l₂, h⟩
    obtain ⟨l, h⟩ := (has_children hr p _).mpr ⟨l, h⟩
    exact ⟨p, l, l₁, b, l₂, h⟩

theorem relabel_content (hr : pg'.root = pg.root.relabel n g) (hg : ∀ l, (g l).words = l.words) (W : WalksPage d pg) (W' : WalksPage d' pg')
    {m : Nat} (hm : pg.On m) : getTextContent m d' = getTextContent m d := by
  obtain ⟨l, cs, hh⟩ := hm
  obtain ⟨sub, hsub⟩ := part_some pg.root (List.mem_map.2 ⟨_, hh, rfl⟩)
  have hsub' : pg'.root.part m = some (sub.relabel n g) := by rw [hr, relabel_part, hsub]; rfl
  have hlen : (sub.relabel n g).entries.length = sub.entries.length := by rw [relabelled_entries, List.length_map]
  by_cases hc : sub.entries.length ≠ 1 ∨ ¬pg.HasNext m
  · rw [(W.part m sub hsub hc).2, (W'.part m _ hsub' (by rw [hlen, hasNext_relabel hr]; exact hc)).2, relabelled_entries, ← List.map_tail,
      relabel_texts hg]
  · rw [not_or, not_not, not_not] at hc
    obtain ⟨k, l', ks⟩ := sub
    have hm : k = m := (part_ids _ hsub).2
    subst hm
    have hk : ks = [] := by
      have := hc.1
      cases ks with
      | nil => rfl
      | cons t ts => cases t; simp [PTree.entries, entriesAll] at this
    subst hk
    have hx : pg.Has k l' [] := part_has _ hsub
    obtain ⟨l'', hx'⟩ := (has_children hr k _).mpr ⟨l', hx⟩
    rw [(W.leaf k l' hx hc.2).2, (W'.leaf k l'' hx' ((hasNext_relabel hr k).mpr hc.2)).2]
    unfold Page.onwards
    rw [hr, relabelled_entries, dropWhile_map, ← List.map_tail, relabel_texts hg]
    rfl
end
end Laws

/-- A change of attributes, of a text or of a tag is not seen by the navigation and by the walk over the document. -/
theorem C134_navigation (d : Dom) (h : Reachable d) (pg : Page) (hs : Shows d pg) (o : Op) (n : Nat) (ho : o.relabels = some n)
    (answer : Nat → Bool) (ha : pg.Allows answer o) (hr : Room d o.cost) :
    ∃ d', runOp (fun i => .ok (answer i)) o d = .ok d' ∧ Reachable d' ∧
      (∀ m, pg.On m → getFirstChild m d' = getFirstChild m d ∧ getParent m d' = getParent m d ∧ getNext m d' = getNext m d ∧
        getPrevious m d' = getPrevious m d) ∧
      ∃ ns, ∀ f, pg.next ≤ f → walkFrom (fun c => traverseDom c d) f rootID = .ok ns ∧ walkFrom (fun c => traverseDom c d') f rootID = .ok ns := by
  obtain ⟨d', e, h', s', _⟩ := C95_step d h pg hs answer o ha hr
  have hroot : (pg.step answer o).root = pg.root.relabel n (Laws.change o) := by
    show o.on _ pg.root = _
    rw [Laws.change_on ho]
  refine ⟨d', e, h', fun m hm => Laws.relabel_navigation hroot (C102_navigation d h pg hs) (C102_navigation d' h' _ s') (reach_domI h).1 hs s' hm,
    _, fun f hf => ⟨(C102_walks d h pg hs).all f hf, ?_⟩⟩
  have hn : (pg.step answer o).next ≤ f := by
    have : (pg.step answer o).next = pg.next := by
      cases o <;> simp only [Op.relabels, reduceCtorEq] at ho <;> rfl
    omega
  rw [(C102_walks d' h' _ s').all f hn, hroot, Laws.relabelled_entries, List.map_map]
  rfl

/-- A change of attributes or of a tag is not seen in the text content of any node, either. -/
theorem C134_content (d : Dom) (h : Reachable d) (pg : Page) (hs : Shows d pg) (o : Op) (n : Nat) (ho : o.relabels = some n) (he : o.ofElement)
    (answer : Nat → Bool) (ha : pg.Allows answer o) (hr : Room d o.cost) :
    ∃ d', runOp (fun i => .ok (answer i)) o d = .ok d' ∧ Reachable d' ∧ ∀ m, pg.On m → getTextContent m d' = getTextContent m d := by
  obtain ⟨d', e, h', s', _⟩ := C95_step d h pg hs answer o ha hr
  have hroot : (pg.step answer o).root = pg.root.relabel n (Laws.change o) := by
    show o.on _ pg.root = _
    rw [Laws.change_on ho]
  exact ⟨d', e, h', fun m hm => Laws.relabel_content hroot (Laws.words_change he) (C102_walks d h pg hs) (C102_walks d' h' _ s') hm⟩

/-- A concrete case: the tag of the `q` of `<q k=v>a<br></q>` changes; its text content is `a` before and after. -/
example : ∃ d, createDom b!"<q k=v>a<br></q>" = .ok (some d) ∧ Reachable d ∧ Shows d (Page.load b!"<q k=v>a<br></q>") ∧ Room d 100 ∧
    Op.relabels (.setTag b!"em" 2 true) = some 2 ∧ Op.ofElement (.setTag b!"em" 2 true) ∧
    (Page.load b!"<q k=v>a<br></q>").Allows (fun _ => true) (.setTag b!"em" 2 true) ∧ (Page.load b!"<q k=v>a<br></q>").On 2 ∧
    getTextContent 2 d = .ok [b!"a"] := by
  obtain ⟨d, hd, hp⟩ := someAnd_ex (x := createDom b!"<q k=v>a<br></q>") (p := fun d =>
    decide (getTextContent 2 d = .ok [b!"a"])) (by decide +kernel)
  exact ⟨d, hd, .parsed hd, C95_load _ d hd, (createDom_room (k := 100) (by decide)).elim hd d rfl, rfl, trivial, ⟨_, _, _, .tail _ (.head _)⟩,
    ⟨_, _, .tail _ (.head _)⟩, of_decide_eq_true hp⟩

end Flo
