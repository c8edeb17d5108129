import Verif.Proofs.EditOrder
/-!
# Edits of different nodes, in either order (C132)
-/
namespace Flo
namespace Spec

/-- Putting something at the end (`first = false`) or at the beginning (`first = true`) of the children of `p`. -/
def Put.at (first : Bool) (p : Nat) (x : Put) : Op := if first then x.prepend p else x.append p

/-- The tag names that both operations use, and that the document has not used before, are used in the same form. -/
def AgreeOnForms (pg : Page) (o o' : Op × (Nat → Bool)) : Prop :=
  ∀ tag f g, firstForm pg.forms tag = none → firstForm (o.1.names o.2) tag = some f → firstForm (o'.1.names o'.2) tag = some g → f = g

/-- Two calls on a document can be swapped: in either order both succeed, and the trees, how many nodes there are, and (if they agree
on the forms of tag names) the printed text are the same. -/
def Swappable (d : Dom) (pg : Page) (o o' : Op × (Nat → Bool)) : Prop :=
  ∃ d1 d2 pg1 pg2, runEach [o, o'] d = .ok d1 ∧ runEach [o', o] d = .ok d2 ∧ Shows d1 pg1 ∧ Shows d2 pg2 ∧ pg1.trees = pg2.trees ∧
    d1.nodes.length = d2.nodes.length ∧ (AgreeOnForms pg o o' → printHTML d1 = printHTML d2)

/-- The node whose attributes, text or tag a call changes. -/
def Op.relabels : Op → Option Nat
  | .attr op => some op.node
  | .addText n _ _ => some n
  | .setTag _ n _ => some n
  | _ => none

/-- The call changes attributes or the tag. -/
def Op.ofElement : Op → Prop
  | .attr _ | .setTag _ _ _ => True
  | _ => False

end Spec
open Spec
namespace Laws

theorem forms_swap {us vs ws : List (Str × Bool)}
    (h : ∀ tag f g, firstForm us tag = none → firstForm vs tag = some f → firstForm ws tag = some g → f = g) (tag : Str) :
    firstForm ((us ++ vs) ++ ws) tag = firstForm ((us ++ ws) ++ vs) tag := by
  rw [firstForm_append, firstForm_append, firstForm_append, firstForm_append]
  cases hu : firstForm us tag with
  | some a => rfl
  | none =>
    cases hv : firstForm vs tag with
    | none => cases firstForm ws tag with | none => rfl | some g => rfl
    | some f =>
      cases hw : firstForm ws tag with
      | none => rfl
      | some g => rw [h tag f g hu hv hw]

theorem swap {d : Dom} (h : Reachable d) {pg : Page} (hs : Shows d pg) {o o' : Op × (Nat → Bool)} (h1 : pg.AllowsAll [o, o'])
    (h2 : pg.AllowsAll [o', o]) (he : (pg.run [o, o']).root.plain = (pg.run [o', o]).root.plain) (hr : Room d (o.1.cost + o'.1.cost)) :
    Swappable d pg o o' := by
  obtain ⟨d1, e1, g1, s1, _⟩ := runEach_shows [o, o'] d h pg hs h1 0 (by simpa using hr)
  obtain ⟨d2, e2, g2, s2, _⟩ := runEach_shows [o', o] d h pg hs h2 0 (by simpa [Nat.add_comm] using hr)
  have ht : (pg.run [o, o']).trees = (pg.run [o', o]).trees := by
    obtain ⟨k1, x1⟩ := s1.root
    obtain ⟨k2, x2⟩ := s2.root
    unfold Page.trees
    rw [x1, x2] at he ⊢
    rw [PTree.plain, PTree.plain] at he
    exact (Tree.elem.inj he).2.2.2
  refine ⟨d1, d2, _, _, e1, e2, s1, s2, ht, ?_, fun ha => ?_⟩
  · rw [s1.next, s2.next]
    show pg.next + sizeAll (o.1.brings o.2) + sizeAll (o'.1.brings o'.2) = pg.next + sizeAll (o'.1.brings o'.2) + sizeAll (o.1.brings o.2)
    omega
  · rw [(C95_print d1 g1 _ s1).1, (C95_print d2 g2 _ s2).1]
    unfold Page.print
    rw [ht]
    congr 2
    funext tag
    rw [show (pg.run [o, o']).forms = (pg.forms ++ o.1.names o.2) ++ o'.1.names o'.2 from rfl,
      show (pg.run [o', o]).forms = (pg.forms ++ o'.1.names o'.2) ++ o.1.names o.2 from rfl, forms_swap ha]

theorem at_on (x : Put) (first : Bool) (p : Nat) (new : List PTree) : (x.at first p).on new = PTree.within p (side first new) := by
  cases first
  · exact (put_on x p new).1
  · exact (put_on x p new).2.1

theorem at_allows {x : Put} {first : Bool} {p : Nat} {answer : Nat → Bool} {pg : Page} {l : Label} (hl : (p, l) ∈ pg.root.entries)
    (ht : l.isText = false) (hx : x.OK answer) : pg.Allows answer (x.at first p) := by
  cases first
  · exact (put_allows hl ht hx).1
  · exact (put_allows hl ht hx).2

theorem at_keeps {x : Put} {first : Bool} {p q : Nat} {l : Label} (hl : l.isText = false) {answer : Nat → Bool} {pg : Page}
    (h : (q, l) ∈ pg.root.entries) : (q, l) ∈ (pg.step answer (x.at first p)).root.entries := by
  show (q, l) ∈ ((x.at first p).on _ pg.root).entries
  rw [at_on]
  exact within_keeps (fun ks => side_entry hl first) _ h

mutual
theorem relabel_keeps {n q : Nat} {l : Label} {g : Label → Label} : ∀ t : PTree, (q, l) ∈ t.entries →
    (q, if q = n then g l else l) ∈ (t.relabel n g).entries
  | .node m l' ks, h => by
    rw [PTree.entries, List.mem_cons] at h
    rw [PTree.relabel, PTree.entries, List.mem_cons]
    rcases h with h | h
    · cases h; exact .inl rfl
    · exact .inr (relabelAll_keeps ks h)
theorem relabelAll_keeps {n q : Nat} {l : Label} {g : Label → Label} : ∀ ts : List PTree, (q, l) ∈ entriesAll ts →
    (q, if q = n then g l else l) ∈ entriesAll (relabelAll n g ts)
  | [], h => by cases h
  | t :: ts, h => by
    rw [entriesAll, List.mem_append] at h
    rw [relabelAll, entriesAll, List.mem_append]
    exact h.imp (relabel_keeps t) (relabelAll_keeps ts)
end

mutual
theorem relabel_comm {n m : Nat} (hne : n ≠ m) {f g : Label → Label} : ∀ t : PTree, (t.relabel n f).relabel m g = (t.relabel m g).relabel n f
  | .node k l ks => by
    rw [PTree.relabel, PTree.relabel, PTree.relabel, PTree.relabel, relabelAll_comm hne ks]
    congr 1
    by_cases e : k = n
    · rw [if_pos e, if_neg (fun x => hne (e.symm.trans x)), if_neg (fun x => hne (e.symm.trans x)), if_pos e]
    · rw [if_neg e, if_neg e]
theorem relabelAll_comm {n m : Nat} (hne : n ≠ m) {f g : Label → Label} : ∀ ts : List PTree,
    relabelAll m g (relabelAll n f ts) = relabelAll n f (relabelAll m g ts)
  | [] => rfl
  | t :: ts => by rw [relabelAll, relabelAll, relabelAll, relabelAll, relabel_comm hne t, relabelAll_comm hne ts]
end

/-- What a call with a target does to the label there. -/
theorem target_on {o : Op} {n : Nat} (h : o.relabels = some n) (answer : Nat → Bool) : o.brings answer = [] ∧ ∃ g : Label → Label,
    (∀ new, o.on new = PTree.relabel n g) ∧ (∀ l, (g l).isText = l.isText) ∧ (o.ofElement → ∀ a, g (.text a) = .text a) ∧
    ∀ pg pg' : Page, pg.Allows answer o → (∀ l, (n, l) ∈ pg.root.entries → ∃ l', (n, l') ∈ pg'.root.entries ∧
      ((∃ t ps bs, l = .elem t ps bs) → ∃ t ps bs, l' = .elem t ps bs) ∧ (l.isText = true → l'.isText = true)) → pg'.Allows answer o := by
  cases o <;> simp only [Op.relabels, Option.some.injEq, reduceCtorEq] at h
  case attr op =>
    refine ⟨rfl, Label.attr op, fun _ => by rw [← h]; rfl, fun l => ?_, fun _ _ => rfl, ?_⟩
    · cases l <;> try rfl
      cases op <;> rfl
    · rintro pg pg' ⟨l, hl⟩ hk
      obtain ⟨l', h', _⟩ := hk l (h ▸ hl)
      exact ⟨l', h ▸ h'⟩
  case addText k t e =>
    refine ⟨rfl, Label.addText t e, fun _ => by rw [← h]; rfl, fun l => by cases l <;> rfl, fun hc => hc.elim, ?_⟩
    rintro pg pg' ⟨raw, hl⟩ hk
    obtain ⟨l', h', _, h2⟩ := hk _ (h ▸ hl)
    have := h2 rfl
    cases l' with
    | text raw => exact ⟨raw, h ▸ h'⟩
    | elem a b c => cases this
    | root => cases this
  case setTag t k pd =>
    refine ⟨rfl, Label.rename t, fun _ => by rw [← h]; rfl, fun l => by cases l <;> rfl, fun _ _ => rfl, ?_⟩
    rintro pg pg' ⟨t, ps, bs, hl⟩ hk
    obtain ⟨l', h', h1, _⟩ := hk _ (h ▸ hl)
    obtain ⟨t', ps', bs', rfl⟩ := h1 ⟨_, _, _, rfl⟩
    exact ⟨t', ps', bs', h ▸ h'⟩

end Laws

/-- Putting something among the children of one node, at the end or at the beginning, and putting something among the children of
another node, at the end or at the beginning: the order does not matter.  (One node may be anywhere below the other.) -/
theorem C132_children (d : Dom) (h : Reachable d) (pg : Page) (hs : Shows d pg) (p q : Nat) (hne : p ≠ q) (l m : Label)
    (hp : (p, l) ∈ pg.root.entries) (hq : (q, m) ∈ pg.root.entries) (hl : l.isText = false) (hm : m.isText = false) (x y : Put)
    (first first' : Bool) (answer answer' : Nat → Bool) (hx : x.OK answer) (hy : y.OK answer')
    (hr : Room d ((x.at first p).cost + (y.at first' q).cost)) : Swappable d pg (x.at first p, answer) (y.at first' q, answer') := by
  have hi := (reach_domI h).1
  refine Laws.swap h hs ⟨Laws.at_allows hp hl hx, Laws.at_allows (Laws.at_keeps hm hq) hm hy, trivial⟩
    ⟨Laws.at_allows hq hm hy, Laws.at_allows (Laws.at_keeps hl hp) hl hx, trivial⟩ ?_ hr
  show ((y.at first' q).on (numberAll _ _) ((x.at first p).on (numberAll _ _) pg.root)).plain =
    ((x.at first p).on (numberAll _ _) ((y.at first' q).on (numberAll _ _) pg.root)).plain
  rw [Laws.at_on, Laws.at_on, Laws.at_on, Laws.at_on]
  have lt : ∀ {k : Nat} {l : Label}, (k, l) ∈ pg.root.entries → k < pg.next := fun hk => by
    rw [← hs.next]; exact (hs.entry hi hk).2.2
  exact Laws.two_sides hne (lt hp) (lt hq) first first' _ _ (Nat.le_refl _) (Nat.le_add_right _ _) (Nat.le_refl _) (Nat.le_add_right _ _) _

/-- Changing the attributes or the tag of an element, and putting something among the children of a node (of the same one, or of
another): the order does not matter. -/
theorem C132_element (d : Dom) (h : Reachable d) (pg : Page) (hs : Shows d pg) (n p : Nat) (l : Label) (tag : Str) (ps : List (Str × Str))
    (bs : List Str) (hn : (n, .elem tag ps bs) ∈ pg.root.entries) (hp : (p, l) ∈ pg.root.entries) (hl : l.isText = false) (o : Op)
    (ho : o.relabels = some n) (hoe : o.ofElement) (x : Put) (first : Bool) (answer answer' : Nat → Bool) (hx : x.OK answer')
    (hr : Room d (o.cost + (x.at first p).cost)) : Swappable d pg (o, answer) (x.at first p, answer') := by
  have hi := (reach_domI h).1
  obtain ⟨hb, g, hon, hg, hgt, hal⟩ := Laws.target_on ho answer
  have ha : pg.Allows answer o := by
    cases o <;> simp only [Op.relabels, Option.some.injEq, reduceCtorEq] at ho
    case attr op => exact ⟨_, ho ▸ hn⟩
    case addText k t e => exact hoe.elim
    case setTag t k pd => exact ⟨tag, ps, bs, ho ▸ hn⟩
  have hnd := hs.nodup hi
  have ho1 : (pg.step answer o).root = pg.root.relabel n g := by show o.on _ pg.root = _; rw [hon]
  refine Laws.swap h hs ⟨ha, ?_, trivial⟩ ⟨Laws.at_allows hp hl hx, hal pg _ ha fun l' hl' => ?_, trivial⟩ ?_ hr
  · refine Laws.at_allows (l := if p = n then g l else l) (p := p) ?_ ?_ hx
    · rw [ho1]; exact Laws.relabel_keeps _ hp
    · split
      · rw [hg]; exact hl
      · exact hl
  · have := Laws.entry_unique hnd hl' hn
    subst this
    exact ⟨_, Laws.at_keeps rfl hn, fun _ => ⟨_, _, _, rfl⟩, fun hc => by cases hc⟩
  · show ((x.at first p).on (numberAll _ _) (o.on _ pg.root)).plain = (o.on _ ((x.at first p).on (numberAll _ _) pg.root)).plain
    have hnx : (pg.step answer o).next = pg.next := by show pg.next + sizeAll (o.brings answer) = _; rw [hb]; rfl
    rw [hon, hon, Laws.at_on, Laws.at_on]
    show (PTree.within p (Laws.side first (numberAll (pg.step answer o).next _)) _).plain = _
    rw [hnx, Laws.relabel_side (hgt hoe) (fun l hl => (hg l).trans hl)]
    · intro hin
      have lt : n < pg.next := by rw [← hs.next]; exact (hs.entry hi hn).2.2
      rw [numberAll_range, List.mem_range'_1] at hin; omega

/-- Changing the attributes, the text or the tag of one node and of another: the order does not matter. -/
theorem C132_labels (d : Dom) (h : Reachable d) (pg : Page) (hs : Shows d pg) (n m : Nat) (hne : n ≠ m) (o o' : Op)
    (ho : o.relabels = some n) (ho' : o'.relabels = some m) (answer answer' : Nat → Bool) (ha : pg.Allows answer o) (ha' : pg.Allows answer' o')
    (hr : Room d (o.cost + o'.cost)) : Swappable d pg (o, answer) (o', answer') := by
  obtain ⟨hb, g, hon, hg, _, hal⟩ := Laws.target_on ho answer
  obtain ⟨hb', g', hon', hg', _, hal'⟩ := Laws.target_on ho' answer'
  have r1 : (pg.step answer o).root = pg.root.relabel n g := by show o.on _ pg.root = _; rw [hon]
  have r2 : (pg.step answer' o').root = pg.root.relabel m g' := by show o'.on _ pg.root = _; rw [hon']
  refine Laws.swap h hs ⟨ha, hal' pg _ ha' fun l hl => ?_, trivial⟩ ⟨ha', hal pg _ ha fun l hl => ?_, trivial⟩ ?_ hr
  · have := Laws.relabel_keeps (n := n) (g := g) _ hl
    rw [if_neg hne.symm] at this
    exact ⟨l, by rw [r1]; exact this, id, id⟩
  · have := Laws.relabel_keeps (n := m) (g := g') _ hl
    rw [if_neg hne] at this
    exact ⟨l, by rw [r2]; exact this, id, id⟩
  · show (o'.on _ (o.on _ pg.root)).plain = (o.on _ (o'.on _ pg.root)).plain
    rw [hon, hon, hon', hon', Laws.relabel_comm hne]

/-- The condition on the forms of tag names is needed: two new elements with the same new name, one as a single tag and one as a pair
of tags, and the order decides how both print. -/
theorem C132_forms : ∃ (d : Dom) (pg : Page) (x y : Put) (answer : Nat → Bool) (d1 d2 : Dom), Reachable d ∧ Shows d pg ∧
    (2, .elem b!"p" [] []) ∈ pg.root.entries ∧ (3, .elem b!"i" [] []) ∈ pg.root.entries ∧
    runEach [(x.at false 2, answer), (y.at false 3, answer)] d = .ok d1 ∧ runEach [(y.at false 3, answer), (x.at false 2, answer)] d = .ok d2 ∧
    printHTML d1 = .ok b!"<p><u/></p><i><u/></i>" ∧ printHTML d2 = .ok b!"<p><u></u></p><i><u></u></i>" := by
  have hc := C93_every_input b!"<p></p><i></i>" (by decide)
  obtain ⟨d, hd, _⟩ : ∃ d, createDom b!"<p></p><i></i>" = .ok (some d) ∧ _ := hc
  have hs := C95_load _ d hd
  have hr := (createDom_room (k := 10) (by decide)).elim hd d rfl
  have h : Reachable d := .parsed hd
  have e2 : (2, Label.elem b!"p" [] []) ∈ (Page.load b!"<p></p><i></i>").root.entries := .tail _ (.head _)
  have e3 : (3, Label.elem b!"i" [] []) ∈ (Page.load b!"<p></p><i></i>").root.entries := .tail _ (.tail _ (.head _))
  let x : Put := .doc ⟨b!"u", false, [], []⟩
  let y : Put := .doc ⟨b!"u", true, [], []⟩
  let ans : Nat → Bool := fun _ => false
  have k3 : (3, Label.elem b!"i" [] []) ∈ ((Page.load b!"<p></p><i></i>").step ans (x.at false 2)).root.entries := Laws.at_keeps rfl e3
  have k2 : (2, Label.elem b!"p" [] []) ∈ ((Page.load b!"<p></p><i></i>").step ans (y.at false 3)).root.entries := Laws.at_keeps rfl e2
  obtain ⟨d1, r1, g1, s1, _⟩ := runEach_shows [(x.at false 2, ans), (y.at false 3, ans)] d h _ hs
    ⟨Laws.at_allows (x := x) (first := false) (answer := ans) e2 rfl trivial, Laws.at_allows (x := y) (first := false) (answer := ans) k3 rfl trivial, trivial⟩ 0 (hr.le (by decide))
  obtain ⟨d2, r2, g2, s2, _⟩ := runEach_shows [(y.at false 3, ans), (x.at false 2, ans)] d h _ hs
    ⟨Laws.at_allows (x := y) (first := false) (answer := ans) e3 rfl trivial, Laws.at_allows (x := x) (first := false) (answer := ans) k2 rfl trivial, trivial⟩ 0 (hr.le (by decide))
  refine ⟨d, _, x, y, ans, d1, d2, h, hs, e2, e3, r1, r2, ?_, ?_⟩
  · rw [(C95_print d1 g1 _ s1).1]; decide +kernel
  · rw [(C95_print d2 g2 _ s2).1]; decide +kernel

/-! ## A concrete case: node 4 stands below node 2; both get HTML that starts with a text -/

example : ∃ d, createDom b!"<p>a<i>b</i></p>" = .ok (some d) ∧ Reachable d ∧ Shows d (Page.load b!"<p>a<i>b</i></p>") ∧ Room d 60000 ∧
    (2, .elem b!"p" [] []) ∈ (Page.load b!"<p>a<i>b</i></p>").root.entries ∧ (4, .elem b!"i" [] []) ∈ (Page.load b!"<p>a<i>b</i></p>").root.entries ∧
    (Put.html b!"b<u>c</u>").OK (fun _ => true) ∧
    AgreeOnForms (Page.load b!"<p>a<i>b</i></p>") ((Put.html b!"b<u>c</u>").at true 2, fun _ => true) ((Put.html b!"b<u>c</u>").at false 4, fun _ => true) ∧
    (Op.setTag b!"b" 2 true).relabels = some 2 ∧ (Op.setTag b!"b" 2 true).ofElement ∧
    (Page.load b!"<p>a<i>b</i></p>").Allows (fun _ => true) (.setTag b!"b" 2 true) ∧
    (Op.addText 3 b!"z" true).relabels = some 3 ∧ (Page.load b!"<p>a<i>b</i></p>").Allows (fun _ => true) (.addText 3 b!"z" true) := by
  have hc := C93_every_input b!"<p>a<i>b</i></p>" (by decide)
  obtain ⟨d, hd, _⟩ : ∃ d, createDom b!"<p>a<i>b</i></p>" = .ok (some d) ∧ _ := hc
  have hf : FragmentOK (fun _ => true) b!"b<u>c</u>" := ⟨[.text b!"b", .elem b!"u" [] [] [.text b!"c"]], rfl, List.cons_ne_nil _ _⟩
  refine ⟨d, hd, .parsed hd, C95_load _ d hd, (createDom_room (k := 60000) (by decide)).elim hd d rfl, .tail _ (.head _),
    .tail _ (.tail _ (.tail _ (.head _))), hf, ?_, rfl, trivial, ⟨_, _, _, .tail _ (.head _)⟩, rfl, ⟨_, .tail _ (.tail _ (.head _))⟩⟩
  intro tag f g _ h1 h2
  have : some f = some g := h1.symm.trans h2
  exact Option.some.inj this

end Flo
