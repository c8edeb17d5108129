import Verif.Proofs.EditLaws
/-!
# Different calls for the same edit (C123)
-/
namespace Flo
namespace Spec

/-- Corresponding calls that put something new at a place: as last child, as first child, in the place of a node. -/
inductive Put : Type
  | text (t : Str)
  | doc (doc : DocNode)
  | html (h : Str)

def Put.append (p : Nat) : Put → Op
  | .text t => .appendText p t
  | .doc d => .appendDoc p d
  | .html h => .appendHTML p h
def Put.prepend (p : Nat) : Put → Op
  | .text t => .prependText p t
  | .doc d => .prependDoc p d
  | .html h => .prependHTML p h
def Put.replace (n : Nat) : Put → Op
  | .text t => .replaceText n t
  | .doc d => .replaceDoc n d
  | .html h => .replaceHTML n h

/-- An HTML string is one that can be put: it stands for at least one tree. -/
def Put.OK (answer : Nat → Bool) : Put → Prop
  | .html h => FragmentOK answer h
  | _ => True

/-- The trees that are put. -/
def Put.trees (answer : Nat → Bool) : Put → List Tree
  | .text t => [.text t]
  | .doc d => [.elem d.tag d.props d.boolProps []]
  | .html h => fragTrees answer h

/-- Two sequences of calls do the same to a document: both succeed, and they lead to the same page and the same printed text. -/
def SameEffect (d : Dom) (ops ops' : List (Op × (Nat → Bool))) : Prop :=
  ∃ d1 d2 pg, runEach ops d = .ok d1 ∧ runEach ops' d = .ok d2 ∧ Shows d1 pg ∧ Shows d2 pg ∧ printHTML d1 = printHTML d2

/-- Two sequences of calls lead to the same tree with the same numbers, and to the same printed text; the numbers that later nodes get may differ. -/
def SamePicture (d : Dom) (ops ops' : List (Op × (Nat → Bool))) : Prop :=
  ∃ d1 d2 pg1 pg2, runEach ops d = .ok d1 ∧ runEach ops' d = .ok d2 ∧ Shows d1 pg1 ∧ Shows d2 pg2 ∧ pg1.root = pg2.root ∧ printHTML d1 = printHTML d2

end Spec
open Spec
namespace Laws

theorem same_run {d : Dom} (h : Reachable d) {pg : Page} (hs : Shows d pg) {ops ops' : List (Op × (Nat → Bool))} (h1 : pg.AllowsAll ops)
    (h2 : pg.AllowsAll ops') (he : pg.run ops = pg.run ops') (r1 : Room d (ops.map fun o => o.1.cost).sum)
    (r2 : Room d (ops'.map fun o => o.1.cost).sum) : SameEffect d ops ops' := by
  obtain ⟨d1, e1, g1, s1, _⟩ := runEach_shows _ d h pg hs h1 0 r1
  obtain ⟨d2, e2, g2, s2, _⟩ := runEach_shows _ d h pg hs h2 0 r2
  rw [← he] at s2
  exact ⟨d1, d2, _, e1, e2, s1, s2, by rw [(C95_print d1 g1 _ s1).1, (C95_print d2 g2 _ s2).1]⟩

theorem same_tree {d : Dom} (h : Reachable d) {pg : Page} (hs : Shows d pg) {ops ops' : List (Op × (Nat → Bool))} (h1 : pg.AllowsAll ops)
    (h2 : pg.AllowsAll ops') (he : (pg.run ops).root = (pg.run ops').root) (hf : (pg.run ops).forms = (pg.run ops').forms)
    (r1 : Room d (ops.map fun o => o.1.cost).sum) (r2 : Room d (ops'.map fun o => o.1.cost).sum) : SamePicture d ops ops' := by
  obtain ⟨d1, e1, g1, s1, _⟩ := runEach_shows _ d h pg hs h1 0 r1
  obtain ⟨d2, e2, g2, s2, _⟩ := runEach_shows _ d h pg hs h2 0 r2
  refine ⟨d1, d2, _, _, e1, e2, s1, s2, he, ?_⟩
  rw [(C95_print d1 g1 _ s1).1, (C95_print d2 g2 _ s2).1]
  unfold Page.print Page.trees
  rw [he, hf]

theorem put_brings (x : Put) (p : Nat) (answer : Nat → Bool) : (x.append p).brings answer = x.trees answer ∧
    (x.prepend p).brings answer = x.trees answer ∧ (x.replace p).brings answer = x.trees answer := by
  cases x <;> exact ⟨rfl, rfl, rfl⟩

theorem put_names (x : Put) (p n : Nat) (answer : Nat → Bool) : (x.append p).names answer = (x.replace n).names answer ∧
    (x.prepend p).names answer = (x.replace n).names answer := by
  cases x <;> exact ⟨rfl, rfl⟩

theorem put_on (x : Put) (p : Nat) (new : List PTree) : (x.append p).on new = PTree.within p (fun ks => between ks new []) ∧
    (x.prepend p).on new = PTree.within p (fun ks => between [] new ks) ∧
    (x.replace p).on new = PTree.instead p (fun before behind => between before new behind) := by
  cases x <;> exact ⟨rfl, rfl, rfl⟩

theorem put_cost (x : Put) (p n : Nat) : (x.append p).cost = (x.replace n).cost ∧ (x.prepend p).cost = (x.replace n).cost := by
  cases x <;> exact ⟨rfl, rfl⟩

theorem put_allows {x : Put} {p : Nat} {answer : Nat → Bool} {pg : Page} {l : Label} (hl : (p, l) ∈ pg.root.entries) (ht : l.isText = false)
    (hx : x.OK answer) : pg.Allows answer (x.append p) ∧ pg.Allows answer (x.prepend p) := by
  cases x with
  | text t => exact ⟨⟨l, hl, ht⟩, ⟨l, hl, ht⟩⟩
  | doc d => exact ⟨⟨l, hl, ht⟩, ⟨l, hl, ht⟩⟩
  | html s => exact ⟨⟨⟨l, hl, ht⟩, hx⟩, ⟨⟨l, hl, ht⟩, hx⟩⟩

theorem has_entry {pg : Page} {p : Nat} {l : Label} {cs : List Nat} (hp : pg.Has p l cs) : (p, l) ∈ pg.root.entries := by
  rw [← rows_entries]
  exact List.mem_map.mpr ⟨_, hp, rfl⟩

theorem has_unique {d : Dom} (h : Reachable d) {pg : Page} (hs : Shows d pg) {p : Nat} {l : Label} {cs : List Nat} (hp : pg.Has p l cs) :
    ∀ l' c, (p, l', c) ∈ pg.root.rows → c = cs := fun l' c hc => by
  have hi := (reach_domI h).1
  rw [← (shown_rows hi _ hs.tree _ _ _ hc).2, (shown_rows hi _ hs.tree _ _ _ hp).2]

theorem between_nil (new : List PTree) : between [] new [] = new := by
  unfold between mergeRight mergeLeft
  simp only [List.getLast?_nil]
  cases new.getLast? with
  | none => simp
  | some t => simp

end Laws

/-- On a node without children, appending and prepending are the same, for texts, elements and HTML strings. -/
theorem C123_only_child (d : Dom) (h : Reachable d) (pg : Page) (hs : Shows d pg) (p : Nat) (l : Label) (hp : pg.Has p l [])
    (ht : l.isText = false) (x : Put) (answer : Nat → Bool) (hx : x.OK answer) (hr : Room d (x.append p).cost) :
    SameEffect d [(x.append p, answer)] [(x.prepend p, answer)] := by
  obtain ⟨a1, a2⟩ := Laws.put_allows (Laws.has_entry hp) ht hx
  refine Laws.same_run h hs ⟨a1, trivial⟩ ⟨a2, trivial⟩ ?_ (by simpa using hr) (by
    rw [List.map_cons, List.map_nil, List.sum_cons, List.sum_nil, Nat.add_zero, (Laws.put_cost x p p).2, ← (Laws.put_cost x p p).1]; exact hr)
  obtain ⟨b1, b2, _⟩ := Laws.put_brings x p answer
  obtain ⟨o1, o2, _⟩ := Laws.put_on x p (numberAll pg.next (x.trees answer))
  obtain ⟨n1, n2⟩ := Laws.put_names x p p answer
  show Page.mk _ _ ((x.append p).on (numberAll pg.next ((x.append p).brings answer)) pg.root) =
    Page.mk _ _ ((x.prepend p).on (numberAll pg.next ((x.prepend p).brings answer)) pg.root)
  rw [b1, b2, o1, o2, n1, n2]
  congr 1
  refine Laws.within_congr (cs := []) (fun ks hk => ?_) _ (Laws.has_unique h hs hp)
  rw [List.map_eq_nil_iff] at hk
  rw [hk]

/-- Setting the text of a node is removing its children and appending, or prepending, the text. -/
theorem C123_set_text (d : Dom) (h : Reachable d) (pg : Page) (hs : Shows d pg) (n : Nat) (l : Label) (hn : (n, l) ∈ pg.root.entries)
    (ht : l.isText = false) (t : Str) (answer : Nat → Bool) (hr : Room d (Op.setText n t).cost) :
    SameEffect d [(.setText n t, answer)] [(.removeChildren n, answer), (.appendText n t, answer)] ∧
    SameEffect d [(.setText n t, answer)] [(.removeChildren n, answer), (.prependText n t, answer)] := by
  have hi := (reach_domI h).1
  have he : (n, l) ∈ (pg.step answer (.removeChildren n)).root.entries := Laws.within_entry _ (hs.nodup hi) hn
  refine ⟨Laws.same_run h hs ⟨⟨l, hn, ht⟩, trivial⟩ ⟨⟨l, hn, ht⟩, ⟨l, he, ht⟩, trivial⟩ ?_ hr hr,
    Laws.same_run h hs ⟨⟨l, hn, ht⟩, trivial⟩ ⟨⟨l, hn, ht⟩, ⟨l, he, ht⟩, trivial⟩ ?_ hr hr⟩
  · show Page.mk (pg.next + 1) (pg.forms ++ []) (pg.root.within n fun _ => [.node pg.next (.text t) []]) =
      Page.mk (pg.next + 0 + 1) ((pg.forms ++ []) ++ []) ((pg.root.within n fun _ => []).within n fun ks => between ks [.node pg.next (.text t) []] [])
    rw [Laws.within_within, Laws.between_nil, List.append_nil, List.append_nil]
  · show Page.mk (pg.next + 1) (pg.forms ++ []) (pg.root.within n fun _ => [.node pg.next (.text t) []]) =
      Page.mk (pg.next + 0 + 1) ((pg.forms ++ []) ++ []) ((pg.root.within n fun _ => []).within n fun ks => between [] [.node pg.next (.text t) []] ks)
    rw [Laws.within_within, Laws.between_nil, List.append_nil, List.append_nil]

/-- Removing the children twice is removing them once. -/
theorem C123_remove_twice (d : Dom) (h : Reachable d) (pg : Page) (hs : Shows d pg) (n : Nat) (l : Label) (hn : (n, l) ∈ pg.root.entries)
    (ht : l.isText = false) (answer : Nat → Bool) (hr : Room d 0) :
    SameEffect d [(.removeChildren n, answer)] [(.removeChildren n, answer), (.removeChildren n, answer)] := by
  have hi := (reach_domI h).1
  have he : (n, l) ∈ (pg.step answer (.removeChildren n)).root.entries := Laws.within_entry _ (hs.nodup hi) hn
  refine Laws.same_run h hs ⟨⟨l, hn, ht⟩, trivial⟩ ⟨⟨l, hn, ht⟩, ⟨l, he, ht⟩, trivial⟩ ?_ hr hr
  show Page.mk (pg.next + 0) (pg.forms ++ []) (pg.root.within n fun _ => []) =
      Page.mk (pg.next + 0 + 0) ((pg.forms ++ []) ++ []) ((pg.root.within n fun _ => []).within n fun _ => [])
  rw [Laws.within_within, List.append_nil, List.append_nil]

/-- Setting the text twice is setting it once, but for the number of the text node: the trees and the printed text are the same. -/
theorem C123_last_text (d : Dom) (h : Reachable d) (pg : Page) (hs : Shows d pg) (n : Nat) (l : Label) (hn : (n, l) ∈ pg.root.entries)
    (ht : l.isText = false) (t t' : Str) (answer : Nat → Bool) (hr : Room d 2) :
    ∃ d1 d2 pg1 pg2, runEach [(.setText n t, answer), (.setText n t', answer)] d = .ok d1 ∧ runEach [(.setText n t', answer)] d = .ok d2 ∧
      Shows d1 pg1 ∧ Shows d2 pg2 ∧ pg1.trees = pg2.trees ∧ printHTML d1 = printHTML d2 := by
  have hi := (reach_domI h).1
  have he : (n, l) ∈ (pg.step answer (.setText n t)).root.entries := Laws.within_entry _ (hs.nodup hi) hn
  obtain ⟨d1, e1, g1, s1, _⟩ := runEach_shows [(.setText n t, answer), (.setText n t', answer)] d h pg hs ⟨⟨l, hn, ht⟩, ⟨l, he, ht⟩, trivial⟩ 0 hr
  obtain ⟨d2, e2, g2, s2, _⟩ := runEach_shows [(.setText n t', answer)] d h pg hs ⟨⟨l, hn, ht⟩, trivial⟩ 0 (hr.le (by show 1 + 0 + 0 ≤ 2; decide))
  have hroot : (pg.run [(.setText n t, answer), (.setText n t', answer)]).root = pg.root.within n fun _ => [.node (pg.next + 1) (.text t') []] := by
    show (pg.root.within n fun _ => _).within n _ = _
    rw [Laws.within_within]; rfl
  have hp : (pg.run [(.setText n t, answer), (.setText n t', answer)]).root.plain = (pg.run [(.setText n t', answer)]).root.plain := by
    rw [hroot]
    show _ = (pg.root.within n fun _ => [.node pg.next (.text t') []]).plain
    exact Laws.within_plain (f := fun _ => [.node (pg.next + 1) (.text t') []]) (g := fun _ => [.node pg.next (.text t') []]) (fun ks => rfl) _
  have htr : (pg.run [(.setText n t, answer), (.setText n t', answer)]).trees = (pg.run [(.setText n t', answer)]).trees := by
    obtain ⟨k1, x1⟩ := s1.root
    obtain ⟨k2, x2⟩ := s2.root
    unfold Page.trees
    rw [x1, x2] at hp ⊢
    rw [PTree.plain, PTree.plain] at hp
    exact (Tree.elem.inj hp).2.2.2
  refine ⟨d1, d2, _, _, e1, e2, s1, s2, htr, ?_⟩
  rw [(C95_print d1 g1 _ s1).1, (C95_print d2 g2 _ s2).1]
  unfold Page.print
  rw [htr]
  have hf : (pg.run [(.setText n t, answer), (.setText n t', answer)]).forms = (pg.run [(.setText n t', answer)]).forms := by
    show (pg.forms ++ []) ++ [] = pg.forms ++ []
    rw [List.append_nil]
  rw [hf]

/-- Replacing the last child of a node is removing it and appending to the node; replacing the first child is removing it and
prepending; for texts, elements and HTML strings. -/
theorem C123_replace (d : Dom) (h : Reachable d) (pg : Page) (hs : Shows d pg) (p n : Nat) (l : Label) (cs : List Nat)
    (ht : l.isText = false) (x : Put) (answer : Nat → Bool) (hx : x.OK answer) (ha : pg.Allows answer (x.replace n))
    (hr : Room d (x.replace n).cost) :
    (pg.Has p l (cs ++ [n]) → SameEffect d [(x.replace n, answer)] [(.removeNode n, answer), (x.append p, answer)]) ∧
    (pg.Has p l (n :: cs) → SameEffect d [(x.replace n, answer)] [(.removeNode n, answer), (x.prepend p, answer)]) := by
  have hi := (reach_domI h).1
  have hrem : pg.Allows answer (.removeNode n) := by
    cases x with
    | text t => exact ha
    | doc d => exact ha
    | html s => exact ⟨_, ha.choose_spec.1⟩
  have hnd := hs.nodup hi
  have b := Laws.put_brings x
  have nodupKids : ∀ {c}, pg.Has p l c → c.Nodup := fun {c} hp => by
    rw [← (shown_rows hi _ hs.tree _ _ _ hp).2]; exact hi.linked.nodup p
  constructor
  · intro hp
    have hn : n ∈ cs ++ [n] := by simp
    have hk := nodupKids hp
    have hent : (p, l) ∈ (pg.step answer (.removeNode n)).root.entries := by
      show (p, l) ∈ (pg.root.instead n _).entries
      rw [Laws.instead_parent hn _ hnd hp]
      exact Laws.within_entry _ hnd (Laws.has_entry hp)
    refine Laws.same_run h hs ⟨ha, trivial⟩ ⟨hrem, (Laws.put_allows hent ht hx).1, trivial⟩ ?_ (by simpa using hr) (by
      simp only [List.map_cons, List.map_nil, List.sum_cons, List.sum_nil, Nat.add_zero, (Laws.put_cost x p n).1]
      exact hr.le (by show 0 + _ ≤ _; omega))
    show Page.mk _ _ ((x.replace n).on (numberAll pg.next ((x.replace n).brings answer)) pg.root) =
      Page.mk _ ((pg.forms ++ []) ++ (x.append p).names answer)
        ((x.append p).on (numberAll (pg.next + 0) ((x.append p).brings answer)) (pg.root.instead n fun before behind => before ++ behind))
    rw [(b n answer).2.2, (b p answer).1, (Laws.put_on x n _).2.2, (Laws.put_on x p _).1, (Laws.put_names x p n answer).1, List.append_nil,
      Laws.instead_parent hn _ hnd hp, Laws.instead_parent hn _ hnd hp, Laws.within_within]
    congr 1
    refine Laws.within_congr (cs := cs ++ [n]) (fun ks hks => ?_) _ (Laws.has_unique h hs hp)
    rw [List.map_eq_append_iff] at hks
    obtain ⟨A, B, rfl, e1, e2⟩ := hks
    rw [List.map_eq_cons_iff] at e2
    obtain ⟨t, B', rfl, e3, e4⟩ := e2
    rw [List.map_eq_nil_iff] at e4
    subst e4
    have : around n (A ++ [t]) = some (A, []) := around_at (by
      rw [e1]; intro hc; exact (List.nodup_append.mp hk).2.2 n hc n (.head _) rfl) e3
    rw [this]
    simp
  · intro hp
    have hn : n ∈ n :: cs := by simp
    have hent : (p, l) ∈ (pg.step answer (.removeNode n)).root.entries := by
      show (p, l) ∈ (pg.root.instead n _).entries
      rw [Laws.instead_parent hn _ hnd hp]
      exact Laws.within_entry _ hnd (Laws.has_entry hp)
    refine Laws.same_run h hs ⟨ha, trivial⟩ ⟨hrem, (Laws.put_allows hent ht hx).2, trivial⟩ ?_ (by simpa using hr) (by
      simp only [List.map_cons, List.map_nil, List.sum_cons, List.sum_nil, Nat.add_zero, (Laws.put_cost x p n).2]
      exact hr.le (by show 0 + _ ≤ _; omega))
    show Page.mk _ _ ((x.replace n).on (numberAll pg.next ((x.replace n).brings answer)) pg.root) =
      Page.mk _ ((pg.forms ++ []) ++ (x.prepend p).names answer)
        ((x.prepend p).on (numberAll (pg.next + 0) ((x.prepend p).brings answer)) (pg.root.instead n fun before behind => before ++ behind))
    rw [(b n answer).2.2, (b p answer).2.1, (Laws.put_on x n _).2.2, (Laws.put_on x p _).2.1, (Laws.put_names x p n answer).2, List.append_nil,
      Laws.instead_parent hn _ hnd hp, Laws.instead_parent hn _ hnd hp, Laws.within_within]
    congr 1
    refine Laws.within_congr (cs := n :: cs) (fun ks hks => ?_) _ (Laws.has_unique h hs hp)
    rw [List.map_eq_cons_iff] at hks
    obtain ⟨t, B, rfl, e3, e4⟩ := hks
    have : around n (t :: B) = some ([], B) := by rw [around, if_pos e3]
    rw [this]
    simp

/-- Appending a text to a node whose last child is the text `k` is adding the text at the end of `k`; prepending a text to a node whose first
child is the text `k` is adding it at the beginning of `k`: the same tree, node for node, and the same printed text. -/
theorem C123_add_text (d : Dom) (h : Reachable d) (pg : Page) (hs : Shows d pg) (p k : Nat) (l : Label) (cs : List Nat) (raw : Str)
    (hl : l.isText = false) (hk : (k, .text raw) ∈ pg.root.entries) (t : Str) (answer : Nat → Bool) (hr : Room d 1) :
    (pg.Has p l (cs ++ [k]) → SamePicture d [(.appendText p t, answer)] [(.addText k t true, answer)]) ∧
    (pg.Has p l (k :: cs) → SamePicture d [(.prependText p t, answer)] [(.addText k t false, answer)]) := by
  have hi := (reach_domI h).1
  have hnd := hs.nodup hi
  have hE : ∀ l', (k, l') ∈ pg.root.entries → l' = .text raw := fun l' h' => Laws.entry_unique hnd h' hk
  constructor
  · intro hp
    refine Laws.same_tree h hs ⟨⟨l, Laws.has_entry hp, hl⟩, trivial⟩ ⟨⟨raw, hk⟩, trivial⟩ ?_ rfl hr (hr.le (Nat.zero_le 1))
    show pg.root.within p (fun ks => between ks [.node pg.next (.text t) []] []) = pg.root.relabel k (Label.addText t true)
    rw [Laws.relabel_parent (by simp) _ hnd hp]
    exact Laws.within_sub (cs := cs ++ [k]) (fun ks h1 h2 h3 => Laws.appended_text hE h1 h2 h3) _ (Laws.has_unique h hs hp) (fun _ hx => hx) hnd
  · intro hp
    refine Laws.same_tree h hs ⟨⟨l, Laws.has_entry hp, hl⟩, trivial⟩ ⟨⟨raw, hk⟩, trivial⟩ ?_ rfl hr (hr.le (Nat.zero_le 1))
    show pg.root.within p (fun ks => between [] [.node pg.next (.text t) []] ks) = pg.root.relabel k (Label.addText t false)
    rw [Laws.relabel_parent (by simp) _ hnd hp]
    exact Laws.within_sub (cs := k :: cs) (fun ks h1 h2 h3 => Laws.prepended_text hE h1 h2 h3) _ (Laws.has_unique h hs hp) (fun _ hx => hx) hnd

/-- A concrete case: node 2 has the text 3 as its only child. -/
example : ∃ d, createDom b!"<p>a</p><i></i>" = .ok (some d) ∧ Reachable d ∧ Shows d (Page.load b!"<p>a</p><i></i>") ∧ Room d 1 ∧
    (Page.load b!"<p>a</p><i></i>").Has 2 (.elem b!"p" [] []) ([] ++ [3]) ∧ (3, .text b!"a") ∈ (Page.load b!"<p>a</p><i></i>").root.entries := by
  have hc := C93_every_input b!"<p>a</p><i></i>" (by decide)
  obtain ⟨d, hd, _⟩ : ∃ d, createDom b!"<p>a</p><i></i>" = .ok (some d) ∧ _ := hc
  exact ⟨d, hd, .parsed hd, C95_load _ d hd, (createDom_room (k := 1) (by decide)).elim hd d rfl, .tail _ (.head _), .tail _ (.tail _ (.head _))⟩

/-! ## A concrete case: node 1 has the children 2 and 4; node 4 has none -/

example : ∃ d, createDom b!"<p>a</p><i></i>" = .ok (some d) ∧ Reachable d ∧ Shows d (Page.load b!"<p>a</p><i></i>") ∧ Room d 60000 ∧
    (Page.load b!"<p>a</p><i></i>").Has 1 .root ([2] ++ [4]) ∧ (Page.load b!"<p>a</p><i></i>").Has 4 (.elem b!"i" [] []) [] ∧
    (Page.load b!"<p>a</p><i></i>").Allows (fun _ => true) ((Put.html b!"b<u>c</u>").replace 4) ∧ (Put.html b!"b<u>c</u>").OK fun _ => true := by
  have hc := C93_every_input b!"<p>a</p><i></i>" (by decide)
  obtain ⟨d, hd, _⟩ : ∃ d, createDom b!"<p>a</p><i></i>" = .ok (some d) ∧ _ := hc
  have hf : FragmentOK (fun _ => true) b!"b<u>c</u>" := ⟨[.text b!"b", .elem b!"u" [] [] [.text b!"c"]], rfl, List.cons_ne_nil _ _⟩
  refine ⟨d, hd, .parsed hd, C95_load _ d hd, (createDom_room (k := 60000) (by decide)).elim hd d rfl, .head _, .tail _ (.tail _ (.tail _ (.head _))),
    ⟨_, rfl, hf, ?_, ?_⟩, hf⟩
  · decide +kernel
  · decide +kernel

end Flo
