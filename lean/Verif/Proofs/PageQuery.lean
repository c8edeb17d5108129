import Verif.Proofs.Bare
import Verif.Proofs.Undo
import Verif.Proofs.QuerySem
import Verif.Spec.PageQuery
/-!
# Queries, on the page (C101)
-/
namespace Flo
open Spec

theorem createDom_bare {s : Str} {d : Dom} (h : createDom s = .ok (some d)) : OnlyElems d := by
  simp only [createDom, Out.bind_eq_ok] at h
  obtain ⟨r, h1, h2⟩ := h
  have := (parse_trace (E := fun _ => True) (junk := fun _ => .ub .oobIndex) (s := s) (d := Dom.init) (prev := rootID)
    (stack := [(rootID, [])]) (fun h => by cases h) (fun _ _ => trivial)).elim h1
  obtain ⟨evs, _, e⟩ := this
  have hb := runEvs_bare evs ⟨Dom.init, [(rootID, [])], rootID⟩ .init r e
  split at h2
  · cases h2; exact hb
  · cases h2

theorem Spec.Proper.reachable {d : Dom} (h : Proper d) : Reachable d := by
  induction h with
  | parsed e => exact .parsed e
  | edited hj _ ha _ e ih => exact .edited hj ih ha e
  | duplicated _ e ih => exact .duplicated ih e

theorem Spec.Proper.only {d : Dom} (h : Proper d) : OnlyElems d := by
  induction h with
  | parsed e => exact createDom_bare e
  | edited hj _ ha ht e ih => exact runOp_bare hj ih ht _ e
  | duplicated hp e ih =>
    obtain ⟨tm, bm, km, vm, e', _⟩ := duplicate_inv (reach_domI hp.reachable).1
    rw [e] at e'; cases e'
    exact ⟨ih.props, ih.boolProps⟩

/-! ## The rows of the page -/

section
variable {d : Dom}

mutual
theorem shown_rows (hi : DomI d (kids d)) : ∀ t : PTree, t.Shown d → ∀ n l cs, (n, l, cs) ∈ t.rows → NodeIs d n l ∧ kids d n = cs
  | .node m lm ks, h, n, l, cs, hx => by
    simp only [PTree.Shown, PTree.rows, List.mem_cons] at h hx
    rcases hx with e | hx
    · cases e; exact ⟨h.1, h.2.1⟩
    · exact shownAll_rows hi ks h.2.2.2 n l cs hx
theorem shownAll_rows (hi : DomI d (kids d)) : ∀ ts : List PTree, ShownAll d ts → ∀ n l cs, (n, l, cs) ∈ rowsAll ts → NodeIs d n l ∧ kids d n = cs
  | [], _, n, l, cs, hx => by simp [rowsAll] at hx
  | t :: ts, h, n, l, cs, hx => by
    simp only [ShownAll, rowsAll, List.mem_append] at h hx
    rcases hx with hx | hx
    · exact shown_rows hi t h.1 n l cs hx
    · exact shownAll_rows hi ts h.2 n l cs hx
end

mutual
theorem rows_entries : ∀ t : PTree, t.rows.map (fun r => (r.1, r.2.1)) = t.entries
  | .node m l ks => by simp only [PTree.rows, PTree.entries, List.map_cons, rowsAll_entries ks]
theorem rowsAll_entries : ∀ ts : List PTree, (rowsAll ts).map (fun r => (r.1, r.2.1)) = entriesAll ts
  | [] => rfl
  | t :: ts => by simp only [rowsAll, entriesAll, List.map_append, rows_entries t, rowsAll_entries ts]
end

theorem on_ids {pg : Page} {n : Nat} : pg.On n ↔ n ∈ pg.root.ids := by
  unfold Page.On Page.Has PTree.ids
  rw [← rows_entries, List.map_map, List.mem_map]
  constructor
  · rintro ⟨l, cs, h⟩; exact ⟨_, h, rfl⟩
  · rintro ⟨⟨m, l, cs⟩, h, e⟩
    have e : m = n := e
    subst e; exact ⟨l, cs, h⟩

theorem on_entry {pg : Page} {n : Nat} : pg.On n ↔ ∃ l, (n, l) ∈ pg.root.entries := by
  rw [on_ids]
  unfold PTree.ids
  rw [List.mem_map]
  constructor
  · rintro ⟨⟨m, l⟩, h, e⟩
    have e : m = n := e
    subst e; exact ⟨l, h⟩
  · rintro ⟨l, h⟩; exact ⟨_, h, rfl⟩

theorem liveC_live {n : Nat} : LiveC (kids d) rootID n ↔ Live d n := by
  constructor <;> intro h
  · induction h with
    | root => exact .root
    | child _ hc ih => exact .child ih hc
  · induction h with
    | root => exact .root
    | child _ hc ih => exact .child ih hc

/-- The nodes of the page are the nodes that can be reached from the root. -/
theorem Spec.Shows.on_live (hi : DomI d (kids d)) {pg : Page} (hs : Shows d pg) {n : Nat} : pg.On n ↔ Live d n := by
  have h2 := hi.linked.two
  have hr : rootID < d.nodes.length := by show 1 < _; omega
  rw [on_ids, shown_ids hi _ hs.tree (by rw [hs.id]; exact hr), hs.id, ← LiveC.mem_pre hi.linked.up hr, liveC_live]

theorem Spec.Shows.has (hi : DomI d (kids d)) {pg : Page} (hs : Shows d pg) {n : Nat} {l : Label} {cs : List Nat} (h : pg.Has n l cs) :
    NodeIs d n l ∧ kids d n = cs := shown_rows hi _ hs.tree _ _ _ h

theorem typeOf_text {n : Nat} {s : Str} (h : textOf d n = some s) : typeOf d n = some .text := by
  unfold textOf at h
  split at h
  · rename_i e; simp [typeOf, e]
  · cases h

theorem tagOf_type {n : Nat} (h : typeOf d n ≠ some .document) : tagOf d n = none := by
  cases e : tagOf d n with
  | none => rfl
  | some t => exact absurd (typeOf_tag e) h

/-- What the page says about a node is what the DOM holds for it. -/
theorem label_holds (hi : DomI d (kids d)) (ho : OnlyElems d) {n : Nat} {l : Label} (h : NodeIs d n l) (h0 : n ≠ 0) :
    tagOf d n = l.tag ∧ pairs d n = l.pairs ∧ bools d n = l.bools ∧ (typeOf d n = some .document ↔ l.isElem = true) := by
  cases l with
  | root =>
    have h : n = 1 := h
    subst h
    have ht := hi.root
    obtain ⟨h1, h2⟩ := ho.none h0 (by rw [ht]; decide) (by rw [ht]; decide)
    exact ⟨tagOf_type (by rw [ht]; decide), h1, h2, by rw [ht]; decide⟩
  | text raw =>
    have ht := typeOf_text h
    obtain ⟨h1, h2⟩ := ho.none h0 (by rw [ht]; decide) (by rw [ht]; decide)
    exact ⟨tagOf_type (by rw [ht]; decide), h1, h2, by rw [ht]; exact ⟨fun h => (by cases h), fun h => (by cases h)⟩⟩
  | elem tag ps bs => exact ⟨h.1, h.2.1, h.2.2, fun _ => rfl, fun _ => typeOf_tag h.1⟩

theorem compound_meets (hi : DomI d (kids d)) (ho : OnlyElems d) {n : Nat} {l : Label} (h : NodeIs d n l) (h0 : n ≠ 0) (c : Compound) :
    c.holds d n ↔ c.meets l := by
  obtain ⟨e1, e2, e3, _⟩ := label_holds hi ho h h0
  have hc : ∀ c : Cond, c.holds d n ↔ c.meets l := by
    intro c; cases c <;> simp only [Cond.holds, Cond.meets, e2, e3]
  have hf : ∀ f : Final, f.holds d n ↔ f.meets l := by
    intro f; cases f <;> simp only [Final.holds, Final.meets, e2]
  cases c with
  | any => exact Iff.rfl
  | mk t cs fin => simp only [Compound.holds, Compound.meets, e1, hc, hf]

variable {pg : Page}

theorem meets_live (hi : DomI d (kids d)) (ho : OnlyElems d) (hs : Shows d pg) {n : Nat} (hn : Live d n) (c : Compound) :
    c.holds d n ↔ pg.Meets c n := by
  constructor
  · intro h
    obtain ⟨l, cs, hh⟩ := (hs.on_live hi).mpr hn
    exact ⟨l, cs, hh, (compound_meets hi ho (hs.has hi hh).1 (live_ne_zero hi hn).1 c).mp h⟩
  · rintro ⟨l, cs, hh, h⟩
    exact (compound_meets hi ho (hs.has hi hh).1 (live_ne_zero hi hn).1 c).mpr h

theorem kids_has (hi : DomI d (kids d)) (hs : Shows d pg) {p : Nat} (hp : Live d p) : ∃ l, pg.Has p l (kids d p) := by
  obtain ⟨l, cs, hh⟩ := (hs.on_live hi).mpr hp
  exact ⟨l, (hs.has hi hh).2 ▸ hh⟩

theorem elemChild_live (hi : DomI d (kids d)) (ho : OnlyElems d) (hs : Shows d pg) {v n : Nat} (hn : Live d n) :
    ElemChild d v n ↔ pg.ElemChild v n := by
  constructor
  · rintro ⟨h1, h2⟩
    obtain ⟨l, h⟩ := kids_has hi hs (live_parent hi h1 hn)
    obtain ⟨l', h'⟩ := kids_has hi hs hn
    exact ⟨⟨l, _, h, h1⟩, l', _, h', (label_holds hi ho (hs.has hi h').1 (live_ne_zero hi hn).1).2.2.2.mp h2⟩
  · rintro ⟨⟨l, cs, h, h1⟩, l', cs', h', h2⟩
    exact ⟨(hs.has hi h).2 ▸ h1, (label_holds hi ho (hs.has hi h').1 (live_ne_zero hi hn).1).2.2.2.mpr h2⟩

theorem rel_page (hi : DomI d (kids d)) (ho : OnlyElems d) (hs : Shows d pg) (k : CombKind) {v n : Nat} (hn : Live d n) :
    k.rel d v n ↔ k.onPage pg v n := by
  cases k with
  | child => exact elemChild_live hi ho hs hn
  | descendant =>
    have := trans_live (d := d) (R := pg.ElemChild) (R' := ElemChild d) (fun a b hb => (elemChild_live hi ho hs hb).symm)
      (fun a b hb h => live_parent hi h.1 hb) (v := v) hn
    exact this.1.symm
  | adjacent =>
    constructor
    · rintro ⟨p, l₁, l₂, e⟩
      have hp := live_parent hi (p := p) (c := n) (by rw [e]; simp) hn
      obtain ⟨l, h⟩ := kids_has hi hs hp
      exact ⟨p, l, l₁, l₂, e ▸ h⟩
    · rintro ⟨p, l, l₁, l₂, h⟩
      exact ⟨p, l₁, l₂, (hs.has hi h).2⟩
  | sibling =>
    constructor
    · rintro ⟨p, l₁, l₂, e, hm⟩
      have hp := live_parent hi (p := p) (c := n) (by rw [e]; simp [hm]) hn
      obtain ⟨l, h⟩ := kids_has hi hs hp
      exact ⟨p, l, l₁, l₂, e ▸ h, hm⟩
    · rintro ⟨p, l, l₁, l₂, h, hm⟩
      exact ⟨p, l₁, l₂, (hs.has hi h).2, hm⟩

/-- Only nodes of the page are related to nodes of the page. -/
theorem rel_up (hi : DomI d (kids d)) (k : CombKind) {v n : Nat} (hn : Live d n) (h : k.rel d v n) : Live d v := by
  cases k with
  | child => exact live_parent hi h.1 hn
  | descendant =>
    exact (trans_live (R := ElemChild d) (R' := ElemChild d) (fun _ _ _ => Iff.rfl) (fun a b hb h => live_parent hi h.1 hb) hn).2 h
  | adjacent =>
    obtain ⟨p, l₁, l₂, e⟩ := h
    exact live_sibling hi (p := p) (by rw [e]; simp) (by rw [e]; simp) hn
  | sibling =>
    obtain ⟨p, l₁, l₂, e, h⟩ := h
    exact live_sibling hi (p := p) (by rw [e]; simp) (by rw [e]; simp [h]) hn

theorem rest_page (hi : DomI d (kids d)) (ho : OnlyElems d) (hs : Shows d pg) : ∀ (rest : List (Comb × Compound)) (S S' : Nat → Prop),
    (∀ n, Live d n → (S n ↔ S' n)) → ∀ n, Live d n →
    (restSelects (fun c n => c.holds d n) d rest S n ↔ restOnPage pg rest S' n) := by
  intro rest
  induction rest with
  | nil => intro S S' hS n hn; exact hS n hn
  | cons a rest ih =>
    obtain ⟨k, c⟩ := a
    intro S S' hS n hn
    refine ih _ _ ?_ n hn
    intro m hm
    refine and_congr (meets_live hi ho hs hm c) (exists_congr fun v => ?_)
    constructor
    · rintro ⟨h1, h2⟩
      exact ⟨(hS v (rel_up hi k.kind hm h2)).mp h1, (rel_page hi ho hs k.kind hm).mp h2⟩
    · rintro ⟨h1, h2⟩
      have h2 := (rel_page hi ho hs k.kind hm).mpr h2
      exact ⟨(hS v (rel_up hi k.kind hm h2)).mpr h1, h2⟩

theorem query_page (hi : DomI d (kids d)) (ho : OnlyElems d) (hs : Shows d pg) (q : Query) {n : Nat} (hn : Live d n) :
    q.selects d n ↔ q.onPage pg n := by
  refine exists_congr fun p => and_congr_right fun _ => ?_
  refine rest_page hi ho hs p.rest _ _ (fun m hm => ?_) n hn
  rw [meets_live hi ho hs hm]
  exact ⟨fun h => h.2, fun h => ⟨live_ne_zero hi hm, h⟩⟩

/-! ## Names that do not occur -/

theorem mem_tail_of {α : Type} {l : List α} {i : Nat} {x : α} (h0 : i ≠ 0) (h : l[i]? = some x) : x ∈ l.tail := by
  obtain ⟨j, rfl⟩ := Nat.exists_eq_succ_of_ne_zero h0
  refine List.mem_of_getElem? (i := j) ?_
  rw [List.getElem?_tail]; exact h

theorem getD_some {α : Type} {l : List α} {i : Nat} {x : α} (h : i < l.length) : l[i]? = some (l.getD i x) := by
  simp [h]

theorem pairs_known {n : Nat} (hi : DomI d (kids d)) (hn : n ≠ 0) {k v : Str} (h : (k, v) ∈ pairs d n) : k ∈ d.keyReg.tail ∧ v ∈ d.valReg.tail := by
  unfold pairs at h
  obtain ⟨r, hr, e⟩ := List.mem_map.mp h
  obtain ⟨hr, en⟩ := List.mem_filter.mp hr
  have en : r.node = n := beq_iff_eq.mp en
  obtain ⟨l1, l2⟩ := hi.names.propsLt r hr
  obtain ⟨z1, z2⟩ := hi.names.propsNz r hr (en ▸ hn)
  cases e
  exact ⟨mem_tail_of z1 (getD_some l1), mem_tail_of z2 (getD_some l2)⟩

theorem bools_known {n : Nat} (hi : DomI d (kids d)) (hn : n ≠ 0) {b : Str} (h : b ∈ bools d n) : b ∈ d.boolReg.tail := by
  unfold bools at h
  obtain ⟨r, hr, e⟩ := List.mem_map.mp h
  obtain ⟨hr, en⟩ := List.mem_filter.mp hr
  have en : r.1 = n := beq_iff_eq.mp en
  have l1 := hi.names.boolsLt r hr
  have z1 := hi.names.boolsNz r hr (en ▸ hn)
  cases e
  exact mem_tail_of z1 (getD_some l1)

theorem tag_known {n : Nat} (hi : DomI d (kids d)) {t : Str} (h : tagOf d n = some t) : t ∈ (d.tagReg.map (·.1)).tail := by
  unfold tagOf at h
  split at h
  · rename_i i hget
    obtain ⟨t', e1, e2, e3⟩ := (hi.good n _ hget).doc rfl
    cases e1
    refine mem_tail_of e2 ?_
    rw [List.getElem?_map]; exact h
  · cases h

/-- A selector that holds for some node uses names on record only. -/
theorem holds_known {n : Nat} (hi : DomI d (kids d)) (hn : n ≠ 0) {c : Compound} (h : c.holds d n) : c.known d := by
  cases c with
  | any => trivial
  | mk t cs fin =>
    refine ⟨fun x e => tag_known hi (h.1 x e), fun c hc => ?_, fun f e => ?_⟩
    · have := h.2.1 c hc
      cases c with
      | flag => exact bools_known hi hn this
      | eq => exact pairs_known hi hn this
    · have := h.2.2 f e
      cases f with
      | cls => exact pairs_known hi hn this
      | ident => exact pairs_known hi hn this

theorem rest_met : ∀ (rest : List (Comb × Compound)) (S : Nat → Prop) (n : Nat), restOnPage pg rest S n →
    (∃ v, S v) ∧ ∀ a ∈ rest, ∃ v, pg.Meets a.2 v := by
  intro rest
  induction rest with
  | nil => intro S n h; exact ⟨⟨n, h⟩, fun a ha => by cases ha⟩
  | cons a rest ih =>
    intro S n h
    obtain ⟨⟨v, h1, w, h2, _⟩, h3⟩ := ih _ n h
    refine ⟨⟨w, h2⟩, fun b hb => ?_⟩
    rcases List.mem_cons.mp hb with rfl | hb
    · exact ⟨v, h1⟩
    · exact h3 b hb

theorem rest_on : ∀ (rest : List (Comb × Compound)) (S : Nat → Prop), (∀ n, S n → pg.On n) → ∀ n, restOnPage pg rest S n → pg.On n := by
  intro rest
  induction rest with
  | nil => intro S hS n h; exact hS n h
  | cons a rest ih =>
    intro S hS n h
    refine ih _ (fun m hm => ?_) n h
    obtain ⟨l, cs, hh, _⟩ := hm.1
    exact ⟨l, cs, hh⟩

theorem onPage_on {p : Part} {n : Nat} (h : p.onPage pg n) : pg.On n :=
  rest_on _ _ (fun _ hm => by obtain ⟨l, cs, hh, _⟩ := hm; exact ⟨l, cs, hh⟩) n h

/-- A comma-free query that uses a name not on record selects nothing on the page. -/
theorem unknown_empty (hi : DomI d (kids d)) (ho : OnlyElems d) (hs : Shows d pg) {p : Part} (h : ¬p.known d) (n : Nat) : ¬p.onPage pg n := by
  intro hp
  apply h
  obtain ⟨⟨v, h1⟩, h2⟩ := rest_met _ _ _ hp
  have key : ∀ c v, pg.Meets c v → c.known d := by
    intro c v hm
    obtain ⟨l, cs, hh, _⟩ := id hm
    have hl := (hs.on_live hi).mp ⟨l, cs, hh⟩
    exact holds_known hi (live_ne_zero hi hl).1 ((meets_live hi ho hs hl c).mpr hm)
  intro c hc
  rcases List.mem_cons.mp hc with rfl | hc
  · exact key _ _ h1
  · obtain ⟨a, ha, rfl⟩ := List.mem_map.mp hc
    obtain ⟨v, hv⟩ := h2 a ha
    exact key _ _ hv

end

/-! ## A freshly parsed page has all numbers -/

mutual
theorem number_range : ∀ (t : Tree) (k : Nat), (t.number k).ids = List.range' k t.size
  | .text raw, k => by
    rw [Tree.number, ids_node, Tree.size]; rfl
  | .elem tag ps bs ts, k => by
    rw [Tree.number, ids_node, Tree.size, numberAll_range ts (k + 1), Nat.add_comm 1, List.range'_succ]
theorem numberAll_range : ∀ (ts : List Tree) (k : Nat), idsAll (numberAll k ts) = List.range' k (sizeAll ts)
  | [], k => rfl
  | t :: ts, k => by
    rw [numberAll, idsAll_cons, number_range t k, numberAll_range ts, sizeAll, List.range'_append_1]
end

theorem load_on {s : Str} {n : Nat} : (Page.load s).On n ↔ 1 ≤ n ∧ n < (Page.load s).next := by
  rw [on_ids]
  show n ∈ (PTree.node 1 .root (numberAll 2 (treesOf (docTokens s).1))).ids ↔ 1 ≤ n ∧ n < 2 + sizeAll (treesOf (docTokens s).1)
  rw [ids_node, numberAll_range, List.mem_cons, List.mem_range'_1]
  omega

end Flo
