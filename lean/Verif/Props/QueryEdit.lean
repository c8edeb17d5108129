import Verif.Props.EditOrder
import Verif.Props.PageQuery
import Verif.Props.Stable
/-!
# Edits a query does not see (C133)
-/
namespace Flo
namespace Spec

/-- The key whose values a call changes. -/
def Op.changesKey : Op → Option Str
  | .attr (.add _ k _) | .attr (.set _ k _) | .attr (.remove _ k) => some k
  | _ => none

/-- The boolean attribute a call adds or removes. -/
def Op.changesFlag : Op → Option Str
  | .attr (.addBool _ b) | .attr (.removeBool _ b) => some b
  | _ => none

/-- A call that changes the attributes, the text or the tag of a node that is `before`, and a selector that mentions nothing of it: no
condition on the key or the boolean attribute, neither the old nor the new tag. -/
def Op.Unmentioned (o : Op) (before : Label) : Compound → Prop
  | .any => True
  | .mk t cs fin =>
    (∀ x, t = some x → ∀ tag n p, o = .setTag tag n p → x ≠ tag ∧ before.tag ≠ some x) ∧
    (∀ c ∈ cs, match c with
      | .flag _ b _ => o.changesFlag ≠ some b
      | .eq _ k _ _ _ _ => o.changesKey ≠ some k) ∧
    ∀ f, fin = some f → match f with
      | .cls _ => o.changesKey ≠ some b!"class"
      | .ident _ => o.changesKey ≠ some b!"id"

/-- The query mentions nothing of what the call changes. -/
def Query.Unaware (q : Query) (o : Op) (before : Label) : Prop := ∀ p ∈ q.parts, ∀ c ∈ p.compounds, o.Unmentioned before c

end Spec
open Spec
namespace Laws

theorem mem_setFirst {k k' v v' : Str} (h : k ≠ k') : ∀ ps : List (Str × Str), (k, v) ∈ setFirst k' v' ps ↔ (k, v) ∈ ps
  | [] => Iff.rfl
  | (a, b) :: ps => by
    rw [setFirst]
    split
    · rename_i e; subst e
      simp [h]
    · rw [List.mem_cons, List.mem_cons, mem_setFirst h ps]
theorem mem_removeFirst {k k' v : Str} (h : k ≠ k') : ∀ ps : List (Str × Str), (k, v) ∈ removeFirst k' ps ↔ (k, v) ∈ ps
  | [] => Iff.rfl
  | (a, b) :: ps => by
    rw [removeFirst]
    split
    · rename_i e; subst e
      simp [h]
    · rw [List.mem_cons, List.mem_cons, mem_removeFirst h ps]

/-- What a call with a target makes of a label. -/
def change : Op → Label → Label
  | .attr op => Label.attr op
  | .addText _ t e => Label.addText t e
  | .setTag t _ _ => Label.rename t
  | _ => id

theorem change_on {o : Op} {n : Nat} (h : o.relabels = some n) (new : List PTree) : o.on new = PTree.relabel n (change o) := by
  cases o <;> simp only [Op.relabels, Option.some.injEq, reduceCtorEq] at h <;> subst h <;> rfl

theorem change_isElem (o : Op) (l : Label) : (change o l).isElem = l.isElem := by
  cases o <;> cases l <;> try rfl
  rename_i op a b c
  cases op <;> rfl

theorem change_pairs {o : Op} {k v : Str} (h : o.changesKey ≠ some k) (l : Label) : (k, v) ∈ (change o l).pairs ↔ (k, v) ∈ l.pairs := by
  cases o <;> cases l <;> try exact Iff.rfl
  rename_i op a ps bs
  cases op with
  | add n k' v' =>
    have : k ≠ k' := fun e => h (e ▸ rfl)
    show (k, v) ∈ ps ++ [(k', v')] ↔ _
    simp [this, Label.pairs]
  | addBool n b => exact Iff.rfl
  | set n k' v' =>
    have : k ≠ k' := fun e => h (e ▸ rfl)
    exact mem_setFirst this ps
  | remove n k' =>
    have : k ≠ k' := fun e => h (e ▸ rfl)
    exact mem_removeFirst this ps
  | removeBool n b => exact Iff.rfl

theorem change_bools {o : Op} {b : Str} (h : o.changesFlag ≠ some b) (l : Label) : b ∈ (change o l).bools ↔ b ∈ l.bools := by
  cases o <;> cases l <;> try exact Iff.rfl
  rename_i op a ps bs
  cases op with
  | add n k v => exact Iff.rfl
  | addBool n b' =>
    have : b ≠ b' := fun e => h (e ▸ rfl)
    show b ∈ bs ++ [b'] ↔ _
    simp [this, Label.bools]
  | set n k v => exact Iff.rfl
  | remove n k => exact Iff.rfl
  | removeBool n b' => exact List.mem_erase_of_ne (fun e => h (e ▸ rfl))

theorem change_tag {o : Op} {x : Str} {l : Label} (h : ∀ tag n p, o = .setTag tag n p → x ≠ tag ∧ l.tag ≠ some x) :
    (change o l).tag = some x ↔ l.tag = some x := by
  cases o <;> cases l <;> try exact Iff.rfl
  case attr op a b c => cases op <;> exact Iff.rfl
  case setTag t n p a b c =>
    obtain ⟨h1, h2⟩ := h t n p rfl
    exact ⟨fun e => absurd (Option.some.inj e).symm h1, fun e => absurd e h2⟩

theorem change_meets {o : Op} {l : Label} {c : Compound} (h : o.Unmentioned l c) : c.meets (change o l) ↔ c.meets l := by
  cases c with
  | any => exact Iff.rfl
  | mk t cs fin =>
    obtain ⟨h1, h2, h3⟩ := h
    refine and_congr (forall_congr' fun x => forall_congr' fun e => change_tag (h1 x e)) (and_congr ?_ ?_)
    · refine forall_congr' fun c => forall_congr' fun hc => ?_
      have := h2 c hc
      cases c with
      | flag w b w' => exact change_bools this l
      | eq w k w2 w3 v w4 => exact change_pairs this l
    · refine forall_congr' fun f => forall_congr' fun hf => ?_
      have := h3 f hf
      cases f with
      | cls v => exact change_pairs this l
      | ident v => exact change_pairs this l

theorem relabelAll_id {n : Nat} {g : Label → Label} : ∀ ts : List PTree, (relabelAll n g ts).map PTree.id = ts.map PTree.id
  | [] => rfl
  | .node m l ks :: ts => by
    rw [relabelAll, List.map_cons, List.map_cons, relabelAll_id ts, PTree.relabel]; rfl

mutual
theorem relabel_rows {n : Nat} {g : Label → Label} : ∀ t : PTree,
    (t.relabel n g).rows = t.rows.map fun r => (r.1, if r.1 = n then g r.2.1 else r.2.1, r.2.2)
  | .node m l ks => by rw [PTree.relabel, PTree.rows, PTree.rows, List.map_cons, relabelAll_rows ks, relabelAll_id]
theorem relabelAll_rows {n : Nat} {g : Label → Label} : ∀ ts : List PTree,
    rowsAll (relabelAll n g ts) = (rowsAll ts).map fun r => (r.1, if r.1 = n then g r.2.1 else r.2.1, r.2.2)
  | [] => rfl
  | t :: ts => by rw [relabelAll, rowsAll, rowsAll, List.map_append, relabel_rows t, relabelAll_rows ts]
end

section
variable {pg pg' : Page} {n : Nat} {g : Label → Label}

theorem has_relabel (hr : pg'.root = pg.root.relabel n g) (m : Nat) (l' : Label) (cs : List Nat) :
    pg'.Has m l' cs ↔ ∃ l, pg.Has m l cs ∧ l' = if m = n then g l else l := by
  unfold Page.Has
  rw [hr, relabel_rows, List.mem_map]
  constructor
  · rintro ⟨⟨a, l, c⟩, h1, h2⟩
    cases h2
    exact ⟨l, h1, rfl⟩
  · rintro ⟨l, h1, rfl⟩
    exact ⟨_, h1, rfl⟩

theorem has_children (hr : pg'.root = pg.root.relabel n g) (m : Nat) (cs : List Nat) : (∃ l, pg'.Has m l cs) ↔ ∃ l, pg.Has m l cs := by
  constructor
  · rintro ⟨l', h⟩
    obtain ⟨l, h, _⟩ := (has_relabel hr m l' cs).mp h
    exact ⟨l, h⟩
  · rintro ⟨l, h⟩
    exact ⟨_, (has_relabel hr m _ cs).mpr ⟨l, h, rfl⟩⟩

theorem on_relabel (hr : pg'.root = pg.root.relabel n g) (m : Nat) : pg'.On m ↔ pg.On m := by
  unfold Page.On
  rw [exists_comm, exists_comm (p := fun l cs => pg.Has m l cs)]
  exact exists_congr fun cs => has_children hr m cs

theorem elemChild_relabel (hr : pg'.root = pg.root.relabel n g) (hg : ∀ l, (g l).isElem = l.isElem) : pg'.ElemChild = pg.ElemChild := by
  funext v m
  refine propext (and_congr ?_ ?_)
  · rw [exists_comm, exists_comm (p := fun l cs => pg.Has v l cs ∧ m ∈ cs)]
    refine exists_congr fun cs => ?_
    rw [exists_and_right, exists_and_right, has_children hr]
  · constructor
    · rintro ⟨l', cs, h, e⟩
      obtain ⟨l, h0, rfl⟩ := (has_relabel hr m l' cs).mp h
      refine ⟨l, cs, h0, ?_⟩
      split at e
      · rw [hg] at e; exact e
      · exact e
    · rintro ⟨l, cs, h, e⟩
      refine ⟨_, cs, (has_relabel hr m _ cs).mpr ⟨l, h, rfl⟩, ?_⟩
      split
      · rw [hg]; exact e
      · exact e

theorem comb_relabel (hr : pg'.root = pg.root.relabel n g) (hg : ∀ l, (g l).isElem = l.isElem) (k : CombKind) : k.onPage pg' = k.onPage pg := by
  cases k with
  | child => exact elemChild_relabel hr hg
  | descendant =>
    show Relation.TransGen pg'.ElemChild = Relation.TransGen pg.ElemChild
    rw [elemChild_relabel hr hg]
  | adjacent =>
    funext v m
    refine propext ?_
    constructor
    · rintro ⟨p, l, l₁, l₂, h⟩
      obtain ⟨l, h⟩ := (has_children hr p _).mp ⟨l, h⟩
      exact ⟨p, l, l₁, l₂, h⟩
    · rintro ⟨p, l, l₁, l₂, h⟩
      obtain ⟨l, h⟩ := (has_children hr p _).mpr ⟨l, h⟩
      exact ⟨p, l, l₁, l₂, h⟩
  | sibling =>
    funext v m
    refine propext ?_
    constructor
    · rintro ⟨p, l, l₁, l₂, h, hm⟩
      obtain ⟨l, h⟩ := (has_children hr p _).mp ⟨l, h⟩
      exact ⟨p, l, l₁, l₂, h, hm⟩
    · rintro ⟨p, l, l₁, l₂, h, hm⟩
      obtain ⟨l, h⟩ := (has_children hr p _).mpr ⟨l, h⟩
      exact ⟨p, l, l₁, l₂, h, hm⟩

theorem meets_relabel (hr : pg'.root = pg.root.relabel n g) {c : Compound} (hc : ∀ l cs, pg.Has n l cs → (c.meets (g l) ↔ c.meets l)) :
    pg'.Meets c = pg.Meets c := by
  funext m
  refine propext ?_
  constructor
  · rintro ⟨l', cs, h, hm⟩
    obtain ⟨l, h0, rfl⟩ := (has_relabel hr m l' cs).mp h
    refine ⟨l, cs, h0, ?_⟩
    split at hm
    · rename_i e; subst e; exact (hc l cs h0).mp hm
    · exact hm
  · rintro ⟨l, cs, h, hm⟩
    refine ⟨_, cs, (has_relabel hr m _ cs).mpr ⟨l, h, rfl⟩, ?_⟩
    split
    · rename_i e; subst e; exact (hc l cs h).mpr hm
    · exact hm

theorem rest_relabel (hr : pg'.root = pg.root.relabel n g) (hg : ∀ l, (g l).isElem = l.isElem) : ∀ (r : List (Comb × Compound)) (S : Nat → Prop)
    (_ : ∀ c ∈ r.map (·.2), ∀ l cs, pg.Has n l cs → (c.meets (g l) ↔ c.meets l)), restOnPage pg' r S = restOnPage pg r S
  | [], S, _ => rfl
  | (k, c) :: r, S, hc => by
    rw [restOnPage, restOnPage, meets_relabel hr (hc c (.head _)), comb_relabel hr hg]
    exact rest_relabel hr hg r _ fun c h => hc c (.tail _ h)

theorem part_relabel (hr : pg'.root = pg.root.relabel n g) (hg : ∀ l, (g l).isElem = l.isElem) (p : Part)
    (hc : ∀ c ∈ p.compounds, ∀ l cs, pg.Has n l cs → (c.meets (g l) ↔ c.meets l)) : p.onPage pg' = p.onPage pg := by
  unfold Part.onPage
  rw [meets_relabel hr (hc _ (.head _))]
  exact rest_relabel hr hg _ _ fun c h => hc c (.tail _ h)

theorem query_relabel (hr : pg'.root = pg.root.relabel n g) (hg : ∀ l, (g l).isElem = l.isElem) (q : Query)
    (hc : ∀ p ∈ q.parts, ∀ c ∈ p.compounds, ∀ l cs, pg.Has n l cs → (c.meets (g l) ↔ c.meets l)) (m : Nat) :
    q.onPage pg' m ↔ q.onPage pg m := by
  refine exists_congr fun p => and_congr_right fun hp => ?_
  rw [part_relabel hr hg p (hc p hp)]
end

/-- A call on a label that is in order on the page is allowed on the DOM. -/
theorem label_allowed {d : Dom} (h : Reachable d) {pg : Page} (hs : Shows d pg) {answer : Nat → Bool} {o : Op} {n : Nat}
    (ho : o.relabels = some n) (ha : pg.Allows answer o) : Allowed (fun i => .ok (answer i)) d o := by
  have hi := (reach_domI h).1
  cases o <;> simp only [Op.relabels, Option.some.injEq, reduceCtorEq] at ho
  case attr op =>
    obtain ⟨l, hl⟩ := ha
    exact (hs.entry hi hl).2
  case addText k t e =>
    obtain ⟨l, hl⟩ := ha
    exact ⟨_, (hs.entry hi hl).1⟩
  case setTag t k c =>
    obtain ⟨tag, ps, bs, hl⟩ := ha
    exact typeOf_tag (hs.entry hi hl).1.1

end Laws

/-- A call that changes the attributes, the text or the tag of a node does not change the answers to queries that do not mention what it
changes: what was answered is answered, with the same nodes of the page. -/
theorem C133_unmentioned (d : Dom) (h : Proper d) (pg : Page) (hs : Shows d pg) (o : Op) (n : Nat) (l : Label) (ho : o.relabels = some n)
    (hn : (n, l) ∈ pg.root.entries) (answer : Nat → Bool) (ha : pg.Allows answer o) (hat : ∀ a, o = .attr a → l.isElem = true)
    (hr : Room d o.cost) (q : Query) (hw : ∀ p ∈ q.parts, p.WF) (hsm : ∀ p ∈ q.parts, p.Small) (hq : q.Unaware o l) :
    ∃ d', runOp (fun i => .ok (answer i)) o d = .ok d' ∧ Proper d' ∧ ∀ pun pun', PunFree pun d → PunFree pun' d' →
      ∀ L, querySelectorAll pun q.text d = .ok (.go L) →
        ∃ L', querySelectorAll pun' q.text d' = .ok (.go L') ∧ ∀ m, Live d m → Live d' m ∧ (m ∈ L' ↔ m ∈ L) := by
  have h' := h.reachable
  have hi := (reach_domI h').1
  obtain ⟨d', e, g1, s1, _⟩ := C95_step d h' pg hs answer o ha hr
  have hal := Laws.label_allowed h' hs ho ha
  have hpr : Proper d' := by
    refine .edited (fun i => ⟨_, rfl⟩) h hal (fun a ea => ?_) e
    subst ea
    have : a.node = n := Option.some.inj ho
    rw [this]
    have hle := hat a rfl
    cases l with
    | elem t ps bs => exact typeOf_tag (hs.entry hi hn).1.1
    | text r => cases hle
    | root => cases hle
  refine ⟨d', e, hpr, fun pun pun' hp hp' L hL => ?_⟩
  obtain ⟨L', hL'⟩ := (C77_query_kept d d' h' _ (fun i => ⟨_, rfl⟩) o hal e pun pun' q.text).1 L hL
  refine ⟨L', hL', fun m hm => ?_⟩
  have hroot : (pg.step answer o).root = pg.root.relabel n (Laws.change o) := by
    show o.on _ pg.root = _
    rw [Laws.change_on ho]
  have hon := (hs.on_live hi).mpr hm
  have hon' := (Laws.on_relabel hroot m).mpr hon
  refine ⟨(s1.on_live (reach_domI g1).1).mp hon', ?_⟩
  have hmeets := Laws.query_relabel hroot (Laws.change_isElem o) q (fun p hp c hc l' cs hl' => by
    have : l' = l := Laws.entry_unique (hs.nodup hi) (Laws.has_entry hl') hn
    subst this
    exact Laws.change_meets (hq p hp c hc)) m
  rcases C101_query d h pg hs pun hp q hw hsm with ⟨L1, a1, _, _, a4⟩ | ⟨hf, _⟩
  · rcases C101_query d' hpr _ s1 pun' hp' q hw hsm with ⟨L2, b1, _, _, b4⟩ | ⟨hf, _⟩
    · rw [hL] at a1; cases a1
      rw [hL'] at b1; cases b1
      rw [a4 m hon, b4 m hon', hmeets]
    · rw [hL'] at hf; cases hf
  · rw [hL] at hf; cases hf

/-- A concrete case: `q[k=v] > br` and a new attribute `j` of the `q` whose condition is on `k`. -/
example : ∃ d, createDom b!"<q k=v><br></q>" = .ok (some d) ∧ Proper d ∧ Shows d (Page.load b!"<q k=v><br></q>") ∧ Room d 100 ∧
    (2, .elem b!"q" [(b!"k", b!"v")] []) ∈ (Page.load b!"<q k=v><br></q>").root.entries ∧
    (Page.load b!"<q k=v><br></q>").Allows (fun _ => true) (.attr (.add 2 b!"j" b!"v")) ∧
    pageQuery.Unaware (.attr (.add 2 b!"j" b!"v")) (.elem b!"q" [(b!"k", b!"v")] []) ∧ PunFree (fun _ => 0) d ∧
    querySelectorAll (fun _ => 0) pageQuery.text d = .ok (.go [3]) := by
  obtain ⟨d, hd, hp⟩ := someAnd_ex (x := createDom b!"<q k=v><br></q>") (p := fun d =>
    decide (querySelectorAll (fun _ => 0) b!"q[k=v] > br" d = .ok (.go [3]))) (by decide +kernel)
  refine ⟨d, hd, .parsed hd, C95_load _ d hd, (createDom_room (k := 100) (by decide)).elim hd d rfl, .tail _ (.head _), ⟨_, .tail _ (.head _)⟩, ?_,
    fun _ _ _ => .inl rfl, of_decide_eq_true hp⟩
  intro p hp c hc
  have : p = pageQuery.head := List.mem_singleton.mp hp
  subst this
  simp only [pageQuery, Part.compounds, List.map_cons, List.map_nil, List.mem_cons, List.not_mem_nil, or_false] at hc
  rcases hc with rfl | rfl
  · refine ⟨(by intro _ _ _ _ _ e; cases e), fun c hc => ?_, (by intro f h; cases h)⟩
    rw [List.mem_singleton] at hc; subst hc
    show some b!"j" ≠ some b!"k"
    decide
  · exact ⟨(by intro _ _ _ _ _ e; cases e), (by intro c h; cases h), (by intro f h; cases h)⟩

end Flo
