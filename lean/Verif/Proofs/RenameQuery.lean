import Verif.Spec.RenameQuery
import Verif.Proofs.PageRename
/-!
# Queries and renamed bytes
-/
namespace Flo.Ren
open Spec

variable {π : UInt8 → UInt8}

theorem qlit (h : QueryNeutral π) {m : Str} (hm : ∀ c ∈ m, c ∈ markupBytes ∨ c ∈ queryBytes) : m.map π = m := by
  conv_rhs => rw [← List.map_id m]
  refine List.map_congr_left fun c hc => ?_
  rcases hm c hc with x | x
  · exact h.markup c x
  · exact h.query c x

theorem condText_map (h : QueryNeutral π) (c : Cond) : (c.mapBytes π).text = c.text.map π := by
  have e1 : (b!"[").map π = b!"[" := qlit h (by decide)
  have e2 : (b!"]").map π = b!"]" := qlit h (by decide)
  have e3 : (b!"=").map π = b!"=" := qlit h (by decide)
  cases c <;> simp only [Cond.mapBytes, Cond.text, List.map_append, e1, e2, e3]

theorem finalText_map (h : QueryNeutral π) (c : Final) : (c.mapBytes π).text = c.text.map π := by
  have e1 : (b!".").map π = b!"." := qlit h (by decide)
  have e2 : (b!"#").map π = b!"#" := qlit h (by decide)
  cases c <;> simp only [Final.mapBytes, Final.text, List.map_append, e1, e2]

theorem compoundText_map (h : QueryNeutral π) (c : Compound) : (c.mapBytes π).text = c.text.map π := by
  cases c with
  | any => exact (qlit h (m := b!"*") (by decide)).symm
  | mk t cs f =>
    simp only [Compound.mapBytes, Compound.text, List.map_append, List.flatMap_map, List.map_flatMap, condText_map h]
    congr 1
    · cases t <;> rfl
    · congr 1
      cases f with
      | none => rfl
      | some f => exact finalText_map h f

theorem combText_map (h : QueryNeutral π) (c : Comb) : (c.mapBytes π).text = c.text.map π := by
  obtain ⟨k, a, b⟩ := c
  have e1 : (b!">").map π = b!">" := qlit h (by decide)
  have e2 : (b!"+").map π = b!"+" := qlit h (by decide)
  have e3 : (b!"~").map π = b!"~" := qlit h (by decide)
  cases k <;> simp only [Comb.mapBytes, Comb.text, CombKind.text, List.map_append, e1, e2, e3, List.map_nil]

theorem partText_map (h : QueryNeutral π) (p : Part) : (p.mapBytes π).text = p.text.map π := by
  simp only [Part.mapBytes, Part.text, restText, List.map_append, List.flatMap_map, List.map_flatMap, combText_map h, compoundText_map h]

theorem queryText_map (h : QueryNeutral π) (q : Query) : (q.mapBytes π).text = q.text.map π := by
  obtain ⟨p, ps⟩ := q
  simp only [Query.mapBytes, Query.text]
  rw [partText_map h]
  generalize p.text = acc
  induction ps generalizing acc with
  | nil => rfl
  | cons p ps ih =>
    simp only [List.map_cons, List.foldl_cons]
    rw [← ih, partText_map h, List.map_append, List.map_cons, h.query 44 (by decide)]

/-! ## Well-formed queries -/

theorem blanks_map (h : QueryNeutral π) {w : Str} (hw : Blanks w) : Blanks (w.map π) := by
  have : w.map π = w := qlit h fun c hc => .inl (by rcases hw c hc with e | e | e | e <;> subst e <;> decide)
  rw [this]; exact hw

theorem nameStart_iff (c : UInt8) : NameStart c ↔ isAlphabetical c = true ∨ c = 33 := by
  simp only [NameStart, isAlphabetical, Bool.or_eq_true, Bool.and_eq_true, decide_eq_true_eq, or_assoc]

theorem nameStart_map (h : QueryNeutral π) {c : UInt8} (hc : NameStart c) : NameStart (π c) := by
  rw [nameStart_iff] at hc ⊢
  rw [h.letter]
  rcases hc with x | rfl
  · exact .inl x
  · exact .inr (h.markup 33 (by decide))

theorem stays (h : QueryNeutral π) {c x : UInt8} (hc : c ∈ markupBytes ∨ c ∈ queryBytes) (e : π x = c) : x = c := by
  have : π c = c := hc.elim (h.markup c) (h.query c)
  exact h.inj _ _ (e.trans this.symm)

theorem word_ok (h : QueryNeutral π) {t : Str} (ht : Word t) : Word (t.map π) := by
  obtain ⟨⟨c, l, rfl, hc⟩, hs⟩ := ht
  refine ⟨⟨_, _, rfl, nameStart_map h hc⟩, fun x hx hst => ?_⟩
  obtain ⟨y, hy, rfl⟩ := List.mem_map.1 hx
  refine hs y hy ?_
  unfold WordStop at hst ⊢
  rcases hst with e | e | e | e | e | e | e <;> have := stays h (by decide) e <;> subst this <;> simp

theorem tagWord_ok (h : QueryNeutral π) {t : Str} (ht : TagWord t) : TagWord (t.map π) := by
  obtain ⟨⟨c, l, rfl, hc⟩, hs⟩ := ht
  refine ⟨⟨_, _, rfl, nameStart_map h hc⟩, fun x hx hst => ?_⟩
  obtain ⟨y, hy, rfl⟩ := List.mem_map.1 hx
  refine hs y hy ?_
  unfold TagStop at hst ⊢
  rcases hst with e | e | e | e | e | e | e | e | e | e | e <;> have := stays h (by decide) e <;> subst this <;> simp

theorem condWF_map (h : QueryNeutral π) {c : Cond} (hc : c.WF) : (c.mapBytes π).WF := by
  cases c with
  | flag a n b => exact ⟨blanks_map h hc.1, word_ok h hc.2.1, blanks_map h hc.2.2⟩
  | eq a k b c v e =>
    obtain ⟨h1, h2, h3, h4, h5, h6⟩ := hc
    exact ⟨blanks_map h h1, word_ok h h2, blanks_map h h3, blanks_map h h4, word_ok h h5, blanks_map h h6⟩

theorem compoundWF_map (h : QueryNeutral π) {b : Bool} {c : Compound} (hc : c.WF b) : (c.mapBytes π).WF b := by
  cases c with
  | any => trivial
  | mk t cs f =>
    obtain ⟨h1, h2, h3, h4⟩ := hc
    refine ⟨fun x hx => ?_, fun c hc => ?_, fun f' hf => ?_, ?_⟩
    · obtain ⟨y, hy, rfl⟩ := Option.map_eq_some_iff.1 hx
      exact tagWord_ok h (h1 y hy)
    · obtain ⟨y, hy, rfl⟩ := List.mem_map.1 hc
      exact condWF_map h (h2 y hy)
    · obtain ⟨y, hy, rfl⟩ := Option.map_eq_some_iff.1 hf
      refine ⟨(h3 y hy).1, ?_⟩
      have := word_ok h (h3 y hy).2
      cases y <;> exact this
    · simpa using h4

theorem any_map (c : Compound) : c.mapBytes π = .any ↔ c = .any := by cases c <;> simp [Compound.mapBytes]

theorem restWF_map (h : QueryNeutral π) : ∀ r : List (Comb × Compound), restWF r → restWF (r.map fun r => (r.1.mapBytes π, r.2.mapBytes π))
  | [], _ => trivial
  | (k, c) :: r, hw => by
    obtain ⟨⟨h1, h2, h3⟩, h4, h5, h6⟩ := hw
    refine ⟨⟨blanks_map h h1, blanks_map h h2, fun e => ?_⟩, ?_, fun e => h5 ((any_map c).1 e), restWF_map h r h6⟩
    · have := h3 e
      simpa [Comb.mapBytes] using this
    · rw [List.isEmpty_map]; exact compoundWF_map h h4

theorem partWF_map (h : QueryNeutral π) {p : Part} (hp : p.WF) : (p.mapBytes π).WF := by
  obtain ⟨h1, h2, h3, h4⟩ := hp
  refine ⟨blanks_map h h1, blanks_map h h2, ?_, restWF_map h _ h4⟩
  simp only [Part.mapBytes, List.isEmpty_map]
  exact compoundWF_map h h3

theorem small_map {p : Part} (hp : p.Small) : (p.mapBytes π).Small := by
  have hs : ∀ c : Compound, (c.mapBytes π).size = c.size := by
    intro c
    cases c with
    | any => rfl
    | mk t cs f => cases t <;> cases f <;> simp [Compound.mapBytes, Compound.size]
  intro c hc
  simp only [Part.compounds, Part.mapBytes, List.mem_cons, List.map_map, List.mem_map, Function.comp_def] at hc
  rcases hc with rfl | ⟨r, hr, rfl⟩
  · rw [hs]; exact hp _ (.head _)
  · rw [hs]; exact hp _ (.tail _ (List.mem_map.2 ⟨r, hr, rfl⟩))

/-! ## What a query selects -/

mutual
theorem rows_map : ∀ t : PTree, (t.mapBytes π).rows = t.rows.map fun r => (r.1, r.2.1.mapBytes π, r.2.2)
  | .node n l ks => by
    simp only [PTree.mapBytes, PTree.rows, List.map_cons, rowsAll_map ks]
    have : (PTree.mapBytesAll π ks).map PTree.id = ks.map PTree.id := by
      rw [mapAll_eq, List.map_map]; exact List.map_congr_left fun t _ => id_map t
    rw [this]
theorem rowsAll_map : ∀ ts : List PTree, rowsAll (PTree.mapBytesAll π ts) = (rowsAll ts).map fun r => (r.1, r.2.1.mapBytes π, r.2.2)
  | [] => rfl
  | t :: ts => by simp only [PTree.mapBytesAll, rowsAll, List.map_append, rows_map t, rowsAll_map ts]
end

theorem has_map (pg : Page) (n : Nat) (l : Label) (cs : List Nat) : (pg.mapBytes π).Has n l cs ↔ ∃ l', pg.Has n l' cs ∧ l = l'.mapBytes π := by
  unfold Page.Has
  show _ ∈ (pg.root.mapBytes π).rows ↔ _
  rw [rows_map, List.mem_map]
  constructor
  · rintro ⟨⟨n', l', cs'⟩, h1, h2⟩
    cases h2
    exact ⟨l', h1, rfl⟩
  · rintro ⟨l', h1, rfl⟩
    exact ⟨_, h1, rfl⟩

/-- A property of labels that does not change, said of a node of the page. -/
theorem has_iff {P P' : Label → List Nat → Prop} (hP : ∀ l cs, P' (l.mapBytes π) cs ↔ P l cs) (pg : Page) (n : Nat) :
    (∃ l cs, (pg.mapBytes π).Has n l cs ∧ P' l cs) ↔ ∃ l cs, pg.Has n l cs ∧ P l cs := by
  constructor
  · rintro ⟨l, cs, h1, h2⟩
    obtain ⟨l', h3, rfl⟩ := (has_map pg n l cs).1 h1
    exact ⟨l', cs, h3, (hP _ _).1 h2⟩
  · rintro ⟨l, cs, h1, h2⟩
    exact ⟨_, cs, (has_map pg n _ cs).2 ⟨l, h1, rfl⟩, (hP _ _).2 h2⟩

theorem pair_mem (h : Neutral π) (l : Label) (k v : Str) : (k.map π, v.map π) ∈ (l.mapBytes π).pairs ↔ (k, v) ∈ l.pairs := by
  cases l with
  | elem t ps bs =>
    simp only [Label.mapBytes, Label.pairs, List.mem_map, Prod.mk.injEq]
    constructor
    · rintro ⟨⟨a, b⟩, hm, e1, e2⟩
      rw [h.str] at e1 e2
      subst e1; subst e2; exact hm
    · intro hm; exact ⟨_, hm, rfl, rfl⟩
  | _ => simp [Label.mapBytes, Label.pairs]

theorem bool_mem (h : Neutral π) (l : Label) (b : Str) : b.map π ∈ (l.mapBytes π).bools ↔ b ∈ l.bools := by
  cases l with
  | elem t ps bs =>
    simp only [Label.mapBytes, Label.bools, List.mem_map]
    constructor
    · rintro ⟨a, hm, e1⟩
      rw [h.str] at e1
      subst e1; exact hm
    · intro hm; exact ⟨_, hm, rfl⟩
  | _ => simp [Label.mapBytes, Label.bools]

theorem tag_map' (h : Neutral π) (l : Label) (x : Str) : (l.mapBytes π).tag = some (x.map π) ↔ l.tag = some x := by
  cases l <;> simp [Label.mapBytes, Label.tag, h.str]

theorem condMeets_map (h : QueryNeutral π) (l : Label) (c : Cond) : (c.mapBytes π).meets (l.mapBytes π) ↔ c.meets l := by
  cases c with
  | flag a n b => exact bool_mem h.toNeutral l n
  | eq a k b c v e => exact pair_mem h.toNeutral l k v

theorem finalMeets_map (h : QueryNeutral π) (l : Label) (c : Final) : (c.mapBytes π).meets (l.mapBytes π) ↔ c.meets l := by
  cases c with
  | cls v => have := pair_mem h.toNeutral l b!"class" v; rw [h.cls] at this; exact this
  | ident v => have := pair_mem h.toNeutral l b!"id" v; rw [h.ident] at this; exact this

theorem meets_map (h : QueryNeutral π) (l : Label) (c : Compound) : (c.mapBytes π).meets (l.mapBytes π) ↔ c.meets l := by
  cases c with
  | any => exact Iff.rfl
  | mk t cs f =>
    refine and_congr ?_ (and_congr ?_ ?_)
    · cases t with
      | none => simp
      | some t =>
        simp only [Option.map_some, Option.some.injEq, forall_eq']
        exact tag_map' h.toNeutral l t
    · simp only [List.forall_mem_map, condMeets_map h]
    · cases f with
      | none => simp
      | some f =>
        simp only [Option.map_some, Option.some.injEq, forall_eq']
        exact finalMeets_map h l f

theorem pageMeets_map (h : QueryNeutral π) (pg : Page) (c : Compound) (n : Nat) : (pg.mapBytes π).Meets (c.mapBytes π) n ↔ pg.Meets c n :=
  has_iff (P := fun l _ => c.meets l) (P' := fun l _ => (c.mapBytes π).meets l) (fun l _ => meets_map h l c) pg n

theorem elemChild_map (pg : Page) (v n : Nat) : (pg.mapBytes π).ElemChild v n ↔ pg.ElemChild v n :=
  and_congr (has_iff (P := fun _ cs => n ∈ cs) (P' := fun _ cs => n ∈ cs) (fun _ _ => Iff.rfl) pg v)
    (has_iff (P := fun l _ => l.isElem = true) (P' := fun l _ => l.isElem = true) (fun l _ => by cases l <;> rfl) pg n)

theorem has_some (pg : Page) (p : Nat) (cs : List Nat) : (∃ l, (pg.mapBytes π).Has p l cs) ↔ ∃ l, pg.Has p l cs := by
  constructor
  · rintro ⟨l, h⟩; obtain ⟨l', h', _⟩ := (has_map pg p l cs).1 h; exact ⟨l', h'⟩
  · rintro ⟨l, h⟩; exact ⟨_, (has_map pg p _ cs).2 ⟨l, h, rfl⟩⟩

theorem combOnPage_map (pg : Page) (k : CombKind) (v n : Nat) : k.onPage (pg.mapBytes π) v n ↔ k.onPage pg v n := by
  have he : (pg.mapBytes π).ElemChild = pg.ElemChild := by funext a b; exact propext (elemChild_map pg a b)
  cases k with
  | child => exact elemChild_map pg v n
  | descendant => simp only [CombKind.onPage, he]
  | adjacent =>
    constructor
    · rintro ⟨p, l, l₁, l₂, hh⟩
      obtain ⟨l', hh⟩ := (has_some pg p _).1 ⟨l, hh⟩
      exact ⟨p, l', l₁, l₂, hh⟩
    · rintro ⟨p, l, l₁, l₂, hh⟩
      obtain ⟨l', hh⟩ := (has_some (π := π) pg p _).2 ⟨l, hh⟩
      exact ⟨p, l', l₁, l₂, hh⟩
  | sibling =>
    constructor
    · rintro ⟨p, l, l₁, l₂, hh, hn⟩
      obtain ⟨l', hh⟩ := (has_some pg p _).1 ⟨l, hh⟩
      exact ⟨p, l', l₁, l₂, hh, hn⟩
    · rintro ⟨p, l, l₁, l₂, hh, hn⟩
      obtain ⟨l', hh⟩ := (has_some (π := π) pg p _).2 ⟨l, hh⟩
      exact ⟨p, l', l₁, l₂, hh, hn⟩

theorem restOnPage_map (h : QueryNeutral π) (pg : Page) : ∀ (r : List (Comb × Compound)) (S S' : Nat → Prop) (_ : ∀ n, S' n ↔ S n) (n : Nat),
    restOnPage (pg.mapBytes π) (r.map fun r => (r.1.mapBytes π, r.2.mapBytes π)) S' n ↔ restOnPage pg r S n
  | [], _, _, hS, n => hS n
  | (k, c) :: r, S, S', hS, n => by
    refine restOnPage_map h pg r _ _ (fun n => ?_) n
    refine and_congr (pageMeets_map h pg c n) (exists_congr fun v => and_congr (hS v) ?_)
    exact combOnPage_map pg k.kind v n

theorem partOnPage_map (h : QueryNeutral π) (pg : Page) (p : Part) (n : Nat) : (p.mapBytes π).onPage (pg.mapBytes π) n ↔ p.onPage pg n :=
  restOnPage_map h pg p.rest _ _ (fun n => pageMeets_map h pg p.first n) n

theorem parts_map (q : Query) : (q.mapBytes π).parts = q.parts.map (Part.mapBytes π) := rfl

theorem queryOnPage_map (h : QueryNeutral π) (pg : Page) (q : Query) (n : Nat) : (q.mapBytes π).onPage (pg.mapBytes π) n ↔ q.onPage pg n := by
  unfold Query.onPage
  rw [parts_map]
  constructor
  · rintro ⟨p, hp, hn⟩
    obtain ⟨p', hp', rfl⟩ := List.mem_map.1 hp
    exact ⟨p', hp', (partOnPage_map h pg p' n).1 hn⟩
  · rintro ⟨p, hp, hn⟩
    exact ⟨_, List.mem_map.2 ⟨p, hp, rfl⟩, (partOnPage_map h pg p n).2 hn⟩

theorem on_page_map (pg : Page) (n : Nat) : (pg.mapBytes π).On n ↔ pg.On n := by
  have := has_iff (π := π) (P := fun _ _ => True) (P' := fun _ _ => True) (fun _ _ => Iff.rfl) pg n
  simpa [Page.On] using this

end Flo.Ren
