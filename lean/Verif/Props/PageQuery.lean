import Verif.Proofs.PageQuery
/-!
# Only elements have attributes (C100); queries are about the page (C101)

`Query.onPage` (`Spec/PageQuery.lean`) gives the meaning of a query in terms of a page: which nodes it has, what they are and
which children they have.
-/
namespace Flo
open Spec

/-! ## C100 -/

theorem rows_none {d : Dom} (h : OnlyElems d) {n : Nat} (h0 : n ≠ 0) (h1 : typeOf d n ≠ some .document) (h2 : typeOf d n ≠ some .removed) :
    (∀ r ∈ d.props, r.node ≠ n) ∧ ∀ r ∈ d.boolProps, r.1 ≠ n := by
  have hn : ¬MayHold d n := fun hm => hm.elim h0 fun hm => hm.elim h1 h2
  exact ⟨fun r hr e => hn (e ▸ h.props r hr), fun r hr e => hn (e ▸ h.boolProps r hr)⟩

/-- In every document, however edited, as long as the attribute functions were applied to elements only: the root and the texts
have no attributes, and the reading functions say so. -/
theorem C100_only_elements (d : Dom) (h : Proper d) (n : Nat) (hn : n = rootID ∨ ∃ t, textOf d n = some t) :
    pairs d n = [] ∧ bools d n = [] ∧
    (∀ k, hasPropKey n k d = false ∧ getValue n k d = .ok []) ∧ (∀ v, hasPropValue n v d = false) ∧
    (∀ k v, hasProperty n k v d = false) ∧ ∀ b, hasBoolProp n b d = false := by
  have hi := (reach_domI h.reachable).1
  have h0 : n ≠ 0 := by
    rcases hn with rfl | ⟨t, ht⟩
    · decide
    · rintro rfl
      have := typeOf_text ht
      rw [hi.zero] at this; cases this
  have hty : typeOf d n ≠ some .document ∧ typeOf d n ≠ some .removed := by
    rcases hn with rfl | ⟨t, ht⟩
    · have : typeOf d rootID = some .root := hi.root
      rw [this]; decide
    · rw [typeOf_text ht]; decide
  obtain ⟨e1, e2⟩ := h.only.none h0 hty.1 hty.2
  obtain ⟨r1, r2⟩ := rows_none h.only h0 hty.1 hty.2
  have any1 : ∀ f : PropRow → Bool, d.props.any (fun r => r.node == n && f r) = false := by
    intro f
    rw [List.any_eq_false]
    intro r hr
    simp [r1 r hr]
  refine ⟨e1, e2, fun k => ⟨?_, ?_⟩, fun v => ?_, fun k v => ?_, fun b => ?_⟩
  · unfold hasPropKey; dsimp only; split
    · rfl
    · exact any1 _
  · unfold getValue; dsimp only; split
    · rfl
    · rw [List.find?_eq_none.mpr (fun r hr => by simp [r1 r hr])]
  · unfold hasPropValue; dsimp only; split
    · rfl
    · exact any1 _
  · unfold hasProperty; dsimp only; split
    · rfl
    · have := any1 (fun r => r.key == d.keyMap.contains k && r.value == d.valMap.contains v)
      simpa [Bool.and_assoc] using this
  · unfold hasBoolProp; dsimp only; split
    · rfl
    · rw [List.any_eq_false]
      intro r hr
      simp [r2 r hr]

/-- Without that condition it is false: an attribute can be set on a text, and then stays with it. -/
theorem C100_condition : ∃ d n t, Reachable d ∧ textOf d n = some t ∧ pairs d n = [(b!"k", b!"v")] := by
  have e : okAnd (createDom b!"a" >>= fun o => match o with
      | none => .hang
      | some d => runOp (fun _ => .ok true) (.attr (.add 2 b!"k" b!"v")) d)
      (fun d => textOf d 2 == some b!"a" && pairs d 2 == [(b!"k", b!"v")]) = true := by decide +kernel
  obtain ⟨d, hd, hc⟩ := okAnd_ex e
  simp only [Out.bind_eq_ok] at hd
  obtain ⟨o, ho, hr⟩ := hd
  cases o with
  | none => cases hr
  | some d0 =>
    simp only [Bool.and_eq_true, beq_iff_eq] at hc
    refine ⟨d, 2, b!"a", .edited (fun i => ⟨true, rfl⟩) (.parsed ho) ?_ hr, hc.1, hc.2⟩
    have hl : d.nodes.length = d0.nodes.length := by
      simp only [runOp, runAttr, addProperty, internKey, internVal, Out.bind_eq_ok] at hr
      obtain ⟨⟨a, d1⟩, ⟨r1, _, e1⟩, ⟨b, d2⟩, ⟨r2, _, e2⟩, e⟩ := hr
      cases e1; cases e2; cases e; rfl
    refine ⟨by decide, ?_⟩
    show 2 < d0.nodes.length
    rw [← hl]
    by_contra hcon
    have : textOf d 2 = none := by
      unfold textOf
      rw [List.getElem?_eq_none (by omega)]
    rw [this] at hc
    cases hc.1

example : ∃ d, Proper d ∧ textOf d 3 = some b!"a" := by
  have e : okAnd (createDom b!"<p>a</p>") (fun o => match o with | some d => textOf d 3 == some b!"a" | none => false) = true := by decide +kernel
  obtain ⟨o, ho, hc⟩ := okAnd_ex e
  cases o with
  | none => cases hc
  | some d => exact ⟨d, .parsed ho, by simpa using hc⟩

/-! ## C101 -/

/-- What the library answers, as far as the nodes of the page are concerned. -/
def AnswersPage (pun : Nat → Nat) (d : Dom) (pg : Page) (q : Query) : Prop :=
  (∃ L, querySelectorAll pun q.text d = .ok (.go L) ∧ L.Nodup ∧ (∀ n ∈ L, IsNode d n) ∧ ∀ n, pg.On n → (n ∈ L ↔ q.onPage pg n)) ∨
  (querySelectorAll pun q.text d = .ok (.fail .notSeenBefore) ∧ ∃ p ∈ q.parts, ∀ n, ¬p.onPage pg n)

theorem answers_page {d : Dom} (hi : DomI d (kids d)) (h0 : kids d 0 = []) (ho : OnlyElems d) {pg : Page} (hs : Shows d pg)
    {pun : Nat → Nat} (hp : PunFree pun d) {q : Query} (hw : ∀ p ∈ q.parts, p.WF) (hsm : ∀ p ∈ q.parts, p.Small) : AnswersPage pun d pg q := by
  by_cases hk : ∀ p ∈ q.parts, p.known d
  · obtain ⟨L, e1, e2, e3, e4⟩ := query_live hi h0 hp hw hk hsm
    refine .inl ⟨L, e1, e2, e3, fun n hn => ?_⟩
    have hl := (hs.on_live hi).mp hn
    exact (e4 n hl).trans (query_page hi ho hs q hl)
  · have hk' : ∃ p ∈ q.parts, ¬p.known d := by
      by_contra hc
      exact hk fun p hp => by_contra fun hn => hc ⟨p, hp, hn⟩
    refine .inr ⟨(query_fail hi hw).1 hsm hk', ?_⟩
    obtain ⟨p, hp, hn⟩ := hk'
    exact ⟨p, hp, unknown_empty hi ho hs hn⟩

/-- A query that is well formed (and has at most eight conditions per selector) is answered with exactly the nodes of the page it
selects, in some order, without repetition, plus possibly nodes that are no longer on the page (C26, C31); or it is refused, and
then one of its parts selects nothing on the page. -/
theorem C101_query (d : Dom) (h : Proper d) (pg : Page) (hs : Shows d pg) (pun : Nat → Nat) (hp : PunFree pun d) (q : Query)
    (hw : ∀ p ∈ q.parts, p.WF) (hsm : ∀ p ∈ q.parts, p.Small) : AnswersPage pun d pg q :=
  answers_page (reach_domI h.reachable).1 (reach_domI h.reachable).2 h.only hs hp hw hsm

/-- A query all parts of which select something on the page is answered. -/
theorem C101_answered (d : Dom) (h : Proper d) (pg : Page) (hs : Shows d pg) (pun : Nat → Nat) (hp : PunFree pun d) (q : Query)
    (hw : ∀ p ∈ q.parts, p.WF) (hsm : ∀ p ∈ q.parts, p.Small) (hq : ∀ p ∈ q.parts, ∃ n, p.onPage pg n) :
    ∃ L, querySelectorAll pun q.text d = .ok (.go L) ∧ L.Nodup ∧ ∀ n, pg.On n → (n ∈ L ↔ q.onPage pg n) := by
  rcases C101_query d h pg hs pun hp q hw hsm with ⟨L, e1, e2, _, e4⟩ | ⟨_, p, hpp, hn⟩
  · exact ⟨L, e1, e2, e4⟩
  · obtain ⟨n, hn'⟩ := hq p hpp
    exact absurd hn' (hn n)

/-- On a freshly parsed document the answer is exact: every node is on the page. -/
theorem C101_parsed (s : Str) (d : Dom) (h : createDom s = .ok (some d)) (pun : Nat → Nat) (hp : PunFree pun d) (q : Query)
    (hw : ∀ p ∈ q.parts, p.WF) (hsm : ∀ p ∈ q.parts, p.Small) :
    (∃ L, querySelectorAll pun q.text d = .ok (.go L) ∧ L.Nodup ∧ ∀ n, n ∈ L ↔ q.onPage (Page.load s) n) ∨
    (querySelectorAll pun q.text d = .ok (.fail .notSeenBefore) ∧ ∃ p ∈ q.parts, ∀ n, ¬p.onPage (Page.load s) n) := by
  have hs := C95_load s d h
  rcases C101_query d (.parsed h) _ hs pun hp q hw hsm with ⟨L, e1, e2, e3, e4⟩ | hf
  · refine .inl ⟨L, e1, e2, fun n => ⟨fun hn => ?_, fun hn => ?_⟩⟩
    · have := e3 n hn
      exact (e4 n (load_on.mpr ⟨Nat.one_le_iff_ne_zero.mpr this.1, hs.next ▸ this.2⟩)).mp hn
    · obtain ⟨p, hpp, hn'⟩ := id hn
      exact (e4 n (onPage_on hn')).mpr hn
  · exact .inr hf

theorem runEach_only (ops : List (Op × (Nat → Bool))) : ∀ (d d' : Dom) (_ : Reachable d) (_ : OnlyElems d) (pg : Page) (_ : Shows d pg)
    (_ : pg.AllowsAll ops) (_ : pg.AttrsOnElems ops) (_ : Room d ((ops.map fun o => o.1.cost).sum)) (_ : runEach ops d = .ok d'), OnlyElems d' := by
  induction ops with
  | nil => intro d d' _ ho pg _ _ _ _ e; cases e; exact ho
  | cons o ops ih =>
    intro d d' h ho pg hs ha hat hr e
    rw [List.map_cons, List.sum_cons] at hr
    obtain ⟨d1, e1, h1, s1, r1⟩ := C95_step d h pg hs o.2 o.1 ha.1 (hr.le (by omega))
    rw [runEach, e1] at e
    refine ih d1 d' h1 ?_ _ s1 ha.2 hat.2 (r1 _ hr) e
    refine runOp_bare (fun i => ⟨_, rfl⟩) ho (fun a ea => ?_) _ e1
    obtain ⟨l, hl, hle⟩ := hat.1 a ea
    have hi := (reach_domI h).1
    obtain ⟨n1, n2⟩ := hs.entry hi hl
    exact (label_holds hi ho n1 n2.1).2.2.2.mpr hle

/-- A whole session: any input that stands for a document, any sequence of operations that are in order on the page and apply the
attribute functions to elements, then any well-formed query.  The answer is what the query selects on the resulting page. -/
theorem C101_session (s : Str) (ts : List Tree) (ho : outcome s = .document ts) (ops : List (Op × (Nat → Bool)))
    (ha : (Page.load s).AllowsAll ops) (hat : (Page.load s).AttrsOnElems ops)
    (hlen : s.length + (ops.map fun o => o.1.cost).sum ≤ 65533) :
    ∃ d d', createDom s = .ok (some d) ∧ runEach ops d = .ok d' ∧
      ∀ pun, PunFree pun d' → ∀ q : Query, (∀ p ∈ q.parts, p.WF) → (∀ p ∈ q.parts, p.Small) →
        AnswersPage pun d' ((Page.load s).run ops) q := by
  obtain ⟨d, d', hd, e, h', s', _⟩ := C95_session s ts ho ops ha hlen
  refine ⟨d, d', hd, e, fun pun hp q hw hsm => ?_⟩
  have hr : Room d ((ops.map fun o => o.1.cost).sum) := (createDom_room hlen).elim hd d rfl
  exact answers_page (reach_domI h').1 (reach_domI h').2
    (runEach_only ops d d' (.parsed hd) (createDom_bare hd) _ (C95_load s d hd) ha hat hr e) s' hp hw hsm

/-! ## A concrete session and query -/

/-- `q[k=v] > br` on the page of `pageOps` (C95). -/
def pageQuery : Query := ⟨⟨[], .mk (some b!"q") [.eq [] b!"k" [] [] b!"v" []] none, [(⟨.child, b!" ", b!" "⟩, .mk (some b!"br") [] none)], []⟩, []⟩

example : pageQuery.text = b!"q[k=v] > br" := rfl
theorem blanks_one : Blanks b!" " := by intro c hc; rw [List.mem_singleton] at hc; exact .inl hc
theorem blanks_nil : Blanks [] := fun c hc => by cases hc
theorem pageQuery_ok : (∀ p ∈ pageQuery.parts, p.WF) ∧ ∀ p ∈ pageQuery.parts, p.Small := by
  have hq : pageQuery.parts = [pageQuery.head] := rfl
  have hw : ∀ t : Str, (∃ c l, t = c :: l ∧ NameStart c) → (∀ c ∈ t, 97 ≤ c ∧ c ≤ 122) → TagWord t ∧ Word t := by
    intro t h1 h2
    refine ⟨⟨h1, fun c hc hs => ?_⟩, h1, fun c hc hs => ?_⟩
    · have := h2 c hc
      rcases hs with rfl | rfl | rfl | rfl | rfl | rfl | rfl | rfl | rfl | rfl | rfl <;> exact absurd this (by decide)
    · have := h2 c hc
      rcases hs with rfl | rfl | rfl | rfl | rfl | rfl | rfl <;> exact absurd this (by decide)
  have hs : ∀ c : UInt8, 97 ≤ c ∧ c ≤ 122 → NameStart c := fun c h => .inl h
  have w1 := hw b!"q" ⟨_, _, rfl, hs _ (by decide)⟩ (by decide)
  have w2 := hw b!"k" ⟨_, _, rfl, hs _ (by decide)⟩ (by decide)
  have w3 := hw b!"v" ⟨_, _, rfl, hs _ (by decide)⟩ (by decide)
  have w4 := hw b!"br" ⟨_, _, rfl, hs _ (by decide)⟩ (by decide)
  rw [hq]
  constructor
  · intro p hp
    rw [List.mem_singleton] at hp; subst hp
    refine ⟨blanks_nil, blanks_nil, ⟨?_, ?_, (by intro f h; cases h), .inl (by simp)⟩,
      ⟨blanks_one, blanks_one, (by intro h; cases h)⟩, ⟨?_, (by intro c h; cases h), (by intro f h; cases h), .inl (by simp)⟩, (by simp), trivial⟩
    · intro x e; cases e; exact w1.1
    · intro c hc
      rw [List.mem_singleton] at hc; subst hc
      exact ⟨blanks_nil, w2.2, blanks_nil, blanks_nil, w3.2, blanks_nil⟩
    · intro x e; cases e; exact w4.1
  · intro p hp
    rw [List.mem_singleton] at hp; subst hp
    intro c hc
    simp only [pageQuery, Part.compounds, List.map_cons, List.map_nil, List.mem_cons, List.not_mem_nil, or_false] at hc
    rcases hc with rfl | rfl <;> decide

theorem pageOps_rows : ((Page.load b!"<p>a</p>b").run pageOps).root.rows =
    [(1, .root, [12, 2]), (12, .text b!"t", []), (2, .elem b!"q" [(b!"k", b!"v")] [], [3, 10, 8]), (3, .text b!"a c z", []),
     (10, .elem b!"br" [] [], []), (8, .text b!"w y", [])] := by rfl

/-- It selects the `br`, node 10, and nothing else. -/
theorem pageQuery_selects (n : Nat) : pageQuery.onPage ((Page.load b!"<p>a</p>b").run pageOps) n ↔ n = 10 := by
  have hq : pageQuery.parts = [pageQuery.head] := rfl
  unfold Query.onPage
  rw [hq]
  simp only [List.mem_singleton, exists_eq_left, Part.onPage, pageQuery, restOnPage, CombKind.onPage, Page.Meets, Page.ElemChild, Page.Has, pageOps_rows,
    Compound.meets]
  constructor
  · rintro ⟨⟨l, cs, h1, h2, _⟩, _⟩
    have h2 := h2 _ rfl
    simp only [List.mem_cons, Prod.mk.injEq, List.not_mem_nil, or_false] at h1
    rcases h1 with ⟨rfl, rfl, _⟩ | ⟨rfl, rfl, _⟩ | ⟨rfl, rfl, _⟩ | ⟨rfl, rfl, _⟩ | ⟨rfl, rfl, _⟩ | ⟨rfl, rfl, _⟩
    · cases h2
    · cases h2
    · exact absurd h2 (by decide)
    · cases h2
    · rfl
    · cases h2
  · rintro rfl
    refine ⟨⟨.elem b!"br" [] [], [], by simp, ?_, (by intro c h; cases h), (by intro f h; cases h)⟩, 2,
      ⟨.elem b!"q" [(b!"k", b!"v")] [], [3, 10, 8], by simp, ?_, ?_, (by intro f h; cases h)⟩, ⟨_, [3, 10, 8], .tail _ (.tail _ (.head _)), by simp⟩,
      .elem b!"br" [] [], [], by simp, rfl⟩
    · intro x e; cases e; rfl
    · intro x e; cases e; rfl
    · intro c hc
      subst hc
      exact .head _

example : (Page.load b!"<p>a</p>b").AttrsOnElems pageOps := by
  refine ⟨(by intro a h; cases h), (by intro a h; cases h), (fun a h => ⟨.elem b!"p" [] [], ?_, rfl⟩), (by intro a h; cases h), (by intro a h; cases h), (by intro a h; cases h), trivial⟩
  cases h
  exact .tail _ (.head _)

end Flo
