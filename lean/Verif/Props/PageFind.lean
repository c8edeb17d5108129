import Verif.Spec.PageFind
import Verif.Props.PageRefuse
import Verif.Props.PageQuery
import Verif.Props.PageRead
import Verif.Props.Query
/-!
# Edits addressed by a query (C109)
-/
namespace Flo
open Spec

/-- What `querySelector` answers, in terms of the page. -/
def SelectsFirst (pun : Nat → Nat) (d : Dom) (pg : Page) (q : Query) : Prop :=
  (∃ n, pg.Picks q n ∧ querySelector pun q.text d = .ok (.go (some n))) ∨
  ((∀ n, ¬ q.onPage pg n) ∧ (querySelector pun q.text d = .ok (.go (some 0)) ∨ querySelector pun q.text d = .ok (.go none))) ∨
  (querySelector pun q.text d = .ok (.fail .notSeenBefore) ∧ ∃ p ∈ q.parts, ∀ n, ¬ p.onPage pg n)

theorem selects_first {d : Dom} (h : Reachable d) (ho : OnlyElems d) {pg : Page} (hs : Shows d pg) {pun : Nat → Nat} (hp : PunFree pun d) {q : Query}
    (hw : ∀ p ∈ q.parts, p.WF) (hsm : ∀ p ∈ q.parts, p.Small) : SelectsFirst pun d pg q := by
  have hi := (reach_domI h).1
  have hpre := page_preorder hi hs
  rcases answers_page hi (reach_domI h).2 ho hs hp hw hsm with ⟨L, e1, _, _, e4⟩ | ⟨e1, e2⟩
  · rcases C33_querySelector_first d h pun q.text with ⟨st, e, _⟩ | ⟨L', e, h'⟩
    · rw [e1] at e; cases e
    · rw [e1] at e; cases e
      rcases h' with ⟨rfl, e2⟩ | ⟨l₁, n, l₂, ep, hn, hl, e2⟩ | ⟨_, hl, e2⟩
      · refine .inr (.inl ⟨fun n hn => ?_, .inl e2⟩)
        obtain ⟨p, _, h⟩ := id hn
        simpa using (e4 n (onPage_on h)).mpr hn
      · refine .inl ⟨n, ?_, e2⟩
        rw [hpre] at ep
        obtain ⟨b, r, e5, e6, e7⟩ := List.map_eq_append_iff.mp ep
        cases r with
        | nil => cases e7
        | cons x r =>
          obtain ⟨m, l⟩ := x
          obtain ⟨rfl, _⟩ := List.cons.inj e7
          have hon : ∀ x ∈ pg.root.entries, pg.On x.1 := fun x hx => on_entry.mpr ⟨x.2, hx⟩
          refine ⟨b, l, r, e5, (e4 _ (hon (m, l) (by rw [e5]; simp))).mp hn, fun x hx hq => ?_⟩
          exact hl x.1 (by rw [← e6]; exact List.mem_map_of_mem hx) ((e4 _ (hon x (by rw [e5]; simp [hx]))).mpr hq)
      · refine .inr (.inl ⟨fun n hn => ?_, .inr e2⟩)
        obtain ⟨p, _, h⟩ := id hn
        have hon : pg.On n := onPage_on h
        exact hl n ((hs.on_live hi).mp hon) ((e4 n hon).mpr hn)
  · rcases C33_querySelector_first d h pun q.text with ⟨st, e, e3⟩ | ⟨L', e, _⟩
    · rw [e1] at e; cases e
      exact .inr (.inr ⟨e3, e2⟩)
    · rw [e1] at e; cases e

/-- The single-result query gives the first node of the page, in document order, that the query selects there.  If it selects nothing
there, the answer is node 0 or nothing at all (C38), or it is refused. -/
theorem C109_selector (d : Dom) (h : Proper d) (pg : Page) (hs : Shows d pg) (pun : Nat → Nat) (hp : PunFree pun d) (q : Query)
    (hw : ∀ p ∈ q.parts, p.WF) (hsm : ∀ p ∈ q.parts, p.Small) : SelectsFirst pun d pg q :=
  selects_first h.reachable h.only hs hp hw hsm

theorem Spec.Page.Picks.unique {pg : Page} {q : Query} {n m : Nat} (hn : pg.Picks q n) (hm : pg.Picks q m) : n = m := by
  obtain ⟨b, l, r, e1, e2, e3⟩ := hn
  obtain ⟨b', l', r', e1', e2', e3'⟩ := hm
  rw [e1] at e1'
  rcases List.append_eq_append_iff.mp e1' with ⟨c, h1, h2⟩ | ⟨c, h1, h2⟩
  · cases c with
    | nil => simp at h2; exact h2.1.1
    | cons x c =>
      cases h2
      exact absurd e2 (e3' (n, l) (by rw [h1]; simp))
  · cases c with
    | nil => simp at h2; exact h2.1.1.symm
    | cons x c =>
      cases h2
      exact absurd e2' (e3 (m, l') (by rw [h1]; simp))

/-- An edit addressed by a query, all of whose parts select something, is the edit of the node it picks. -/
theorem find_picked {d : Dom} (h : Reachable d) (ho : OnlyElems d) {pg : Page} (hs : Shows d pg) {pun : Nat → Nat} (hp : PunFree pun d) {q : Query}
    (hq : ∀ p ∈ q.parts, p.WF ∧ p.Small ∧ ∃ m, p.onPage pg m) {n : Nat} (hn : pg.Picks q n) (f : Nat → Dom → Out (Nat × Dom)) :
    withQuery pun q.text f d = f n d := by
  rcases selects_first h ho hs hp (fun p hp => (hq p hp).1) (fun p hp => (hq p hp).2.1) with ⟨m, hm, e⟩ | ⟨hm, _⟩ | ⟨_, p, hp, hm⟩
  · cases hm.unique hn
    unfold withQuery
    rw [e]; rfl
  · obtain ⟨_, _, _, _, h, _⟩ := hn
    exact absurd h (hm n)
  · obtain ⟨m, h⟩ := (hq p hp).2.2
    exact absurd h (hm m)

/-- The same for any DOM on the way. -/
theorem C109_edit (d : Dom) (h : Proper d) (pg : Page) (hs : Shows d pg) (pun : Nat → Nat) (hp : PunFree pun d) (q : Query)
    (hq : ∀ p ∈ q.parts, p.WF ∧ p.Small ∧ ∃ m, p.onPage pg m) (n : Nat) (hn : pg.Picks q n) (e : QueryEdit) (answer : Nat → Bool)
    (ha : pg.Permits answer (QEdit.at n e)) (hr : Room d (QEdit.at n e).cost) :
    ∃ v d', withQuery pun q.text (fun n d => callOp (fun i => .ok (answer i)) (QEdit.at n e) d) d = .ok (v, d') ∧
      Shows d' (pg.call answer (QEdit.at n e)) ∧ (QEdit.at n e).Returns answer pg (pg.call answer (QEdit.at n e)) v := by
  obtain ⟨v, d', e1, _, s1, g1, _⟩ := C106_call d h.reachable pg hs answer _ ha hr
  exact ⟨v, d', by rw [find_picked h.reachable h.only hs hp hq hn]; exact e1, s1, g1⟩

theorem callSteps_calls (pun : Dom → Nat → Nat) (hp : ∀ d, PunFree (pun d) d) {pg : Page} {ss : List SCall} {ops : List (Op × (Nat → Bool))}
    (hr : pg.Resolves ss ops) : ∀ (d : Dom) (_ : Reachable d) (_ : OnlyElems d) (_ : Shows d pg) (_ : Room d (ops.map fun o => o.1.cost).sum),
    pg.PermitsAll ops ∧ callSteps pun ss d = callEach ops d := by
  induction hr with
  | done => intro d _ _ _ _; exact ⟨trivial, rfl⟩
  | @edit pg op answer ss ops ha hat _ ih =>
    intro d h ho hs hr
    rw [List.map_cons, List.sum_cons] at hr
    obtain ⟨v, d1, e1, h1, s1, _, r1⟩ := C106_call d h pg hs answer op ha (hr.le (by dsimp only; omega))
    have ho1 : OnlyElems d1 := by
      refine runOp_bare (junk := fun i => .ok (answer i)) (op := op) (fun i => ⟨_, rfl⟩) ho (fun a ea => ?_) _ (by rw [runOp_call, e1]; rfl)
      obtain ⟨l, hl, hle⟩ := hat a ea
      have hi := (reach_domI h).1
      obtain ⟨n1, n2⟩ := hs.entry hi hl
      exact (label_holds hi ho n1 n2.1).2.2.2.mpr hle
    obtain ⟨i1, i2⟩ := ih d1 h1 ho1 s1 (r1 _ hr)
    refine ⟨⟨ha, i1⟩, ?_⟩
    rw [callSteps, callEach, e1]
    show (callSteps pun ss d1 >>= _) = (callEach ops d1 >>= _)
    rw [i2]
  | @find pg q e n answer ss ops hq hn ha _ ih =>
    intro d h ho hs hr
    rw [List.map_cons, List.sum_cons] at hr
    obtain ⟨v, d1, e1, h1, s1, _, r1⟩ := C106_call d h pg hs answer (QEdit.at n e) ha (hr.le (by dsimp only; omega))
    have ho1 : OnlyElems d1 := by
      refine runOp_bare (junk := fun i => .ok (answer i)) (op := QEdit.at n e) (fun i => ⟨_, rfl⟩) ho (fun a ea => ?_) _ (by rw [runOp_call, e1]; rfl)
      cases e <;> cases ea
    obtain ⟨i1, i2⟩ := ih d1 h1 ho1 s1 (r1 _ hr)
    refine ⟨⟨ha, i1⟩, ?_⟩
    rw [callSteps, callEach, find_picked h ho hs (hp d) hq hn, e1]
    show (callSteps pun ss d1 >>= _) = (callEach ops d1 >>= _)
    rw [i2]

/-- A session with edits addressed by queries does the same, call by call, as the session in which every query is replaced by the first
node of the page it selects at that time. -/
theorem C109_session (s : Str) (ts : List Tree) (ho : outcome s = .document ts) (ss : List SCall) (ops : List (Op × (Nat → Bool)))
    (hs : (Page.load s).Resolves ss ops) (hlen : s.length + (ops.map fun o => o.1.cost).sum ≤ 65533)
    (pun : Dom → Nat → Nat) (hp : ∀ d, PunFree (pun d) d) :
    ∃ d vs d', createDom s = .ok (some d) ∧ callSteps pun ss d = .ok (vs, d') ∧ callEach ops d = .ok (vs, d') ∧ Reachable d' ∧
      Shows d' ((Page.load s).calls ops) ∧ printHTML d' = .ok ((Page.load s).calls ops).print ∧ ReturnsAll (Page.load s) ops vs := by
  have hc := C93_every_input s (by omega)
  rw [ho] at hc
  obtain ⟨d, hd, _⟩ := hc
  obtain ⟨h1, h2⟩ := callSteps_calls pun hp hs d (.parsed hd) (createDom_bare hd) (C95_load s d hd) ((createDom_room hlen).elim hd d rfl)
  obtain ⟨d', vs, d'', hd', e, h', s', p', g⟩ := C106_session s ts ho ops h1 hlen
  rw [hd] at hd'
  cases hd'
  exact ⟨d, vs, d'', hd, h2.trans e, e, h', s', p', g⟩

/-! ## A concrete session -/

/-- The query `p`. -/
def findP : Query := ⟨⟨[], .mk (some b!"p") [] none, [], []⟩, []⟩

example : findP.text = b!"p" := rfl

theorem findP_on {pg : Page} {n : Nat} : findP.onPage pg n ↔ ∃ l cs, pg.Has n l cs ∧ l.tag = some b!"p" := by
  have hq : findP.parts = [findP.head] := rfl
  unfold Query.onPage
  rw [hq]
  simp only [List.mem_singleton, exists_eq_left, Part.onPage, findP, restOnPage, Page.Meets, Compound.meets]
  constructor
  · rintro ⟨l, cs, h, h1, _⟩; exact ⟨l, cs, h, h1 _ rfl⟩
  · rintro ⟨l, cs, h, h1⟩
    exact ⟨l, cs, h, fun x e => (by cases e; exact h1), (fun c h => by cases h), (fun f h => by cases h)⟩

theorem findP_ok {pg : Page} {n : Nat} (h : findP.onPage pg n) : ∀ p ∈ findP.parts, p.WF ∧ p.Small ∧ ∃ m, p.onPage pg m := by
  have hq : findP.parts = [findP.head] := rfl
  obtain ⟨p, hp, hn⟩ := h
  rw [hq] at hp ⊢
  rw [List.mem_singleton] at hp
  subst hp
  intro p hp
  rw [List.mem_singleton] at hp; subst hp
  refine ⟨⟨blanks_nil, blanks_nil, ⟨fun x e => ?_, (by intro c h; cases h), (by intro f h; cases h), .inl (by simp)⟩, trivial⟩, ?_, n, hn⟩
  · cases e
    refine ⟨⟨_, _, rfl, .inl (by decide)⟩, fun c hc hs => ?_⟩
    rw [List.mem_singleton] at hc; subst hc
    rcases hs with h | h | h | h | h | h | h | h | h | h | h <;> exact absurd h (by decide)
  · intro c hc
    simp only [findP, Part.compounds, List.map_nil, List.mem_singleton] at hc
    subst hc; decide

/-- Replace the first `p` by a `q`, then append a text to the first `p`: the second one. -/
def findSteps : List SCall := [.find findP (.replaceDocument ⟨b!"q", false, [], []⟩) (fun _ => true), .find findP (.appendText b!"x") (fun _ => true)]

theorem findSteps_resolve : (Page.load b!"<i></i><p>a</p><p>b</p>").Resolves findSteps
    [(.replaceDoc 3 ⟨b!"q", false, [], []⟩, fun _ => true), (.appendText 5 b!"x", fun _ => true)] := by
  have h1 : (Page.load b!"<i></i><p>a</p><p>b</p>").Picks findP 3 := by
    refine ⟨[(1, .root), (2, .elem b!"i" [] [])], .elem b!"p" [] [], _, rfl, findP_on.mpr ⟨.elem b!"p" [] [], [4], .tail _ (.tail _ (.head _)), rfl⟩, ?_⟩
    intro m hm hq
    obtain ⟨l, cs, hh, ht⟩ := findP_on.mp hq
    have hr : (Page.load b!"<i></i><p>a</p><p>b</p>").root.rows = [(1, .root, [2, 3, 5]), (2, .elem b!"i" [] [], []), (3, .elem b!"p" [] [], [4]),
      (4, .text b!"a", []), (5, .elem b!"p" [] [], [6]), (6, .text b!"b", [])] := rfl
    unfold Page.Has at hh
    rw [hr] at hh
    simp only [List.mem_cons, List.not_mem_nil, or_false] at hm hh
    rcases hm with rfl | rfl <;> simp at hh <;> obtain ⟨rfl, _⟩ := hh <;> exact absurd ht (by decide)
  have h2 : ((Page.load b!"<i></i><p>a</p><p>b</p>").call (fun _ => true) (.replaceDoc 3 ⟨b!"q", false, [], []⟩)).Picks findP 5 := by
    refine ⟨[(1, .root), (2, .elem b!"i" [] []), (7, .elem b!"q" [] [])], .elem b!"p" [] [], _, rfl,
      findP_on.mpr ⟨.elem b!"p" [] [], [6], .tail _ (.tail _ (.tail _ (.head _))), rfl⟩, ?_⟩
    intro m hm hq
    obtain ⟨l, cs, hh, ht⟩ := findP_on.mp hq
    have hr : ((Page.load b!"<i></i><p>a</p><p>b</p>").call (fun _ => true) (.replaceDoc 3 ⟨b!"q", false, [], []⟩)).root.rows =
      [(1, .root, [2, 7, 5]), (2, .elem b!"i" [] [], []), (7, .elem b!"q" [] [], []), (5, .elem b!"p" [] [], [6]), (6, .text b!"b", [])] := rfl
    unfold Page.Has at hh
    rw [hr] at hh
    simp only [List.mem_cons, List.not_mem_nil, or_false] at hm hh
    rcases hm with rfl | rfl | rfl <;> simp at hh <;> obtain ⟨rfl, _⟩ := hh <;> exact absurd ht (by decide)
  have o1 := h1
  have o2 := h2
  obtain ⟨_, _, _, _, o1, _⟩ := o1
  obtain ⟨_, _, _, _, o2, _⟩ := o2
  exact .find (findP_ok o1) h1 (Or.inl ⟨_, rfl⟩) (.find (findP_ok o2) h2 (Or.inl ⟨.elem b!"p" [] [], .tail _ (.tail _ (.tail _ (.head _))), rfl⟩) .done)

/-- The text afterwards. -/
example : ∃ d vs d', createDom b!"<i></i><p>a</p><p>b</p>" = .ok (some d) ∧ callSteps (fun _ _ => 0) findSteps d = .ok (vs, d') ∧
    printHTML d' = .ok b!"<i></i><q/><p>b x</p>" := by
  have ho : outcome b!"<i></i><p>a</p><p>b</p>" = .document (treesOf (docTokens b!"<i></i><p>a</p><p>b</p>").1) := by rfl
  obtain ⟨d, vs, d', h1, h2, _, _, _, h6, _⟩ := C109_session _ _ ho findSteps _ findSteps_resolve (by decide) (fun _ _ => 0) (fun d n t _ => .inl rfl)
  refine ⟨d, vs, d', h1, h2, h6.trans (congrArg Out.ok ?_)⟩
  decide +kernel

end Flo
