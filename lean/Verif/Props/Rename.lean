import Verif.Proofs.PageRename
import Verif.Proofs.RenameQuery
import Verif.Props.PageRefuse
import Verif.Props.PageQuery
import Verif.Props.PageSame
/-!
# Bytes that are not markup are not interpreted (C113)

A *neutral* renaming of bytes (`Spec/Rename.lean`) keeps different bytes different, and keeps white space, `! " ' - / < = >` and the
names that mean something; it may exchange letters with letters and any other bytes with any other bytes.
-/
namespace Flo
open Spec Ren

/-- **C113** Parsing a renamed source gives the renamed document: it is accepted exactly if the source itself is, and then has the
same trees, renamed. -/
theorem C113_parse (π : UInt8 → UInt8) (h : Neutral π) (s : Str) (hlen : s.length ≤ 65533) :
    (createDom (s.map π) = .ok none ↔ createDom s = .ok none) ∧
    ∀ d, createDom s = .ok (some d) → ∃ d', createDom (s.map π) = .ok (some d') ∧
      ∀ ts, RepL d ts (kids d 1) → RepL d' (mapBytesAll π ts) (kids d' 1) := by
  have h1 := C93_every_input s hlen
  have h2 := C93_every_input (s.map π) (by simpa using hlen)
  rw [outcome_map h] at h2
  cases ho : outcome s with
  | document ts =>
    rw [ho] at h1 h2
    obtain ⟨d, e1, r1⟩ := h1
    obtain ⟨d', e2, r2⟩ := h2
    refine ⟨by rw [e1, e2]; simp, fun d0 e0 => ?_⟩
    rw [e1] at e0; cases e0
    refine ⟨d', e2, fun ts' r' => ?_⟩
    obtain ⟨ts0, ho', hu⟩ := C93_returned s d e1
    rw [(hu ts').1 r', ← (hu ts).1 r1]
    exact r2
  | null =>
    rw [ho] at h1 h2
    have h1 : createDom s = .ok none := h1
    have h2 : createDom (s.map π) = .ok none := h2
    exact ⟨by rw [h1, h2], fun d e => by rw [h1] at e; cases e⟩
  | outside =>
    rw [ho] at h1 h2
    have h1 : createDom s = .ub .negLen := h1
    have h2 : createDom (s.map π) = .ub .negLen := h2
    exact ⟨by rw [h1, h2], fun d e => by rw [h1] at e; cases e⟩

/-- What is printed is renamed too. -/
theorem C113_print (π : UInt8 → UInt8) (h : Neutral π) (s : Str) (hlen : s.length ≤ 65533) (d : Dom) (hd : createDom s = .ok (some d)) :
    ∃ d' t, createDom (s.map π) = .ok (some d') ∧ printHTML d = .ok t ∧ printHTML d' = .ok (t.map π) := by
  obtain ⟨d', hd', _⟩ := (C113_parse π h s hlen).2 d hd
  refine ⟨d', _, hd', (C95_print d (.parsed hd) _ (C95_load s d hd)).1, ?_⟩
  have := (C95_print d' (.parsed hd') _ (C95_load _ d' hd')).1
  rwa [load_map h, page_print_map h] at this

theorem setsElem_map {π : UInt8 → UInt8} {pg : Page} {op : Op} (he : op.SetsElem pg) : (op.mapBytes π).SetsElem (pg.mapBytes π) := by
  intro n k x e
  cases op with
  | attr op =>
    cases op with
    | set n' k' x' =>
      cases e
      obtain ⟨tag, ps, bs, hm⟩ := he n k' x' rfl
      exact ⟨_, _, _, mem_map_entries hm⟩
    | _ => cases e
  | _ => cases e

theorem gives_map {π : UInt8 → UInt8} (h : Neutral π) {pg pg1 : Page} {op : Op} {v : Nat} (hg : op.Gives pg pg1 v) :
    (op.mapBytes π).Gives (pg.mapBytes π) (pg1.mapBytes π) v := by
  have up : ∀ {pg : Page} {n l cs}, pg.Has n l cs → (pg.mapBytes π).Has n (l.mapBytes π) cs := fun {pg n l cs} x => (has_map pg n _ cs).2 ⟨l, x, rfl⟩
  cases op with
  | attr op =>
    cases op with
    | set n k x =>
      intro tag ps bs hm0
      have hm : _ ∈ (pg.root.mapBytes π).entries := hm0
      rw [entries_map, List.mem_map] at hm
      obtain ⟨⟨n', l⟩, hm1, e⟩ := hm
      cases l with
      | elem tag' ps' bs' =>
        simp only [Label.mapBytes, Prod.mk.injEq, Label.elem.injEq] at e
        obtain ⟨rfl, rfl, rfl, rfl⟩ := e
        rw [hg tag' ps' bs' hm1]
        have : (k.map π ∈ (ps'.map fun p => (p.1.map π, p.2.map π)).map Prod.fst) ↔ k ∈ ps'.map Prod.fst := by
          simp only [List.map_map, List.mem_map, Function.comp_def, h.str]
        simp only [this]
      | _ => simp [Label.mapBytes] at e
    | _ => exact hg
  | appendDoc p d => obtain ⟨l, cs, new, a, b, c⟩ := hg; exact ⟨_, cs, new, up a, up b, c⟩
  | appendText p d => obtain ⟨l, cs, new, a, b, c⟩ := hg; exact ⟨_, cs, new, up a, up b, c⟩
  | appendHTML p d => obtain ⟨l, cs, new, a, b, c⟩ := hg; exact ⟨_, cs, new, up a, up b, c⟩
  | prependDoc p d => obtain ⟨l, cs, new, a, b, c⟩ := hg; exact ⟨_, cs, new, up a, up b, c⟩
  | prependHTML p d => obtain ⟨l, cs, new, a, b, c⟩ := hg; exact ⟨_, cs, new, up a, up b, c⟩
  | replaceHTML n s => obtain ⟨p, l, l₁, l₂, new, a, b, c⟩ := hg; exact ⟨p, _, l₁, l₂, new, up a, up b, c⟩
  | _ => exact hg

theorem refused_map {π : UInt8 → UInt8} (h : Neutral π) (answer : Nat → Bool) (op : Op) : (op.mapBytes π).Refused answer ↔ op.Refused answer := by
  unfold Op.Refused
  rw [fragment_map]
  cases op.fragment with
  | none => simp
  | some html =>
    simp only [Option.map_some, Option.some.injEq, exists_eq_left', fragOutcome_map h, outcome_null_map]

theorem returns_map {π : UInt8 → UInt8} (h : Neutral π) {answer : Nat → Bool} {pg pg1 : Page} {op : Op} {v : Nat} (hg : op.Returns answer pg pg1 v) :
    (op.mapBytes π).Returns answer (pg.mapBytes π) (pg1.mapBytes π) v :=
  ⟨fun x => hg.1 ((refused_map h answer op).1 x), fun x => gives_map h (hg.2 fun y => x ((refused_map h answer op).2 y))⟩

/-- Nor do the other functions interpret these bytes: the same calls, all their strings renamed, on a document that shows the
renamed page return the same values (nodes have the same numbers), and afterwards the page is the renamed one. -/
theorem C113_calls (π : UInt8 → UInt8) (h : Neutral π) (d d' : Dom) (hd : Reachable d) (hd' : Reachable d') (pg : Page) (hs : Shows d pg)
    (hs' : Shows d' (pg.mapBytes π)) (ops : List (Op × (Nat → Bool))) (ha : pg.PermitsAll ops) (he : pg.SetsElems ops)
    (hr : Room d (ops.map fun o => o.1.cost).sum) (hr' : Room d' (ops.map fun o => o.1.cost).sum) :
    ∃ vs e e' t, callEach ops d = .ok (vs, e) ∧ callEach (mapSession π ops) d' = .ok (vs, e') ∧ Shows e (pg.calls ops) ∧
      Shows e' ((pg.calls ops).mapBytes π) ∧ printHTML e = .ok t ∧ printHTML e' = .ok (t.map π) := by
  suffices H : ∃ vs e e', callEach ops d = .ok (vs, e) ∧ callEach (mapSession π ops) d' = .ok (vs, e') ∧ Reachable e ∧ Reachable e' ∧
      Shows e (pg.calls ops) ∧ Shows e' ((pg.calls ops).mapBytes π) by
    obtain ⟨vs, e, e', h1, h2, h3, h4, h5, h6⟩ := H
    refine ⟨vs, e, e', _, h1, h2, h5, h6, (C95_print e h3 _ h5).1, ?_⟩
    rw [(C95_print e' h4 _ h6).1, page_print_map h]
  induction ops generalizing d d' pg with
  | nil => exact ⟨[], d, d', rfl, rfl, hd, hd', hs, hs'⟩
  | cons o ops ih =>
    rw [List.map_cons, List.sum_cons] at hr hr'
    obtain ⟨v, d1, e1, h1, s1, g1, r1⟩ := C106_call d hd pg hs o.2 o.1 ha.1 (hr.le (by omega))
    obtain ⟨v', d1', e1', h1', s1', g1', r1'⟩ := C106_call d' hd' _ hs' o.2 (o.1.mapBytes π) (permits_map h ha.1) (hr'.le (by rw [cost_map]; omega))
    rw [call_map h] at s1' g1'
    obtain rfl := returns_det (reach_domI hd').1 (reach_domI h1').1 hs' s1' (setsElem_map he.1) (returns_map h g1) g1'
    rw [cost_map] at r1'
    obtain ⟨vs, e, e', k1, k2, k3, k4, k5, k6⟩ := ih d1 d1' h1 h1' _ s1 s1' ha.2 he.2 (r1 _ hr) (r1' _ hr')
    refine ⟨v :: vs, e, e', ?_, ?_, k3, k4, k5, k6⟩
    · rw [callEach, e1]; show (callEach ops d1 >>= _) = _; rw [k1]; rfl
    · show callEach ((o.1.mapBytes π, o.2) :: mapSession π ops) d' = _
      rw [callEach, e1']; show (callEach (mapSession π ops) d1' >>= _) = _; rw [k2]; rfl

/-- A whole session (see C106), source, fragments, names, values and texts all renamed. -/
theorem C113_session (π : UInt8 → UInt8) (h : Neutral π) (s : Str) (ts : List Tree) (ho : outcome s = .document ts)
    (ops : List (Op × (Nat → Bool))) (ha : (Page.load s).PermitsAll ops) (he : (Page.load s).SetsElems ops)
    (hlen : s.length + (ops.map fun o => o.1.cost).sum ≤ 65533) :
    ∃ d e d' e' vs pg t, createDom s = .ok (some d) ∧ callEach ops d = .ok (vs, e) ∧ Shows e pg ∧ printHTML e = .ok t ∧
      createDom (s.map π) = .ok (some d') ∧ callEach (mapSession π ops) d' = .ok (vs, e') ∧ Shows e' (pg.mapBytes π) ∧
      printHTML e' = .ok (t.map π) := by
  obtain ⟨d, hd, _⟩ : ∃ d, createDom s = .ok (some d) ∧ RepL d ts (kids d 1) := by have := C93_every_input s (by omega); rwa [ho] at this
  obtain ⟨d', hd', _⟩ := (C113_parse π h s (by omega)).2 d hd
  have hl' : (s.map π).length + (ops.map fun o => o.1.cost).sum ≤ 65533 := by simpa using hlen
  obtain ⟨vs, e, e', t, h1, h2, h3, h4, h5, h6⟩ := C113_calls π h d d' (.parsed hd) (.parsed hd') (Page.load s) (C95_load s d hd)
    (load_map h s ▸ C95_load _ d' hd') ops ha he ((createDom_room hlen).elim hd d rfl) ((createDom_room hl').elim hd' d' rfl)
  exact ⟨d, e, d', e', vs, _, t, hd, h1, h3, h5, hd', h2, h4, h6⟩

/-- A renamed query on a renamed page gives the same nodes of the page (the conditions are those of C101). -/
theorem C113_query (π : UInt8 → UInt8) (h : QueryNeutral π) (d d' : Dom) (hd : Proper d) (hd' : Proper d') (pg : Page) (hs : Shows d pg)
    (hs' : Shows d' (pg.mapBytes π)) (pun pun' : Nat → Nat) (hp : PunFree pun d) (hp' : PunFree pun' d') (q : Query)
    (hw : ∀ p ∈ q.parts, p.WF) (hsm : ∀ p ∈ q.parts, p.Small) (hq : ∀ p ∈ q.parts, ∃ n, p.onPage pg n) :
    ∃ L L', querySelectorAll pun q.text d = .ok (.go L) ∧ querySelectorAll pun' (q.text.map π) d' = .ok (.go L') ∧ L.Nodup ∧ L'.Nodup ∧
      ∀ n, pg.On n → (n ∈ L ↔ n ∈ L') := by
  obtain ⟨L, h1, h2, h3⟩ := C101_answered d hd pg hs pun hp q hw hsm hq
  obtain ⟨L', k1, k2, k3⟩ := C101_answered d' hd' _ hs' pun' hp' (q.mapBytes π)
    (by rw [parts_map, List.forall_mem_map]; exact fun p hpp => partWF_map h (hw p hpp))
    (by rw [parts_map, List.forall_mem_map]; exact fun p hpp => small_map (hsm p hpp))
    (by
      rw [parts_map, List.forall_mem_map]
      intro p hpp
      obtain ⟨n, hn⟩ := hq p hpp
      exact ⟨n, (partOnPage_map h pg p n).2 hn⟩)
  rw [queryText_map h] at k1
  refine ⟨L, L', h1, k1, h2, k2, fun n hn => ?_⟩
  rw [h3 n hn, k3 n ((on_page_map pg n).2 hn)]
  exact (queryOnPage_map h pg q n).symm

/-- On freshly parsed documents a renamed query on the renamed source gives the same nodes. -/
theorem C113_query_parsed (π : UInt8 → UInt8) (h : QueryNeutral π) (s : Str) (hlen : s.length ≤ 65533) (d : Dom)
    (hd : createDom s = .ok (some d)) (q : Query) (hw : ∀ p ∈ q.parts, p.WF) (hsm : ∀ p ∈ q.parts, p.Small)
    (hq : ∀ p ∈ q.parts, ∃ n, p.onPage (Page.load s) n) :
    ∃ d', createDom (s.map π) = .ok (some d') ∧ ∀ pun pun', PunFree pun d → PunFree pun' d' →
      ∃ L L', querySelectorAll pun q.text d = .ok (.go L) ∧ querySelectorAll pun' (q.text.map π) d' = .ok (.go L') ∧ L.Perm L' := by
  obtain ⟨d', hd', _⟩ := (C113_parse π h.toNeutral s hlen).2 d hd
  refine ⟨d', hd', fun pun pun' hp hp' => ?_⟩
  have e1 := C101_parsed s d hd pun hp q hw hsm
  have e2 := C101_parsed (s.map π) d' hd' pun' hp' (q.mapBytes π)
    (by rw [parts_map, List.forall_mem_map]; exact fun p hpp => partWF_map h (hw p hpp))
    (by rw [parts_map, List.forall_mem_map]; exact fun p hpp => small_map (hsm p hpp))
  rw [queryText_map h, load_map h.toNeutral] at e2
  rcases e1 with ⟨L, a1, a2, a3⟩ | ⟨_, p, hpp, hn⟩
  · rcases e2 with ⟨L', b1, b2, b3⟩ | ⟨_, p, hpp, hn⟩
    · refine ⟨L, L', a1, b1, (List.perm_ext_iff_of_nodup a2 b2).2 fun n => ?_⟩
      rw [a3, b3]
      exact (queryOnPage_map h _ q n).symm
    · rw [parts_map] at hpp
      obtain ⟨p, hp0, rfl⟩ := List.mem_map.1 hpp
      obtain ⟨n, hx⟩ := hq p hp0
      exact absurd ((partOnPage_map h _ p n).2 hx) (hn n)
  · obtain ⟨n, hx⟩ := hq p hpp
    exact absurd hx (hn n)

/-- In particular every renaming that keeps different bytes different and leaves ASCII alone — a change from one single-byte
encoding to another — is neutral. -/
theorem C113_encodings (π : UInt8 → UInt8) (hi : ∀ a b, π a = π b → a = b) (ha : ∀ c, c < 128 → π c = c) : Neutral π := by
  refine ⟨hi, fun c hc => ha c ?_, fun c => ?_, fun n hn => ?_⟩
  · revert c; decide
  · by_cases h : c < 128
    · rw [ha c h]
    · have h' : ¬ π c < 128 := fun x => h (by have := hi _ _ (ha _ x); rwa [← this])
      have key : ∀ x : UInt8, ¬ x < 128 → isAlphabetical x = false := by
        intro x hx
        have hx' : 128 ≤ x.toNat := by simpa [UInt8.lt_iff_toNat_lt] using hx
        simp only [isAlphabetical, Bool.or_eq_false_iff, Bool.and_eq_false_iff, decide_eq_false_iff_not, UInt8.le_iff_toNat_le]
        refine ⟨.inr ?_, .inr ?_⟩ <;> (intro hle; have : x.toNat ≤ 122 := le_trans hle (by decide); omega)
      rw [key _ h, key _ h']
  · refine (List.map_congr_left (g := id) fun c hc => ha c ?_).trans (List.map_id _)
    have : ∀ n ∈ knownNames, ∀ c ∈ n, c < 128 := by decide
    exact this n hn c hc

/-! ## Concrete cases -/

/-- Two bytes exchanged. -/
def swap (x y c : UInt8) : UInt8 := if c = x then y else if c = y then x else c

theorem swap_inj (x y : UInt8) : ∀ a b, swap x y a = swap x y b → a = b := by
  have inv : ∀ c, swap x y (swap x y c) = c := by
    intro c
    by_cases h1 : c = x
    · subst h1
      by_cases h2 : y = c
      · simp [swap, h2]
      · simp [swap, h2]
    · by_cases h2 : c = y
      · simp [swap, h2]
      · simp [swap, h1, h2]
  intro a b e
  rw [← inv a, ← inv b, e]

/-- `é` is byte 0xE9 of Latin-1 and byte 0x82 of code page 437. -/
theorem latin437_neutral : Neutral (swap 0xE9 0x82) := by
  refine C113_encodings _ (swap_inj _ _) ?_
  intro c hc
  have h1 : c ≠ 0xE9 := by rintro rfl; exact absurd hc (by decide)
  have h2 : c ≠ 0x82 := by rintro rfl; exact absurd hc (by decide)
  simp only [swap, if_neg h1, if_neg h2]

/-- The letters `x` and `y` exchanged: neither occurs in a known name. -/
abbrev swapXY : UInt8 → UInt8 := swap 120 121

theorem swapXY_neutral : Neutral swapXY := by
  refine ⟨swap_inj _ _, by decide, ?_, by decide⟩
  intro c
  by_cases h1 : c = 120
  · subst h1; rfl
  · by_cases h2 : c = 121
    · subst h2; rfl
    · simp only [swapXY, swap, if_neg h1, if_neg h2]

theorem swapXY_query : QueryNeutral swapXY := ⟨swapXY_neutral, by decide, by decide, by decide⟩

/-- `x[y=yx]`, and renamed `y[x=xy]`. -/
def xyQuery : Query := ⟨⟨[], .mk (some b!"x") [.eq [] b!"y" [] [] b!"yx" []] none, [], []⟩, []⟩

example : xyQuery.text = b!"x[y=yx]" ∧ xyQuery.text.map swapXY = b!"y[x=xy]" ∧ (∀ p ∈ xyQuery.parts, p.WF) ∧ (∀ p ∈ xyQuery.parts, p.Small) ∧
    ∀ p ∈ xyQuery.parts, ∃ n, p.onPage (Page.load b!"<x y='yx'>y</x>") n := by
  have hp0 : ∀ p ∈ xyQuery.parts, p = xyQuery.head := by
    intro p hp
    simpa only [xyQuery, Query.parts, List.mem_singleton] using hp
  have bl : Blanks [] := by intro c hc; cases hc
  have w1 : Word b!"y" := ⟨⟨_, _, rfl, .inl (by decide)⟩, by simp [WordStop]⟩
  have w2 : Word b!"yx" := ⟨⟨_, _, rfl, .inl (by decide)⟩, by simp [WordStop]⟩
  refine ⟨by decide, by decide, fun p hp => ?_, fun p hp => ?_, fun p hp => ⟨2, ?_⟩⟩ <;> obtain rfl := hp0 p hp
  · refine ⟨bl, bl, ⟨fun x hx => ?_, fun c hc => ?_, fun f hf => ?_, .inl (by simp)⟩, trivial⟩
    · cases hx; exact ⟨⟨_, _, rfl, .inl (by decide)⟩, by simp [TagStop]⟩
    · simp only [List.mem_singleton] at hc
      subst hc
      exact ⟨bl, w1, bl, bl, w2, bl⟩
    · cases hf
  · intro c hc
    simp only [xyQuery, Part.compounds, List.map_nil, List.mem_singleton] at hc
    subst hc
    decide
  refine ⟨.elem b!"x" [(b!"y", b!"yx")] [], [3], .tail _ (.head _), ?_, ?_, ?_⟩
  · intro x hx; cases hx; rfl
  · intro c hc
    simp only [List.mem_singleton] at hc
    subst hc
    exact .head _
  · intro f hf; cases hf

example : (b!"<x y='yx'>y</x><!-- x --><br/>").map swapXY = b!"<y x='xy'>x</y><!-- y --><br/>" := by decide

example : (Page.load b!"<x y='yx'>y</x>").PermitsAll [(.appendText 2 b!"x", fun _ => true), (.appendHTML 1 b!"<y>x</y>", fun _ => true)] ∧
    (Page.load b!"<x y='yx'>y</x>").SetsElems [(.appendText 2 b!"x", fun _ => true), (.appendHTML 1 b!"<y>x</y>", fun _ => true)] := by
  refine ⟨?_, (by intro n k v e; cases e), (by intro n k v e; cases e), trivial⟩
  refine ⟨.inl ⟨.elem b!"x" [(b!"y", b!"yx")] [], ?_, rfl⟩, .inl ⟨⟨.root, .head _, rfl⟩, _, rfl, List.cons_ne_nil _ _⟩, trivial⟩
  exact .tail _ (.head _)

/-- The renaming must keep markup and known names: with `/` and `x` exchanged, or `b` and `x`, the document is another one. -/
example : ∃ d d', createDom b!"<br>t" = .ok (some d) ∧ createDom b!"<xr>t" = .ok (some d') ∧
    RepL d [.elem b!"br" [] [] [], .text b!"t"] (kids d 1) ∧ RepL d' [.elem b!"xr" [] [] [.text b!"t"]] (kids d' 1) := by
  obtain ⟨d, h1, h2⟩ : ∃ d, createDom b!"<br>t" = .ok (some d) ∧ RepL d [.elem b!"br" [] [] [], .text b!"t"] (kids d 1) :=
    C93_every_input b!"<br>t" (by decide)
  obtain ⟨d', h3, h4⟩ : ∃ d, createDom b!"<xr>t" = .ok (some d) ∧ RepL d [.elem b!"xr" [] [] [.text b!"t"]] (kids d 1) :=
    C93_every_input b!"<xr>t" (by decide)
  exact ⟨d, d', h1, h3, h2, h4⟩

end Flo
