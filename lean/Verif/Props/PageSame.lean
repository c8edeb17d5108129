import Verif.Spec.PageSame
import Verif.Props.PageRefuse
import Verif.Props.PageRead
import Verif.Props.PageFind
import Verif.Props.PageCompare
/-!
# Documents that show the same page are interchangeable (C114)

Two documents with different histories may show the same page (`Shows`) although their tables differ.  Editing calls cannot tell
them apart.
-/
namespace Flo
open Spec

theorem cut_same {l₁ l₂ m₁ m₂ : List Nat} {n : Nat} (hd : (l₁ ++ n :: l₂).Nodup) (e : l₁ ++ n :: l₂ = m₁ ++ n :: m₂) : l₁ = m₁ ∧ l₂ = m₂ := by
  have h1 : n ∉ l₁ := by
    intro hn
    rw [List.nodup_append] at hd
    exact hd.2.2 n hn n (.head _) rfl
  have hd' := hd
  rw [e] at hd'
  have h2 : n ∉ m₁ := by
    intro hn
    rw [List.nodup_append] at hd'
    exact hd'.2.2 n hn n (.head _) rfl
  induction l₁ generalizing m₁ with
  | nil =>
    cases m₁ with
    | nil => simpa using e
    | cons b m => simp only [List.nil_append, List.cons_append, List.cons.injEq] at e; exact absurd (e.1 ▸ .head _) h2
  | cons a l ih =>
    cases m₁ with
    | nil => simp only [List.nil_append, List.cons_append, List.cons.injEq] at e; exact absurd (e.1 ▸ .head _) h1
    | cons b m =>
      simp only [List.cons_append, List.cons.injEq] at e
      obtain ⟨rfl, e⟩ := e
      obtain ⟨rfl, rfl⟩ := ih (by simpa using (List.nodup_cons.1 hd).2) e (fun x => h1 (.tail _ x)) (by simpa using (List.nodup_cons.1 hd').2)
        (fun x => h2 (.tail _ x))
      exact ⟨rfl, rfl⟩

/-- The value of a call is determined by the page before and the page after it. -/
theorem gives_det {d d1 : Dom} {pg pg1 : Page} (hi : DomI d (kids d)) (hi1 : DomI d1 (kids d1)) (hs : Shows d pg) (hs1 : Shows d1 pg1)
    {op : Op} {v v' : Nat} (he : op.SetsElem pg) (h : op.Gives pg pg1 v) (h' : op.Gives pg pg1 v') : v = v' := by
  have app : ∀ {p : Nat} {v v' : Nat}, (∃ l cs new, pg.Has p l cs ∧ pg1.Has p l (cs ++ new) ∧ v = new.headD (cs.getLastD 0)) →
      (∃ l cs new, pg.Has p l cs ∧ pg1.Has p l (cs ++ new) ∧ v' = new.headD (cs.getLastD 0)) → v = v' := by
    rintro p v v' ⟨l, cs, new, a1, a2, a3⟩ ⟨m, cs', new', b1, b2, b3⟩
    have e1 := (hs.has hi a1).2.symm.trans (hs.has hi b1).2
    have e2 := (hs1.has hi1 a2).2.symm.trans (hs1.has hi1 b2).2
    subst e1
    rw [List.append_cancel_left e2] at a3
    rw [a3, b3]
  have pre : ∀ {p : Nat} {v v' : Nat}, (∃ l cs new, pg.Has p l cs ∧ pg1.Has p l (new ++ cs) ∧ v = (new ++ cs).headD 0) →
      (∃ l cs new, pg.Has p l cs ∧ pg1.Has p l (new ++ cs) ∧ v' = (new ++ cs).headD 0) → v = v' := by
    rintro p v v' ⟨l, cs, new, a1, a2, a3⟩ ⟨m, cs', new', b1, b2, b3⟩
    rw [a3, b3, ← (hs1.has hi1 a2).2, ← (hs1.has hi1 b2).2]
  cases op with
  | attr op =>
    cases op with
    | set n k x =>
      obtain ⟨tag, ps, bs, hm⟩ := he n k x rfl
      exact (h tag ps bs hm).trans (h' tag ps bs hm).symm
    | _ => exact Eq.trans h (Eq.symm h')
  | appendDoc p d => exact app h h'
  | appendText p d => exact app h h'
  | appendHTML p d => exact app h h'
  | prependDoc p d => exact pre h h'
  | prependHTML p d => exact pre h h'
  | replaceHTML n s =>
    obtain ⟨p, l, l₁, l₂, new, a1, a2, a3⟩ := h
    obtain ⟨q, m, m₁, m₂, new', b1, b2, b3⟩ := h'
    have k1 := (hs.has hi a1).2
    have k2 := (hs.has hi b1).2
    obtain rfl := hi.linked.uniq p q n (by rw [k1]; simp) (by rw [k2]; simp)
    obtain ⟨rfl, rfl⟩ := cut_same (k1 ▸ hi.linked.nodup p) (k1.symm.trans k2)
    have e := (hs1.has hi1 a2).2.symm.trans (hs1.has hi1 b2).2
    rw [List.append_assoc, List.append_assoc] at e
    rw [List.append_cancel_right (List.append_cancel_left e)] at a3
    rw [a3, b3]
  | _ => exact Eq.trans h (Eq.symm h')

theorem returns_det {d d1 : Dom} {pg pg1 : Page} (hi : DomI d (kids d)) (hi1 : DomI d1 (kids d1)) (hs : Shows d pg) (hs1 : Shows d1 pg1)
    {answer : Nat → Bool} {op : Op} {v v' : Nat} (he : op.SetsElem pg) (h : op.Returns answer pg pg1 v) (h' : op.Returns answer pg pg1 v') :
    v = v' := by
  by_cases hr : op.Refused answer
  · rw [h.1 hr, h'.1 hr]
  · exact gives_det hi hi1 hs hs1 he (h.2 hr) (h'.2 hr)

/-- **C114** Two documents that show the same page, with room for what is to come: any editing calls (attribute values replaced on
elements only) return the same values on both, both show the same page afterwards, and both are printed the same. -/
theorem C114_same_page (d d' : Dom) (h : Reachable d) (h' : Reachable d') (pg : Page) (hs : Shows d pg) (hs' : Shows d' pg)
    (ops : List (Op × (Nat → Bool))) (ha : pg.PermitsAll ops) (he : pg.SetsElems ops) (hr : Room d (ops.map fun o => o.1.cost).sum)
    (hr' : Room d' (ops.map fun o => o.1.cost).sum) :
    ∃ vs e e' t, callEach ops d = .ok (vs, e) ∧ callEach ops d' = .ok (vs, e') ∧ Shows e (pg.calls ops) ∧ Shows e' (pg.calls ops) ∧
      printHTML e = .ok t ∧ printHTML e' = .ok t := by
  suffices H : ∃ vs e e', callEach ops d = .ok (vs, e) ∧ callEach ops d' = .ok (vs, e') ∧ Reachable e ∧ Reachable e' ∧
      Shows e (pg.calls ops) ∧ Shows e' (pg.calls ops) by
    obtain ⟨vs, e, e', h1, h2, h3, h4, h5, h6⟩ := H
    exact ⟨vs, e, e', _, h1, h2, h5, h6, (C95_print e h3 _ h5).1, (C95_print e' h4 _ h6).1⟩
  induction ops generalizing d d' pg with
  | nil => exact ⟨[], d, d', rfl, rfl, h, h', hs, hs'⟩
  | cons o ops ih =>
    rw [List.map_cons, List.sum_cons] at hr hr'
    obtain ⟨v, d1, e1, h1, s1, g1, r1⟩ := C106_call d h pg hs o.2 o.1 ha.1 (hr.le (by omega))
    obtain ⟨v', d1', e1', h1', s1', g1', r1'⟩ := C106_call d' h' pg hs' o.2 o.1 ha.1 (hr'.le (by omega))
    obtain rfl := returns_det (reach_domI h).1 (reach_domI h1).1 hs s1 he.1 g1 g1'
    obtain ⟨vs, e, e', k1, k2, k3, k4, k5, k6⟩ := ih d1 d1' h1 h1' _ s1 s1' ha.2 he.2 (r1 _ hr) (r1' _ hr')
    refine ⟨v :: vs, e, e', ?_, ?_, k3, k4, k5, k6⟩
    · rw [callEach, e1]; show (callEach ops d1 >>= _) = _; rw [k1]; rfl
    · rw [callEach, e1']; show (callEach ops d1' >>= _) = _; rw [k2]; rfl

/-! ## Reading -/

mutual
theorem part_some {n : Nat} : ∀ t : PTree, n ∈ t.rows.map (·.1) → ∃ sub, t.part n = some sub
  | .node m l ks, h => by
    rw [PTree.part]
    split
    · exact ⟨_, rfl⟩
    · rename_i hm
      simp only [PTree.rows, List.map_cons, List.mem_cons] at h
      exact partAll_some ks (h.resolve_left (Ne.symm hm))
theorem partAll_some {n : Nat} : ∀ ts : List PTree, n ∈ (rowsAll ts).map (·.1) → ∃ sub, partAll n ts = some sub
  | [], h => by simp [rowsAll] at h
  | t :: ts, h => by
    rw [rowsAll, List.map_append, List.mem_append] at h
    rw [partAll]
    cases e : t.part n with
    | some sub => exact ⟨sub, rfl⟩
    | none =>
      rcases h with h | h
      · obtain ⟨sub, e'⟩ := part_some t h
        rw [e] at e'; cases e'
      · exact partAll_some ts h
end

mutual
theorem part_has {n : Nat} {l : Label} {ks : List PTree} : ∀ t : PTree, t.part n = some (.node n l ks) → (n, l, ks.map PTree.id) ∈ t.rows
  | .node m l' ks', h => by
    rw [PTree.part] at h
    split at h
    · cases h; exact .head _
    · exact .tail _ (partAll_has ks' h)
theorem partAll_has {n : Nat} {l : Label} {ks : List PTree} : ∀ ts : List PTree, partAll n ts = some (.node n l ks) → (n, l, ks.map PTree.id) ∈ rowsAll ts
  | [], h => by cases h
  | t :: ts, h => by
    rw [partAll] at h
    rw [rowsAll, List.mem_append]
    cases e : t.part n with
    | some sub => rw [e] at h; cases h; exact .inl (part_has t e)
    | none => rw [e] at h; exact .inr (partAll_has ts h)
end

/-- On both documents every navigation function and the text content give the same for every node of the page. -/
theorem C114_reads (d d' : Dom) (h : Reachable d) (h' : Reachable d') (pg : Page) (hs : Shows d pg) (hs' : Shows d' pg) (n : Nat)
    (hn : pg.On n) :
    getFirstChild n d = getFirstChild n d' ∧ getParent n d = getParent n d' ∧ getNext n d = getNext n d' ∧
    getPrevious n d = getPrevious n d' ∧ getTextContent n d = getTextContent n d' := by
  have hi := (reach_domI h).1
  have N := C102_navigation d h pg hs
  have N' := C102_navigation d' h' pg hs'
  have W := C102_walks d h pg hs
  have W' := C102_walks d' h' pg hs'
  obtain ⟨l, cs, hh⟩ := id hn
  refine ⟨by rw [N.first n l cs hh, N'.first n l cs hh], ?_⟩
  rw [← and_assoc, ← and_assoc]
  constructor
  · cases (hs.on_live hi).1 hn with
    | root =>
      obtain ⟨ks, hk⟩ := hs.root
      have hr : pg.Has rootID .root (ks.map PTree.id) := by
        unfold Page.Has; rw [hk]; exact .head _
      obtain ⟨a1, a2, a3⟩ := N.top _ hr
      obtain ⟨b1, b2, b3⟩ := N'.top _ hr
      rw [a1, a2, a3, b1, b2, b3]; exact ⟨⟨rfl, rfl⟩, rfl⟩
    | @child p _ hp hc =>
      obtain ⟨lp, hp⟩ := kids_has hi hs hp
      refine ⟨⟨by rw [N.parent p lp _ hp n hc, N'.parent p lp _ hp n hc], ?_⟩, ?_⟩
      · obtain ⟨l₁, l₂, e⟩ := List.append_of_mem hc
        rw [e] at hp
        cases l₂ with
        | nil => rw [N.last p lp l₁ n hp, N'.last p lp l₁ n hp]
        | cons b l₂ => rw [N.next p lp l₁ n b l₂ hp, N'.next p lp l₁ n b l₂ hp]
      · obtain ⟨l₁, l₂, e⟩ := List.append_of_mem hc
        rw [e] at hp
        rcases List.eq_nil_or_concat l₁ with rfl | ⟨l₁, a, rfl⟩
        · rw [N.firstPrevious p lp n l₂ hp, N'.firstPrevious p lp n l₂ hp]
        · rw [List.concat_eq_append, List.append_assoc] at hp
          rw [N.previous p lp l₁ a n l₂ hp, N'.previous p lp l₁ a n l₂ hp]
  · obtain ⟨sub, hsub⟩ := part_some pg.root (List.mem_map.2 ⟨_, hh, rfl⟩)
    by_cases hc : sub.entries.length ≠ 1 ∨ ¬pg.HasNext n
    · rw [(W.part n sub hsub hc).2, (W'.part n sub hsub hc).2]
    · rw [not_or, not_not, not_not] at hc
      obtain ⟨m, l', ks⟩ := sub
      have hm : m = n := (part_ids _ hsub).2
      subst hm
      have hk : ks = [] := by
        have := hc.1
        cases ks with
        | nil => rfl
        | cons t ts => cases t; simp [PTree.entries, entriesAll] at this
      subst hk
      have hx : pg.Has m l' [] := part_has _ hsub
      rw [(W.leaf m l' hx hc.2).2, (W'.leaf m l' hx hc.2).2]

/-- If attribute functions were applied to elements only, the attribute readers give the same, too. -/
theorem C114_attributes (d d' : Dom) (h : Proper d) (h' : Proper d') (pg : Page) (hs : Shows d pg) (hs' : Shows d' pg) (n : Nat)
    (hn : pg.On n) : (∀ k v, hasProperty n k v d = hasProperty n k v d') ∧ (∀ k, hasPropKey n k d = hasPropKey n k d') ∧
    (∀ v, hasPropValue n v d = hasPropValue n v d') ∧ (∀ b, hasBoolProp n b d = hasBoolProp n b d') ∧ ∀ k, getValue n k d = getValue n k d' := by
  have A := C102_attributes d h pg hs
  have A' := C102_attributes d' h' pg hs'
  obtain ⟨l, cs, hh⟩ := hn
  refine ⟨fun k v => ?_, fun k => ?_, fun v => ?_, fun b => ?_, fun k => ?_⟩
  · rw [Bool.eq_iff_iff, A.property n l cs hh, A'.property n l cs hh]
  · rw [Bool.eq_iff_iff, A.key n l cs hh, A'.key n l cs hh]
  · rw [Bool.eq_iff_iff, A.value n l cs hh, A'.value n l cs hh]
  · rw [Bool.eq_iff_iff, A.bool n l cs hh, A'.bool n l cs hh]
  · rw [A.get n l cs hh, A'.get n l cs hh]

/-- Queries give the same nodes of the page on both, as long as each of their parts selects something on the page. -/
theorem C114_queries (d d' : Dom) (h : Proper d) (h' : Proper d') (pg : Page) (hs : Shows d pg) (hs' : Shows d' pg)
    (pun pun' : Nat → Nat) (hp : PunFree pun d) (hp' : PunFree pun' d') (q : Query) (hw : ∀ p ∈ q.parts, p.WF)
    (hsm : ∀ p ∈ q.parts, p.Small) (hq : ∀ p ∈ q.parts, ∃ n, p.onPage pg n) :
    ∃ L L', querySelectorAll pun q.text d = .ok (.go L) ∧ querySelectorAll pun' q.text d' = .ok (.go L') ∧ L.Nodup ∧ L'.Nodup ∧
      ∀ n, pg.On n → (n ∈ L ↔ n ∈ L') := by
  obtain ⟨L, e1, e2, e3⟩ := C101_answered d h pg hs pun hp q hw hsm hq
  obtain ⟨L', f1, f2, f3⟩ := C101_answered d' h' pg hs' pun' hp' q hw hsm hq
  exact ⟨L, L', e1, f1, e2, f2, fun n hn => by rw [e3 n hn, f3 n hn]⟩

/-- The single-result query gives the same node, if there is one on the page. -/
theorem C114_selector (d d' : Dom) (h : Proper d) (h' : Proper d') (pg : Page) (hs : Shows d pg) (hs' : Shows d' pg)
    (pun pun' : Nat → Nat) (hp : PunFree pun d) (hp' : PunFree pun' d') (q : Query) (hw : ∀ p ∈ q.parts, p.WF)
    (hsm : ∀ p ∈ q.parts, p.Small) (hq : ∀ p ∈ q.parts, ∃ n, p.onPage pg n) (hne : ∃ n, q.onPage pg n) :
    ∃ n, q.onPage pg n ∧ querySelector pun q.text d = .ok (.go (some n)) ∧ querySelector pun' q.text d' = .ok (.go (some n)) := by
  obtain ⟨m, hm⟩ := hne
  have key : ∀ {d : Dom} {pun : Nat → Nat}, SelectsFirst pun d pg q →
      ∃ n, pg.Picks q n ∧ querySelector pun q.text d = .ok (.go (some n)) := by
    intro d pun hx
    rcases hx with hx | ⟨hx, _⟩ | ⟨_, p, hp, hx⟩
    · exact hx
    · exact absurd hm (hx m)
    · obtain ⟨n, hn⟩ := hq p hp
      exact absurd hn (hx n)
  obtain ⟨n, e1, e2⟩ := key (C109_selector d h pg hs pun hp q hw hsm)
  obtain ⟨n', f1, f2⟩ := key (C109_selector d' h' pg hs' pun' hp' q hw hsm)
  cases e1.unique f1
  obtain ⟨b, l, r, _, e3, _⟩ := e1
  exact ⟨n, e3, e2, f2⟩

/-- Comparing the two documents finds no difference (or takes the failure handler, if an element has more than 64 attributes of
one kind). -/
theorem C114_compare (d d' : Dom) (h : Proper d) (h' : Proper d') (pg : Page) (hs : Shows d pg) (hs' : Shows d' pg) :
    (∃ r, equals d d' = .ok r ∧ r.status = .success) ∨
    (equals d d' = .longjmp ∧ ∃ n l cs, pg.Has n l cs ∧ l.tooMany) := by
  rcases C103_same d d' h h' pg pg hs hs' rfl (fun _ _ _ _ _ => rfl) with e | ⟨e, x | x⟩
  · exact .inl e
  · exact .inr ⟨e, x⟩
  · exact .inr ⟨e, x⟩

/-! ## A concrete case -/

/-- Two documents that differ and show the same page: in one of them an attribute was added and removed again. -/
example : ∃ d d' pg, Reachable d ∧ Reachable d' ∧ Shows d pg ∧ Shows d' pg ∧ d.keyReg ≠ d'.keyReg ∧
    pg.PermitsAll [(.appendText 2 b!"b", fun _ => true), (.attr (.set 2 b!"k" b!"w"), fun _ => true)] ∧
    pg.SetsElems [(.appendText 2 b!"b", fun _ => true), (.attr (.set 2 b!"k" b!"w"), fun _ => true)] := by
  have hm : (2, Label.elem b!"p" [] []) ∈ (Page.load b!"<p>a</p>").root.entries := .tail _ (.head _)
  have e : okAnd (createDom b!"<p>a</p>" >>= fun o => match o with
      | none => .hang
      | some d => runEach [(.attr (.add 2 b!"k" b!"v"), fun _ => true), (.attr (.remove 2 b!"k"), fun _ => true)] d >>= fun d' => .ok (d, d'))
      (fun x => x.1.keyReg != x.2.keyReg) = true := by decide +kernel
  obtain ⟨⟨d, d'⟩, hx, hne⟩ := okAnd_ex e
  simp only [Out.bind_eq_ok] at hx
  obtain ⟨o, ho, hr⟩ := hx
  cases o with
  | none => cases hr
  | some d0 =>
    simp only [Out.bind_eq_ok] at hr
    obtain ⟨d1, hr, hq⟩ := hr
    cases hq
    obtain ⟨_, d2, e1, e2, h2, s2, _⟩ := C95_session b!"<p>a</p>" _ rfl
      [(.attr (.add 2 b!"k" b!"v"), fun _ => true), (.attr (.remove 2 b!"k"), fun _ => true)]
      ⟨⟨_, hm⟩, ⟨.elem b!"p" [(b!"k", b!"v")] [], .tail _ (.head _)⟩, trivial⟩ (by decide)
    rw [ho] at e1; cases e1
    rw [hr] at e2; cases e2
    refine ⟨d, d', Page.load b!"<p>a</p>", .parsed ho, h2, C95_load _ _ ho, s2, by simpa using hne, ⟨.inl ⟨_, hm, rfl⟩, ?_, trivial⟩, ?_, ?_, trivial⟩
    · exact .inl ⟨.elem b!"p" [] [], .tail _ (.head _)⟩
    · intro n k v x; cases x
    · intro n k v x; cases x; exact ⟨b!"p", [], [], .tail _ (.head _)⟩

end Flo
