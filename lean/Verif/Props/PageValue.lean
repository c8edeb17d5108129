import Verif.Spec.PageValue
import Verif.Props.PageQuery
import Verif.Props.Edit
import Verif.Proofs.EditMemHistory
/-!
# What the mutating functions return, on the page (C104)

`callOp` (`Spec/EditMem.lean`) is a call together with the value it returns.
-/
namespace Flo
open Spec

variable {d d' : Dom} {pg : Page}

mutual
theorem rows_within (p : Nat) (f : List PTree → List PTree) : ∀ (t : PTree) (l : Label), (p, l) ∈ t.entries →
    ∃ l cs cs', (p, l, cs) ∈ t.rows ∧ (p, l, cs') ∈ (t.within p f).rows
  | .node m lm ks, l, h => by
    simp only [PTree.entries, List.mem_cons] at h
    by_cases e : m = p
    · subst e
      refine ⟨lm, _, (f ks).map PTree.id, .head _, ?_⟩
      simp only [PTree.within, if_pos]
      exact .head _
    · rcases h with h | h
      · exact absurd (Prod.mk.inj h).1.symm e
      · obtain ⟨l, cs, cs', h1, h2⟩ := rowsAll_within p f ks l h
        refine ⟨l, cs, cs', .tail _ h1, ?_⟩
        simp only [PTree.within, if_neg e]
        exact .tail _ h2
theorem rowsAll_within (p : Nat) (f : List PTree → List PTree) : ∀ (ts : List PTree) (l : Label), (p, l) ∈ entriesAll ts →
    ∃ l cs cs', (p, l, cs) ∈ rowsAll ts ∧ (p, l, cs') ∈ rowsAll (withinAll p f ts)
  | [], _, h => by simp [entriesAll] at h
  | t :: ts, l, h => by
    simp only [entriesAll, List.mem_append] at h
    simp only [rowsAll, withinAll, List.mem_append]
    rcases h with h | h
    · obtain ⟨l, cs, cs', h1, h2⟩ := rows_within p f t l h
      exact ⟨l, cs, cs', Or.inl h1, Or.inl h2⟩
    · obtain ⟨l, cs, cs', h1, h2⟩ := rowsAll_within p f ts l h
      exact ⟨l, cs, cs', Or.inr h1, Or.inr h2⟩
end

theorem around_ids {n : Nat} : ∀ (ks : List PTree) (x : List PTree × List PTree), around n ks = some x →
    ks.map PTree.id = x.1.map PTree.id ++ n :: x.2.map PTree.id
  | [], _, h => by simp [around] at h
  | t :: ts, x, h => by
    unfold around at h
    split at h
    · next e => cases h; simp [e]
    · cases ha : around n ts with
      | none => rw [ha] at h; cases h
      | some y =>
        rw [ha] at h
        cases h
        simp [around_ids ts y ha]

mutual
theorem rows_instead (n : Nat) (f : List PTree → List PTree → List PTree) : ∀ (t : PTree) (x : List PTree × List PTree), t.siblings n = some x →
    ∃ p l cs', (p, l, x.1.map PTree.id ++ n :: x.2.map PTree.id) ∈ t.rows ∧ (p, l, cs') ∈ (t.instead n f).rows
  | .node m lm ks, x, h => by
    simp only [PTree.siblings] at h
    cases ha : around n ks with
    | some y =>
      rw [ha] at h
      cases h
      refine ⟨m, lm, (f x.1 x.2).map PTree.id, ?_, ?_⟩
      · rw [← around_ids ks x ha]; exact .head _
      · simp only [PTree.instead, ha]; exact .head _
    | none =>
      rw [ha] at h
      obtain ⟨p, l, cs', h1, h2⟩ := rowsAll_instead n f ks x h
      refine ⟨p, l, cs', .tail _ h1, ?_⟩
      simp only [PTree.instead, ha]
      exact .tail _ h2
theorem rowsAll_instead (n : Nat) (f : List PTree → List PTree → List PTree) : ∀ (ts : List PTree) (x : List PTree × List PTree), siblingsAll n ts = some x →
    ∃ p l cs', (p, l, x.1.map PTree.id ++ n :: x.2.map PTree.id) ∈ rowsAll ts ∧ (p, l, cs') ∈ rowsAll (insteadAll n f ts)
  | [], _, h => by simp [siblingsAll] at h
  | t :: ts, x, h => by
    simp only [siblingsAll] at h
    simp only [rowsAll, insteadAll, List.mem_append]
    cases ha : t.siblings n with
    | some y =>
      rw [ha] at h
      cases h
      obtain ⟨p, l, cs', h1, h2⟩ := rows_instead n f t x ha
      exact ⟨p, l, cs', Or.inl h1, Or.inl h2⟩
    | none =>
      rw [ha] at h
      obtain ⟨p, l, cs', h1, h2⟩ := rowsAll_instead n f ts x h
      exact ⟨p, l, cs', Or.inr h1, Or.inr h2⟩
end

theorem dropValue_call {x : Out (Nat × Dom)} (h : dropValue x = .ok d') : ∃ v, x = .ok (v, d') := by
  cases x with
  | ok r => obtain ⟨v, d⟩ := r; cases h; exact ⟨v, rfl⟩
  | longjmp => cases h
  | hang => cases h
  | ub w => cases h

theorem void_zero {x : Out Dom} {v : Nat} (h : void x = .ok (v, d')) : v = 0 := by
  cases x with
  | ok r => cases h; rfl
  | longjmp => cases h
  | hang => cases h
  | ub w => cases h

/-- The children of a node that an operation gives new children, before and after. -/
theorem within_has (hi : DomI d (kids d)) (hi' : DomI d' (kids d')) (hs : Shows d pg) {pg' : Page} (hs' : Shows d' pg') {p : Nat}
    {f : List PTree → List PTree} (he : pg'.root = pg.root.within p f) {l : Label} (hl : (p, l) ∈ pg.root.entries) :
    ∃ l, pg.Has p l (kids d p) ∧ pg'.Has p l (kids d' p) := by
  obtain ⟨l, cs, cs', h1, h2⟩ := rows_within p f _ l hl
  rw [← he] at h2
  exact ⟨l, (hs.has hi h1).2 ▸ h1, (hs'.has hi' h2).2 ▸ h2⟩

theorem instead_has (hi : DomI d (kids d)) (hi' : DomI d' (kids d')) (hs : Shows d pg) {pg' : Page} (hs' : Shows d' pg') {n : Nat}
    {f : List PTree → List PTree → List PTree} (he : pg'.root = pg.root.instead n f) {x : List PTree × List PTree}
    (hx : pg.root.siblings n = some x) :
    ∃ p l, kids d p = x.1.map PTree.id ++ n :: x.2.map PTree.id ∧ pg.Has p l (kids d p) ∧ pg'.Has p l (kids d' p) := by
  obtain ⟨p, l, cs', h1, h2⟩ := rows_instead n f _ x hx
  rw [← he] at h2
  exact ⟨p, l, (hs.has hi h1).2, (hs.has hi h1).2 ▸ h1, (hs'.has hi' h2).2 ▸ h2⟩

/-- One call: it returns normally, the DOM is then the page after the operation, and the value is the one the pages say. -/
theorem C104_value (d : Dom) (h : Reachable d) (pg : Page) (hs : Shows d pg) (answer : Nat → Bool) (op : Op) (ha : pg.Allows answer op)
    (hr : Room d op.cost) :
    ∃ v d', callOp (fun i => .ok (answer i)) op d = .ok (v, d') ∧ Reachable d' ∧ Shows d' (pg.step answer op) ∧
      op.Gives pg (pg.step answer op) v ∧ ∀ k, Room d (op.cost + k) → Room d' k := by
  obtain ⟨d', e0, h', s', r'⟩ := C95_step d h pg hs answer op ha hr
  rw [runOp_call] at e0
  obtain ⟨v, e⟩ := dropValue_call e0
  clear e0
  refine ⟨v, d', e, h', s', ?_, r'⟩
  obtain ⟨hi, h0⟩ := reach_domI h
  obtain ⟨hi', h0'⟩ := reach_domI h'
  have hj : ∀ i, (fun i => Out.ok (answer i)) i = .ok (answer i) := fun _ => rfl
  have hn := hs.next
  cases op <;> simp only [Page.Allows] at ha
  case attr op =>
    cases op
    case set n k w =>
      intro tag ps bs hl
      simp only [callOp] at e
      obtain ⟨hl, hnode⟩ := hs.entry hi hl
      cases hx : setPropertyValue n k w d with
      | ok r =>
        obtain ⟨b, d1⟩ := r
        rw [hx] at e
        cases e
        have := C29_set_reports d h n hnode.1 k w b _ hx
        rw [hl.2.1] at this
        have h2 : (∃ w, (k, w) ∈ ps) ↔ k ∈ ps.map Prod.fst := by simp
        rw [h2] at this
        by_cases hb : k ∈ ps.map Prod.fst
        · rw [if_pos hb, this.2 hb]; rfl
        · rw [if_neg hb]
          cases b
          · rfl
          · exact absurd (this.1 rfl) hb
      | longjmp => rw [hx] at e; cases e
      | hang => rw [hx] at e; cases e
      | ub w => rw [hx] at e; cases e
    all_goals exact void_zero e
  case addText n t a => exact void_zero e
  case setTag t n c => exact void_zero e
  case setText n t => exact void_zero e
  case removeChildren n => exact void_zero e
  case removeNode n => exact void_zero e
  case appendDoc p doc =>
    obtain ⟨l, hl, _⟩ := ha
    have hp := (hs.entry hi hl).2
    obtain ⟨l, g1, g2⟩ := within_has hi hi' hs s' rfl hl
    rcases C17_appendDocumentNode d h p hp doc with x | ⟨_, _, x, rfl, hk, _⟩
    · rw [callOp, x] at e; cases e
    · rw [callOp, x] at e; cases e
      exact ⟨l, _, [d.nodes.length], g1, hk ▸ g2, rfl⟩
  case appendText p t =>
    obtain ⟨l, hl, _⟩ := ha
    have hp := (hs.entry hi hl).2
    obtain ⟨l, g1, g2⟩ := within_has hi hi' hs s' rfl hl
    rcases (appendText_spec hi h0 hp.1 hp.2 t).elim e with ⟨tk, _, f1, f2⟩ | ⟨_, f1, f2⟩
    · dsimp only at f1 f2
      refine ⟨l, _, [], g1, ?_, f1⟩
      have hk := f2.inv.kidsFun h0
      rw [hk] at g2
      rw [List.append_nil]; exact g2
    · dsimp only at f1 f2
      refine ⟨l, _, [d.nodes.length], g1, ?_, f1⟩
      have hk := f2.inv.kidsFun (upd_nil hp.1 h0 _)
      rw [hk, upd, if_pos rfl] at g2
      exact g2
  case appendHTML p html =>
    obtain ⟨⟨l, hl, _⟩, F, hF, hne⟩ := ha
    have hp := (hs.entry hi hl).2
    obtain ⟨l, g1, g2⟩ := within_has hi hi' hs s' rfl hl
    obtain ⟨id, d1, F1, new, x, _, hk, _, _, hid, _⟩ := C94_append d h p hp html _ answer hj hr F hF hne
    rw [callOp, x] at e; cases e
    exact ⟨l, _, new, g1, hk ▸ g2, hid⟩
  case prependDoc p doc =>
    obtain ⟨l, hl, _⟩ := ha
    have hp := (hs.entry hi hl).2
    obtain ⟨l, g1, g2⟩ := within_has hi hi' hs s' rfl hl
    rcases C18_prependDocumentNode d h p hp doc with x | ⟨_, _, x, rfl, hk, _⟩
    · rw [callOp, x] at e; cases e
    · rw [callOp, x] at e; cases e
      rw [hk] at g2
      exact ⟨l, _, [d.nodes.length], g1, g2, rfl⟩
  case prependText p t =>
    obtain ⟨l, hl, _⟩ := ha
    have hp := (hs.entry hi hl).2
    exact (C20_prependTextNode_exact_partial d h p hp t v d' e).1.trans hn
  case prependHTML p html =>
    obtain ⟨⟨l, hl, _⟩, F, hF, hne⟩ := ha
    have hp := (hs.entry hi hl).2
    obtain ⟨l, g1, g2⟩ := within_has hi hi' hs s' rfl hl
    obtain ⟨id, d1, F1, new, x, _, hk, _, _, hid, _⟩ := C94_prepend d h p hp html _ answer hj hr F hF hne
    rw [callOp, x] at e; cases e
    refine ⟨l, _, new, g1, hk ▸ g2, hid.trans ?_⟩
    cases new <;> simp
  case replaceDoc n doc =>
    obtain ⟨x, hx⟩ := ha
    obtain ⟨p, l, he, _⟩ := instead_has hi hi' hs s' rfl hx
    have hp : p ≠ 0 := by rintro rfl; rw [h0] at he; simp at he
    exact ((replaceDoc_spec hi h0 hp he doc).elim e).1.trans hn
  case replaceText n t =>
    obtain ⟨x, hx⟩ := ha
    obtain ⟨p, l, he, _⟩ := instead_has hi hi' hs s' rfl hx
    have hp : p ≠ 0 := by rintro rfl; rw [h0] at he; simp at he
    exact ((replaceText_spec hi h0 hp he t).elim e).1.trans hn
  case replaceHTML n html =>
    obtain ⟨x, hx, ⟨F, hF, hne⟩, hc⟩ := ha
    obtain ⟨p, l, he, g1, g2⟩ := instead_has hi hi' hs s' rfl hx
    obtain ⟨q, _, s1, s2⟩ := Shows.siblings_of hs hx
    have hp : p ≠ 0 := by rintro rfl; rw [h0] at he; simp at he
    have hf := fragRef_doc hj h hr hF hne
    have hb : fragTrees answer html = F := by unfold fragTrees; rw [hF]
    rw [hb] at hc
    have hone : ∀ t, F = [.text t] → x.1.map PTree.id = [] → textOf d ((x.2.map PTree.id).headD 0) = none := by
      rintro t rfl e
      by_contra hn
      obtain ⟨s, hn⟩ := Option.ne_none_iff_exists'.mp hn
      exact hc.1 ⟨rfl, by simpa using e, (head_text hi s2).mpr ⟨s, hn⟩⟩
    have htwo : ∀ t u, F = [.text t, .text u] → textOf d ((x.1.map PTree.id).getLastD 0) = none ∨ textOf d ((x.2.map PTree.id).headD 0) = none := by
      rintro t u rfl
      by_contra hn
      rw [not_or] at hn
      obtain ⟨s, h1⟩ := Option.ne_none_iff_exists'.mp hn.1
      obtain ⟨s', h2⟩ := Option.ne_none_iff_exists'.mp hn.2
      exact hc.2 ⟨rfl, (last_text hi s1).mpr ⟨s, h1⟩, (head_text hi s2).mpr ⟨s', h2⟩⟩
    generalize x.1.map PTree.id = l₁ at *
    generalize x.2.map PTree.id = l₂ at *
    have he2 := he ▸ g1
    by_cases hsw : ∃ t, F = [.text t] ∧ (textOf d (l₁.getLastD 0) ≠ none ∨ textOf d (l₂.headD 0) ≠ none)
    · obtain ⟨tn, rfl, hm⟩ := hsw
      obtain ⟨d1, k, tx, a1, _, a3, _⟩ := replaceHTML_swallow_num hi h0 hf hp he hm
      have hl1 : l₁ ≠ [] := by
        rintro rfl
        rcases hm with hm | hm
        · simp [hi.text_zero] at hm
        · exact hm (hone tn rfl rfl)
      rw [if_neg hl1] at a1
      rw [callOp, a1] at e; cases e
      obtain ⟨_, _, p3, p4, _⟩ := place hi h0 he
      have hk := a3.kidsFun (dropTree_nil h0)
      have hpn : p ∉ pre d.nodes.length (kids d) n := by
        intro hc
        have := hi.linked.range _ _ p3
        have := pre_ge hi.linked.up n this.2.2 p hc
        have := hi.linked.up _ _ p3
        omega
      refine ⟨p, l, l₁, l₂, [], he2, ?_, rfl⟩
      have : kids d' p = l₁ ++ l₂ := by
        have hnd := hi.linked.nodup p
        rw [hk, dropTree, if_neg hpn, he]
        rw [he, List.nodup_append] at hnd
        rw [List.erase_append_right _ (fun hx => hnd.2.2 n hx n (by simp) rfl)]
        simp
      rw [List.append_nil, ← this]; exact g2
    · have hone' : ∀ t, F = [.text t] → textOf d (l₁.getLastD 0) = none ∧ textOf d (l₂.headD 0) = none := by
        intro t ht
        by_contra hc
        refine hsw ⟨t, ht, ?_⟩
        by_cases e : textOf d (l₁.getLastD 0) = none
        · exact Or.inr fun e' => hc ⟨e, e'⟩
        · exact Or.inl e
      obtain ⟨id, d1, F1, F2, new, a1, _, _, hk, _, hnew, _, hid, _⟩ := replaceHTML_num hi h0 hf hp he hone' htwo
      rw [callOp, a1] at e; cases e
      refine ⟨p, l, l₁, l₂, new, he2, hk ▸ g2, hid.trans ?_⟩
      cases new with
      | nil => exact absurd rfl hnew
      | cons a b => rfl

theorem callEach_shows (ops : List (Op × (Nat → Bool))) : ∀ (d : Dom) (_ : Reachable d) (pg : Page) (_ : Shows d pg)
    (_ : pg.AllowsAll ops) (_ : Room d (ops.map fun o => o.1.cost).sum),
    ∃ vs d', callEach ops d = .ok (vs, d') ∧ Reachable d' ∧ Shows d' (pg.run ops) ∧ GivesAll pg ops vs := by
  induction ops with
  | nil => intro d h pg hs _ hr; exact ⟨[], d, rfl, h, hs, rfl⟩
  | cons o ops ih =>
    intro d h pg hs ha hr
    rw [List.map_cons, List.sum_cons] at hr
    obtain ⟨v, d1, e1, h1, s1, g1, r1⟩ := C104_value d h pg hs o.2 o.1 ha.1 (hr.le (by omega))
    obtain ⟨vs, d2, e2, h2, s2, g2⟩ := ih d1 h1 _ s1 ha.2 (r1 _ hr)
    exact ⟨v :: vs, d2, by rw [callEach, e1]; show (callEach ops d1 >>= _) = _; rw [e2]; rfl, h2, s2, v, vs, rfl, g1, g2⟩

/-- A whole session with the values of its calls. -/
theorem C104_session (s : Str) (ts : List Tree) (ho : outcome s = .document ts) (ops : List (Op × (Nat → Bool)))
    (ha : (Page.load s).AllowsAll ops) (hlen : s.length + (ops.map fun o => o.1.cost).sum ≤ 65533) :
    ∃ d vs d', createDom s = .ok (some d) ∧ callEach ops d = .ok (vs, d') ∧ Reachable d' ∧ Shows d' ((Page.load s).run ops) ∧
      GivesAll (Page.load s) ops vs := by
  have hc := C93_every_input s (by omega)
  rw [ho] at hc
  obtain ⟨d, hd, _⟩ := hc
  obtain ⟨vs, d', e, h', s', g⟩ := callEach_shows ops d (.parsed hd) _ (C95_load s d hd) ha ((createDom_room hlen).elim hd d rfl)
  exact ⟨d, vs, d', hd, e, h', s', g⟩

/-! ## The values of a concrete session -/

example : ∃ d d', createDom b!"<p>a</p>b" = .ok (some d) ∧ callEach pageOps d = .ok ([6, 10, 0, 0, 0, 12], d') := by
  have : okAnd (createDom b!"<p>a</p>b") (fun o => match o with
    | some d => okAnd (callEach pageOps d) fun r => decide (r.1 = [6, 10, 0, 0, 0, 12])
    | none => false) = true := by decide +kernel
  obtain ⟨o, h, h2⟩ := okAnd_ex this
  cases o with
  | none => cases h2
  | some d =>
    obtain ⟨⟨vs, d'⟩, h3, h4⟩ := okAnd_ex h2
    have := of_decide_eq_true h4
    dsimp only at this
    subst this
    exact ⟨d, d', h, h3⟩

end Flo
