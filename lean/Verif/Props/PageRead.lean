import Verif.Spec.PageRead
import Verif.Props.PageQuery
import Verif.Props.Nav
import Verif.Props.Attrs
/-!
# Everything that can be read describes the page (C102)
-/
namespace Flo
open Spec

section
variable {d : Dom}

/-- The navigation functions of every document follow its page. -/
theorem C102_navigation (d : Dom) (h : Reachable d) (pg : Page) (hs : Shows d pg) : NavigatesPage d pg := by
  obtain ⟨hi, _⟩ := reach_domI h
  have hn := hi.linked.navOK
  exact {
    first := fun n l cs hh => by rw [hn.first, (hs.has hi hh).2]
    parent := fun n l cs hh c hc => hn.parent n c (by rw [(hs.has hi hh).2]; exact hc)
    next := fun n l l₁ a b l₂ hh => (hn.next n l₁ a b l₂ (hs.has hi hh).2).1
    previous := fun n l l₁ a b l₂ hh => (hn.next n l₁ a b l₂ (hs.has hi hh).2).2
    last := fun n l l₁ a hh => hn.lastNext n l₁ a (hs.has hi hh).2
    firstPrevious := fun n l a l₂ hh => hn.firstPrev n a l₂ (hs.has hi hh).2
    top := fun _ _ => hn.root }

/-! ## Parts of the page -/

mutual
theorem part_shown {n : Nat} {sub : PTree} : ∀ t : PTree, t.Shown d → t.part n = some sub → sub.Shown d
  | .node m l ks, h, e => by
    rw [PTree.part] at e
    split at e
    · cases e; exact h
    · rw [PTree.Shown] at h
      exact partAll_shown ks h.2.2.2 e
theorem partAll_shown {n : Nat} {sub : PTree} : ∀ ts : List PTree, ShownAll d ts → partAll n ts = some sub → sub.Shown d
  | [], _, e => by cases e
  | t :: ts, h, e => by
    rw [ShownAll] at h
    rw [partAll] at e
    cases e1 : t.part n with
    | some x => rw [e1] at e; cases e; exact part_shown t h.1 e1
    | none => rw [e1] at e; exact partAll_shown ts h.2 e
end

theorem texts_textOf : ∀ es : List (Nat × Label), (∀ n l, (n, l) ∈ es → NodeIs d n l ∧ (l = .root → textOf d n = none)) →
    (es.map Prod.fst).filterMap (textOf d) = texts es
  | [], _ => rfl
  | (n, l) :: es, h => by
    have ih := texts_textOf es fun m k hm => h m k (.tail _ hm)
    obtain ⟨h1, h2⟩ := h n l (.head _)
    unfold texts at ih ⊢
    rw [List.map_cons, List.filterMap_cons, List.filterMap_cons, ih]
    have e : textOf d n = l.words := by
      cases l with
      | root => exact h2 rfl
      | text raw => exact h1
      | elem tag ps bs =>
        cases e : textOf d n with
        | none => rfl
        | some s =>
          have := typeOf_text e
          rw [typeOf_tag h1.1] at this
          cases this
    rw [e]

theorem root_noText (hi : DomI d (kids d)) : textOf d rootID = none := by
  cases e : textOf d rootID with
  | none => rfl
  | some s =>
    have := typeOf_text e
    have hr : typeOf d rootID = some .root := hi.root
    rw [hr] at this
    cases this

theorem texts_shown (hi : DomI d (kids d)) {es : List (Nat × Label)} (h : ∀ n l, (n, l) ∈ es → NodeIs d n l) :
    (es.map Prod.fst).filterMap (textOf d) = texts es :=
  texts_textOf es fun n l hm => ⟨h n l hm, fun e => by
    subst e
    have : n = rootID := h n _ hm
    subst this
    exact root_noText hi⟩

theorem shown_labels (hi : DomI d (kids d)) {t : PTree} (ht : t.Shown d) {n : Nat} {l : Label} (h : (n, l) ∈ t.entries) : NodeIs d n l := by
  rw [← rows_entries, List.mem_map] at h
  obtain ⟨⟨m, k, cs⟩, h1, h2⟩ := h
  cases h2
  exact (shown_rows hi t ht _ _ _ h1).1

theorem hasNext_iff (hi : DomI d (kids d)) {pg : Page} (hs : Shows d pg) {n : Nat} (hn : Live d n) : pg.HasNext n ↔ getNext n d ≠ 0 := by
  have nav := hi.linked.navOK
  constructor
  · rintro ⟨p, l, l₁, b, l₂, hh⟩
    have e := (hs.has hi hh).2
    rw [(nav.next p l₁ n b l₂ e).1]
    have := nav.range p b (by rw [e]; simp)
    omega
  · intro hx
    cases hn with
    | root => exact absurd nav.root.2.1 hx
    | child hp hc =>
      rename_i p
      obtain ⟨l, hh⟩ := kids_has hi hs hp
      obtain ⟨l₁, l₂, e⟩ := List.append_of_mem hc
      cases l₂ with
      | nil => exact absurd (nav.lastNext p l₁ n e) hx
      | cons b l₂ => exact ⟨p, l, l₁, b, l₂, e ▸ hh⟩

theorem dropWhile_map {α β : Type} (f : α → β) (p : β → Bool) : ∀ l : List α, (l.map f).dropWhile p = (l.dropWhile (p ∘ f)).map f
  | [] => rfl
  | a :: l => by
    rw [List.map_cons, List.dropWhile_cons, List.dropWhile_cons, dropWhile_map f p l]
    show (if p (f a) then _ else _) = List.map f (if p (f a) then _ else _)
    split <;> rfl

theorem page_preorder (hi : DomI d (kids d)) {pg : Page} (hs : Shows d pg) : preorder d rootID = pg.root.entries.map Prod.fst := by
  have h2 := hi.linked.two
  have hr : rootID < d.nodes.length := by show 1 < _; omega
  rw [preorder_kids hi ⟨by decide, hr⟩]
  have := shown_ids hi _ hs.tree (by rw [hs.id]; exact hr)
  rw [hs.id] at this
  exact this.symm

/-- So do the walks and the text content. -/
theorem C102_walks (d : Dom) (h : Reachable d) (pg : Page) (hs : Shows d pg) : WalksPage d pg := by
  obtain ⟨hi, _⟩ := reach_domI h
  have hp := page_preorder hi hs
  refine ⟨fun f hf => ?_, fun n sub e hc => ?_, fun n l hh hx => ?_⟩
  · rw [← hp]
    exact (C15_traverseDom_preorder d h f (hs.next ▸ hf)).1
  · have hsub := part_shown _ hs.tree e
    obtain ⟨h1, h2⟩ := part_ids _ e
    have hon : pg.On n := on_ids.mpr (h1 n (h2 ▸ id_mem sub))
    have hl := (hs.on_live hi).mp hon
    have hn := live_ne_zero hi hl
    have hk : kids d n ≠ [] ∨ getNext n d = 0 := by
      rcases hc with hc | hc
      · left
        intro hk
        obtain ⟨m, l, ks⟩ := sub
        have h2 : m = n := h2
        subst h2
        rw [PTree.Shown] at hsub
        rw [hk] at hsub
        have : ks = [] := List.map_eq_nil_iff.mp hsub.2.1.symm
        subst this
        exact hc rfl
      · right
        exact not_not.mp fun hx => hc ((hasNext_iff hi hs hl).mpr hx)
    have hpre : preorder d n = sub.entries.map Prod.fst := by
      rw [preorder_kids hi hn]
      have := shown_ids hi sub hsub (by rw [h2]; exact hn.2)
      rw [h2] at this
      exact this.symm
    refine ⟨fun f hf => ?_, ?_⟩
    · rw [← hpre]
      exact (C16_traverseNode_subtree_partial d h n hn hk f (hs.next ▸ hf)).1
    · rw [C16_textContent_partial d h n hn hk, hpre, ← List.map_tail, texts_shown hi]
      exact fun m l hm => shown_labels hi hsub (List.mem_of_mem_tail hm)
  · have hl := (hs.on_live hi).mp ⟨l, [], hh⟩
    have hk := (hs.has hi hh).2
    have hx := (hasNext_iff hi hs hl).mp hx
    have hd : (preorder d rootID).dropWhile (· ≠ n) = (pg.onwards n).map Prod.fst := by
      rw [hp, dropWhile_map]; rfl
    refine ⟨fun f hf => ?_, ?_⟩
    · rw [← hd]
      exact C16_traverseNode_leaf d h n hl hk hx f (hs.next ▸ hf)
    · rw [C16_textContent_leaf d h n hl hk hx, hd, ← List.map_tail, texts_shown hi]
      exact fun m k hm => shown_labels hi hs.tree ((List.dropWhile_sublist _).subset (List.mem_of_mem_tail hm))

theorem attrs_page (hi : DomI d (kids d)) (ho : OnlyElems d) {pg : Page} (hs : Shows d pg) : AttrsPage d pg := by
  have ha := answers_of hi.names (s := storeOf d) (fun _ _ => rfl) (fun _ _ => rfl)
  have key : ∀ n l cs, pg.Has n l cs → n ≠ 0 ∧ (storeOf d).pairs n = l.pairs ∧ (storeOf d).bools n = l.bools := by
    intro n l cs hh
    have h0 := (live_ne_zero hi ((hs.on_live hi).mp ⟨l, cs, hh⟩)).1
    obtain ⟨_, e2, e3, _⟩ := label_holds hi ho (hs.has hi hh).1 h0
    exact ⟨h0, e2, e3⟩
  exact {
    property := fun n l cs hh k v => by
      obtain ⟨h0, e2, e3⟩ := key n l cs hh
      rw [ha.hasProperty n k v h0, e2]
    key := fun n l cs hh k => by
      obtain ⟨h0, e2, e3⟩ := key n l cs hh
      rw [ha.hasPropKey n k h0, e2]
    value := fun n l cs hh v => by
      obtain ⟨h0, e2, e3⟩ := key n l cs hh
      rw [ha.hasPropValue n v h0, e2]
    bool := fun n l cs hh b => by
      obtain ⟨h0, e2, e3⟩ := key n l cs hh
      rw [ha.hasBoolProp n b h0, e3]
    get := fun n l cs hh k => by
      obtain ⟨h0, e2, e3⟩ := key n l cs hh
      rw [ha.getValue n k h0, e2] }

end

/-- And the attribute readers, as long as the attribute functions are applied to elements only. -/
theorem C102_attributes (d : Dom) (h : Proper d) (pg : Page) (hs : Shows d pg) : AttrsPage d pg :=
  attrs_page (reach_domI h.reachable).1 h.only hs

/-- A whole session: after any sequence of operations that are in order, everything that can be read is what the page says. -/
theorem C102_session (s : Str) (ts : List Tree) (ho : outcome s = .document ts) (ops : List (Op × (Nat → Bool)))
    (ha : (Page.load s).AllowsAll ops) (hat : (Page.load s).AttrsOnElems ops)
    (hlen : s.length + (ops.map fun o => o.1.cost).sum ≤ 65533) :
    ∃ d d', createDom s = .ok (some d) ∧ runEach ops d = .ok d' ∧ NavigatesPage d' ((Page.load s).run ops) ∧
      WalksPage d' ((Page.load s).run ops) ∧ AttrsPage d' ((Page.load s).run ops) ∧
      printHTML d' = .ok ((Page.load s).run ops).print := by
  obtain ⟨d, d', hd, e, h', s', _⟩ := C95_session s ts ho ops ha hlen
  have hr : Room d ((ops.map fun o => o.1.cost).sum) := (createDom_room hlen).elim hd d rfl
  exact ⟨d, d', hd, e, C102_navigation d' h' _ s', C102_walks d' h' _ s', attrs_page (reach_domI h').1
    (runEach_only ops d d' (.parsed hd) (createDom_bare hd) _ (C95_load s d hd) ha hat hr e) s', (C95_print d' h' _ s').1⟩

/-! ## A concrete page -/

/-- What the structures say about the page of `pageOps`: node 10 has no children and is followed by node 8, node 2 has children. -/
example : let pg := (Page.load b!"<p>a</p>b").run pageOps
    pg.Has 10 (.elem b!"br" [] []) [] ∧ pg.HasNext 10 ∧ texts (pg.onwards 10).tail = [b!"w y"] ∧
    pg.Has 2 (.elem b!"q" [(b!"k", b!"v")] []) [3, 10, 8] ∧ ¬pg.HasNext 2 ∧
    ∃ sub, pg.root.part 2 = some sub ∧ sub.entries.length ≠ 1 ∧ texts sub.entries.tail = [b!"a c z", b!"w y"] := by
  intro pg
  have hrows : pg.root.rows = _ := pageOps_rows
  refine ⟨?_, ⟨2, .elem b!"q" [(b!"k", b!"v")] [], [3], 8, [], ?_⟩, rfl, ?_, ?_, _, rfl, by decide, rfl⟩
  · unfold Page.Has; rw [hrows]; simp
  · unfold Page.Has; rw [hrows]; simp
  · unfold Page.Has; rw [hrows]; simp
  · rintro ⟨p, l, l₁, b, l₂, hh⟩
    unfold Page.Has at hh
    rw [hrows] at hh
    simp only [List.mem_cons, Prod.mk.injEq, List.not_mem_nil, or_false] at hh
    have : ∀ {x y z : Nat}, l₁ ++ 2 :: b :: l₂ = [x, y, z] → x = 2 ∨ y = 2 := by
      intro x y z h
      rcases l₁ with _ | ⟨u, _ | ⟨v, _ | ⟨w, l₁⟩⟩⟩ <;> simp at h <;> simp [h]
    rcases hh with ⟨_, _, h⟩ | ⟨_, _, h⟩ | ⟨_, _, h⟩ | ⟨_, _, h⟩ | ⟨_, _, h⟩ | ⟨_, _, h⟩
    · rcases l₁ with _ | ⟨u, _ | ⟨v, l₁⟩⟩ <;> simp at h
    · simp at h
    · exact absurd (this h) (by decide)
    · simp at h
    · simp at h
    · simp at h

end Flo
