import Verif.Spec.PageCompare
import Verif.Props.Report
import Verif.Props.PageQuery
/-!
# Comparison is about pages (C103)
-/
namespace Flo
open Spec

theorem paired_form {d : Dom} (hi : DomI d (kids d)) {n : Nat} {tag : Str} (h : tagOf d n = some tag) : pairedOf d n = formOf d tag := by
  unfold tagOf at h
  unfold pairedOf
  split at h
  · rename_i t hget
    rw [Option.map_eq_some_iff] at h
    obtain ⟨r, hr, rfl⟩ := h
    obtain ⟨t', e1, e2, e3⟩ := (hi.good n _ hget).doc rfl
    cases e1
    have hm : r ∈ d.tagReg.drop 1 := by
      refine List.mem_of_getElem? (i := t - 1) ?_
      rw [List.getElem?_drop, show 1 + (t - 1) = t by omega]; exact hr
    simp only [hget, hr, Option.map_some]
    unfold formOf firstForm
    cases hf : (d.tagReg.drop 1).find? (fun u => u.1 == r.1) with
    | none => have := List.find?_eq_none.mp hf r hm; simp at this
    | some x =>
      have hx1 : x.1 = r.1 := by simpa using List.find?_some hf
      obtain ⟨j, hj⟩ := List.mem_iff_getElem?.mp (List.mem_of_find?_eq_some hf)
      rw [List.getElem?_drop] at hj
      have k1 := (hi.names.tag.iff r.1 t e2).mpr (by rw [List.getElem?_map, hr]; rfl)
      have k2 := (hi.names.tag.iff r.1 (1 + j) (by omega)).mpr (by rw [List.getElem?_map, hj, ← hx1]; rfl)
      have : t = 1 + j := k1.symm.trans k2
      subst this
      rw [hr] at hj
      cases hj
      rfl
  · cases h

theorem pairedOf_none {d : Dom} {n : Nat} (h : typeOf d n ≠ some .document) : pairedOf d n = none := by
  unfold pairedOf
  split
  · rename_i e; exact absurd (by simp [typeOf, e]) h
  · rfl

section
variable {d₁ d₂ : Dom} {f g : Str → Option Bool}

theorem nodeIs_kind {d : Dom} (hi : DomI d (kids d)) {n : Nat} {l : Label} (h : NodeIs d n l) :
    (l = .root ∧ typeOf d n = some .root) ∨ (∃ s, l = .text s ∧ textOf d n = some s ∧ typeOf d n = some .text) ∨
    (∃ tag ps bs, l = .elem tag ps bs ∧ tagOf d n = some tag ∧ pairs d n = ps ∧ bools d n = bs ∧ typeOf d n = some .document) := by
  cases l with
  | root =>
    have h : n = 1 := h
    subst h
    exact .inl ⟨rfl, hi.root⟩
  | text raw => exact .inr (.inl ⟨raw, rfl, h, typeOf_text h⟩)
  | elem tag ps bs => exact .inr (.inr ⟨tag, ps, bs, rfl, h.1, h.2.1, h.2.2, typeOf_tag h.1⟩)

theorem textOf_other {d : Dom} {n : Nat} (h : typeOf d n ≠ some .text) : textOf d n = none := by
  cases e : textOf d n with
  | none => rfl
  | some s => exact absurd (typeOf_text e) h

theorem label_like (h1 : DomI d₁ (kids d₁)) (h2 : DomI d₂ (kids d₂)) (hf : ∀ t, formOf d₁ t = f t) (hg : ∀ t, formOf d₂ t = g t)
    {a b : Nat} {l l' : Label} (ha : NodeIs d₁ a l) (hb : NodeIs d₂ b l') : SameLabel d₁ d₂ a b ↔ l.Like f g l' := by
  constructor
  · intro h
    have ht := h.type
    rcases nodeIs_kind h1 ha with ⟨rfl, e⟩ | ⟨s, rfl, e, e'⟩ | ⟨tag, ps, bs, rfl, e1, e2, e3, e4⟩ <;>
    rcases nodeIs_kind h2 hb with ⟨rfl, k⟩ | ⟨s', rfl, k, k'⟩ | ⟨tag', ps', bs', rfl, k1, k2, k3, k4⟩
    · exact .root
    · rw [e, k'] at ht; cases ht
    · rw [e, k4] at ht; cases ht
    · rw [e', k] at ht; cases ht
    · have := h.text
      rw [e, k] at this
      cases this
      exact .text s
    · rw [e', k4] at ht; cases ht
    · rw [e4, k] at ht; cases ht
    · rw [e4, k'] at ht; cases ht
    · have := h.tag
      rw [e1, k1] at this
      cases this
      refine .elem ?_ ?_ ?_ ?_
      · rw [← hf, ← hg, ← paired_form h1 e1, ← paired_form h2 k1, h.paired]
      · rw [← e3, ← k3]; exact h.bools e4
      · rw [← e2, ← k2]; exact h.keys e4
      · rw [← e2, ← k2]; exact h.values e4
  · intro h
    cases h with
    | root =>
      rcases nodeIs_kind h1 ha with ⟨-, e⟩ | ⟨_, c, _⟩ | ⟨_, _, _, c, _⟩
      · rcases nodeIs_kind h2 hb with ⟨-, k⟩ | ⟨_, c, _⟩ | ⟨_, _, _, c, _⟩
        · have n1 : typeOf d₁ a ≠ some .document := by rw [e]; decide
          have n2 : typeOf d₂ b ≠ some .document := by rw [k]; decide
          exact ⟨by rw [e, k], by rw [textOf_other (by rw [e]; decide), textOf_other (by rw [k]; decide)],
            by rw [tagOf_type n1, tagOf_type n2], by rw [pairedOf_none n1, pairedOf_none n2], fun h => absurd h n1, fun h => absurd h n1,
            fun h => absurd h n1⟩
        · cases c
        · cases c
      · cases c
      · cases c
    | text s =>
      have e := typeOf_text ha
      have k := typeOf_text hb
      have n1 : typeOf d₁ a ≠ some .document := by rw [e]; decide
      have n2 : typeOf d₂ b ≠ some .document := by rw [k]; decide
      have ha : textOf d₁ a = some s := ha
      have hb : textOf d₂ b = some s := hb
      exact ⟨by rw [e, k], by rw [ha, hb],
        by rw [tagOf_type n1, tagOf_type n2], by rw [pairedOf_none n1, pairedOf_none n2], fun h => absurd h n1, fun h => absurd h n1,
        fun h => absurd h n1⟩
    | elem c1 c2 c3 c4 =>
      obtain ⟨e1, e2, e3⟩ := ha
      obtain ⟨k1, k2, k3⟩ := hb
      refine ⟨by rw [typeOf_tag e1, typeOf_tag k1], ?_, by rw [e1, k1], by rw [paired_form h1 e1, paired_form h2 k1, hf, hg, c1], ?_, ?_, ?_⟩
      · rw [textOf_other (by rw [typeOf_tag e1]; decide), textOf_other (by rw [typeOf_tag k1]; decide)]
      · intro _; rw [e3, k3]; exact c2
      · intro _; rw [e2, k2]; exact c3
      · intro _; rw [e2, k2]; exact c4

mutual
theorem like_same (h1 : DomI d₁ (kids d₁)) (h2 : DomI d₂ (kids d₂)) (hf : ∀ t, formOf d₁ t = f t) (hg : ∀ t, formOf d₂ t = g t) :
    ∀ t t' : PTree, t.Shown d₁ → t'.Shown d₂ → (SameTree (SameLabel d₁ d₂) d₁ d₂ t.id t'.id ↔ t.Like f g t')
  | .node n l ks, .node m l' ks', s1, s2 => by
    rw [PTree.Shown] at s1 s2
    have hl := label_like h1 h2 hf hg s1.1 s2.1
    have hk := likeAll_same h1 h2 hf hg ks ks' s1.2.2.2 s2.2.2.2
    show SameTree (SameLabel d₁ d₂) d₁ d₂ n m ↔ _
    rw [PTree.Like, ← hl, ← hk]
    constructor
    · rintro (⟨r, len, ih⟩)
      rw [s1.2.1, s2.2.1] at len ih
      exact ⟨r, len, ih⟩
    · rintro ⟨r, len, ih⟩
      refine .node r ?_ ?_
      · rw [s1.2.1, s2.2.1]; exact len
      · rw [s1.2.1, s2.2.1]; exact ih
theorem likeAll_same (h1 : DomI d₁ (kids d₁)) (h2 : DomI d₂ (kids d₂)) (hf : ∀ t, formOf d₁ t = f t) (hg : ∀ t, formOf d₂ t = g t) :
    ∀ ts ts' : List PTree, ShownAll d₁ ts → ShownAll d₂ ts' →
    (((ts.map PTree.id).length = (ts'.map PTree.id).length ∧ ∀ (i x y : Nat), (ts.map PTree.id)[i]? = some x → (ts'.map PTree.id)[i]? = some y →
      SameTree (SameLabel d₁ d₂) d₁ d₂ x y) ↔ LikeAll f g ts ts')
  | [], [], _, _ => by simp [LikeAll]
  | [], _ :: _, _, _ => by simp [LikeAll]
  | _ :: _, [], _, _ => by simp [LikeAll]
  | t :: ts, t' :: ts', s1, s2 => by
    rw [ShownAll] at s1 s2
    rw [LikeAll, ← like_same h1 h2 hf hg t t' s1.1 s2.1, ← likeAll_same h1 h2 hf hg ts ts' s1.2 s2.2]
    constructor
    · rintro ⟨len, h⟩
      refine ⟨h 0 _ _ rfl rfl, by simpa using len, fun i x y e1 e2 => h (i + 1) x y (by simpa using e1) (by simpa using e2)⟩
    · rintro ⟨ht, len, h⟩
      refine ⟨by simpa using len, fun i x y e1 e2 => ?_⟩
      cases i with
      | zero => simp at e1 e2; subst e1; subst e2; exact ht
      | succ i => exact h i x y (by simpa using e1) (by simpa using e2)
end

theorem LikeAll.length : ∀ {ts ts' : List PTree}, LikeAll f g ts ts' → ts.length = ts'.length
  | [], [], _ => rfl
  | t :: ts, t' :: ts', h => by
    rw [LikeAll] at h
    simp [LikeAll.length h.2]
  | [], _ :: _, h => by rw [LikeAll] at h; exact h.elim; all_goals simp
  | _ :: _, [], h => by rw [LikeAll] at h; exact h.elim; all_goals simp

/-- The two halves of a list of children. -/
theorem kids_take {ks : List PTree} (n : Nat) (i : Nat) {x : Nat} (h : ((ks.take n).map PTree.id)[i]? = some x) :
    i < n ∧ (ks.map PTree.id)[i]? = some x := by
  rw [List.map_take] at h
  have hi : i < n := by
    by_contra hc
    rw [List.getElem?_eq_none (by rw [List.length_take]; omega)] at h
    cases h
  rw [List.getElem?_take_of_lt hi] at h
  exact ⟨hi, h⟩

theorem shown_take {d : Dom} {ks : List PTree} (h : ShownAll d ks) (n : Nat) : ShownAll d (ks.take n) := by
  have := (shownAll_append (a := ks.take n) (b := ks.drop n)).mp (by rw [List.take_append_drop]; exact h)
  exact this.1

theorem shown_get {d : Dom} : ∀ {ks : List PTree} (_ : ShownAll d ks) {i : Nat} {t : PTree}, ks[i]? = some t → t.Shown d
  | t :: ts, h, 0, _, e => by rw [ShownAll] at h; cases e; exact h.1
  | t :: ts, h, i + 1, _, e => by rw [ShownAll] at h; exact shown_get h.2 e

/-- A common beginning of the children that is alike. -/
theorem like_take (h1 : DomI d₁ (kids d₁)) (h2 : DomI d₂ (kids d₂)) (hf : ∀ t, formOf d₁ t = f t) (hg : ∀ t, formOf d₂ t = g t)
    {ks ks' : List PTree} (s1 : ShownAll d₁ ks) (s2 : ShownAll d₂ ks') {n : Nat} (n1 : n ≤ ks.length) (n2 : n ≤ ks'.length)
    (h : ∀ (j x y : Nat), j < n → (ks.map PTree.id)[j]? = some x → (ks'.map PTree.id)[j]? = some y → SameTree (SameLabel d₁ d₂) d₁ d₂ x y) :
    LikeAll f g (ks.take n) (ks'.take n) := by
  refine (likeAll_same h1 h2 hf hg _ _ (shown_take s1 n) (shown_take s2 n)).mp ⟨?_, fun i x y e1 e2 => ?_⟩
  · simp only [List.length_map, List.length_take]; omega
  · obtain ⟨hi, e1⟩ := kids_take n i e1
    exact h i x y hi e1 (kids_take n i e2).2

theorem split_at {ks : List PTree} {i : Nat} {t : PTree} (h : ks[i]? = some t) : ks = ks.take i ++ t :: ks.drop (i + 1) := by
  obtain ⟨hi, e⟩ := List.getElem?_eq_some_iff.mp h
  subst e
  simp

theorem map_get {ks : List PTree} {i x : Nat} (h : (ks.map PTree.id)[i]? = some x) : ∃ t, ks[i]? = some t ∧ t.id = x := by
  rw [List.getElem?_map, Option.map_eq_some_iff] at h
  exact h

theorem differ_first (h1 : DomI d₁ (kids d₁)) (h2 : DomI d₂ (kids d₂)) (hf : ∀ t, formOf d₁ t = f t) (hg : ∀ t, formOf d₂ t = g t)
    {a b u v : Nat} (h : FirstDiff (SameLabel d₁ d₂) d₁ d₂ a b u v) : ∀ t t' : PTree, t.Shown d₁ → t'.Shown d₂ → t.id = a → t'.id = b →
    t.Differ f g t' u v := by
  induction h with
  | here hn =>
    rintro ⟨n, l, ks⟩ ⟨m, l', ks'⟩ s1 s2 rfl rfl
    rw [PTree.Shown] at s1 s2
    exact .here fun hc => hn ((label_like h1 h2 hf hg s1.1 s2.1).mpr hc)
  | size hr hlen hk =>
    rintro ⟨n, l, ks⟩ ⟨m, l', ks'⟩ s1 s2 rfl rfl
    rw [PTree.Shown] at s1 s2
    have hr := (label_like h1 h2 hf hg s1.1 s2.1).mp hr
    dsimp only [PTree.id] at hlen hk ⊢
    rw [s1.2.1, s2.2.1] at hlen hk
    simp only [List.length_map] at hlen
    rcases Nat.lt_or_ge ks.length ks'.length with hlt | hge
    · have := like_take h1 h2 hf hg s1.2.2.2 s2.2.2.2 (n := ks.length) (le_refl _) (by omega) (fun j x y _ => hk j x y)
      rw [List.take_length] at this
      have hd := PTree.Differ.fewer (n := n) (m := m) hr (more := ks'.drop ks.length) (by simp; omega) this
      rw [List.take_append_drop] at hd
      exact hd
    · have := like_take h1 h2 hf hg s1.2.2.2 s2.2.2.2 (n := ks'.length) (by omega) (le_refl _) (fun j x y _ => hk j x y)
      rw [List.take_length] at this
      have hd := PTree.Differ.more (n := n) (m := m) hr (more := ks.drop ks'.length) (by simp; omega) this
      rw [List.take_append_drop] at hd
      exact hd
  | inside hr hx hy hb _ ih =>
    rintro ⟨n, l, ks⟩ ⟨m, l', ks'⟩ s1 s2 rfl rfl
    rw [PTree.Shown] at s1 s2
    have hr := (label_like h1 h2 hf hg s1.1 s2.1).mp hr
    dsimp only [PTree.id] at hx hy hb
    rw [s1.2.1] at hx hb
    rw [s2.2.1] at hy hb
    obtain ⟨t, ht, et⟩ := map_get hx
    obtain ⟨t', ht', et'⟩ := map_get hy
    have l1 := (List.getElem?_eq_some_iff.mp ht).1
    have l2 := (List.getElem?_eq_some_iff.mp ht').1
    rw [split_at ht, split_at ht']
    exact .inside hr (like_take h1 h2 hf hg s1.2.2.2 s2.2.2.2 (by omega) (by omega) hb)
      (ih t t' (shown_get s1.2.2.2 ht) (shown_get s2.2.2.2 ht') et et')

/-! ## Like is like -/

theorem Spec.SameNames.refl (xs : List Str) : SameNames xs xs := ⟨rfl, fun _ => Iff.rfl⟩

theorem differ_unlike {t t' : PTree} {x y : Nat} (h : t.Differ f g t' x y) : ¬t.Like f g t' := by
  have app : ∀ {as as' : List PTree}, LikeAll f g as as' → ∀ {bs bs' : List PTree}, LikeAll f g (as ++ bs) (as' ++ bs') → LikeAll f g bs bs' := by
    intro as
    induction as with
    | nil =>
      intro as' h bs bs' h'
      cases as' with
      | nil => exact h'
      | cons => exact absurd (LikeAll.length h) (by simp)
    | cons a as ih =>
      intro as' h bs bs' h'
      cases as' with
      | nil => exact absurd (LikeAll.length h) (by simp)
      | cons a' as' =>
        rw [LikeAll] at h
        rw [List.cons_append, List.cons_append, LikeAll] at h'
        exact ih h.2 h'.2
  induction h with
  | here hn => intro h; rw [PTree.Like] at h; exact hn h.1
  | fewer _ hm hl =>
    intro h
    rw [PTree.Like] at h
    have h1 := LikeAll.length h.2
    have h2 := LikeAll.length hl
    rw [List.length_append] at h1
    have := List.length_pos_iff.mpr hm
    omega
  | more _ hm hl =>
    intro h
    rw [PTree.Like] at h
    have h1 := LikeAll.length h.2
    have h2 := LikeAll.length hl
    rw [List.length_append] at h1
    have := List.length_pos_iff.mpr hm
    omega
  | inside _ hl _ ih =>
    intro h
    rw [PTree.Like] at h
    have := app hl h.2
    rw [LikeAll] at this
    exact ih this.1

end

/-- The comparison of two documents, however edited: it is a statement about their pages.  Either it answers, and the answer is
success exactly if the pages are alike, otherwise it names the first nodes at which the pages differ; or the failure handler is
taken, and then one of the pages has an element with more than 64 attributes of one kind. -/
theorem C103_compare (d₁ d₂ : Dom) (h₁ : Proper d₁) (h₂ : Proper d₂) (pg₁ pg₂ : Page) (s₁ : Shows d₁ pg₁) (s₂ : Shows d₂ pg₂) :
    (∃ r, equals d₁ d₂ = .ok r ∧ (r.status = .success ↔ pg₁.root.Like pg₁.form pg₂.form pg₂.root) ∧
      (r.status ≠ .success → pg₁.root.Differ pg₁.form pg₂.form pg₂.root r.node1 r.node2)) ∨
    (equals d₁ d₂ = .longjmp ∧ ((∃ n l cs, pg₁.Has n l cs ∧ l.tooMany) ∨ ∃ n l cs, pg₂.Has n l cs ∧ l.tooMany)) := by
  obtain ⟨i1, _⟩ := reach_domI h₁.reachable
  obtain ⟨i2, _⟩ := reach_domI h₂.reachable
  have hf : ∀ t, formOf d₁ t = pg₁.form t := s₁.forms
  have hg : ∀ t, formOf d₂ t = pg₂.form t := s₂.forms
  have many : ∀ {d : Dom} {pg : Page} (_ : DomI d (kids d)) (_ : OnlyElems d) (_ : Shows d pg) {n : Nat}, Live d n → TooMany d n →
      ∃ n l cs, pg.Has n l cs ∧ l.tooMany := by
    intro d pg hi ho hs n hn ht
    obtain ⟨l, cs, hh⟩ := (hs.on_live hi).mpr hn
    obtain ⟨_, e2, e3, _⟩ := label_holds hi ho (hs.has hi hh).1 (live_ne_zero hi hn).1
    refine ⟨n, l, cs, hh, ?_⟩
    unfold TooMany at ht
    rw [e2, e3] at ht
    cases l with
    | root => simp [Label.pairs, Label.bools] at ht
    | text => simp [Label.pairs, Label.bools] at ht
    | elem tag ps bs => exact ht
  rcases C40_symmetric d₁ d₂ h₁.reachable h₂.reachable with ⟨r, e, _⟩ | ⟨e, _, hm⟩
  · left
    obtain ⟨x1, x2⟩ := C41_exact_partial d₁ d₂ h₁.reachable h₂.reachable r e
    refine ⟨r, e, ?_, fun hr => ?_⟩
    · rw [x1]
      have := like_same i1 i2 hf hg _ _ s₁.tree s₂.tree
      rw [s₁.id, s₂.id] at this
      exact this
    · exact differ_first i1 i2 hf hg (x2 hr).1 _ _ s₁.tree s₂.tree s₁.id s₂.id
  · right
    refine ⟨e, ?_⟩
    rcases hm with ⟨n, hn, ht⟩ | ⟨n, hn, ht⟩
    · exact .inl (many i1 h₁.only s₁ hn ht)
    · exact .inr (many i2 h₂.only s₂ hn ht)

mutual
theorem like_plain {f g : Str → Option Bool} : ∀ t t' : PTree, t.plain = t'.plain → (∀ n, (n, Label.root) ∉ t.entries) → (∀ n, (n, Label.root) ∉ t'.entries) →
    (∀ n tag ps bs, (n, Label.elem tag ps bs) ∈ t.entries → f tag = g tag) → (∀ n raw cs, (n, Label.text raw, cs) ∈ t.rows → cs = []) →
    (∀ n raw cs, (n, Label.text raw, cs) ∈ t'.rows → cs = []) → t.Like f g t'
  | .node n .root ks, _, _, h, _, _, _, _ => absurd (by rw [PTree.entries]; exact List.mem_cons_self) (h n)
  | _, .node m .root ks', _, _, h, _, _, _ => absurd (by rw [PTree.entries]; exact List.mem_cons_self) (h m)
  | .node n (.text r) ks, .node m (.text r') ks', e, _, _, _, t1, t2 => by
    rw [PTree.plain, PTree.plain] at e
    cases e
    have e1 := t1 n r _ (by rw [PTree.rows]; exact List.mem_cons_self)
    have e2 := t2 m r _ (by rw [PTree.rows]; exact List.mem_cons_self)
    rw [List.map_eq_nil_iff] at e1 e2
    subst e1; subst e2
    rw [PTree.Like]
    exact ⟨.text r, by rw [LikeAll]; trivial⟩
  | .node n (.text r) ks, .node m (.elem tag ps bs) ks', e, _, _, _, _, _ => by rw [PTree.plain, PTree.plain] at e; cases e
  | .node n (.elem tag ps bs) ks, .node m (.text r) ks', e, _, _, _, _, _ => by rw [PTree.plain, PTree.plain] at e; cases e
  | .node n (.elem tag ps bs) ks, .node m (.elem tag' ps' bs') ks', e, r1, r2, hf, t1, t2 => by
    rw [PTree.plain, PTree.plain] at e
    injection e with e1 e2 e3 e4
    subst e1; subst e2; subst e3
    rw [PTree.Like]
    have hl := likeAll_plain (f := f) (g := g) ks ks' e4
    simp only [PTree.entries, PTree.rows, List.mem_cons, not_or] at r1 r2 hf t1 t2
    exact ⟨.elem (hf n tag ps bs (.inl rfl)) (.refl _) (.refl _) (.refl _), hl (fun n => (r1 n).2) (fun n => (r2 n).2)
      (fun n tag ps bs h => hf n tag ps bs (.inr h)) (fun n raw cs h => t1 n raw cs (.inr h)) (fun n raw cs h => t2 n raw cs (.inr h))⟩
theorem likeAll_plain {f g : Str → Option Bool} : ∀ ts ts' : List PTree, plainAll ts = plainAll ts' → (∀ n, (n, Label.root) ∉ entriesAll ts) →
    (∀ n, (n, Label.root) ∉ entriesAll ts') → (∀ n tag ps bs, (n, Label.elem tag ps bs) ∈ entriesAll ts → f tag = g tag) →
    (∀ n raw cs, (n, Label.text raw, cs) ∈ rowsAll ts → cs = []) → (∀ n raw cs, (n, Label.text raw, cs) ∈ rowsAll ts' → cs = []) → LikeAll f g ts ts'
  | [], [], _, _, _, _, _, _ => by rw [LikeAll]; trivial
  | [], _ :: _, e, _, _, _, _, _ => by rw [plainAll, plainAll] at e; cases e
  | _ :: _, [], e, _, _, _, _, _ => by rw [plainAll, plainAll] at e; cases e
  | t :: ts, t' :: ts', e, r1, r2, hf, t1, t2 => by
    rw [plainAll, plainAll] at e
    injection e with e1 e2
    simp only [entriesAll, rowsAll, List.mem_append, not_or] at r1 r2 hf t1 t2
    rw [LikeAll]
    exact ⟨like_plain t t' e1 (fun n => (r1 n).1) (fun n => (r2 n).1) (fun n tag ps bs h => hf n tag ps bs (.inl h))
        (fun n raw cs h => t1 n raw cs (.inl h)) (fun n raw cs h => t2 n raw cs (.inl h)),
      likeAll_plain ts ts' e2 (fun n => (r1 n).2) (fun n => (r2 n).2) (fun n tag ps bs h => hf n tag ps bs (.inr h))
        (fun n raw cs h => t1 n raw cs (.inr h)) (fun n raw cs h => t2 n raw cs (.inr h))⟩
end

mutual
theorem shown_textRow {d : Dom} : ∀ t : PTree, t.Shown d → ∀ n raw cs, (n, Label.text raw, cs) ∈ t.rows → cs = []
  | .node m l ks, h, n, raw, cs, hx => by
    rw [PTree.Shown] at h
    rw [PTree.rows, List.mem_cons] at hx
    rcases hx with e | hx
    · cases e
      rw [h.2.2.1 rfl]; rfl
    · exact shownAll_textRow ks h.2.2.2 n raw cs hx
theorem shownAll_textRow {d : Dom} : ∀ ts : List PTree, ShownAll d ts → ∀ n raw cs, (n, Label.text raw, cs) ∈ rowsAll ts → cs = []
  | [], _, n, raw, cs, hx => by simp [rowsAll] at hx
  | t :: ts, h, n, raw, cs, hx => by
    rw [ShownAll] at h
    rw [rowsAll, List.mem_append] at hx
    rcases hx with hx | hx
    · exact shown_textRow t h.1 n raw cs hx
    · exact shownAll_textRow ts h.2 n raw cs hx
end

/-- Pages with the same trees whose elements have the same forms are alike, whatever the numbers of their nodes: they are reported
equal, unless the failure handler is taken. -/
theorem C103_same (d₁ d₂ : Dom) (h₁ : Proper d₁) (h₂ : Proper d₂) (pg₁ pg₂ : Page) (s₁ : Shows d₁ pg₁) (s₂ : Shows d₂ pg₂)
    (ht : pg₁.trees = pg₂.trees) (hf : ∀ n tag ps bs, (n, Label.elem tag ps bs) ∈ pg₁.root.entries → pg₁.form tag = pg₂.form tag) :
    (∃ r, equals d₁ d₂ = .ok r ∧ r.status = .success) ∨
    (equals d₁ d₂ = .longjmp ∧ ((∃ n l cs, pg₁.Has n l cs ∧ l.tooMany) ∨ ∃ n l cs, pg₂.Has n l cs ∧ l.tooMany)) := by
  obtain ⟨i1, _⟩ := reach_domI h₁.reachable
  obtain ⟨i2, _⟩ := reach_domI h₂.reachable
  have noRoot : ∀ {d : Dom} {pg : Page} {ks : List PTree} (_ : DomI d (kids d)) (_ : Shows d pg), pg.root = .node rootID .root ks →
      ∀ n, (n, Label.root) ∉ entriesAll ks := by
    intro d pg ks hi hs e n hm
    have hnd := hs.nodup hi
    have hn : n = rootID := (hs.entry hi (l := .root) (n := n) (by rw [e, PTree.entries]; exact .tail _ hm)).1
    subst hn
    rw [e, ids_node, List.nodup_cons] at hnd
    exact hnd.1 (List.mem_map.mpr ⟨_, hm, rfl⟩)
  obtain ⟨ks₁, e1⟩ := s₁.root
  obtain ⟨ks₂, e2⟩ := s₂.root
  have t1 := s₁.tree
  have t2 := s₂.tree
  have hl : pg₁.root.Like pg₁.form pg₂.form pg₂.root := by
    unfold Page.trees at ht
    rw [e1] at hf t1
    rw [e2] at t2
    rw [e1, e2] at ht ⊢
    rw [PTree.Shown] at t1 t2
    rw [PTree.Like]
    refine ⟨.root, likeAll_plain _ _ ht (noRoot i1 s₁ e1) (noRoot i2 s₂ e2) (fun n tag ps bs h => hf n tag ps bs ?_)
      (shownAll_textRow _ t1.2.2.2) (shownAll_textRow _ t2.2.2.2)⟩
    rw [PTree.entries]; exact .tail _ h
  rcases C103_compare d₁ d₂ h₁ h₂ pg₁ pg₂ s₁ s₂ with ⟨r, e, hr, _⟩ | h
  · exact .inl ⟨r, e, hr.mpr hl⟩
  · exact .inr h

/-- Pages that differ somewhere are not alike: the two answers exclude each other. -/
theorem C103_differ (f g : Str → Option Bool) (t t' : PTree) (x y : Nat) (h : t.Differ f g t' x y) : ¬t.Like f g t' := differ_unlike h

/-! ## Concrete pages -/

/-- Alike although the values are exchanged (C41). -/
example : (Page.load b!"<p a=x b=y>t</p>").root.Like (Page.load b!"<p a=x b=y>t</p>").form (Page.load b!"<p  b=x a=y >t </p>").form
    (Page.load b!"<p  b=x a=y >t </p>").root := by
  have e1 : (Page.load b!"<p a=x b=y>t</p>").root = .node 1 .root [.node 2 (.elem b!"p" [(b!"a", b!"x"), (b!"b", b!"y")] []) [.node 3 (.text b!"t") []]] := rfl
  have e2 : (Page.load b!"<p  b=x a=y >t </p>").root = .node 1 .root [.node 2 (.elem b!"p" [(b!"b", b!"x"), (b!"a", b!"y")] []) [.node 3 (.text b!"t") []]] := rfl
  rw [e1, e2]
  simp only [PTree.Like, LikeAll, and_true]
  refine ⟨.root, .elem rfl (.refl _) ⟨by decide, ?_⟩ ⟨by decide, ?_⟩, .text _⟩
  · intro s; simp [or_comm]
  · intro s; simp

/-- The first difference is below the root, between the second children of the first elements. -/
example : (Page.load b!"<p>a<b x></b></p><i></i>").root.Differ (Page.load b!"<p>a<b x></b></p><i></i>").form (Page.load b!"<p>a<b y></b></p>").form
    (Page.load b!"<p>a<b y></b></p>").root 4 4 := by
  have e1 : (Page.load b!"<p>a<b x></b></p><i></i>").root =
    .node 1 .root ([] ++ .node 2 (.elem b!"p" [] []) ([.node 3 (.text b!"a") []] ++ .node 4 (.elem b!"b" [] [b!"x"]) [] :: []) ::
      [.node 5 (.elem b!"i" [] []) []]) := rfl
  have e2 : (Page.load b!"<p>a<b y></b></p>").root =
    .node 1 .root ([] ++ .node 2 (.elem b!"p" [] []) ([.node 3 (.text b!"a") []] ++ .node 4 (.elem b!"b" [] [b!"y"]) [] :: []) :: []) := rfl
  rw [e1, e2]
  refine .inside .root (by rw [LikeAll]; trivial) (.inside (.elem rfl (.refl _) (.refl _) (.refl _)) ?_ (.here ?_))
  · simp only [LikeAll, PTree.Like, and_true]; exact .text _
  · intro h
    cases h with
    | elem _ h _ _ => exact absurd ((h.2 b!"x").mp (.head _)) (by decide)

example : ∃ d₁ d₂, Proper d₁ ∧ Proper d₂ ∧ Shows d₁ (Page.load b!"<p>a<b x></b></p><i></i>") ∧ Shows d₂ (Page.load b!"<p>a<b y></b></p>") ∧
    equals d₁ d₂ = .ok ⟨.differentContent, 4, 4⟩ := by
  obtain ⟨d, h1, h2⟩ := someAnd_ex (x := createDom b!"<p>a<b x></b></p><i></i>")
    (p := fun d => someAnd (createDom b!"<p>a<b y></b></p>") (fun e => decide (equals d e = .ok ⟨.differentContent, 4, 4⟩))) (by decide +kernel)
  obtain ⟨e, h3, h4⟩ := someAnd_ex h2
  exact ⟨d, e, .parsed h1, .parsed h3, C95_load _ _ h1, C95_load _ _ h3, by simpa using h4⟩

end Flo
