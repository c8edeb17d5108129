import Verif.Proofs.PageOps
/-!
# Every editing function is an operation on the page: new nodes (C95)
-/
namespace Flo
open Spec

section
variable {d d' : Dom}

theorem kids_new (hi : DomI d (kids d)) {q : Nat} (hq : d.nodes.length ≤ q) : kids d q = [] := by
  rw [List.eq_nil_iff_forall_not_mem]
  intro c hc
  have := hi.linked.range _ _ hc; omega

theorem one_text {k : Nat} {text : Str} (h1 : textOf d' k = some text) (h2 : kids d' k = []) :
    ShownAll d' (numberAll k [.text text]) := by
  simp only [numberAll, Tree.number, ShownAll, PTree.Shown, and_true]
  exact ⟨h1, h2, fun _ => trivial⟩

theorem one_elem {k : Nat} {doc : DocNode} (h1 : tagOf d' k = some doc.tag) (h2 : pairs d' k = doc.props) (h3 : bools d' k = doc.boolProps)
    (h4 : kids d' k = []) : ShownAll d' (numberAll k [.elem doc.tag doc.props doc.boolProps []]) := by
  simp only [numberAll, Tree.number, ShownAll, PTree.Shown, and_true]
  exact ⟨⟨h1, h2, h3⟩, h4, fun _ => trivial⟩

theorem mergeFirst_elem {k : Nat} {tag : Str} {ps : List (Str × Str)} {bs : List Str} (h : SameNode d d' k) :
    MergeFirst d d' k [.elem tag ps bs []] [.elem tag ps bs []] :=
  Or.inr ⟨fun _ _ _ _ => by simp, rfl, h⟩

theorem mergeLast_elem {k : Nat} {tag : Str} {ps : List (Str × Str)} {bs : List Str} (h : SameNode d d' k) :
    MergeLast d d' k [.elem tag ps bs []] [.elem tag ps bs []] := by
  refine Or.inr ⟨fun _ _ F' _ e => ?_, rfl, h⟩
  have := (List.append_inj' (s₁ := []) (t₁ := [Tree.elem tag ps bs []]) e rfl).2
  simp at this

theorem mergeFirst_text {k : Nat} {F : List Tree} (h : textOf d k = none) (hs : SameNode d d' k) : MergeFirst d d' k F F :=
  Or.inr ⟨fun _ _ _ e => (by rw [h] at e; cases e), rfl, hs⟩

theorem mergeLast_text {k : Nat} {F : List Tree} (h : textOf d k = none) (hs : SameNode d d' k) : MergeLast d d' k F F :=
  Or.inr ⟨fun _ _ _ e => (by rw [h] at e; cases e), rfl, hs⟩

/-! ## Appending -/

variable (hi : DomI d (kids d)) (h0 : kids d 0 = [])
include hi h0

theorem page_appendDoc {p : Nat} (hp : IsNode d p) (doc : DocNode) {id : Nat} (hr : appendDocumentNode p doc d = .ok (id, d'))
    {t : PTree} (ht : t.Shown d) (hid : t.id = rootID) (hnt : ∀ l, NodeIs d p l → l.isText = false) :
    (t.within p (fun ks => between ks (numberAll d.nodes.length [.elem doc.tag doc.props doc.boolProps []]) [])).Shown d' ∧
      d'.nodes.length = d.nodes.length + 1 := by
  obtain ⟨_, k, s, h1, h2, h3⟩ := (appendDoc_spec hi h0 hp.1 hp.2 doc).elim hr
  dsimp only at k s h1 h2 h3
  have hk := k.inv.kidsFun (upd_nil hp.1 h0 _)
  have hlt := hp.2
  refine ⟨append_shown (F1 := [.elem doc.tag doc.props doc.boolProps []]) hi hp ?_ ?_ (fun m hm _ => s m (by omega)) ?_ ?_ ht hid hnt, k.len⟩
  · rw [hk, upd_same]; rfl
  · intro q _ hq; rw [hk, upd_ne hq]
  · refine mergeFirst_elem (s _ ?_)
    intro e
    rcases List.eq_nil_or_concat' (kids d p) with e' | ⟨l, a, e'⟩
    · rw [e'] at e; simp at e; omega
    · have := hi.linked.range p a (by rw [e']; simp)
      rw [e'] at e; simp at e; omega
  · exact one_elem h1 h2 h3 (by rw [hk, upd_ne (by omega)]; exact kids_new hi (Nat.le_refl _))

theorem page_prependDoc {p : Nat} (hp : IsNode d p) (doc : DocNode) {id : Nat} (hr : prependDocumentNode p doc d = .ok (id, d'))
    {t : PTree} (ht : t.Shown d) (hid : t.id = rootID) (hnt : ∀ l, NodeIs d p l → l.isText = false) :
    (t.within p (fun ks => between [] (numberAll d.nodes.length [.elem doc.tag doc.props doc.boolProps []]) ks)).Shown d' ∧
      d'.nodes.length = d.nodes.length + 1 := by
  obtain ⟨_, k, s, h1, h2, h3⟩ := (prependDoc_spec hi h0 hp.1 hp.2 doc).elim hr
  dsimp only at k s h1 h2 h3
  have hk := k.inv.kidsFun (upd_nil hp.1 h0 _)
  have hlt := hp.2
  refine ⟨prepend_shown (F1 := [.elem doc.tag doc.props doc.boolProps []]) hi hp ?_ ?_ (fun m hm _ => s m (by omega)) ?_ ?_ ht hid hnt, k.len⟩
  · rw [hk, upd_same]; rfl
  · intro q _ hq; rw [hk, upd_ne hq]
  · refine mergeLast_elem (s _ ?_)
    have := headD_lt hi p
    omega
  · exact one_elem h1 h2 h3 (by rw [hk, upd_ne (by omega)]; exact kids_new hi (Nat.le_refl _))

theorem page_appendText {p : Nat} (hp : IsNode d p) (text : Str) {id : Nat} (hr : appendTextNode p text d = .ok (id, d'))
    {t : PTree} (ht : t.Shown d) (hid : t.id = rootID) (hnt : ∀ l, NodeIs d p l → l.isText = false) :
    (t.within p (fun ks => between ks (numberAll d.nodes.length [.text text]) [])).Shown d' ∧ d'.nodes.length = d.nodes.length + 1 := by
  have hlt := hp.2
  rcases (appendText_spec hi h0 hp.1 hp.2 text).elim hr with ⟨tk, h1, _, m⟩ | ⟨h1, _, m⟩
  · dsimp only at m
    have hk := m.inv.kidsFun h0
    refine ⟨append_shown (F1 := []) hi hp ?_ (fun q _ _ => by rw [hk]) (fun q hq hne => m.others q hne (by omega)) ?_ trivial ht hid hnt, m.len⟩
    · rw [hk]; simp [numberAll]
    · exact Or.inl ⟨tk, text, h1, rfl, m.text, m.attrs.1, m.attrs.2⟩
  · dsimp only at m
    have hk := m.inv.kidsFun (upd_nil hp.1 h0 _)
    refine ⟨append_shown (F1 := [.text text]) hi hp ?_ (fun q _ hq => by rw [hk, upd_ne hq]) (fun q hq hne => m.others q (by omega)) ?_ ?_ ht hid hnt, m.len⟩
    · rw [hk, upd_same]; rfl
    · refine mergeFirst_text h1 (m.others _ ?_)
      intro e
      rcases List.eq_nil_or_concat' (kids d p) with e' | ⟨l, a, e'⟩
      · rw [e'] at e; simp at e; omega
      · have := hi.linked.range p a (by rw [e']; simp)
        rw [e'] at e; simp at e; omega
    · exact one_text m.text (by rw [hk, upd_ne (by omega)]; exact kids_new hi (Nat.le_refl _))

theorem page_prependText {p : Nat} (hp : IsNode d p) (text : Str) {id : Nat} (hr : prependTextNode p text d = .ok (id, d'))
    {t : PTree} (ht : t.Shown d) (hid : t.id = rootID) (hnt : ∀ l, NodeIs d p l → l.isText = false) :
    (t.within p (fun ks => between [] (numberAll d.nodes.length [.text text]) ks)).Shown d' ∧ d'.nodes.length = d.nodes.length + 1 := by
  have hlt := hp.2
  have := headD_lt hi p
  rcases (prependText_spec hi h0 hp.1 hp.2 text).elim hr with ⟨tk, h1, _, m⟩ | ⟨h1, _, m⟩
  · dsimp only at m
    have hk := m.inv.kidsFun h0
    refine ⟨prepend_shown (F1 := []) hi hp ?_ (fun q _ _ => by rw [hk]) (fun q hq hne => m.others q hne (by omega)) ?_ trivial ht hid hnt, m.len⟩
    · rw [hk]; simp [numberAll]
    · exact Or.inl ⟨tk, text, h1, rfl, m.text, m.attrs.1, m.attrs.2⟩
  · dsimp only at m
    have hk := m.inv.kidsFun (upd_nil hp.1 h0 _)
    refine ⟨prepend_shown (F1 := [.text text]) hi hp ?_ (fun q _ hq => by rw [hk, upd_ne hq]) (fun q hq hne => m.others q (by omega)) ?_ ?_ ht hid hnt, m.len⟩
    · rw [hk, upd_same]; rfl
    · exact mergeLast_text h1 (m.others _ (by omega))
    · exact one_text m.text (by rw [hk, upd_ne (by omega)]; exact kids_new hi (Nat.le_refl _))

theorem page_appendHTML {p : Nat} (hp : IsNode d p) {html : Str} {junk : Nat → Out Bool} {F : List Tree} (hf : FParse junk html d (kids d) F) :
    ∃ id d', appendHTML junk p html d = .ok (id, d') ∧
      ∀ t : PTree, t.Shown d → t.id = rootID → (∀ l, NodeIs d p l → l.isText = false) →
        (t.within p (fun ks => between ks (numberAll d.nodes.length F) [])).Shown d' ∧ d'.nodes.length = d.nodes.length + sizeAll F := by
  obtain ⟨id, d', F1, new, a1, a2, a3, a4, a5, a6, a7, a8, a9⟩ := appendHTML_num hi h0 hf hp.1 hp.2
  obtain ⟨n1, n2, n3⟩ := a9.numbers (by
    rcases a2 with ⟨_, tn, _, e, _⟩ | ⟨_, e, _⟩
    · exact Or.inr ⟨tn, e⟩
    · exact Or.inl e) (Or.inl rfl) a4
  refine ⟨id, d', a1, fun t ht hid hnt => ⟨append_shown (F1 := F1) hi hp ?_ a7 a8 a2 n2 ht hid hnt, n3⟩⟩
  rw [a3, n1]

theorem page_prependHTML {p : Nat} (hp : IsNode d p) {html : Str} {junk : Nat → Out Bool} {F : List Tree} (hf : FParse junk html d (kids d) F) :
    ∃ id d', prependHTML junk p html d = .ok (id, d') ∧
      ∀ t : PTree, t.Shown d → t.id = rootID → (∀ l, NodeIs d p l → l.isText = false) →
        (t.within p (fun ks => between [] (numberAll d.nodes.length F) ks)).Shown d' ∧ d'.nodes.length = d.nodes.length + sizeAll F := by
  obtain ⟨id, d', F1, new, a1, a2, a3, a4, a5, a6, a7, a8, a9⟩ := prependHTML_num hi h0 hf hp.1 hp.2
  obtain ⟨n1, n2, n3⟩ := a9.numbers (Or.inl rfl) (by
    rcases a2 with ⟨_, tn, _, e, _⟩ | ⟨_, e, _⟩
    · exact Or.inr ⟨tn, e⟩
    · exact Or.inl e) a4
  rw [Nat.sub_self, Nat.add_zero] at n1 n2
  refine ⟨id, d', a1, fun t ht hid hnt => ⟨prepend_shown (F1 := F1) hi hp ?_ a7 a8 a2 n2 ht hid hnt, n3⟩⟩
  rw [a3, n1]

/-! ## Replacing -/

/-- Facts about a node between its siblings. -/
theorem place {p n : Nat} {l₁ l₂ : List Nat} (he : kids d p = l₁ ++ n :: l₂) :
    p ≠ 0 ∧ p < d.nodes.length ∧ n ∈ kids d p ∧ (∀ m, m ∈ l₁ ++ l₂ → m ∈ kids d p ∧ m ≠ n) ∧
      l₁.getLastD 0 < d.nodes.length ∧ l₂.headD 0 < d.nodes.length ∧ l₁.getLastD 0 ≠ n ∧ l₂.headD 0 ≠ n := by
  have hp : p ≠ 0 := by rintro rfl; rw [h0] at he; simp at he
  have hn : n ∈ kids d p := by rw [he]; simp
  have hr := hi.linked.range p n hn
  have hnd := hi.linked.nodup p
  have hsub : ∀ m, m ∈ l₁ ++ l₂ → m ∈ kids d p ∧ m ≠ n := by
    intro m hm
    rw [he] at hnd ⊢
    rw [List.nodup_append, List.nodup_cons] at hnd
    refine ⟨by simp only [List.mem_append, List.mem_cons] at hm ⊢; tauto, fun e => ?_⟩
    subst e
    rcases List.mem_append.mp hm with h | h
    · exact hnd.2.2 m h m (by simp) rfl
    · exact hnd.2.1.1 h
  have h2 := hi.linked.two
  have e1 : l₁.getLastD 0 < d.nodes.length ∧ l₁.getLastD 0 ≠ n := by
    rcases List.eq_nil_or_concat' l₁ with rfl | ⟨l, a, rfl⟩
    · simp only [List.getLastD_nil]; omega
    · rw [List.getLastD_concat]
      have := hsub a (by simp)
      have hra := hi.linked.range p a this.1
      exact ⟨hra.2.2, this.2⟩
  have e2 : l₂.headD 0 < d.nodes.length ∧ l₂.headD 0 ≠ n := by
    cases l₂ with
    | nil => simp only [List.headD_nil]; omega
    | cons a l =>
      have := hsub a (by simp)
      have hra := hi.linked.range p a this.1
      exact ⟨hra.2.2, this.2⟩
  exact ⟨hp, by omega, hn, hsub, e1.1, e2.1, e1.2, e2.2⟩

/-- One node is replaced. -/
theorem LocalEdit.swap {p n : Nat} {l₁ l₂ : List Nat} (he : kids d p = l₁ ++ n :: l₂)
    (hk : ∀ q, q < d.nodes.length → q ≠ p → kids d' q = kids d q)
    (hs : ∀ m, 1 ≤ m → m < d.nodes.length → m ∉ kids d p → SameNode d d' m) : LocalEdit d d' p (fun m => m = n) := by
  obtain ⟨p1, p2, p3, _⟩ := place hi h0 he
  have hr := hi.linked.range p n p3
  refine ⟨hi, ⟨by omega, p2, by omega, ?_⟩, ?_, fun m h1 h2 h3 _ => hs m h1 h2 h3, fun q _ h2 h3 _ => hk q h2 h3⟩
  · show ¬(1 = n); omega
  · rintro q c hc rfl; exact Or.inl (hi.linked.uniq _ _ _ hc p3)

theorem page_replaceDoc {p n : Nat} {l₁ l₂ : List Nat} (he : kids d p = l₁ ++ n :: l₂) (doc : DocNode) {id : Nat}
    (hr : replaceWithDocumentNode n doc d = .ok (id, d')) {t : PTree} (ht : t.Shown d) (hid : t.id = rootID) :
    (t.instead n (fun a b => between a (numberAll d.nodes.length [.elem doc.tag doc.props doc.boolProps []]) b)).Shown d' ∧
      d'.nodes.length = d.nodes.length + 1 := by
  obtain ⟨p1, p2, p3, p4, p5, p6, p7, p8⟩ := place hi h0 he
  obtain ⟨_, k, s, _, h1, h2, h3⟩ := (replaceDoc_spec hi h0 p1 he doc).elim hr
  dsimp only at k s h1 h2 h3
  have hk := k.inv.kidsFun (upd_nil p1 h0 _)
  have le : LocalEdit d d' p (fun m => m = n) := by
    refine LocalEdit.swap hi h0 he (fun q _ hq => by rw [hk, upd_ne hq]) (fun m _ h2 h3 => s m (by omega) ?_)
    rintro rfl; exact h3 p3
  refine ⟨replace_shown le l₁ l₂ he (fun m hm => (p4 m hm).2) (F1 := [.elem doc.tag doc.props doc.boolProps []])
    (F2 := [.elem doc.tag doc.props doc.boolProps []]) ?_ ?_ (mergeFirst_elem (s _ (by omega) p7)) (mergeLast_elem (s _ (by omega) p8)) ?_ ht hid, k.len⟩
  · rw [hk, upd_same]
    simp [numberAll, Tree.number, PTree.id]
  · intro m hm _ _
    have := hi.linked.range p m (p4 m hm).1
    exact s m (by omega) (p4 m hm).2
  · exact one_elem h1 h2 h3 (by rw [hk, upd_ne (by omega)]; exact kids_new hi (Nat.le_refl _))

/-- A single text that disappears in one of its neighbours. -/
theorem page_swallow {p n k : Nat} {l₁ l₂ : List Nat} (he : kids d p = l₁ ++ n :: l₂) {tn tx : Str}
    (hc : (∃ tk, textOf d (l₁.getLastD 0) = some tk ∧ k = l₁.getLastD 0 ∧ tx = tk ++ [32] ++ tn) ∨
       (textOf d (l₁.getLastD 0) = none ∧ ∃ tk, textOf d (l₂.headD 0) = some tk ∧ k = l₂.headD 0 ∧ tx = tn ++ [32] ++ tk))
    (inv : DomI d' (dropTree d.nodes.length (kids d) n)) (h1 : textOf d' k = some tx) (h2 : pairs d' k = pairs d k)
    (h3 : bools d' k = bools d k) (h4 : ∀ m, m < d.nodes.length → m ≠ k → m ∉ pre d.nodes.length (kids d) n → SameNode d d' m)
    {t : PTree} (ht : t.Shown d) (hid : t.id = rootID) :
    (t.instead n (fun a b => between a (numberAll d.nodes.length [.text tn]) b)).Shown d' := by
  obtain ⟨p1, p2, p3, p4, p5, p6, p7, p8⟩ := place hi h0 he
  have hrn := hi.linked.range p n p3
  have hpre := preorder_kids hi (p := n) ⟨by omega, hrn.2.2⟩
  rw [← hpre] at h4
  have hk := inv.kidsFun (dropTree_nil h0)
  have hdrop : ∀ q, q ∉ preorder d n → kids d' q = (kids d q).erase n := by
    intro q hq
    rw [hk]; unfold dropTree
    rw [if_neg (by rw [← hpre]; exact hq)]
  have hkin : ∀ s, textOf d k = some s → k ∈ kids d p := by
    intro s hs
    rw [he]
    rcases hc with ⟨tk, e1, rfl, _⟩ | ⟨_, tk, e1, rfl, _⟩
    · have : l₁ ≠ [] := by rintro rfl; simp [hi.text_zero] at e1
      exact List.mem_append_left _ (getLastD_mem this)
    · cases l₂ with
      | nil => simp [hi.text_zero] at e1
      | cons a l => simp
  have hkp : k ∈ kids d p := by
    rcases hc with ⟨tk, e1, e2, _⟩ | ⟨_, tk, e1, e2, _⟩
    · exact hkin tk (by rw [e2]; exact e1)
    · exact hkin tk (by rw [e2]; exact e1)
  have le : LocalEdit d d' p (fun m => m ∈ preorder d n) := by
    refine LocalEdit.drop hi p3 h0 (fun q hqp hq => ?_) (fun m hm h5 h6 => h4 m hm ?_ h6)
    · rw [hdrop q hq, List.erase_of_not_mem (fun hx => hqp (hi.linked.uniq _ _ _ hx p3))]
    · rintro rfl; exact h5 hkp
  have hfree : ∀ m ∈ l₁ ++ l₂, m ∉ preorder d n := fun m hm => sibling_free hi p3 (p4 m hm).1 (p4 m hm).2
  have hkids : kids d' p = l₁ ++ l₂ := by
    have hnd := hi.linked.nodup p
    rw [hdrop p le.at0.2.2.1, he]
    rw [he, List.nodup_append] at hnd
    rw [List.erase_append_right _ (fun hx => hnd.2.2 n hx n (by simp) rfl)]
    simp
  have hzero : 0 ∉ preorder d n := by
    intro hx
    have := preorder_above hi ⟨by omega, hrn.2.2⟩ hx
    omega
  have same : ∀ m, m = 0 ∨ m ∈ l₁ ++ l₂ → m ≠ k → SameNode d d' m := by
    intro m hm hmk
    rcases hm with rfl | hm
    · exact h4 0 (by omega) hmk hzero
    · exact h4 m (hi.linked.range p m (p4 m hm).1).2.2 hmk (hfree m hm)
  have hlast : l₁.getLastD 0 = 0 ∨ l₁.getLastD 0 ∈ l₁ ++ l₂ := by
    rcases List.eq_nil_or_concat' l₁ with rfl | ⟨l, a, rfl⟩
    · exact Or.inl rfl
    · right; simp
  have hhead : l₂.headD 0 = 0 ∨ l₂.headD 0 ∈ l₁ ++ l₂ := by
    cases l₂ with
    | nil => exact Or.inl rfl
    | cons a l => right; simp
  have hne : l₁.getLastD 0 = l₂.headD 0 → l₂ = [] := by
    intro e
    cases l₂ with
    | nil => rfl
    | cons a l =>
      have hnd := hi.linked.nodup p
      rw [he, List.nodup_append] at hnd
      rcases List.eq_nil_or_concat' l₁ with rfl | ⟨l', b, rfl⟩
      · simp at e
        have := hi.linked.range p a (p4 a (by simp)).1
        omega
      · simp at e
        exact absurd e (hnd.2.2 b (by simp) a (by simp))
  rcases hc with ⟨tk, e1, e2, e3⟩ | ⟨e0, tk, e1, e2, e3⟩
  · refine replace_shown le l₁ l₂ he hfree (F1 := []) (F2 := []) (by rw [hkids]; simp [numberAll]) (fun m hm hm1 _ => same m (Or.inr hm) (by rw [e2]; exact hm1))
      (Or.inl ⟨tk, tn, e1, rfl, by rw [← e2, h1, e3], by rw [← e2]; exact h2, by rw [← e2]; exact h3⟩) ?_ trivial ht hid
    refine Or.inr ⟨fun _ _ _ _ => by simp, rfl, ?_⟩
    by_cases ee : l₂.headD 0 = k
    · exfalso
      have hl : l₂ = [] := hne (by rw [ee, e2])
      subst hl
      rw [← e2, ← ee] at e1
      simp [hi.text_zero] at e1
    · exact same _ hhead ee
  · have hx : l₁.getLastD 0 ≠ k := by
      intro hx
      rw [e2] at hx
      rw [hx, e1] at e0; cases e0
    refine replace_shown le l₁ l₂ he hfree (F1 := [.text tn]) (F2 := []) (by rw [hkids]; simp [numberAll]) (fun m hm _ hm1 => same m (Or.inr hm) (by rw [e2]; exact hm1))
      (mergeFirst_text e0 (same _ hlast hx))
      (Or.inl ⟨tk, tn, e1, rfl, by rw [← e2, h1, e3], by rw [← e2]; exact h2, by rw [← e2]; exact h3⟩) trivial ht hid

theorem page_replaceText {p n : Nat} {l₁ l₂ : List Nat} (he : kids d p = l₁ ++ n :: l₂) (text : Str) {id : Nat}
    (hr : replaceWithTextNode n text d = .ok (id, d')) {t : PTree} (ht : t.Shown d) (hid : t.id = rootID) :
    (t.instead n (fun a b => between a (numberAll d.nodes.length [.text text]) b)).Shown d' ∧
      d'.nodes.length = d.nodes.length + 1 := by
  obtain ⟨p1, p2, p3, p4, p5, p6, p7, p8⟩ := place hi h0 he
  rcases (replaceText_spec hi h0 p1 he text).elim hr with ⟨_, ⟨tk, h2, s⟩ | ⟨h2, tk, h3, s⟩ | ⟨h2, h3, s⟩⟩
  · exact ⟨page_swallow hi h0 he (Or.inl ⟨tk, h2, rfl, rfl⟩) s.inv s.text s.attrs.1 s.attrs.2 (fun m h5 h6 h7 => s.others m h6 (by omega) h7) ht hid, s.len⟩
  · exact ⟨page_swallow hi h0 he (Or.inr ⟨h2, tk, h3, rfl, rfl⟩) s.inv s.text s.attrs.1 s.attrs.2 (fun m h5 h6 h7 => s.others m h6 (by omega) h7) ht hid, s.len⟩
  · dsimp only at s
    have hk := s.inv.kidsFun (upd_nil p1 h0 _)
    have le : LocalEdit d d' p (fun m => m = n) := by
      refine LocalEdit.swap hi h0 he (fun q _ hq => by rw [hk, upd_ne hq]) (fun m _ h2 h3 => s.others m (by omega) ?_)
      rintro rfl; exact h3 p3
    refine ⟨replace_shown le l₁ l₂ he (fun m hm => (p4 m hm).2) (F1 := [.text text]) (F2 := [.text text]) ?_ ?_
      (mergeFirst_text h2 (s.others _ (by omega) p7)) (mergeLast_text h3 (s.others _ (by omega) p8)) ?_ ht hid, s.len⟩
    · rw [hk, upd_same]
      simp [numberAll, Tree.number, PTree.id]
    · intro m hm _ _
      have := hi.linked.range p m (p4 m hm).1
      exact s.others m (by omega) (p4 m hm).2
    · exact one_text s.text (by rw [hk, upd_ne (by omega)]; exact kids_new hi (Nat.le_refl _))

theorem page_replaceHTML {p n : Nat} {l₁ l₂ : List Nat} (he : kids d p = l₁ ++ n :: l₂) {html : Str} {junk : Nat → Out Bool} {F : List Tree}
    (hf : FParse junk html d (kids d) F)
    (hone : ∀ t, F = [.text t] → l₁ = [] → textOf d (l₂.headD 0) = none)
    (htwo : ∀ t u, F = [.text t, .text u] → textOf d (l₁.getLastD 0) = none ∨ textOf d (l₂.headD 0) = none) :
    ∃ id d', replaceWithHTML junk n html d = .ok (id, d') ∧
      ∀ t : PTree, t.Shown d → t.id = rootID →
        (t.instead n (fun a b => between a (numberAll d.nodes.length F) b)).Shown d' ∧ d'.nodes.length = d.nodes.length + sizeAll F := by
  obtain ⟨p1, p2, p3, p4, p5, p6, p7, p8⟩ := place hi h0 he
  by_cases hs : ∃ t, F = [.text t] ∧ (textOf d (l₁.getLastD 0) ≠ none ∨ textOf d (l₂.headD 0) ≠ none)
  · obtain ⟨tn, rfl, hm⟩ := hs
    obtain ⟨d', k, tx, a1, a2, a3, a4, a5, a6, a7, a8, a9⟩ := replaceHTML_swallow_num hi h0 hf p1 he hm
    have hl1 : l₁ ≠ [] := by
      rintro rfl
      rcases hm with hm | hm
      · simp [hi.text_zero] at hm
      · exact hm (hone tn rfl rfl)
    rw [if_neg hl1] at a1
    exact ⟨_, d', a1, fun t ht hid => ⟨page_swallow hi h0 he a2 a3 a4 a5 a6 a8 ht hid, a9⟩⟩
  · have hone' : ∀ t, F = [.text t] → textOf d (l₁.getLastD 0) = none ∧ textOf d (l₂.headD 0) = none := by
      intro t ht
      by_contra hc
      refine hs ⟨t, ht, ?_⟩
      by_cases e : textOf d (l₁.getLastD 0) = none
      · exact Or.inr fun e' => hc ⟨e, e'⟩
      · exact Or.inl e
    obtain ⟨id, d', F1, F2, new, a1, a2, a3, a4, a5, a6, a7, a8, a9, a10, a11, a12⟩ := replaceHTML_num hi h0 hf p1 he hone' htwo
    obtain ⟨n1, n2, n3⟩ := a12.numbers (by
      rcases a2 with ⟨_, tn, _, e, _⟩ | ⟨_, e, _⟩
      · exact Or.inr ⟨tn, e⟩
      · exact Or.inl e) (by
      rcases a3 with ⟨_, tn, _, e, _⟩ | ⟨_, e, _⟩
      · exact Or.inr ⟨tn, e⟩
      · exact Or.inl e) a5
    refine ⟨id, d', a1, fun t ht hid => ⟨?_, n3⟩⟩
    have hmem1 : ∀ m, 1 ≤ m → m ∉ kids d p → m ≠ l₁.getLastD 0 := by
      intro m h1 h2 e
      rcases List.eq_nil_or_concat' l₁ with rfl | ⟨l, a, rfl⟩
      · simp at e; omega
      · simp at e; exact h2 (by rw [he, e]; simp)
    have hmem2 : ∀ m, 1 ≤ m → m ∉ kids d p → m ≠ l₂.headD 0 := by
      intro m h1 h2 e
      cases l₂ with
      | nil => simp at e; omega
      | cons a l => simp at e; exact h2 (by rw [he, e]; simp)
    have le : LocalEdit d d' p (fun m => m = n) := by
      refine LocalEdit.swap hi h0 he a10 (fun m h1 h2 h3 => a11 m h2 ?_ (hmem1 m h1 h3) (hmem2 m h1 h3))
      rintro rfl; exact h3 p3
    exact replace_shown le l₁ l₂ he (fun m hm => (p4 m hm).2) (by rw [a4, n1]) (fun m hm e1 e2 => a11 m (hi.linked.range p m (p4 m hm).1).2.2 (p4 m hm).2 e1 e2)
      a2 a3 n2 ht hid

end
end Flo
