import Verif.Proofs.RefFrag
import Verif.Spec.Page
/-!
# Editing trees in one place (C95)
-/
namespace Flo
open Spec

/-! ## Labels -/

theorem Spec.NodeIs.same {d d' : Dom} {n : Nat} {l : Label} (h : NodeIs d n l) (s : SameNode d d' n) : NodeIs d' n l := by
  cases l with
  | root => exact h
  | text raw => show textOf d' n = _; rw [s.text]; exact h
  | elem tag ps bs =>
    obtain ⟨h1, h2, h3⟩ : _ ∧ _ ∧ _ := h
    exact ⟨by rw [s.tag]; exact h1, by rw [s.pairs]; exact h2, by rw [s.bools]; exact h3⟩

theorem textOf_root {d : Dom} {ch : Nat → List Nat} (h : DomI d ch) : textOf d rootID = none := by
  cases ht : textOf d rootID with
  | none => rfl
  | some s =>
    have := typeOf_of_text ht
    rw [show rootID = 1 from rfl, h.root] at this; cases this

theorem Spec.NodeIs.isText {d : Dom} {ch : Nat → List Nat} (hi : DomI d ch) {n : Nat} {l : Label} (h : NodeIs d n l) :
    l.isText = true ↔ ∃ t, textOf d n = some t ∧ l = .text t := by
  cases l with
  | root =>
    have h : n = rootID := h
    subst h
    simp [Label.isText]
  | text raw =>
    have h : textOf d n = some raw := h
    simp [Label.isText, h]
  | elem tag ps bs =>
    simp [Label.isText]

theorem Spec.NodeIs.ofText {d : Dom} {ch : Nat → List Nat} (hi : DomI d ch) {n : Nat} {l : Label} (h : NodeIs d n l) {t : Str}
    (ht : textOf d n = some t) : l = .text t := by
  cases l with
  | root =>
    have h : n = rootID := h
    subst h
    rw [textOf_root hi] at ht; cases ht
  | text raw =>
    have h : textOf d n = some raw := h
    rw [h] at ht; cases ht; rfl
  | elem tag ps bs =>
    have h : tagOf d n = some tag ∧ _ := h
    rw [tag_of_text ht] at h
    cases h.1

theorem Spec.NodeIs.notText {d : Dom} {ch : Nat → List Nat} (hi : DomI d ch) {n : Nat} {l : Label} (h : NodeIs d n l)
    (hl : l.isText = false) : textOf d n = none := by
  cases ht : textOf d n with
  | none => rfl
  | some t => rw [h.ofText hi ht] at hl; cases hl

/-! ## Lists of trees -/

theorem shownAll_iff {d : Dom} : ∀ {ts : List PTree}, ShownAll d ts ↔ ∀ t ∈ ts, t.Shown d
  | [] => by simp [ShownAll]
  | t :: ts => by simp [ShownAll, shownAll_iff (ts := ts)]

theorem shownAll_append {d : Dom} {a b : List PTree} : ShownAll d (a ++ b) ↔ ShownAll d a ∧ ShownAll d b := by
  rw [shownAll_iff, shownAll_iff, shownAll_iff]
  constructor
  · intro h
    exact ⟨fun t ht => h t (by simp [ht]), fun t ht => h t (by simp [ht])⟩
  · rintro ⟨h1, h2⟩ t ht
    rcases List.mem_append.mp ht with h | h
    · exact h1 t h
    · exact h2 t h

@[simp] theorem within_id (p : Nat) (f : List PTree → List PTree) (t : PTree) : (t.within p f).id = t.id := by
  cases t; simp [PTree.within, PTree.id]
@[simp] theorem instead_id (p : Nat) (f : List PTree → List PTree → List PTree) (t : PTree) : (t.instead p f).id = t.id := by
  cases t; simp [PTree.instead, PTree.id]
@[simp] theorem relabel_id (p : Nat) (f : Label → Label) (t : PTree) : (t.relabel p f).id = t.id := by
  cases t; simp [PTree.relabel, PTree.id]

theorem withinAll_map (p : Nat) (f : List PTree → List PTree) : ∀ ts, withinAll p f ts = ts.map (PTree.within p f)
  | [] => rfl
  | t :: ts => by rw [withinAll, withinAll_map, List.map_cons]
theorem insteadAll_map (p : Nat) (f : List PTree → List PTree → List PTree) : ∀ ts, insteadAll p f ts = ts.map (PTree.instead p f)
  | [] => rfl
  | t :: ts => by rw [insteadAll, insteadAll_map, List.map_cons]
theorem relabelAll_map (p : Nat) (f : Label → Label) : ∀ ts, relabelAll p f ts = ts.map (PTree.relabel p f)
  | [] => rfl
  | t :: ts => by rw [relabelAll, relabelAll_map, List.map_cons]

/-! ## What is not touched -/

mutual
theorem shown_keep {d d' : Dom} {G : Nat → Prop}
    (hG : ∀ q, G q → SameNode d d' q ∧ kids d' q = kids d q ∧ ∀ c ∈ kids d q, G c) :
    ∀ t : PTree, t.Shown d → G t.id → t.Shown d'
  | .node n l ks, h, hg => by
    simp only [PTree.Shown] at h ⊢
    have hg : G n := hg
    obtain ⟨h1, h2, h3, h4⟩ := h
    obtain ⟨g1, g2, g3⟩ := hG n hg
    refine ⟨h1.same g1, by rw [g2, h2], h3, shownAll_keep hG ks h4 (fun t ht => g3 _ ?_)⟩
    rw [h2]; exact List.mem_map_of_mem ht
theorem shownAll_keep {d d' : Dom} {G : Nat → Prop}
    (hG : ∀ q, G q → SameNode d d' q ∧ kids d' q = kids d q ∧ ∀ c ∈ kids d q, G c) :
    ∀ ts : List PTree, ShownAll d ts → (∀ t ∈ ts, G t.id) → ShownAll d' ts
  | [], _, _ => trivial
  | t :: ts, h, hg => by
    simp only [ShownAll] at h ⊢
    exact ⟨shown_keep hG t h.1 (hg t (by simp)), shownAll_keep hG ts h.2 (fun t ht => hg t (by simp [ht]))⟩
end

mutual
theorem shown_within {d d' : Dom} {p : Nat} {f : List PTree → List PTree} {O : Nat → Prop}
    (hO : ∀ q, O q → q ≠ p ∧ SameNode d d' q ∧ kids d' q = kids d q ∧ ∀ c ∈ kids d q, O c ∨ c = p)
    (hp : SameNode d d' p) (hnt : ∀ l, NodeIs d p l → l.isText = false)
    (hf : ∀ ks, kids d p = ks.map PTree.id → ShownAll d ks → kids d' p = (f ks).map PTree.id ∧ ShownAll d' (f ks)) :
    ∀ t : PTree, t.Shown d → (O t.id ∨ t.id = p) → (t.within p f).Shown d'
  | .node n l ks, h, ho => by
    simp only [PTree.Shown, PTree.within] at h ⊢
    obtain ⟨h1, h2, h3, h4⟩ := h
    by_cases e : n = p
    · subst e
      rw [if_pos rfl]
      obtain ⟨f1, f2⟩ := hf ks h2 h4
      refine ⟨h1.same hp, f1, fun hl => ?_, f2⟩
      rw [hnt l h1] at hl; cases hl
    · rw [if_neg e]
      rcases ho with ho | ho
      · have ho : O n := ho
        obtain ⟨o1, o2, o3, o4⟩ := hO n ho
        refine ⟨h1.same o2, ?_, fun hl => by rw [h3 hl]; rfl, shownAll_within hO hp hnt hf ks h4 (fun t ht => o4 _ ?_)⟩
        · rw [o3, h2, withinAll_map, List.map_map]
          exact List.map_congr_left (fun t _ => by simp)
        · rw [h2]; exact List.mem_map_of_mem ht
      · exact absurd ho e
theorem shownAll_within {d d' : Dom} {p : Nat} {f : List PTree → List PTree} {O : Nat → Prop}
    (hO : ∀ q, O q → q ≠ p ∧ SameNode d d' q ∧ kids d' q = kids d q ∧ ∀ c ∈ kids d q, O c ∨ c = p)
    (hp : SameNode d d' p) (hnt : ∀ l, NodeIs d p l → l.isText = false)
    (hf : ∀ ks, kids d p = ks.map PTree.id → ShownAll d ks → kids d' p = (f ks).map PTree.id ∧ ShownAll d' (f ks)) :
    ∀ ts : List PTree, ShownAll d ts → (∀ t ∈ ts, O t.id ∨ t.id = p) → ShownAll d' (withinAll p f ts)
  | [], _, _ => trivial
  | t :: ts, h, ho => by
    simp only [ShownAll, withinAll] at h ⊢
    exact ⟨shown_within hO hp hnt hf t h.1 (ho t (by simp)), shownAll_within hO hp hnt hf ts h.2 (fun t ht => ho t (by simp [ht]))⟩
end

theorem around_some {n : Nat} : ∀ {ks : List PTree} {x : List PTree × List PTree}, around n ks = some x →
    ∃ t, ks = x.1 ++ t :: x.2 ∧ t.id = n
  | [], x, h => by simp [around] at h
  | t :: ts, x, h => by
    unfold around at h
    split at h
    · rename_i e
      cases h
      exact ⟨t, rfl, e⟩
    · rw [Option.map_eq_some_iff] at h
      obtain ⟨y, hy, rfl⟩ := h
      obtain ⟨u, e1, e2⟩ := around_some hy
      exact ⟨u, by rw [e1]; rfl, e2⟩

theorem around_none {n : Nat} : ∀ {ks : List PTree}, around n ks = none ↔ n ∉ ks.map PTree.id
  | [] => by simp [around]
  | t :: ts => by
    unfold around
    split
    · rename_i e; simp [e]
    · rename_i e
      rw [Option.map_eq_none_iff, around_none, List.map_cons, List.mem_cons, not_or]
      exact ⟨fun h => ⟨fun e' => e e'.symm, h⟩, fun h => h.2⟩

mutual
theorem shown_instead {d d' : Dom} {p n : Nat} {f : List PTree → List PTree → List PTree} {O : Nat → Prop}
    (hO : ∀ q, O q → q ≠ p ∧ SameNode d d' q ∧ kids d' q = kids d q ∧ ∀ c ∈ kids d q, (O c ∨ c = p) ∧ c ≠ n)
    (hp : SameNode d d' p) (hn : n ∈ kids d p)
    (hf : ∀ a t b, kids d p = (a ++ t :: b).map PTree.id → t.id = n → ShownAll d a → ShownAll d b →
      kids d' p = (f a b).map PTree.id ∧ ShownAll d' (f a b)) :
    ∀ t : PTree, t.Shown d → (O t.id ∨ t.id = p) → (t.instead n f).Shown d'
  | .node m l ks, h, ho => by
    simp only [PTree.Shown, PTree.instead] at h ⊢
    obtain ⟨h1, h2, h3, h4⟩ := h
    by_cases e : m = p
    · subst e
      cases hx : around n ks with
      | none =>
        rw [around_none, ← h2] at hx
        exact absurd hn hx
      | some x =>
        obtain ⟨t, e1, e2⟩ := around_some hx
        subst e1
        rw [shownAll_append] at h4
        simp only [ShownAll] at h4
        obtain ⟨f1, f2⟩ := hf x.1 t x.2 h2 e2 h4.1 h4.2.2
        refine ⟨h1.same hp, f1, fun hl => ?_, f2⟩
        have := h3 hl
        simp at this
    · rcases ho with ho | ho
      · have ho : O m := ho
        obtain ⟨o1, o2, o3, o4⟩ := hO m ho
        have hx : around n ks = none := by
          rw [around_none, ← h2]
          intro hm
          exact (o4 n hm).2 rfl
        rw [hx]
        refine ⟨h1.same o2, ?_, fun hl => by rw [h3 hl]; rfl, shownAll_instead hO hp hn hf ks h4 (fun t ht => (o4 _ ?_).1)⟩
        · dsimp only
          rw [o3, h2, insteadAll_map, List.map_map]
          exact List.map_congr_left (fun t _ => by simp)
        · rw [h2]; exact List.mem_map_of_mem ht
      · exact absurd ho e
theorem shownAll_instead {d d' : Dom} {p n : Nat} {f : List PTree → List PTree → List PTree} {O : Nat → Prop}
    (hO : ∀ q, O q → q ≠ p ∧ SameNode d d' q ∧ kids d' q = kids d q ∧ ∀ c ∈ kids d q, (O c ∨ c = p) ∧ c ≠ n)
    (hp : SameNode d d' p) (hn : n ∈ kids d p)
    (hf : ∀ a t b, kids d p = (a ++ t :: b).map PTree.id → t.id = n → ShownAll d a → ShownAll d b →
      kids d' p = (f a b).map PTree.id ∧ ShownAll d' (f a b)) :
    ∀ ts : List PTree, ShownAll d ts → (∀ t ∈ ts, O t.id ∨ t.id = p) → ShownAll d' (insteadAll n f ts)
  | [], _, _ => trivial
  | t :: ts, h, ho => by
    simp only [ShownAll, insteadAll] at h ⊢
    exact ⟨shown_instead hO hp hn hf t h.1 (ho t (by simp)), shownAll_instead hO hp hn hf ts h.2 (fun t ht => ho t (by simp [ht]))⟩
end

mutual
theorem shown_relabel {d d' : Dom} {n : Nat} {f : Label → Label} {O : Nat → Prop}
    (hO : ∀ q, O q → (q ≠ n → SameNode d d' q) ∧ kids d' q = kids d q ∧ ∀ c ∈ kids d q, O c)
    (hn : ∀ l, NodeIs d n l → NodeIs d' n (f l)) (hl : ∀ l, (f l).isText = l.isText) :
    ∀ t : PTree, t.Shown d → O t.id → (t.relabel n f).Shown d'
  | .node m l ks, h, ho => by
    simp only [PTree.Shown, PTree.relabel] at h ⊢
    obtain ⟨h1, h2, h3, h4⟩ := h
    have ho : O m := ho
    obtain ⟨o1, o2, o3⟩ := hO m ho
    refine ⟨?_, ?_, ?_, shownAll_relabel hO hn hl ks h4 (fun t ht => o3 _ ?_)⟩
    · split
      · rename_i e; subst e; exact hn l h1
      · rename_i e; exact h1.same (o1 e)
    · rw [o2, h2, relabelAll_map, List.map_map]
      exact List.map_congr_left (fun t _ => by simp)
    · intro hx
      rw [h3 ?_]; rfl
      split at hx
      · rw [hl] at hx; exact hx
      · exact hx
    · rw [h2]; exact List.mem_map_of_mem ht
theorem shownAll_relabel {d d' : Dom} {n : Nat} {f : Label → Label} {O : Nat → Prop}
    (hO : ∀ q, O q → (q ≠ n → SameNode d d' q) ∧ kids d' q = kids d q ∧ ∀ c ∈ kids d q, O c)
    (hn : ∀ l, NodeIs d n l → NodeIs d' n (f l)) (hl : ∀ l, (f l).isText = l.isText) :
    ∀ ts : List PTree, ShownAll d ts → (∀ t ∈ ts, O t.id) → ShownAll d' (relabelAll n f ts)
  | [], _, _ => trivial
  | t :: ts, h, ho => by
    simp only [ShownAll, relabelAll] at h ⊢
    exact ⟨shown_relabel hO hn hl t h.1 (ho t (by simp)), shownAll_relabel hO hn hl ts h.2 (fun t ht => ho t (by simp [ht]))⟩
end

/-! ## Edits below one node -/

/-- The edit concerns the children of `p` only; `R` are the nodes it removes. -/
structure LocalEdit (d d' : Dom) (p : Nat) (R : Nat → Prop) : Prop where
  inv : DomI d (kids d)
  at0 : 1 ≤ p ∧ p < d.nodes.length ∧ ¬R p ∧ ¬R rootID
  closed : ∀ q c, c ∈ kids d q → R c → q = p ∨ R q
  same : ∀ m, 1 ≤ m → m < d.nodes.length → m ∉ kids d p → ¬R m → SameNode d d' m
  kept : ∀ q, 1 ≤ q → q < d.nodes.length → q ≠ p → ¬R q → kids d' q = kids d q

section
variable {d d' : Dom} {p : Nat} {R : Nat → Prop}

/-- The nodes outside the subtree of `p`. -/
def LocalEdit.Out (d : Dom) (p : Nat) (R : Nat → Prop) (q : Nat) : Prop :=
  1 ≤ q ∧ q < d.nodes.length ∧ q ≠ p ∧ q ∉ kids d p ∧ ¬R q

theorem LocalEdit.out (h : LocalEdit d d' p R) {q : Nat} (hq : LocalEdit.Out d p R q) :
    q ≠ p ∧ SameNode d d' q ∧ kids d' q = kids d q ∧ ∀ c ∈ kids d q, LocalEdit.Out d p R c ∨ c = p := by
  obtain ⟨h1, h2, h3, h4, h5⟩ := hq
  refine ⟨h3, h.same q h1 h2 h4 h5, h.kept q h1 h2 h3 h5, fun c hc => ?_⟩
  by_cases e : c = p
  · exact Or.inr e
  · have := h.inv.linked.range q c hc
    refine Or.inl ⟨by omega, this.2.2, e, fun hc' => h3 (h.inv.linked.uniq _ _ _ hc hc'), fun hr => ?_⟩
    rcases h.closed q c hc hr with e | e
    · exact h3 e
    · exact h5 e

theorem LocalEdit.self (h : LocalEdit d d' p R) : SameNode d d' p := by
  obtain ⟨h1, h2, h3, _⟩ := h.at0
  refine h.same p h1 h2 (fun hc => ?_) h3
  have := h.inv.linked.range p p hc; omega

theorem LocalEdit.start (h : LocalEdit d d' p R) : LocalEdit.Out d p R rootID ∨ rootID = p := by
  obtain ⟨h1, h2, h3, h4⟩ := h.at0
  by_cases e : rootID = p
  · exact Or.inr e
  · have : rootID = 1 := rfl
    refine Or.inl ⟨by omega, by omega, e, fun hc => ?_, h4⟩
    have := h.inv.linked.range p _ hc; omega

/-- The children of `p` that stay keep what is below them. -/
theorem LocalEdit.below (h : LocalEdit d d' p R) {n : Nat} {l : Label} {ks : List PTree} (hs : (PTree.node n l ks).Shown d)
    (hn : n ∈ kids d p) (hr : ¬R n) : kids d' n = ks.map PTree.id ∧ ShownAll d' ks := by
  simp only [PTree.Shown] at hs
  obtain ⟨h1, h2, h3, h4⟩ := hs
  have hrn := h.inv.linked.range p n hn
  have hnp : n ≠ p := by omega
  have step : ∀ q, 1 ≤ q → q < d.nodes.length → p < q → ¬R q → ∀ c ∈ kids d q,
      1 ≤ c ∧ c < d.nodes.length ∧ p < c ∧ c ∉ kids d p ∧ ¬R c := by
    intro q q1 q2 q3 q4 c hc
    have := h.inv.linked.range q c hc
    refine ⟨by omega, this.2.2, by omega, fun hc' => ?_, fun hr => ?_⟩
    · have := h.inv.linked.uniq _ _ _ hc hc'; omega
    · rcases h.closed q c hc hr with e | e
      · omega
      · exact q4 e
  refine ⟨by rw [h.kept n (by omega) hrn.2.2 hnp hr, h2], ?_⟩
  refine shownAll_keep (G := fun q => 1 ≤ q ∧ q < d.nodes.length ∧ p < q ∧ q ∉ kids d p ∧ ¬R q) ?_ ks h4 ?_
  · rintro q ⟨g1, g2, g3, g4, g5⟩
    exact ⟨h.same q g1 g2 g4 g5, h.kept q g1 g2 (by omega) g5, step q g1 g2 g3 g5⟩
  · intro t ht
    exact step n (by omega) hrn.2.2 hrn.1 hr _ (by rw [h2]; exact List.mem_map_of_mem ht)

theorem LocalEdit.within (h : LocalEdit d d' p R) {f : List PTree → List PTree} (hnt : ∀ l, NodeIs d p l → l.isText = false)
    (hf : ∀ ks, kids d p = ks.map PTree.id → ShownAll d ks → kids d' p = (f ks).map PTree.id ∧ ShownAll d' (f ks))
    {t : PTree} (ht : t.Shown d) (hid : t.id = rootID) : (t.within p f).Shown d' :=
  shown_within (O := LocalEdit.Out d p R) (fun _ hq => h.out hq) h.self hnt hf t ht (by rw [hid]; exact h.start)

theorem LocalEdit.instead (h : LocalEdit d d' p R) {n : Nat} {f : List PTree → List PTree → List PTree} (hn : n ∈ kids d p)
    (hf : ∀ a t b, kids d p = (a ++ t :: b).map PTree.id → t.id = n → ShownAll d a → ShownAll d b →
      kids d' p = (f a b).map PTree.id ∧ ShownAll d' (f a b))
    {t : PTree} (ht : t.Shown d) (hid : t.id = rootID) : (t.instead n f).Shown d' := by
  refine shown_instead (O := LocalEdit.Out d p R) (fun q hq => ?_) h.self hn hf t ht (by rw [hid]; exact h.start)
  obtain ⟨h1, h2, h3, h4⟩ := h.out hq
  exact ⟨h1, h2, h3, fun c hc => ⟨h4 c hc, fun e => h1 (h.inv.linked.uniq _ _ _ hc (e ▸ hn))⟩⟩

end

/-! ## Numbered trees -/

theorem sizeAll_append : ∀ a b : List Tree, sizeAll (a ++ b) = sizeAll a + sizeAll b
  | [], b => by simp [sizeAll]
  | t :: a, b => by rw [List.cons_append, sizeAll, sizeAll, sizeAll_append, Nat.add_assoc]

theorem numberAll_append : ∀ (k : Nat) (a b : List Tree), numberAll k (a ++ b) = numberAll k a ++ numberAll (k + sizeAll a) b
  | k, [], b => by simp [numberAll, sizeAll]
  | k, t :: a, b => by
    rw [List.cons_append, numberAll, numberAll, numberAll_append, sizeAll, List.cons_append, Nat.add_assoc]

theorem Spec.Tree.number_id (k : Nat) (t : Tree) : (t.number k).id = k := by
  cases t <;> rfl

theorem numberAll_length : ∀ (k : Nat) (F : List Tree), (numberAll k F).length = F.length
  | k, [] => rfl
  | k, t :: F => by rw [numberAll, List.length_cons, numberAll_length, List.length_cons]

end Flo
