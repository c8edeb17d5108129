import Verif.Proofs.ParseLink
import Verif.Spec.Walk
/-!
# The traversal functions walk the tree in preorder
-/
namespace Flo
open Spec

theorem preorder_eq {d : Dom} {ch : Nat → List Nat} (h : LinkedD d ch) {p : Nat} (hp : p ≠ 0)
    (hlt : p < d.nodes.length) : preorder d p = pre d.nodes.length ch p := by
  have key : ∀ f p, p ≠ 0 → preorderF d f p = preC ch f p := by
    intro f
    induction f with
    | zero => intros; rfl
    | succ f ih =>
      intro p hp
      rw [preorderF, preC, h.kids_eq hp]
      congr 1
      rw [List.flatMap_def, List.flatMap_def]
      congr 1
      apply List.map_congr_left
      intro c hc
      exact ih c (h.pos hc)
  unfold preorder
  rw [key _ _ hp]
  exact preC_stable h.up _ p _ hlt (by omega) (by omega)

section
variable {T : Nat → Out Nat} {E : Nat → Nat} {N : Nat} {ch : Nat → List Nat}

/-- The generic walk lemma: `T` goes to the first child, or else to `E`. -/
theorem walkFrom_pre (hu : Up N ch) : ∀ p, p < N → p ≠ 0 →
    (∀ x ∈ pre N ch p, T x = .ok ((ch x).headD (E x))) →
    (∀ x ∈ pre N ch p, ∀ a b, Adj (ch x) a b → E a = b) →
    (∀ x ∈ pre N ch p, ∀ a, (ch x).getLast? = some a → E a = E x) →
    ∀ f, walkFrom T (f + (pre N ch p).length) p =
      (walkFrom T f (E p) >>= fun l => .ok (pre N ch p ++ l)) := by
  refine down_induction ?_
  intro p hp ih hp0 hT hA hL f
  have hsub : ∀ c ∈ ch p, ∀ x ∈ pre N ch c, x ∈ pre N ch p := by
    intro c hc x hx
    rw [pre_eq hu hp, List.mem_cons, List.mem_flatMap]
    exact Or.inr ⟨c, hc, hx⟩
  have hpre := pre_eq hu hp
  have hself : p ∈ pre N ch p := mem_pre_self hp
  rw [hpre, List.length_cons, ← Nat.add_assoc, walkFrom, if_neg hp0, hT p hself]
  -- the children
  have hkids : ∀ (l₂ l₁ : List Nat) (c : Nat), ch p = l₁ ++ c :: l₂ →
      walkFrom T (f + ((c :: l₂).flatMap (pre N ch)).length) c =
        (walkFrom T f (E p) >>= fun l => .ok ((c :: l₂).flatMap (pre N ch) ++ l)) := by
    intro l₂
    induction l₂ with
    | nil =>
      intro l₁ c he
      have hc : c ∈ ch p := by rw [he]; simp
      have hcN := hu p c hc
      have := ih c hcN.1 hcN.2 (by omega) (fun x hx => hT x (hsub c hc x hx))
        (fun x hx => hA x (hsub c hc x hx)) (fun x hx => hL x (hsub c hc x hx)) f
      have hE : E c = E p := hL p hself c (by rw [he]; simp)
      simp only [List.flatMap_cons, List.flatMap_nil, List.append_nil]
      rw [this, hE]
    | cons c' l₂ ih2 =>
      intro l₁ c he
      have hc : c ∈ ch p := by rw [he]; simp
      have hcN := hu p c hc
      have := ih c hcN.1 hcN.2 (by omega) (fun x hx => hT x (hsub c hc x hx))
        (fun x hx => hA x (hsub c hc x hx)) (fun x hx => hL x (hsub c hc x hx))
        (f + ((c' :: l₂).flatMap (pre N ch)).length)
      have hE : E c = c' := hA p hself c c' (by rw [he, adj_iff_split]; exact ⟨l₁, l₂, rfl⟩)
      rw [List.flatMap_cons, List.length_append,
        show f + ((pre N ch c).length + ((c' :: l₂).flatMap (pre N ch)).length) =
          f + ((c' :: l₂).flatMap (pre N ch)).length + (pre N ch c).length by omega, this, hE,
        ih2 (l₁ ++ [c]) c' (by rw [he]; simp)]
      cases walkFrom T f (E p) <;> simp
  cases hc : ch p with
  | nil =>
    simp only [List.headD_nil, List.flatMap_nil, List.length_nil, Nat.add_zero, Out.bind_ok]
    cases walkFrom T f (E p) <;> simp
  | cons c l₂ =>
    simp only [List.headD_cons, Out.bind_ok]
    rw [hkids l₂ [] c hc]
    cases walkFrom T f (E p) <;> simp

end

section
variable {d : Dom} {ch : Nat → List Nat}

/-- Reachable from `s` by child steps. -/
inductive LiveC (ch : Nat → List Nat) (s : Nat) : Nat → Prop
  | root : LiveC ch s s
  | child {p c : Nat} : LiveC ch s p → c ∈ ch p → LiveC ch s c

theorem LiveC.ge {N : Nat} (hu : Up N ch) {s p : Nat} (h : LiveC ch s p) : s ≤ p := by
  induction h with
  | root => omega
  | child _ hc ih => have := hu _ _ hc; omega

theorem LiveC.lt {N : Nat} (hu : Up N ch) {s p : Nat} (hs : s < N) (h : LiveC ch s p) : p < N := by
  cases h with
  | root => exact hs
  | child _ hc => exact (hu _ _ hc).2

theorem LiveC.mem_pre {N : Nat} (hu : Up N ch) {s : Nat} (hs : s < N) {p : Nat} :
    LiveC ch s p ↔ p ∈ pre N ch s := by
  constructor
  · intro h
    induction h with
    | root => exact mem_pre_self hs
    | child hp hc ih =>
      rename_i q c
      have hcl : ∀ x, x < N → q ∈ pre N ch x → c ∈ pre N ch x := by
        refine down_induction ?_
        intro x hx ih hpq
        rw [pre_eq hu hx, List.mem_cons, List.mem_flatMap] at hpq ⊢
        rcases hpq with rfl | ⟨c', hc', hpq⟩
        · exact Or.inr ⟨c, hc, mem_pre_self (hu _ _ hc).2⟩
        · exact Or.inr ⟨c', hc', ih c' (hu _ _ hc').1 (hu _ _ hc').2 hpq⟩
      exact hcl s hs ih
  · have : ∀ x, x < N → ∀ p, p ∈ pre N ch x → LiveC ch s x → LiveC ch s p := by
      refine down_induction ?_
      intro x hx ih p hp hl
      rw [pre_eq hu hx, List.mem_cons, List.mem_flatMap] at hp
      rcases hp with rfl | ⟨c, hc, hp⟩
      · exact hl
      · exact ih c (hu _ _ hc).1 (hu _ _ hc).2 p hp (.child hl hc)
    exact fun hp => this s hs p hp .root

theorem LiveC.trans {a b c : Nat} (h : LiveC ch a b) (h' : LiveC ch b c) : LiveC ch a c := by
  induction h' with
  | root => exact h
  | child _ hc ih => exact .child ih hc

theorem LiveC.linear (hun : ∀ p q c, c ∈ ch p → c ∈ ch q → p = q) {a b x : Nat} (h : LiveC ch a x)
    (h' : LiveC ch b x) : LiveC ch a b ∨ LiveC ch b a := by
  induction h generalizing b with
  | root => exact Or.inr h'
  | child hp hc ih =>
    cases h' with
    | root => exact Or.inl (.child hp hc)
    | child hp' hc' =>
      have := hun _ _ _ hc hc'
      subst this
      exact ih hp'

theorem LiveC.parent {a p c : Nat} (hun : ∀ p q c, c ∈ ch p → c ∈ ch q → p = q) (h : LiveC ch a c)
    (hc : c ∈ ch p) (hne : c ≠ a) : LiveC ch a p := by
  cases h with
  | root => exact absurd rfl hne
  | child hp' hc' =>
    have := hun _ _ _ hc hc'
    subst this; exact hp'

theorem pre_nodup' {N : Nat} (hu : Up N ch) (hun : ∀ p q c, c ∈ ch p → c ∈ ch q → p = q)
    (hnd : ∀ p, (ch p).Nodup) : ∀ p, p < N → (pre N ch p).Nodup := by
  refine down_induction ?_
  intro p hp ih
  rw [pre_eq hu hp, List.nodup_cons, List.nodup_flatMap]
  refine ⟨?_, ?_, ?_⟩
  · rw [List.mem_flatMap]
    rintro ⟨c, hc, hm⟩
    have := hu p c hc
    have := pre_ge hu c this.2 p hm
    omega
  · intro c hc
    exact ih c (hu p c hc).1 (hu p c hc).2
  · refine (hnd p).imp_of_mem ?_
    intro a b ha hb hab x hxa hxb
    have ha' := hu p a ha
    have hb' := hu p b hb
    rw [← LiveC.mem_pre hu ha'.2] at hxa
    rw [← LiveC.mem_pre hu hb'.2] at hxb
    rcases LiveC.linear hun hxa hxb with h | h
    · have := (h.parent hun hb (fun e => hab e.symm)).ge hu; omega
    · have := (h.parent hun ha hab).ge hu; omega

theorem pre_length (h : LinkedD d ch) {p : Nat} (hp : p < d.nodes.length) (hp0 : p ≠ 0) :
    (pre d.nodes.length ch p).length + 1 ≤ d.nodes.length := by
  have hnd := pre_nodup' h.up h.uniq h.nodup p hp
  have hsub : pre d.nodes.length ch p ⊆ List.range' 1 (d.nodes.length - 1) := by
    intro c hc
    have := pre_ge h.up p hp c hc
    rw [List.mem_range'_1]; omega
  have := (hnd.subperm hsub).length_le
  simp at this
  omega

theorem live_iff (h : LinkedD d ch) {n : Nat} : Live d n ↔ LiveC ch 1 n := by
  constructor
  · intro hl
    induction hl with
    | root => exact .root
    | child _ hc ih => exact .child ih (h.mem_kids hc).2
  · intro hl
    induction hl with
    | root => exact .root
    | child hp hc ih =>
      have := hp.ge h.up
      exact .child ih (by rw [h.kids_eq (by omega)]; exact hc)

/-- Where the climb from `p` ends. -/
def exitDom (d : Dom) (p : Nat) : Nat :=
  match climbDom d (p + 1) p with
  | .ok e => e
  | _ => 0

theorem climbDom_live (h : LinkedD d ch) {p : Nat} (hl : LiveC ch 1 p) :
    ∀ f, p < f → climbDom d f p = .ok (exitDom d p) := by
  have key : ∃ e, ∀ f, p < f → climbDom d f p = .ok e := by
    induction hl with
    | root =>
      refine ⟨0, fun f hf => ?_⟩
      obtain ⟨f, rfl⟩ : ∃ f', f = f' + 2 := ⟨f - 2, by omega⟩
      simp [climbDom, h.getNext_root, h.getParent_root]
    | child hq hc ih =>
      rename_i q p
      obtain ⟨e, ih⟩ := ih
      have hr := h.range q p hc
      by_cases hnx : getNext p d ≠ 0
      · refine ⟨getNext p d, fun f hf => ?_⟩
        obtain ⟨f, rfl⟩ : ∃ f', f = f' + 1 := ⟨f - 1, by omega⟩
        simp [climbDom, hnx]; omega
      · refine ⟨e, fun f hf => ?_⟩
        obtain ⟨f, rfl⟩ : ∃ f', f = f' + 1 := ⟨f - 1, by omega⟩
        unfold climbDom
        rw [if_pos (by omega)]
        dsimp only
        rw [if_neg hnx, h.getParent_eq hc]
        exact ih f (by omega)
  obtain ⟨e, he⟩ := key
  intro f hf
  rw [he f hf]
  unfold exitDom
  rw [he (p + 1) (by omega)]

theorem exitDom_next (h : LinkedD d ch) {q a b : Nat} (hq : LiveC ch 1 q) (hab : Adj (ch q) a b) :
    exitDom d a = b := by
  have hb := h.pos (adj_mem_right hab)
  have ha := h.pos (adj_mem_left hab)
  have hn := h.getNext_eq hab
  simp [exitDom, climbDom, ha, hn, hb]

theorem exitDom_last (h : LinkedD d ch) {q a : Nat} (hq : LiveC ch 1 q) (ha : (ch q).getLast? = some a) :
    exitDom d a = exitDom d q := by
  have hm := mem_of_mem_getLast? ha
  have hr := h.range q a hm
  have hn := h.getNext_last ha
  have h1 : climbDom d (a + 1) a = .ok (exitDom d q) := by
    unfold climbDom
    rw [if_pos (by omega)]
    dsimp only
    rw [if_neg (by simp [hn]), h.getParent_eq hm]
    exact climbDom_live h hq a hr.1
  simp [exitDom, h1]
where mem_of_mem_getLast? {l : List Nat} {a : Nat} (h : l.getLast? = some a) : a ∈ l :=
  List.mem_of_mem_getLast? h

theorem exitDom_root (h : LinkedD d ch) : exitDom d 1 = 0 := by
  simp [exitDom, climbDom, h.getNext_root, h.getParent_root]

theorem traverseDom_eq (h : LinkedD d ch) {p : Nat} (hl : LiveC ch 1 p) :
    traverseDom p d = .ok ((ch p).headD (exitDom d p)) := by
  have h2 := h.two
  have hge := hl.ge h.up
  have hlt := hl.lt h.up (by omega)
  unfold traverseDom
  rw [h.getFirstChild_eq (by omega)]
  cases hc : ch p with
  | cons c l =>
    have : c ≠ 0 := h.pos (p := p) (by rw [hc]; simp)
    simp [this]
  | nil =>
    simp only [List.headD_nil, ne_eq, not_true_eq_false, if_false]
    have hcl := climbDom_live h hl (d.nodes.length + 2) (by omega)
    unfold climbDom at hcl
    rw [if_pos (by omega)] at hcl
    exact hcl

/-- Iterating `traverseDom` from the root is the preorder walk of the document. -/
theorem walkDom (h : LinkedD d ch) {f : Nat} (hf : d.nodes.length ≤ f) :
    walkFrom (fun c => traverseDom c d) f rootID = .ok (preorder d rootID) := by
  have h2 := h.two
  have hlen := pre_length h (p := 1) (by omega) (by omega)
  have := walkFrom_pre (T := fun c => traverseDom c d) (E := exitDom d) h.up 1 (by omega) (by omega)
    (fun x hx => traverseDom_eq h ((LiveC.mem_pre h.up (by omega)).mpr hx))
    (fun x hx a b hab => exitDom_next h ((LiveC.mem_pre h.up (by omega)).mpr hx) hab)
    (fun x hx a ha => exitDom_last h ((LiveC.mem_pre h.up (by omega)).mpr hx) ha)
    (f - (pre d.nodes.length ch 1).length)
  rw [Nat.sub_add_cancel (by omega), exitDom_root h] at this
  rw [this, preorder_eq h (p := 1) (by decide) (by omega)]
  obtain ⟨g, hg⟩ : ∃ g, f - (pre d.nodes.length ch 1).length = g + 1 :=
    ⟨f - (pre d.nodes.length ch 1).length - 1, by omega⟩
  rw [hg]
  simp [walkFrom]

/-! ## traverseNode -/

def exitNode (d : Dom) (start p : Nat) : Nat :=
  if p = start then 0
  else
    match climbNode d start (p + 1) p with
    | .ok e => e
    | _ => 0

theorem climbNode_live (h : LinkedD d ch) {s p : Nat} (hs : s ≠ 0) (hl : LiveC ch s p) :
    ∀ f, p < f → climbNode d s f p = .ok (exitNode d s p) := by
  have key : ∃ e, (∀ f, p < f → climbNode d s f p = .ok e) ∧ (p = s → e = 0) := by
    induction hl with
    | root =>
      refine ⟨0, fun f hf => ?_, fun _ => rfl⟩
      obtain ⟨f, rfl⟩ : ∃ f', f = f' + 1 := ⟨f - 1, by omega⟩
      simp [climbNode]
    | child hq hc ih =>
      rename_i q p
      obtain ⟨e, ih, _⟩ := ih
      have hr := h.range q p hc
      have hge := hq.ge h.up
      by_cases hnx : getNext p d ≠ 0
      · refine ⟨getNext p d, fun f hf => ?_, by omega⟩
        obtain ⟨f, rfl⟩ : ∃ f', f = f' + 1 := ⟨f - 1, by omega⟩
        unfold climbNode
        rw [if_pos (by omega)]; dsimp only; rw [if_pos hnx]
      · refine ⟨e, fun f hf => ?_, by omega⟩
        obtain ⟨f, rfl⟩ : ∃ f', f = f' + 1 := ⟨f - 1, by omega⟩
        unfold climbNode
        rw [if_pos (by omega)]
        dsimp only
        rw [if_neg hnx, h.getParent_eq hc]
        exact ih f (by omega)
  obtain ⟨e, he, hes⟩ := key
  intro f hf
  rw [he f hf]
  unfold exitNode
  split
  · rename_i heq; rw [hes heq]
  · rw [he (p + 1) (by omega)]

theorem exitNode_next (h : LinkedD d ch) {s q a b : Nat} (hs : s ≠ 0) (hq : LiveC ch s q) (hab : Adj (ch q) a b) :
    exitNode d s a = b := by
  have hb := h.pos (adj_mem_right hab)
  have ha := h.range q a (adj_mem_left hab)
  have hge := hq.ge h.up
  have hn := h.getNext_eq hab
  have h1 : climbNode d s (a + 1) a = .ok b := by
    unfold climbNode
    rw [if_pos (by omega)]; dsimp only; rw [hn, if_pos hb]
  simp [exitNode, h1]; omega

theorem exitNode_last (h : LinkedD d ch) {s q a : Nat} (hs : s ≠ 0) (hq : LiveC ch s q)
    (ha : (ch q).getLast? = some a) : exitNode d s a = exitNode d s q := by
  have hm : a ∈ ch q := List.mem_of_mem_getLast? ha
  have hr := h.range q a hm
  have hge := hq.ge h.up
  have hn := h.getNext_last ha
  have h1 : climbNode d s (a + 1) a = .ok (exitNode d s q) := by
    unfold climbNode
    rw [if_pos (by omega)]
    dsimp only
    rw [if_neg (by simp [hn]), h.getParent_eq hm]
    exact climbNode_live h hs hq a hr.1
  rw [exitNode, if_neg (by omega), h1]

theorem traverseNode_eq (h : LinkedD d ch) {s p : Nat} (hs : s ≠ 0) (hl : LiveC ch s p) (hlt : p < d.nodes.length)
    (hne : p = s → ch s ≠ [] ∨ getNext s d = 0) :
    traverseNode p s d = .ok ((ch p).headD (exitNode d s p)) := by
  have hge := hl.ge h.up
  unfold traverseNode
  rw [h.getFirstChild_eq (by omega)]
  cases hc : ch p with
  | cons c l =>
    have : c ≠ 0 := h.pos (p := p) (by rw [hc]; simp)
    simp [this]
  | nil =>
    simp only [List.headD_nil, ne_eq, not_true_eq_false, if_false]
    by_cases hps : p = s
    · subst hps
      have hn : getNext p d = 0 := by
        rcases hne rfl with e | e
        · exact absurd hc e
        · exact e
      simp [hn, exitNode]
    · have hcl := climbNode_live h hs hl (d.nodes.length + 2) (by omega)
      unfold climbNode at hcl
      rw [if_pos (by omega)] at hcl
      dsimp only at hcl
      cases hl with
      | root => exact absurd rfl hps
      | child hq hcq =>
        rename_i q
        have hqge := hq.ge h.up
        have hnext : getNext p d = 0 ∨ s < getNext p d := by
          rcases last_or_adj hcq with hl | ⟨b, hb⟩
          · exact Or.inl (h.getNext_last hl)
          · right; rw [h.getNext_eq hb]
            have := h.range q b (adj_mem_right hb); omega
        by_cases hnx : getNext p d ≠ 0
        · rw [if_pos hnx] at hcl
          rw [if_pos (by omega)]; exact hcl
        · rw [if_neg hnx] at hcl
          rw [if_neg (by omega), if_pos hps]; exact hcl

/-- Iterating `traverseNode` from a node that has a child, or has no next sibling. -/
theorem walkNode (h : LinkedD d ch) {s : Nat} (hs : s ≠ 0) (hlt : s < d.nodes.length)
    (hne : ch s ≠ [] ∨ getNext s d = 0) {f : Nat} (hf : d.nodes.length ≤ f) :
    walkFrom (fun c => traverseNode c s d) f s = .ok (preorder d s) := by
  have h2 := h.two
  have hlen := pre_length h hlt hs
  have := walkFrom_pre (T := fun c => traverseNode c s d) (E := exitNode d s) h.up s hlt hs
    (fun x hx => traverseNode_eq h hs ((LiveC.mem_pre h.up hlt).mpr hx) (pre_ge h.up s hlt x hx).2
      (fun _ => hne))
    (fun x hx a b hab => exitNode_next h hs ((LiveC.mem_pre h.up hlt).mpr hx) hab)
    (fun x hx a ha => exitNode_last h hs ((LiveC.mem_pre h.up hlt).mpr hx) ha)
    (f - (pre d.nodes.length ch s).length)
  have he : exitNode d s s = 0 := by simp [exitNode]
  rw [Nat.sub_add_cancel (by omega), he] at this
  rw [this, preorder_eq h hs hlt]
  obtain ⟨g, hg⟩ : ∃ g, f - (pre d.nodes.length ch s).length = g + 1 :=
    ⟨f - (pre d.nodes.length ch s).length - 1, by omega⟩
  rw [hg]
  simp [walkFrom]

/-! ## traverseNode from a childless node that has a next sibling -/

theorem climb_eq (h : LinkedD d ch) {n : Nat} (hn : ch n = []) : ∀ (f q : Nat), LiveC ch 1 q → q ≠ n →
    climbNode d n f q = climbDom d f q := by
  intro f
  induction f with
  | zero => intro q _ _; rfl
  | succ f ih =>
    intro q hq hqn
    have hge := hq.ge h.up
    have e1 : climbNode d n (f + 1) q =
        if getNext q d ≠ 0 then .ok (getNext q d) else climbNode d n f (getParent q d) := by
      conv_lhs => unfold climbNode
      rw [if_pos ⟨by omega, hqn⟩]
    have e2 : climbDom d (f + 1) q =
        if getNext q d ≠ 0 then .ok (getNext q d) else climbDom d f (getParent q d) := by
      conv_lhs => unfold climbDom
      rw [if_pos (by omega)]
    rw [e1, e2]
    split
    · rfl
    · cases hq with
      | root =>
        rw [h.getParent_root]
        cases f with
        | zero => rfl
        | succ f => simp [climbNode, climbDom]
      | child hq' hc =>
        rw [h.getParent_eq hc]
        refine ih _ hq' ?_
        rintro rfl
        rw [hn] at hc; cases hc

theorem traverse_eq (h : LinkedD d ch) {n c : Nat} (hn : ch n = []) (hnx : getNext n d ≠ 0) (hc : LiveC ch 1 c)
    (hnext : getNext c d = n → getFirstChild c d ≠ 0) : traverseNode c n d = traverseDom c d := by
  unfold traverseNode traverseDom
  dsimp only
  split
  · rfl
  · rename_i hf
    by_cases h0 : getNext c d = 0
    · have hcn : c ≠ n := by rintro rfl; exact hnx h0
      rw [h0]
      simp only [gt_iff_lt, Nat.lt_irrefl, false_and, if_false, if_pos hcn, ne_eq, not_true_eq_false]
      cases hc with
      | root => rw [h.getParent_root]; simp [climbNode, climbDom]
      | child hq hm =>
        rw [h.getParent_eq hm]
        refine climb_eq h hn _ _ hq ?_
        rintro rfl
        rw [hn] at hm; cases hm
    · rw [if_pos ⟨by omega, fun e => hf (hnext e)⟩, if_pos h0]

/-- From a node met on the way, the walk is the rest of the walk. -/
theorem walkFrom_suffix {step : Nat → Out Nat} : ∀ {f c : Nat} {l : List Nat}, walkFrom step f c = .ok l → ∀ {n : Nat}, n ∈ l →
    ∃ f', f' ≤ f ∧ walkFrom step f' n = .ok (l.dropWhile (· ≠ n)) := by
  intro f
  induction f with
  | zero => intro c l h; simp [walkFrom] at h
  | succ f ih =>
    intro c l h n hn
    have h' := h
    unfold walkFrom at h
    split at h
    · cases h; cases hn
    · rename_i hc
      simp only [Out.bind_eq_ok] at h
      obtain ⟨c', h1, l', h2, h3⟩ := h
      cases h3
      by_cases e : c = n
      · subst e
        exact ⟨f + 1, Nat.le_refl _, by rw [h']; simp⟩
      · obtain ⟨f', hf', hw⟩ := ih h2 (n := n) ((List.mem_cons.mp hn).resolve_left (fun h => e h.symm))
        exact ⟨f', by omega, by rw [hw, List.dropWhile_cons_of_pos (by simpa using e)]⟩

theorem walkFrom_mono {step : Nat → Out Nat} : ∀ {f c : Nat} {l : List Nat}, walkFrom step f c = .ok l → ∀ {f' : Nat}, f ≤ f' →
    walkFrom step f' c = .ok l := by
  intro f
  induction f with
  | zero => intro c l h; simp [walkFrom] at h
  | succ f ih =>
    intro c l h f' hf
    obtain ⟨f', rfl⟩ : ∃ g, f' = g + 1 := ⟨f' - 1, by omega⟩
    unfold walkFrom at h ⊢
    split at h
    · rename_i hc; rw [if_pos hc]; exact h
    · rename_i hc
      rw [if_neg hc]
      simp only [Out.bind_eq_ok] at h
      obtain ⟨c', h1, l', h2, h3⟩ := h
      simp only [h1, Out.bind_ok, ih h2 (show f ≤ f' by omega)]
      exact h3

/-- The walk contains, behind each node, the node stepped to. -/
theorem walkFrom_next {step : Nat → Out Nat} : ∀ {f c : Nat} {l : List Nat}, walkFrom step f c = .ok l → ∀ {x y : Nat}, x ∈ l →
    step x = .ok y → y ≠ 0 → ∃ a b, l = a ++ x :: y :: b := by
  intro f
  induction f with
  | zero => intro c l h; simp [walkFrom] at h
  | succ f ih =>
    intro c l h x y hx hs hy
    unfold walkFrom at h
    split at h
    · cases h; cases hx
    · simp only [Out.bind_eq_ok] at h
      obtain ⟨c', h1, l', h2, h3⟩ := h
      cases h3
      by_cases e : x = c
      · subst e
        rw [h1] at hs
        cases hs
        cases f with
        | zero => simp [walkFrom] at h2
        | succ f =>
          unfold walkFrom at h2
          rw [if_neg hy] at h2
          simp only [Out.bind_eq_ok] at h2
          obtain ⟨_, _, l2, _, h3⟩ := h2
          cases h3
          exact ⟨[], l2, rfl⟩
      · obtain ⟨a, b, e'⟩ := ih h2 (by simpa [e] using hx) hs hy
        exact ⟨c :: a, b, by rw [e']; rfl⟩

/-- Two step functions that agree on the nodes met give the same walk. -/
theorem walkFrom_congr {s t : Nat → Out Nat} : ∀ {f c : Nat} {l : List Nat}, walkFrom s f c = .ok l → (∀ x ∈ l, t x = s x) →
    walkFrom t f c = .ok l := by
  intro f
  induction f with
  | zero => intro c l h; simp [walkFrom] at h
  | succ f ih =>
    intro c l h ht
    unfold walkFrom at h ⊢
    split at h
    · rename_i hc; rw [if_pos hc]; exact h
    · rename_i hc
      rw [if_neg hc]
      simp only [Out.bind_eq_ok] at h
      obtain ⟨c', h1, l', h2, h3⟩ := h
      cases h3
      rw [ht c (by simp)]
      simp only [h1, Out.bind_ok, ih h2 (fun x hx => ht x (by simp [hx]))]

/-- From a childless node of the document with a next sibling, the walk goes on to the end of the document. -/
theorem walkNode_leaf (h : LinkedD d ch) {n : Nat} (hn : ch n = []) (hnx : getNext n d ≠ 0) (hl : LiveC ch 1 n) {f : Nat}
    (hf : d.nodes.length ≤ f) :
    walkFrom (fun c => traverseNode c n d) f n = .ok ((preorder d rootID).dropWhile (· ≠ n)) := by
  have h2 := h.two
  have hpre := preorder_eq h (p := 1) (by decide) (by omega)
  have hmem : ∀ {x}, x ∈ preorder d rootID ↔ LiveC ch 1 x := by
    intro x
    show x ∈ preorder d 1 ↔ _
    rw [hpre]; exact (LiveC.mem_pre h.up (by omega)).symm
  have hnd : (preorder d rootID).Nodup := by
    show (preorder d 1).Nodup
    rw [hpre]; exact pre_nodup' h.up h.uniq h.nodup _ (by omega)
  have hw := walkDom h (Nat.le_refl d.nodes.length)
  obtain ⟨f', hf', hs⟩ := walkFrom_suffix hw (hmem.mpr hl)
  have hs' := walkFrom_mono hs (show f' ≤ f by omega)
  refine walkFrom_congr hs' ?_
  intro x hx
  have hxl : x ∈ preorder d rootID := (List.dropWhile_sublist _).subset hx
  refine traverse_eq h hn hnx (hmem.mp hxl) ?_
  intro e hfc
  -- then `n` directly follows `x` in the preorder, although `x` comes after `n`
  have hstep : traverseDom x d = .ok n := by
    unfold traverseDom
    dsimp only
    have hn0 := hl.ge h.up
    rw [if_neg (by omega), if_pos (by omega), e]
  obtain ⟨a, b, eab⟩ := walkFrom_next hw hxl hstep (by have := hl.ge h.up; omega)
  have hax : n ∉ a ∧ x ≠ n ∧ x ∉ b ∧ n ∉ b := by
    rw [eab, List.nodup_append] at hnd
    obtain ⟨_, h3, h4⟩ := hnd
    rw [List.nodup_cons, List.nodup_cons] at h3
    refine ⟨fun hm => h4 n hm n (by simp) rfl, ?_, ?_, h3.2.1⟩
    · intro e'; exact h3.1 (by simp [e'])
    · intro hm; exact h3.1 (by simp [hm])
  have hdw : (preorder d rootID).dropWhile (· ≠ n) = n :: b := by
    rw [eab, List.dropWhile_append_of_pos]
    · rw [List.dropWhile_cons_of_pos (by simpa using hax.2.1), List.dropWhile_cons_of_neg (by simp)]
    · intro y hy
      simp only [ne_eq, decide_not, Bool.not_eq_true', decide_eq_false_iff_not]
      rintro rfl; exact hax.1 hy
  rw [hdw] at hx
  rcases List.mem_cons.mp hx with e' | hm
  · exact hax.2.1 e'
  · exact hax.2.2.1 hm

end

end Flo
