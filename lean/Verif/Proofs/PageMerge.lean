import Verif.Proofs.Page
/-!
# New nodes between old ones (C95)
-/
namespace Flo
open Spec

section
variable {d d' : Dom}

theorem getLast?_split {α : Type} {l : List α} {x : α} (h : l.getLast? = some x) : l = l.dropLast ++ [x] := by
  rcases List.eq_nil_or_concat' l with rfl | ⟨m, y, rfl⟩
  · cases h
  · simp at h; subst h; simp

theorem mergeLeft_merge {A : List PTree} {k j : Nat} {a b : Str} {ks js : List PTree} {rest : List PTree} :
    mergeLeft (A ++ [.node k (.text a) ks]) (.node j (.text b) js :: rest) =
      (A ++ [.node k (.text (a ++ b!" " ++ b)) ks], rest) := by
  unfold mergeLeft
  simp

theorem mergeLeft_keep {A X : List PTree}
    (h : ∀ A' k a ks j b js X', A = A' ++ [.node k (.text a) ks] → X ≠ .node j (.text b) js :: X') : mergeLeft A X = (A, X) := by
  unfold mergeLeft
  split
  · rename_i hA
    exact absurd rfl (h _ _ _ _ _ _ _ _ (getLast?_split hA))
  · rfl

theorem mergeRight_merge {B X : List PTree} {k j : Nat} {a b : Str} {ks js : List PTree} :
    mergeRight (X ++ [.node j (.text b) js]) (.node k (.text a) ks :: B) =
      (X, .node k (.text (b ++ b!" " ++ a)) ks :: B) := by
  unfold mergeRight
  simp

theorem mergeRight_keep {B X : List PTree}
    (h : ∀ B' k a ks j b js X', B = .node k (.text a) ks :: B' → X ≠ X' ++ [.node j (.text b) js]) : mergeRight X B = (X, B) := by
  unfold mergeRight
  split
  · rename_i hX
    exact absurd (getLast?_split hX) (h _ _ _ _ _ _ _ _ rfl)
  · rfl

theorem numberAll_text_head {k j : Nat} {b : Str} {js X' : List PTree} {F : List Tree}
    (h : numberAll k F = .node j (.text b) js :: X') : ∃ F', F = .text b :: F' := by
  cases F with
  | nil => simp [numberAll] at h
  | cons t F' =>
    rw [numberAll] at h
    cases t with
    | text raw => simp [Tree.number] at h; exact ⟨F', by rw [h.1.2.1]⟩
    | elem => simp [Tree.number] at h

theorem numberAll_text_last {k j : Nat} {b : Str} {js X' : List PTree} {F : List Tree}
    (h : numberAll k F = X' ++ [.node j (.text b) js]) : ∃ F', F = F' ++ [.text b] := by
  rcases List.eq_nil_or_concat' F with rfl | ⟨F', t, rfl⟩
  · simp [numberAll] at h
  · rw [numberAll_append] at h
    have h := (List.append_inj' h (by simp [numberAll])).2
    rw [numberAll, numberAll] at h
    cases t with
    | text raw => simp [Tree.number] at h; exact ⟨F', by rw [h.2.1]⟩
    | elem => simp [Tree.number] at h

/-- What merging on the left does. -/
theorem mergeLeft_shown (hi : DomI d (kids d)) {A : List PTree} {F F1 : List Tree} {N : Nat} (hA : ShownAll d A)
    (m : MergeFirst d d' ((A.map PTree.id).getLastD 0) F F1) (hnd : (A.map PTree.id).Nodup)
    (hbelow : ∀ n l ks, PTree.node n l ks ∈ A → kids d' n = ks.map PTree.id ∧ ShownAll d' ks)
    (hsame : ∀ t ∈ A, t.id ≠ (A.map PTree.id).getLastD 0 → SameNode d d' t.id) :
    ∃ A', mergeLeft A (numberAll N F) = (A', numberAll (N + (F.length - F1.length)) F1) ∧
      A'.map PTree.id = A.map PTree.id ∧ ShownAll d' A' := by
  have keep : ∀ t ∈ A, SameNode d d' t.id → t.Shown d' := by
    intro t ht hs
    have h1 := shownAll_iff.mp hA t ht
    cases t with
    | node n l ks =>
      simp only [PTree.Shown] at h1 ⊢
      obtain ⟨b1, b2⟩ := hbelow n l ks ht
      exact ⟨h1.1.same hs, b1, h1.2.2.1, b2⟩
  rcases m with ⟨tk, tn, m1, rfl, m3, m4, m5⟩ | ⟨m1, rfl, m3⟩
  · rcases List.eq_nil_or_concat' A with rfl | ⟨A0, x, rfl⟩
    · simp [hi.text_zero] at m1
    · cases x with
      | node k l ks =>
        simp only [List.map_append, List.map_cons, List.map_nil, List.getLastD_concat, PTree.id] at m1 m3 m4 m5 hsame hnd
        have hx := shownAll_iff.mp hA (.node k l ks) (by simp)
        simp only [PTree.Shown] at hx
        have hl := hx.1.ofText hi m1
        subst hl
        obtain ⟨b1, b2⟩ := hbelow k (.text tk) ks (by simp)
        refine ⟨A0 ++ [.node k (.text (tk ++ b!" " ++ tn)) ks], ?_, by simp only [List.map_append, List.map_cons, List.map_nil, PTree.id], ?_⟩
        · rw [numberAll, Tree.number, mergeLeft_merge]
          simp [Tree.size]
        · rw [shownAll_append]
          refine ⟨shownAll_iff.mpr fun t ht => keep t (by simp [ht]) (hsame t (by simp [ht]) ?_), ?_⟩
          · intro e
            rw [List.nodup_append] at hnd
            exact hnd.2.2 t.id (List.mem_map_of_mem ht) k (by simp) e
          · simp only [ShownAll, PTree.Shown, and_true]
            exact ⟨m3, b1, fun _ => hx.2.2.1 rfl, b2⟩
  · refine ⟨A, ?_, rfl, shownAll_iff.mpr fun t ht => keep t ht ?_⟩
    · rw [Nat.sub_self, Nat.add_zero]
      refine mergeLeft_keep ?_
      rintro A' k a ks j b js X' rfl hX
      obtain ⟨F', rfl⟩ := numberAll_text_head hX
      refine m1 a b F' ?_ rfl
      have hx := shownAll_iff.mp hA (.node k (.text a) ks) (by simp)
      simp only [PTree.Shown] at hx
      have : textOf d k = some a := hx.1
      simpa [PTree.id] using this
    · by_cases e : t.id = (A.map PTree.id).getLastD 0
      · rw [e]; exact m3
      · exact hsame t ht e

/-- What merging on the right does. -/
theorem mergeRight_shown (hi : DomI d (kids d)) {B : List PTree} {F F1 : List Tree} {N : Nat} (hB : ShownAll d B)
    (m : MergeLast d d' ((B.map PTree.id).headD 0) F F1) (hnd : (B.map PTree.id).Nodup)
    (hbelow : ∀ n l ks, PTree.node n l ks ∈ B → kids d' n = ks.map PTree.id ∧ ShownAll d' ks)
    (hsame : ∀ t ∈ B, t.id ≠ (B.map PTree.id).headD 0 → SameNode d d' t.id) :
    ∃ B', mergeRight (numberAll N F) B = (numberAll N F1, B') ∧ B'.map PTree.id = B.map PTree.id ∧ ShownAll d' B' := by
  have keep : ∀ t ∈ B, SameNode d d' t.id → t.Shown d' := by
    intro t ht hs
    have h1 := shownAll_iff.mp hB t ht
    cases t with
    | node n l ks =>
      simp only [PTree.Shown] at h1 ⊢
      obtain ⟨b1, b2⟩ := hbelow n l ks ht
      exact ⟨h1.1.same hs, b1, h1.2.2.1, b2⟩
  rcases m with ⟨tk, tn, m1, rfl, m3, m4, m5⟩ | ⟨m1, rfl, m3⟩
  · cases B with
    | nil => simp [hi.text_zero] at m1
    | cons x B0 =>
      cases x with
      | node k l ks =>
        simp only [List.map_cons, List.headD_cons, PTree.id] at m1 m3 m4 m5 hsame hnd
        have hx := shownAll_iff.mp hB (.node k l ks) (by simp)
        simp only [PTree.Shown] at hx
        have hl := hx.1.ofText hi m1
        subst hl
        obtain ⟨b1, b2⟩ := hbelow k (.text tk) ks (by simp)
        refine ⟨.node k (.text (tn ++ b!" " ++ tk)) ks :: B0, ?_, by simp only [List.map_cons, PTree.id], ?_⟩
        · rw [numberAll_append, numberAll, numberAll, Tree.number, mergeRight_merge]
        · simp only [ShownAll, PTree.Shown]
          refine ⟨⟨m3, b1, fun _ => hx.2.2.1 rfl, b2⟩, shownAll_iff.mpr fun t ht => keep t (by simp [ht]) (hsame t (by simp [ht]) ?_)⟩
          intro e
          rw [List.nodup_cons] at hnd
          exact hnd.1 (e ▸ List.mem_map_of_mem ht)
  · refine ⟨B, ?_, rfl, shownAll_iff.mpr fun t ht => keep t ht ?_⟩
    · refine mergeRight_keep ?_
      rintro B' k a ks j b js X' rfl hX
      obtain ⟨F', rfl⟩ := numberAll_text_last hX
      refine m1 a b F' ?_ rfl
      have hx := shownAll_iff.mp hB (.node k (.text a) ks) (by simp)
      simp only [PTree.Shown] at hx
      have : textOf d k = some a := hx.1
      simpa [PTree.id] using this
    · by_cases e : t.id = (B.map PTree.id).headD 0
      · rw [e]; exact m3
      · exact hsame t ht e

/-- New trees `F` between `A` and `B`, of which `F2` is left after merging. -/
theorem between_shown {p N : Nat} {R : Nat → Prop} (h : LocalEdit d d' p R) {A B : List PTree} {F F1 F2 : List Tree}
    (hA : ShownAll d A) (hB : ShownAll d B) (hAB : ∀ t ∈ A ++ B, t.id ∈ kids d p ∧ ¬R t.id)
    (hnd : ((A ++ B).map PTree.id).Nodup)
    (m1 : MergeFirst d d' ((A.map PTree.id).getLastD 0) F F1) (m2 : MergeLast d d' ((B.map PTree.id).headD 0) F1 F2)
    (hsame : ∀ t ∈ A ++ B, t.id ≠ (A.map PTree.id).getLastD 0 → t.id ≠ (B.map PTree.id).headD 0 → SameNode d d' t.id)
    (hnew : ShownAll d' (numberAll (N + (F.length - F1.length)) F2)) :
    (between A (numberAll N F) B).map PTree.id =
        A.map PTree.id ++ (numberAll (N + (F.length - F1.length)) F2).map PTree.id ++ B.map PTree.id ∧
      ShownAll d' (between A (numberAll N F) B) := by
  have hbelow : ∀ n l ks, PTree.node n l ks ∈ A ++ B → kids d' n = ks.map PTree.id ∧ ShownAll d' ks := by
    intro n l ks hm
    obtain ⟨h1, h2⟩ := hAB _ hm
    refine h.below (l := l) ?_ h1 h2
    rcases List.mem_append.mp hm with hm | hm
    · exact shownAll_iff.mp hA _ hm
    · exact shownAll_iff.mp hB _ hm
  rw [List.map_append, List.nodup_append] at hnd
  obtain ⟨n1, n2, n3⟩ := hnd
  obtain ⟨A', a1, a2, a3⟩ := mergeLeft_shown (N := N) h.inv hA m1 n1 (fun n l ks hm => hbelow n l ks (by simp [hm]))
    (fun t ht hne => by
      by_cases e : t.id = (B.map PTree.id).headD 0
      · cases B with
        | nil =>
          have := h.inv.linked.range p _ (hAB t (by simp [ht])).1
          simp at e; omega
        | cons x B => exact absurd (by simpa using e) (n3 _ (List.mem_map_of_mem ht) x.id (by simp))
      · exact hsame t (by simp [ht]) hne e)
  obtain ⟨B', b1, b2, b3⟩ := mergeRight_shown (N := N + (F.length - F1.length)) h.inv hB m2 n2 (fun n l ks hm => hbelow n l ks (by simp [hm]))
    (fun t ht hne => by
      by_cases e : t.id = (A.map PTree.id).getLastD 0
      · rcases List.eq_nil_or_concat' A with rfl | ⟨A0, x, rfl⟩
        · have := h.inv.linked.range p _ (hAB t (by simp [ht])).1
          simp at e; omega
        · refine absurd ?_ (n3 x.id (by simp) t.id (List.mem_map_of_mem ht))
          simp at e; exact e.symm
      · exact hsame t (by simp [ht]) e hne)
  unfold between
  rw [a1]
  dsimp only
  rw [b1]
  dsimp only
  refine ⟨by rw [List.map_append, List.map_append, a2, b2], ?_⟩
  rw [shownAll_append, shownAll_append]
  exact ⟨⟨a3, hnew⟩, b3⟩

end
end Flo
