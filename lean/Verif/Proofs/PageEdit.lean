import Verif.Proofs.PageNumber
/-!
# Where an edit puts the new nodes (C95)
-/
namespace Flo
open Spec

section
variable {d d' : Dom}

theorem Spec.MergeFirst.zero (hi : DomI d (kids d)) {k : Nat} {F F1 : List Tree} (m : MergeFirst d d' k F F1) (hk : k = 0) :
    SameNode d d' 0 := by
  subst hk
  rcases m with ⟨_, _, h, _⟩ | ⟨_, _, h⟩
  · rw [hi.text_zero] at h; cases h
  · exact h

theorem Spec.MergeLast.zero (hi : DomI d (kids d)) {k : Nat} {F F1 : List Tree} (m : MergeLast d d' k F F1) (hk : k = 0) :
    SameNode d d' 0 := by
  subst hk
  rcases m with ⟨_, _, h, _⟩ | ⟨_, _, h⟩
  · rw [hi.text_zero] at h; cases h
  · exact h

theorem mergeLast_none (hi : DomI d (kids d)) (F : List Tree) (h0 : SameNode d d' 0) : MergeLast d d' 0 F F := by
  refine Or.inr ⟨fun tk tn F' h => ?_, rfl, h0⟩
  rw [hi.text_zero] at h; cases h

theorem mergeFirst_none (hi : DomI d (kids d)) (F : List Tree) (h0 : SameNode d d' 0) : MergeFirst d d' 0 F F := by
  refine Or.inr ⟨fun tk tn F' h => ?_, rfl, h0⟩
  rw [hi.text_zero] at h; cases h

theorem getLastD_map_mem {A : List PTree} (h : A ≠ []) : ∃ t ∈ A, t.id = (A.map PTree.id).getLastD 0 := by
  have := getLastD_mem (l := A.map PTree.id) (by simpa using h)
  rw [List.mem_map] at this
  exact this

/-- An edit that adds below `p` and removes nothing. -/
theorem LocalEdit.add (hi : DomI d (kids d)) {p : Nat} (hp : IsNode d p) (hk : ∀ q, q < d.nodes.length → q ≠ p → kids d' q = kids d q)
    (hs : ∀ m, 1 ≤ m → m < d.nodes.length → m ∉ kids d p → SameNode d d' m) : LocalEdit d d' p (fun _ => False) where
  inv := hi
  at0 := ⟨by have := hp.1; omega, hp.2, id, id⟩
  closed _ _ _ h := h.elim
  same m h1 h2 h3 _ := hs m h1 h2 h3
  kept q _ h2 h3 _ := hk q h2 h3

theorem append_shown (hi : DomI d (kids d)) {p : Nat} (hp : IsNode d p) {F F1 : List Tree}
    (hkids : kids d' p = kids d p ++ (numberAll (d.nodes.length + (F.length - F1.length)) F1).map PTree.id)
    (hoth : ∀ q, q < d.nodes.length → q ≠ p → kids d' q = kids d q)
    (hsame : ∀ m, m < d.nodes.length → m ≠ (kids d p).getLastD 0 → SameNode d d' m)
    (m1 : MergeFirst d d' ((kids d p).getLastD 0) F F1)
    (hnew : ShownAll d' (numberAll (d.nodes.length + (F.length - F1.length)) F1)) {t : PTree} (ht : t.Shown d) (hid : t.id = rootID)
    (hnt : ∀ l, NodeIs d p l → l.isText = false) :
    (t.within p (fun ks => between ks (numberAll d.nodes.length F) [])).Shown d' := by
  have h0 : SameNode d d' 0 := by
    by_cases e : (kids d p).getLastD 0 = 0
    · exact m1.zero hi e
    · have := hp.2; exact hsame 0 (by omega) (Ne.symm e)
  have hmem : ∀ m, m = (kids d p).getLastD 0 → 1 ≤ m → m ∈ kids d p := by
    intro m hm h1
    rw [hm]
    refine getLastD_mem fun e => ?_
    rw [e] at hm; simp at hm; omega
  have le : LocalEdit d d' p (fun _ => False) := LocalEdit.add hi hp hoth (fun m h1 h2 h3 => hsame m h2 fun e => h3 (hmem m e h1))
  refine le.within hnt (fun ks hks hall => ?_) ht hid
  have hnd := hi.linked.nodup p
  rw [hks] at hnd
  obtain ⟨b1, b2⟩ := between_shown (N := d.nodes.length) (A := ks) (B := []) (F := F) (F1 := F1) (F2 := F1) le hall trivial
    (fun t ht => ⟨by rw [hks]; simp only [List.append_nil] at ht; exact List.mem_map_of_mem ht, id⟩) (by simpa using hnd)
    (by rw [← hks]; exact m1) (mergeLast_none hi _ h0) (fun t ht h1 _ => (by
      simp only [List.append_nil] at ht
      have hm : t.id ∈ kids d p := by rw [hks]; exact List.mem_map_of_mem ht
      exact hsame _ (hi.linked.range p _ hm).2.2 (by rw [hks]; exact h1))) hnew
  refine ⟨?_, b2⟩
  rw [b1, hkids, hks]; simp

theorem prepend_shown (hi : DomI d (kids d)) {p : Nat} (hp : IsNode d p) {F F1 : List Tree}
    (hkids : kids d' p = (numberAll d.nodes.length F1).map PTree.id ++ kids d p)
    (hoth : ∀ q, q < d.nodes.length → q ≠ p → kids d' q = kids d q)
    (hsame : ∀ m, m < d.nodes.length → m ≠ (kids d p).headD 0 → SameNode d d' m)
    (m1 : MergeLast d d' ((kids d p).headD 0) F F1)
    (hnew : ShownAll d' (numberAll d.nodes.length F1)) {t : PTree} (ht : t.Shown d) (hid : t.id = rootID)
    (hnt : ∀ l, NodeIs d p l → l.isText = false) :
    (t.within p (fun ks => between [] (numberAll d.nodes.length F) ks)).Shown d' := by
  have h0 : SameNode d d' 0 := by
    by_cases e : (kids d p).headD 0 = 0
    · exact m1.zero hi e
    · have := hp.2; exact hsame 0 (by omega) (Ne.symm e)
  have hmem : ∀ m, m = (kids d p).headD 0 → 1 ≤ m → m ∈ kids d p := by
    intro m hm h1
    cases e : kids d p with
    | nil => rw [e] at hm; simp at hm; omega
    | cons a l => rw [e] at hm; simp at hm; simp [hm]
  have le : LocalEdit d d' p (fun _ => False) := LocalEdit.add hi hp hoth (fun m h1 h2 h3 => hsame m h2 fun e => h3 (hmem m e h1))
  refine le.within hnt (fun ks hks hall => ?_) ht hid
  have hnd := hi.linked.nodup p
  rw [hks] at hnd
  obtain ⟨b1, b2⟩ := between_shown (N := d.nodes.length) (A := []) (B := ks) (F := F) (F1 := F) (F2 := F1) le trivial hall
    (fun t ht => ⟨by rw [hks]; simp only [List.nil_append] at ht; exact List.mem_map_of_mem ht, id⟩) (by simpa using hnd)
    (mergeFirst_none hi _ h0) (by rw [← hks]; exact m1) (fun t ht _ h1 => (by
      simp only [List.nil_append] at ht
      have hm : t.id ∈ kids d p := by rw [hks]; exact List.mem_map_of_mem ht
      exact hsame _ (hi.linked.range p _ hm).2.2 (by rw [hks]; exact h1))) (by rw [Nat.sub_self]; exact hnew)
  refine ⟨?_, b2⟩
  rw [b1, hkids, hks]; simp

theorem replace_shown {p n : Nat} {R : Nat → Prop} (le : LocalEdit d d' p R) (l₁ l₂ : List Nat) (he : kids d p = l₁ ++ n :: l₂)
    (hR : ∀ m, m ∈ l₁ ++ l₂ → ¬R m) {F F1 F2 : List Tree}
    (hkids : kids d' p = l₁ ++ (numberAll (d.nodes.length + (F.length - F1.length)) F2).map PTree.id ++ l₂)
    (hsame : ∀ m, m ∈ l₁ ++ l₂ → m ≠ l₁.getLastD 0 → m ≠ l₂.headD 0 → SameNode d d' m)
    (m1 : MergeFirst d d' (l₁.getLastD 0) F F1) (m2 : MergeLast d d' (l₂.headD 0) F1 F2)
    (hnew : ShownAll d' (numberAll (d.nodes.length + (F.length - F1.length)) F2)) {t : PTree} (ht : t.Shown d) (hid : t.id = rootID) :
    (t.instead n (fun a b => between a (numberAll d.nodes.length F) b)).Shown d' := by
  have hnd := le.inv.linked.nodup p
  refine le.instead (n := n) (by rw [he]; simp) (fun a u b hks hu hA hB => ?_) ht hid
  have hsplit : a.map PTree.id = l₁ ∧ b.map PTree.id = l₂ := by
    rw [hks] at he hnd
    simp only [List.map_append, List.map_cons, hu] at he hnd
    rw [List.append_eq_append_iff] at he
    rw [List.nodup_append, List.nodup_cons] at hnd
    rcases he with ⟨x, h1, h2⟩ | ⟨x, h1, h2⟩
    · cases x with
      | nil => simp at h1 h2; exact ⟨h1.symm, h2⟩
      | cons y x =>
        simp at h2
        exact absurd (by rw [h2.2]; simp) hnd.2.1.1
    · cases x with
      | nil => simp at h1 h2; exact ⟨h1, h2.symm⟩
      | cons y x =>
        simp at h2
        obtain ⟨rfl, h2⟩ := h2
        exact absurd rfl (hnd.2.2 n (by rw [h1]; simp) n (by simp))
  obtain ⟨e1, e2⟩ := hsplit
  have hndAB : ((a ++ b).map PTree.id).Nodup := by
    rw [List.map_append, e1, e2]
    rw [he] at hnd
    exact hnd.sublist (by simp)
  have hin : ∀ t ∈ a ++ b, t.id ∈ l₁ ++ l₂ := by
    intro t ht
    rw [← e1, ← e2, ← List.map_append]
    exact List.mem_map_of_mem ht
  obtain ⟨b1, b2⟩ := between_shown (N := d.nodes.length) (A := a) (B := b) (F := F) (F1 := F1) (F2 := F2) le hA hB
    (fun t ht => ⟨(by
      have := hin t ht
      rw [he]
      simp only [List.mem_append, List.mem_cons] at this ⊢
      tauto), hR _ (hin t ht)⟩) hndAB (by rw [e1]; exact m1) (by rw [e2]; exact m2)
    (fun t ht h1 h2 => hsame _ (hin t ht) (by rw [← e1]; exact h1) (by rw [← e2]; exact h2)) hnew
  exact ⟨by rw [b1, hkids, e1, e2], b2⟩

theorem preorder_closed (hi : DomI d (kids d)) {p n : Nat} (hn : n ∈ kids d p) {q c : Nat} (hc : c ∈ kids d q)
    (hr : c ∈ preorder d n) : q = p ∨ q ∈ preorder d n := by
  have hrn := hi.linked.range p n hn
  have hp := preorder_kids hi (p := n) ⟨by omega, hrn.2.2⟩
  rw [hp] at hr ⊢
  rw [← LiveC.mem_pre hi.linked.up hrn.2.2] at hr ⊢
  by_cases e : c = n
  · subst e; exact Or.inl (hi.linked.uniq _ _ _ hc hn)
  · exact Or.inr (hr.parent hi.linked.uniq hc e)

theorem preorder_above (hi : DomI d (kids d)) {n : Nat} (hn : IsNode d n) {m : Nat} (hm : m ∈ preorder d n) : n ≤ m := by
  rw [preorder_kids hi hn, ← LiveC.mem_pre hi.linked.up hn.2] at hm
  exact hm.ge hi.linked.up

theorem preorder_cons (hi : DomI d (kids d)) {n : Nat} (hn : IsNode d n) :
    ∃ l, preorder d n = n :: l ∧ n ∉ l := by
  have h := pre_nodup' hi.linked.up hi.linked.uniq hi.linked.nodup n hn.2
  rw [preorder_kids hi hn]
  rw [pre_eq hi.linked.up hn.2] at h ⊢
  exact ⟨_, rfl, (List.nodup_cons.mp h).1⟩

/-- A subtree without its root, below the root. -/
theorem LocalEdit.clear (hi : DomI d (kids d)) {n : Nat} (hn : IsNode d n)
    (hk : ∀ q, q ∉ preorder d n → kids d' q = kids d q)
    (hs : ∀ m, m < d.nodes.length → m ∉ (preorder d n).tail → SameNode d d' m) :
    LocalEdit d d' n (fun m => m ∈ (preorder d n).tail) := by
  obtain ⟨l, e, hl⟩ := preorder_cons hi hn
  have above : ∀ m ∈ l, n ≤ m := fun m hm => preorder_above hi hn (by rw [e]; simp [hm])
  rw [e] at hs hk
  simp only [e, List.tail_cons] at hs ⊢
  refine ⟨hi, ⟨by have := hn.1; omega, hn.2, hl, fun hr => ?_⟩, fun q c hc hr => ?_, fun m h1 h2 h3 h4 => hs m h2 h4, fun q h1 h2 h3 h4 => ?_⟩
  · have h1 := above 1 hr
    have := hn.1
    have : n = 1 := by omega
    subst this; exact hl hr
  · have hx : c ∈ preorder d n := by rw [e]; simp [hr]
    rw [preorder_kids hi hn, ← LiveC.mem_pre hi.linked.up hn.2] at hx
    have := hx.parent hi.linked.uniq hc (fun e' => hl (e' ▸ hr))
    rw [LiveC.mem_pre hi.linked.up hn.2, ← preorder_kids hi hn, e] at this
    rcases List.mem_cons.mp this with h | h
    · exact Or.inl h
    · exact Or.inr h
  · exact hk q (by simp [h3, h4])

/-- A whole subtree. -/
theorem LocalEdit.drop (hi : DomI d (kids d)) {p n : Nat} (hn : n ∈ kids d p) (h0 : kids d 0 = [])
    (hk : ∀ q, q ≠ p → q ∉ preorder d n → kids d' q = kids d q)
    (hs : ∀ m, m < d.nodes.length → m ∉ kids d p → m ∉ preorder d n → SameNode d d' m) :
    LocalEdit d d' p (fun m => m ∈ preorder d n) := by
  have hr := hi.linked.range p n hn
  have hp : p ≠ 0 := by rintro rfl; rw [h0] at hn; cases hn
  have hnn : IsNode d n := ⟨by omega, hr.2.2⟩
  refine ⟨hi, ⟨by omega, by omega, fun hx => ?_, fun hx => ?_⟩, fun q c hc hx => preorder_closed hi hn hc hx,
    fun m _ h2 h3 h4 => hs m h2 h3 h4, fun q _ h2 h3 h4 => hk q h3 h4⟩
  · have := preorder_above hi hnn hx; omega
  · have := preorder_above hi hnn hx
    have : rootID = 1 := rfl
    omega

theorem sibling_free (hi : DomI d (kids d)) {p n m : Nat} (hn : n ∈ kids d p) (hm : m ∈ kids d p) (hne : m ≠ n) : m ∉ preorder d n := by
  have hr := hi.linked.range p n hn
  intro hx
  rw [preorder_kids hi ⟨by omega, hr.2.2⟩, ← LiveC.mem_pre hi.linked.up hr.2.2] at hx
  have := (hx.parent hi.linked.uniq hm hne).ge hi.linked.up
  omega

end
end Flo
