import Verif.Proofs.EditLink
import Verif.Proofs.Walk
/-!
# `removeNode` and `removeChildren`
-/
namespace Flo
open Spec

theorem pre_congr {N : Nat} {ch ch' : Nat → List Nat} (hu : Up N ch) (hu' : Up N ch') :
    ∀ p, p < N → (∀ q ∈ pre N ch p, ch' q = ch q) → pre N ch' p = pre N ch p := by
  refine down_induction ?_
  intro p hp ih h
  rw [pre_eq hu hp, pre_eq hu' hp, h p (mem_pre_self hp)]
  congr 1
  rw [List.flatMap_def, List.flatMap_def]
  congr 1
  apply List.map_congr_left
  intro c hc
  have hr := hu p c hc
  refine ih c hr.1 hr.2 (fun q hq => h q ?_)
  rw [pre_eq hu hp, List.mem_cons, List.mem_flatMap]
  exact Or.inr ⟨c, hc, hq⟩

/-- No sibling row mentions `i`. -/
def Iso (nn : List Row) (i : Nat) : Prop := ∀ a b, (a, b) ∈ nn → a ≠ i ∧ b ≠ i

theorem mem_set_row {l : List Row} {i : Nat} {r x : Row} (h : x ∈ l.set i r) : x ∈ l ∨ x = r := by
  rcases List.mem_or_eq_of_mem_set h with h | h
  · exact Or.inl h
  · exact Or.inr h

theorem unlinkNext_nn {n : Nat} {d d' : Dom} (h : unlinkNode n d = .ok d') : d'.nn = unlinkNext n d := by
  unfold unlinkNode at h
  split at h
  · cases h
  · cases hu : unlinkParent n d with
    | ok x => rw [hu] at h; simp only [Out.bind_ok] at h; cases h; rfl
    | ub w => rw [hu] at h; cases h
    | longjmp => rw [hu] at h; cases h
    | hang => rw [hu] at h; cases h

/-- Unlinking a node adds at most a row between its neighbours. -/
theorem unlinkNext_mem {n : Nat} {d : Dom} {x : Row} (h : x ∈ unlinkNext n d) :
    x ∈ d.nn ∨ x = (0, 0) ∨ ((x.1, n) ∈ d.nn ∧ (n, x.2) ∈ d.nn) := by
  have h1 : x ∈ unlinkPrev n d ∨ x = (0, 0) := by
    unfold unlinkNext at h
    split at h
    · exact Or.inl h
    · exact mem_set_row h
  rcases h1 with h1 | h1
  · unfold unlinkPrev at h1
    split at h1
    · exact Or.inl h1
    · rename_i v hv
      obtain ⟨a, ha⟩ := findSnd_some hv
      split at h1
      · rcases mem_set_row h1 with h1 | h1
        · exact Or.inl h1
        · exact Or.inr (Or.inl h1)
      · rename_i i hi
        obtain ⟨b, hb⟩ := findFst_some hi
        rcases mem_set_row h1 with h1 | h1
        · exact Or.inl h1
        · rw [rowAt_eq ha, rowAt_eq hb] at h1
          subst h1
          exact Or.inr (Or.inr ⟨List.mem_of_getElem? ha, List.mem_of_getElem? hb⟩)
  · exact Or.inr (Or.inl h1)

theorem unlink_iso_mono {n i : Nat} {d d' : Dom} (h : unlinkNode n d = .ok d') (hi : i ≠ 0) (hs : Iso d.nn i) :
    Iso d'.nn i := by
  intro a b hm
  rw [unlinkNext_nn h] at hm
  rcases unlinkNext_mem hm with h1 | h1 | ⟨h1, h2⟩
  · exact hs a b h1
  · cases h1; exact ⟨Ne.symm hi, Ne.symm hi⟩
  · exact ⟨(hs _ _ h1).1, (hs _ _ h2).2⟩

theorem row_index_unique {l : List Row} (h : Good l) {a b c i j : Nat} (ha : a ≠ 0) (hi : l[i]? = some (a, b))
    (hj : l[j]? = some (a, c)) : i = j := by
  obtain ⟨h1, e1⟩ := List.getElem?_eq_some_iff.mp hi
  obtain ⟨h2, e2⟩ := List.getElem?_eq_some_iff.mp hj
  by_contra hne
  have := List.pairwise_iff_getElem.mp h.inj
  rcases Nat.lt_or_gt_of_ne hne with hlt | hlt
  · have := this i j h1 h2 hlt (by rw [e1]; exact row_ne_zero ha) (by rw [e2]; exact row_ne_zero ha)
    rw [e1, e2] at this; exact this.1 rfl
  · have := this j i h2 h1 hlt (by rw [e2]; exact row_ne_zero ha) (by rw [e1]; exact row_ne_zero ha)
    rw [e1, e2] at this; exact this.1 rfl

theorem unlink_iso_self {n : Nat} {d d' : Dom} (hg : Good d.nn) (hr : ∀ a b, (a, b) ∈ d.nn → a ≠ 0 → a ≠ b) (hn : n ≠ 0)
    (h : unlinkNode n d = .ok d') : Iso d'.nn n := by
  intro a b hm
  rw [unlinkNext_nn h] at hm
  -- rows of the table in which the previous sibling has been relinked
  have hprev : ∀ x ∈ unlinkPrev n d, x.2 ≠ n ∧ (x.1 = n → x ∈ d.nn) := by
    intro x hx
    unfold unlinkPrev at hx
    cases hv : getPreviousNode n d with
    | none =>
      rw [hv] at hx
      refine ⟨fun e => ?_, fun _ => hx⟩
      exact findSnd_none.mp hv x.1 (by rw [← e]; exact hx)
    | some v =>
      rw [hv] at hx
      obtain ⟨a, ha⟩ := findSnd_some hv
      have hne : ((a, n) : Row) ≠ (0, 0) := row_ne_zero' hn
      have ha0 : a ≠ 0 := fun e => hn ((hg.nz' (List.mem_of_getElem? ha)).mp e)
      have han := hr a n (List.mem_of_getElem? ha) ha0
      cases hnx : getNextNode n d with
      | none =>
        rw [hnx] at hx
        rcases (hg.mem_set ha hne x).mp hx with ⟨h1, h2⟩ | h1
        · exact ⟨fun e => h2 (by
            have : x = (x.1, n) := by rw [← e]
            rw [this] at h1 ⊢
            rw [hg.snd_unique hn h1 (List.mem_of_getElem? ha)]), fun _ => h1⟩
        · subst h1; exact ⟨fun e => hn e.symm, fun e => absurd e.symm hn⟩
      | some i =>
        rw [hnx] at hx
        obtain ⟨b, hb⟩ := findFst_some hnx
        have hbm := List.mem_of_getElem? hb
        rcases (hg.mem_set ha hne x).mp hx with ⟨h1, h2⟩ | h1
        · exact ⟨fun e => h2 (by
            have : x = (x.1, n) := by rw [← e]
            rw [this] at h1 ⊢
            rw [hg.snd_unique hn h1 (List.mem_of_getElem? ha)]), fun _ => h1⟩
        · rw [rowAt_eq ha, rowAt_eq hb] at h1
          subst h1
          exact ⟨fun e => hr n b hbm hn e.symm, fun e => absurd e han⟩
  unfold unlinkNext at hm
  cases hnx : getNextNode n d with
  | none =>
    rw [hnx] at hm
    have := hprev _ hm
    refine ⟨fun e => ?_, this.1⟩
    exact findFst_none.mp hnx b (by have := this.2 e; rw [← e]; exact this)
  | some j =>
    rw [hnx] at hm
    obtain ⟨c, hc⟩ := findFst_some hnx
    rcases mem_set_row hm with h1 | h1
    · have hp := hprev _ h1
      refine ⟨fun e => ?_, hp.1⟩
      subst e
      -- the row of `n` itself has been zeroed
      have hb : c = b := hg.fst_unique hn (List.mem_of_getElem? hc) (hp.2 rfl)
      subst hb
      have hpc : (unlinkPrev a d)[j]? = some (a, c) := by
        unfold unlinkPrev
        cases hv : getPreviousNode a d with
        | none => exact hc
        | some v =>
          obtain ⟨z, hz⟩ := findSnd_some hv
          have hz0 : z ≠ 0 := fun e => hn ((hg.nz' (List.mem_of_getElem? hz)).mp e)
          have hvj : v ≠ j := by
            rintro rfl
            rw [hz] at hc
            cases hc
            exact hr a a (List.mem_of_getElem? hz) hn rfl
          rw [hnx]
          simp only []
          rw [List.getElem?_set_ne hvj]; exact hc
      have : (unlinkPrev a d).set j (0, 0) = unlinkNext a d := by unfold unlinkNext; rw [hnx]
      obtain ⟨q, hq⟩ := List.getElem?_of_mem hm
      by_cases hqj : q = j
      · subst hqj
        rw [List.getElem?_set_self (by exact (List.getElem?_eq_some_iff.mp hpc).1)] at hq
        cases hq; exact hn rfl
      · rw [List.getElem?_set_ne (Ne.symm hqj)] at hq
        -- two rows of the same node
        have hqn : d.nn[q]? = some (a, c) := by
          unfold unlinkPrev at hq
          cases hv : getPreviousNode a d with
          | none => rw [hv] at hq; exact hq
          | some v =>
            rw [hv, hnx] at hq
            obtain ⟨z, hz⟩ := findSnd_some hv
            simp only [] at hq
            by_cases hvq : v = q
            · subst hvq
              rw [List.getElem?_set_self (by exact (List.getElem?_eq_some_iff.mp hz).1), rowAt_eq hz] at hq
              simp only [Option.some.injEq, Prod.mk.injEq] at hq
              rw [hq.1] at hz
              exact absurd rfl (hr a a (List.mem_of_getElem? hz) hn)
            · rw [List.getElem?_set_ne hvq] at hq; exact hq
        exact hqj (row_index_unique hg hn hqn hc)
    · cases h1; exact ⟨Ne.symm hn, Ne.symm hn⟩

/-- What a removal does outside the link tables: the nodes of `S` become removed nodes, nothing else changes. -/
structure Dropped (d d' : Dom) (S : List Nat) : Prop where
  same : ∃ ns fc pc nn, d' = { d with nodes := ns, fc := fc, pc := pc, nn := nn }
  len : d'.nodes.length = d.nodes.length
  gone : ∀ i ∈ S, i < d.nodes.length → d'.nodes[i]? = some ⟨.removed, .tag 0⟩
  kept : ∀ i, i ∉ S → d'.nodes[i]? = d.nodes[i]?
  iso : ∀ i ∈ S, i ≠ 0 → Iso d'.nn i
  mono : ∀ i, i ≠ 0 → Iso d.nn i → Iso d'.nn i
  rows : ∀ r ∈ d'.pc, r ∈ d.pc ∨ r = (0, 0)
  count : ∀ x, x ≠ 0 → d'.pc.countP (·.2 == x) = d.pc.countP (·.2 == x) - S.count x

theorem Dropped.refl (d : Dom) : Dropped d d [] := ⟨⟨_, _, _, _, rfl⟩, rfl, by simp, fun _ _ => rfl, by simp, fun _ _ h => h,
  fun _ h => Or.inl h, fun _ _ => rfl⟩

theorem Dropped.trans {a b c : Dom} {S T : List Nat} (h : Dropped a b S) (h' : Dropped b c T) :
    Dropped a c (S ++ T) := by
  obtain ⟨_, _, _, _, e⟩ := h.same
  obtain ⟨_, _, _, _, e'⟩ := h'.same
  refine ⟨⟨_, _, _, _, by rw [e', e]⟩, h'.len.trans h.len, ?_, ?_, ?_, fun i hi hs => h'.mono i hi (h.mono i hi hs),
    fun r hr => ?_, fun x hx => by rw [h'.count x hx, h.count x hx, List.count_append]; omega⟩
  · intro i hi hlt
    by_cases hT : i ∈ T
    · exact h'.gone i hT (by rw [h.len]; exact hlt)
    · rw [h'.kept i hT]
      exact h.gone i (by simpa [hT] using hi) hlt
  · intro i hi
    rw [h'.kept i (fun x => hi (by simp [x])), h.kept i (fun x => hi (by simp [x]))]
  · intro i hi h0
    rcases List.mem_append.mp hi with hi | hi
    · exact h'.mono i h0 (h.iso i hi h0)
    · exact h'.iso i hi h0
  · rcases h'.rows r hr with h1 | h1
    · exact h.rows r h1
    · exact Or.inr h1

theorem Dropped.congr {a b : Dom} {S T : List Nat} (h : Dropped a b S) (hST : S.Perm T) :
    Dropped a b T :=
  ⟨h.same, h.len, fun i hi => h.gone i (hST.mem_iff.mpr hi), fun i hi => h.kept i (fun x => hi (hST.mem_iff.mp x)),
    fun i hi => h.iso i (hST.mem_iff.mpr hi), h.mono, h.rows, fun x hx => by rw [h.count x hx, hST.count_eq]⟩

/-- The child lists after removing the subtree of `n`. -/
def dropTree (N : Nat) (ch : Nat → List Nat) (n : Nat) : Nat → List Nat :=
  fun q => if q ∈ pre N ch n then [] else (ch q).erase n

/-- The child lists after removing everything below `n`. -/
def dropBelow (N : Nat) (ch : Nat → List Nat) (n : Nat) : Nat → List Nat :=
  fun q => if q ∈ pre N ch n then [] else ch q

/-- Zeroing the first row of `n`. -/
theorem zero_count {l : List Row} {n i : Nat} (hn : n ≠ 0) (h : l.findIdx? (·.2 == n) = some i) (x : Nat) (hx : x ≠ 0) :
    (l.set i (0, 0)).countP (·.2 == x) = l.countP (·.2 == x) - [n].count x := by
  induction l generalizing i with
  | nil => cases h
  | cons r l ih =>
    rw [List.findIdx?_cons] at h
    by_cases hr : r.2 == n
    · rw [if_pos hr] at h
      cases h
      have hr : r.2 = n := by simpa using hr
      rw [List.set_cons_zero, List.countP_cons, List.countP_cons, List.count_singleton, hr]
      have : ((0 : Nat) == x) = false := by simpa using Ne.symm hx
      by_cases hnx : n = x
      · subst hnx; simp [Ne.symm hn]
      · simp [Ne.symm hx, hnx]
    · rw [if_neg hr] at h
      obtain ⟨j, hj, rfl⟩ := Option.map_eq_some_iff.1 h
      rw [List.set_cons_succ, List.countP_cons, List.countP_cons, ih hj, List.count_singleton]
      have hr : r.2 ≠ n := by simpa using hr
      by_cases hnx : n = x
      · subst hnx
        simp [hr]
      · simp [hnx]

theorem unlink_rows {n : Nat} {d d' : Dom} (hn : n ≠ 0) (h : unlinkNode n d = .ok d') :
    (∀ r ∈ d'.pc, r ∈ d.pc ∨ r = (0, 0)) ∧
    ∀ x, x ≠ 0 → d'.pc.countP (·.2 == x) = d.pc.countP (·.2 == x) - [n].count x := by
  unfold unlinkNode at h
  split at h
  · cases h
  · obtain ⟨⟨fc, pc⟩, h1, h2⟩ := Out.bind_eq_ok.1 h
    cases h2
    have hpc : (getParentNode n d = none ∧ pc = d.pc) ∨ ∃ i, getParentNode n d = some i ∧ pc = d.pc.set i (0, 0) := by
      unfold unlinkParent at h1
      split at h1
      · rename_i hnone
        cases h1
        exact Or.inl ⟨hnone, rfl⟩
      · rename_i i hi
        refine Or.inr ⟨i, hi, ?_⟩
        dsimp only at h1
        split at h1
        · cases h1
        · split at h1
          · split at h1 <;> (cases h1; rfl)
          · cases h1; rfl
    rcases hpc with ⟨hnone, rfl⟩ | ⟨i, hi, rfl⟩
    · refine ⟨fun r hr => Or.inl hr, fun x _ => ?_⟩
      show d.pc.countP (·.2 == x) = _
      rw [List.count_singleton]
      split
      · rename_i hnx
        have hnx : n = x := by simpa using hnx
        have : d.pc.countP (·.2 == x) = 0 := by
          rw [List.countP_eq_zero]
          rintro ⟨a, c⟩ hr hc
          have hc : c = x := by simpa using hc
          subst hc hnx
          exact findSnd_none.mp hnone a hr
        omega
      · rfl
    · exact ⟨fun r hr => mem_set_row hr, fun x hx => zero_count hn hi x hx⟩

theorem unlink_erase {d : Dom} {ch : Nat → List Nat} (h : LinkedD d ch) {p n : Nat} (hn : n ∈ ch p) :
    ∃ d', unlinkNode n d = .ok d' ∧ Dropped d d' [n] ∧ LinkedD d' (upd ch p ((ch p).erase n)) := by
  obtain ⟨l₁, l₂, he⟩ := List.append_of_mem hn
  obtain ⟨d', h1, ⟨fc, pc, nn, e⟩, h3⟩ := unlink_spec h he
  have hr := h.range p n hn
  have hrows := unlink_rows (by omega) h1
  refine ⟨d', h1, ⟨⟨_, _, _, _, e⟩, by rw [e]; simp, ?_, ?_, ?_, fun i hi => unlink_iso_mono h1 hi, hrows.1, hrows.2⟩, ?_⟩
  · intro i hi hlt
    simp at hi; subst hi
    rw [e]; simp [hlt]
  · intro i hi
    simp at hi
    rw [e]; simp [List.getElem?_set_ne (Ne.symm hi)]
  · intro i hi _
    simp at hi; subst hi
    obtain ⟨rank, hrank⟩ := h.nnUp
    exact unlink_iso_self h.nnG (fun a b hm ha e => by have := hrank a b hm ha; rw [e] at this; omega) (by omega) h1
  · have hnd := h.nodup p
    have : (ch p).erase n = l₁ ++ l₂ := by
      rw [he] at hnd ⊢
      rw [List.nodup_append] at hnd
      rw [List.erase_append_right _ (fun hx => hnd.2.2 n hx n (by simp) rfl)]
      simp
    rw [this]; exact h3

section
variable {N : Nat}

/-- Statement of the induction for `removeNodeF`. -/
def RemoveOK (N n : Nat) : Prop :=
  ∀ (d : Dom) (ch : Nat → List Nat) (p f : Nat), d.nodes.length = N → LinkedD d ch → n ∈ ch p → N - n < f →
    ∃ d', removeNodeF f n d = .ok d' ∧ Dropped d d' (pre N ch n) ∧ LinkedD d' (dropTree N ch n)

theorem mem_below {d : Dom} {ch : Nat → List Nat} (h : LinkedD d ch) {n c q : Nat} (hn : n < d.nodes.length)
    (hc : c ∈ ch n) (hq : q ∈ pre d.nodes.length ch c) : q ∈ pre d.nodes.length ch n := by
  rw [pre_eq h.up hn, List.mem_cons, List.mem_flatMap]
  exact Or.inr ⟨c, hc, hq⟩

/-- Subtrees of different children are disjoint. -/
theorem pre_disjoint {d : Dom} {ch : Nat → List Nat} (h : LinkedD d ch) {n c c' q : Nat}
    (hc : c ∈ ch n) (hc' : c' ∈ ch n) (hne : c ≠ c') (hq : q ∈ pre d.nodes.length ch c) :
    q ∉ pre d.nodes.length ch c' := by
  intro hq'
  have r := h.range n c hc
  have r' := h.range n c' hc'
  have l1 := (LiveC.mem_pre h.up r.2.2).mpr hq
  have l2 := (LiveC.mem_pre h.up r'.2.2).mpr hq'
  have : ∀ a b, a ∈ ch n → b ∈ ch n → a ≠ b → ¬LiveC ch a b := by
    intro a b ha hb hab hl
    have hr := h.range n b hb
    have hra := h.range n a ha
    cases hl with
    | root => exact hab rfl
    | child hp hcp =>
      have := h.uniq _ _ _ hcp hb
      subst this
      have := hp.ge h.up
      omega
  rcases LiveC.linear h.uniq l1 l2 with hh | hh
  · exact this c c' hc hc' hne hh
  · exact this c' c hc' hc (Ne.symm hne) hh

/-- The children loop. -/
theorem removeLoop {n : Nat} (ih : ∀ c, n < c → c < N → RemoveOK N c) :
    ∀ (l : List Nat) (d : Dom) (ch : Nat → List Nat) (k f : Nat), d.nodes.length = N → LinkedD d ch → n ≠ 0 →
      n < N → ch n = l → l.length < k → N - n ≤ f →
      ∃ d', removeChildrenLoop (removeNodeF f) n k d = .ok d' ∧ Dropped d d' (l.flatMap (pre N ch)) ∧
        LinkedD d' (dropBelow N ch n) := by
  intro l
  induction l with
  | nil =>
    intro d ch k f hN h hn0 hlt hc hk hf
    obtain ⟨k, rfl⟩ : ∃ k', k = k' + 1 := ⟨k - 1, by omega⟩
    unfold removeChildrenLoop
    rw [h.getFirstChild_eq hn0, hc]
    refine ⟨d, by simp, by simpa using Dropped.refl d, ?_⟩
    have : dropBelow N ch n = ch := by
      funext q
      unfold dropBelow
      rw [pre_eq (hN ▸ h.up) hlt, hc]
      simp
      rintro rfl; exact hc
    rw [this]; exact h
  | cons c l ihl =>
    intro d ch k f hN h hn0 hlt hc hk hf
    obtain ⟨k, rfl⟩ : ∃ k', k = k' + 1 := ⟨k - 1, by omega⟩
    unfold removeChildrenLoop
    have hcm : c ∈ ch n := by rw [hc]; simp
    have hcr := h.range n c hcm
    rw [h.getFirstChild_eq hn0, hc]
    rw [if_pos (by rw [List.headD_cons]; omega), List.headD_cons]
    obtain ⟨d1, e1, D1, L1⟩ := ih c hcr.1 (by omega) d ch n f hN h hcm (by omega)
    rw [e1]
    simp only [Out.bind_ok]
    have hN1 : d1.nodes.length = N := D1.len.trans hN
    have hnc : n ∉ pre N ch c := fun hx => by
      have := pre_ge (hN ▸ h.up) c (by omega) n hx; omega
    have hnd := h.nodup n
    rw [hc, List.nodup_cons] at hnd
    have hcn : dropTree N ch c n = l := by
      unfold dropTree
      rw [if_neg hnc, hc]; simp
    obtain ⟨d2, e2, D2, L2⟩ := ihl d1 (dropTree N ch c) k f hN1 L1 hn0 hlt hcn (by simp at hk; omega) hf
    refine ⟨d2, e2, ?_, ?_⟩
    · refine (D1.trans D2).congr ?_
      rw [List.flatMap_cons]
      have : l.flatMap (pre N (dropTree N ch c)) = l.flatMap (pre N ch) := by
        rw [List.flatMap_def, List.flatMap_def]
        congr 1
        apply List.map_congr_left
        intro c' hc'
        have hcm' : c' ∈ ch n := by rw [hc]; simp [hc']
        have hcr' := h.range n c' hcm'
        refine pre_congr (hN ▸ h.up) (hN1 ▸ L1.up) c' (by omega) ?_
        intro q hq
        have hne : c' ≠ c := by rintro rfl; exact hnd.1 hc'
        unfold dropTree
        rw [if_neg (by subst hN; exact pre_disjoint h hcm' hcm hne hq)]
        apply List.erase_of_not_mem
        intro hcq
        have := h.uniq _ _ _ hcq hcm
        subst this
        have := pre_ge (hN ▸ h.up) c' (by omega) q hq
        omega
      rw [this]
    · have : dropBelow N (dropTree N ch c) n = dropBelow N ch n := by
        funext q
        have hup := hN ▸ h.up
        have hup1 := hN1 ▸ L1.up
        have hpre : ∀ c' ∈ l, pre N (dropTree N ch c) c' = pre N ch c' := by
          intro c' hc'
          have hcm' : c' ∈ ch n := by rw [hc]; simp [hc']
          have hcr' := h.range n c' hcm'
          refine pre_congr hup hup1 c' (by omega) ?_
          intro q hq
          have hne : c' ≠ c := by rintro rfl; exact hnd.1 hc'
          unfold dropTree
          rw [if_neg (by subst hN; exact pre_disjoint h hcm' hcm hne hq)]
          apply List.erase_of_not_mem
          intro hcq
          have := h.uniq _ _ _ hcq hcm
          subst this
          have := pre_ge hup c' (by omega) q hq
          omega
        have e3 : pre N (dropTree N ch c) n = n :: l.flatMap (pre N ch) := by
          rw [pre_eq hup1 hlt, hcn]
          congr 1
          rw [List.flatMap_def, List.flatMap_def]
          congr 1
          exact List.map_congr_left hpre
        have e4 : pre N ch n = n :: (pre N ch c ++ l.flatMap (pre N ch)) := by
          rw [pre_eq hup hlt, hc, List.flatMap_cons]
        unfold dropBelow
        rw [e3, e4]
        simp only [List.mem_cons, List.mem_append]
        by_cases hqn : q = n
        · simp [hqn]
        · by_cases hql : q ∈ l.flatMap (pre N ch)
          · simp [hql]
          · by_cases hqc : q ∈ pre N ch c
            · simp [hqn, hql, hqc, dropTree]
            · simp only [hqn, hql, hqc, or_false, if_false]
              unfold dropTree
              rw [if_neg hqc]
              apply List.erase_of_not_mem
              intro hcq
              exact hqn (h.uniq _ _ _ hcq hcm)
      rw [← this]; exact L2

theorem removeOK : ∀ n, n < N → RemoveOK N n := by
  refine down_induction ?_
  intro n hlt ih d ch p f hN h hn hf
  obtain ⟨f, rfl⟩ : ∃ f', f = f' + 1 := ⟨f - 1, by omega⟩
  have hr := h.range p n hn
  have hup := hN ▸ h.up
  obtain ⟨d1, e1, D1, L1⟩ := removeLoop ih (ch n) d ch (d.nodes.length + 1) f hN h (by omega) hlt rfl
    (by have := h.length_lt n; omega) (by omega)
  unfold removeNodeF
  rw [e1]
  simp only [Out.bind_ok]
  have hpn : p ∉ pre N ch n := fun hx => by
    have := pre_ge hup n hlt p hx; omega
  have hn1 : n ∈ dropBelow N ch n p := by
    unfold dropBelow; rw [if_neg hpn]; exact hn
  obtain ⟨d2, e2, D2, L2⟩ := unlink_erase L1 hn1
  refine ⟨d2, e2, (D1.trans D2).congr ?_, ?_⟩
  · rw [pre_eq hup hlt]
    exact List.perm_append_comm
  · have : upd (dropBelow N ch n) p ((dropBelow N ch n p).erase n) = dropTree N ch n := by
      funext q
      unfold upd dropBelow dropTree
      rw [if_neg hpn]
      by_cases hq : q = p
      · subst hq; simp [hpn]
      · rw [if_neg hq]
        split
        · rfl
        · rw [List.erase_of_not_mem]
          intro hx
          exact hq (h.uniq _ _ _ hx hn)
    rw [← this]; exact L2

end

section
variable {d : Dom} {ch : Nat → List Nat}

/-- `removeNode` of a node that is in some child list. -/
theorem removeNode_spec (h : LinkedD d ch) {p n : Nat} (hn : n ∈ ch p) :
    ∃ d', removeNode n d = .ok d' ∧ Dropped d d' (pre d.nodes.length ch n) ∧
      LinkedD d' (dropTree d.nodes.length ch n) := by
  have hr := h.range p n hn
  exact removeOK n hr.2.2 d ch p _ rfl h hn (by omega)

/-- `removeChildren` of any node. -/
theorem removeChildren_spec (h : LinkedD d ch) {n : Nat} (hn : n ≠ 0) (hlt : n < d.nodes.length) :
    ∃ d', removeChildren n d = .ok d' ∧ Dropped d d' (pre d.nodes.length ch n).tail ∧
      LinkedD d' (dropBelow d.nodes.length ch n) := by
  obtain ⟨d', h1, h2, h3⟩ := removeLoop (N := d.nodes.length) (n := n) (fun c _ hc => removeOK c hc) (ch n) d ch
    (d.nodes.length + 1) (d.nodes.length + 1) rfl h hn hlt rfl (by have := h.length_lt n; omega) (by omega)
  refine ⟨d', h1, ?_, h3⟩
  rw [pre_eq h.up hlt]
  exact h2

/-- Removing a single node without children. -/
theorem removeNode_leaf (h : LinkedD d ch) {p n : Nat} (hn : n ∈ ch p) (hl : ch n = []) :
    ∃ d', removeNode n d = .ok d' ∧ Dropped d d' [n] ∧ LinkedD d' (upd ch p ((ch p).erase n)) := by
  have hr := h.range p n hn
  obtain ⟨d', h1, h2, h3⟩ := removeNode_spec h hn
  have hp : pre d.nodes.length ch n = [n] := by rw [pre_eq h.up hr.2.2, hl]; rfl
  rw [hp] at h2
  refine ⟨d', h1, h2, ?_⟩
  have : dropTree d.nodes.length ch n = upd ch p ((ch p).erase n) := by
    funext q
    unfold dropTree upd
    rw [hp]
    by_cases hq : q = p
    · subst hq; simp; omega
    · simp only [List.mem_singleton, hq, if_false]
      split
      · rename_i e; rw [e, hl]
      · rw [List.erase_of_not_mem]
        intro hx
        exact hq (h.uniq _ _ _ hx hn)
  rw [← this]; exact h3

end
end Flo
