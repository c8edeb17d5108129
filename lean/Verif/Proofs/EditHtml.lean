import Verif.Proofs.EditOps
/-!
# The editing functions on DOMs satisfying the invariant: replacement by text, fragments
-/
namespace Flo
open Spec

/-- The text of node `k` became `new`, nothing else changed. -/
structure Merged (d : Dom) (ch : Nat → List Nat) (k : Nat) (new : Str) (d' : Dom) : Prop where
  inv : DomI d' ch
  text : textOf d' k = some new
  attrs : pairs d' k = pairs d k ∧ bools d' k = bools d k
  others : ∀ m, m ≠ k → SameNode d d' m
  len : d'.nodes.length = d.nodes.length
  nn : d'.nn = d.nn

section
variable {d : Dom} {ch : Nat → List Nat}

theorem DomI.text_zero (h : DomI d ch) : textOf d 0 = none := by
  cases ht : textOf d 0 with
  | none => rfl
  | some s => have := typeOf_of_text ht; rw [h.zero] at this; cases this

theorem tryMerge_nn {i j : Nat} {a : Bool} {r : Bool × Dom} (h : tryMerge i j a d = .ok r) : r.2.nn = d.nn := by
  unfold tryMerge at h
  simp only [Out.bind_eq_ok] at h
  obtain ⟨nd, _, h⟩ := h
  split at h
  · simp only [Out.bind_eq_ok] at h
    obtain ⟨nd', _, t, _, d', h3, h4⟩ := h
    cases h4
    unfold addTextToTextNode at h3
    simp only [Out.bind_eq_ok] at h3
    obtain ⟨_, _, _, _, h5⟩ := h3
    cases h5
    rfl
  · cases h; rfl

theorem tryMerge_merged (h : DomI d ch) {i j p : Nat} {ti tj : Str} (hi2 : i ∈ ch p) (hi : textOf d i = some ti)
    (hj : textOf d j = some tj) (isAppend : Bool) :
    ∃ d', tryMerge i j isAppend d = .ok (true, d') ∧
      Merged d ch i (if isAppend then ti ++ [32] ++ tj else tj ++ [32] ++ ti) d' := by
  obtain ⟨d', e, i1, t1, s1, _, n1, a1, a2⟩ := tryMerge_text h (h.linked.range p i hi2).2.1 hi hj isAppend
  exact ⟨d', e, i1, t1, ⟨a1, a2⟩, s1, n1, tryMerge_nn e⟩

theorem tryMerge_kid (h : DomI d ch) {i j p : Nat} {tj : Str} (hi2 : i ∈ ch p) (hj : textOf d j = some tj)
    (isAppend : Bool) :
    (∃ ti d', textOf d i = some ti ∧ tryMerge i j isAppend d = .ok (true, d') ∧
      Merged d ch i (if isAppend then ti ++ [32] ++ tj else tj ++ [32] ++ ti) d') ∨
    (textOf d i = none ∧ tryMerge i j isAppend d = .ok (false, d)) := by
  rcases kid_cases h hi2 with ⟨ti, hti⟩ | ⟨hdoc, hnone⟩
  · obtain ⟨d', e, m⟩ := tryMerge_merged h hi2 hti hj isAppend
    exact Or.inl ⟨ti, d', hti, e, m⟩
  · exact Or.inr ⟨hnone, tryMerge_other hdoc (by simp) _⟩

theorem tryMergePrev_spec (h : DomI d ch) {p old new : Nat} {l₁ l₂ : List Nat} (he : ch p = l₁ ++ old :: l₂)
    {tn : Str} (ht : textOf d new = some tn) :
    (∃ tk d', textOf d (l₁.getLastD 0) = some tk ∧ tryMergePrev old new d = .ok (true, d') ∧
      Merged d ch (l₁.getLastD 0) (tk ++ [32] ++ tn) d') ∨
    (textOf d (l₁.getLastD 0) = none ∧ tryMergePrev old new d = .ok (false, d)) := by
  unfold tryMergePrev
  rcases h.linked.prev_cases he with ⟨rfl, e⟩ | ⟨m, a, v, rfl, e, e2⟩
  · rw [e]; exact Or.inr ⟨h.text_zero, rfl⟩
  · rw [e]
    have hv : (rowAt d.nn v).1 = a := by simp [rowAt, List.getD, e2]
    dsimp only
    rw [hv]
    have hl : (m ++ [a]).getLastD 0 = a := by simp
    rw [hl]
    rcases tryMerge_kid h (i := a) (p := p) (by rw [he]; simp) ht true with ⟨ti, d', h1, h2, h3⟩ | ⟨h1, h2⟩
    · exact Or.inl ⟨ti, d', h1, h2, h3⟩
    · exact Or.inr ⟨h1, h2⟩

theorem tryMergeNext_spec (h : DomI d ch) {p old new : Nat} {l₁ l₂ : List Nat} (he : ch p = l₁ ++ old :: l₂)
    {tn : Str} (ht : textOf d new = some tn) :
    (∃ tk d', textOf d (l₂.headD 0) = some tk ∧ tryMergeNext old new d = .ok (true, d') ∧
      Merged d ch (l₂.headD 0) (tn ++ [32] ++ tk) d') ∨
    (textOf d (l₂.headD 0) = none ∧ tryMergeNext old new d = .ok (false, d)) := by
  unfold tryMergeNext
  rcases h.linked.next_cases he with ⟨rfl, e⟩ | ⟨b, m, v, rfl, e, e2⟩
  · rw [e]; exact Or.inr ⟨h.text_zero, rfl⟩
  · rw [e]
    have hv : (rowAt d.nn v).2 = b := by simp [rowAt, List.getD, e2]
    dsimp only
    rw [hv]
    have hl : (b :: m).headD 0 = b := by simp
    rw [hl]
    rcases tryMerge_kid h (i := b) (p := p) (by rw [he]; simp) ht false with ⟨ti, d', h1, h2, h3⟩ | ⟨h1, h2⟩
    · exact Or.inl ⟨ti, d', h1, h2, h3⟩
    · exact Or.inr ⟨h1, h2⟩

/-- What `tryMergeBothSides` does to a text `new` and the siblings around `old`. -/
inductive Both (d : Dom) (ch : Nat → List Nat) (l₁ l₂ : List Nat) (tn : Str) : Bool × Dom → Prop
  | prev {tk : Str} {d' : Dom} : textOf d (l₁.getLastD 0) = some tk →
      Merged d ch (l₁.getLastD 0) (tk ++ [32] ++ tn) d' → Both d ch l₁ l₂ tn (true, d')
  | next {tk : Str} {d' : Dom} : textOf d (l₁.getLastD 0) = none → textOf d (l₂.headD 0) = some tk →
      Merged d ch (l₂.headD 0) (tn ++ [32] ++ tk) d' → Both d ch l₁ l₂ tn (true, d')
  | none : textOf d (l₁.getLastD 0) = none → textOf d (l₂.headD 0) = none → Both d ch l₁ l₂ tn (false, d)

theorem tryMergeBoth_spec (h : DomI d ch) {p old new : Nat} {l₁ l₂ : List Nat} (he : ch p = l₁ ++ old :: l₂)
    {tn : Str} (ht : textOf d new = some tn) :
    ∃ r, tryMergeBothSides old new d = .ok r ∧ Both d ch l₁ l₂ tn r := by
  unfold tryMergeBothSides
  simp only [Dom.node, textOf_eq.mp ht, Out.bind_ok, if_true]
  rcases tryMergePrev_spec h he ht with ⟨tk, d', h1, h2, h3⟩ | ⟨h1, h2⟩
  · rw [h2]
    simp only [Out.bind_ok, if_true]
    exact ⟨_, rfl, .prev h1 h3⟩
  · rw [h2]
    simp only [Out.bind_ok, Bool.false_eq_true, if_false]
    rcases tryMergeNext_spec h he ht with ⟨tk, d', h3, h4, h5⟩ | ⟨h3, h4⟩
    · exact ⟨_, h4, .next h1 h3 h5⟩
    · exact ⟨_, h4, .none h1 h3⟩

theorem tryMergeBoth_other {old new : Nat} {t : NodeType} (ht : typeOf d new = some t) (hne : t ≠ .text) :
    tryMergeBothSides old new d = .ok (false, d) := by
  obtain ⟨nd, h1, h2⟩ := typeOf_some ht
  unfold tryMergeBothSides
  simp [Dom.node, h1, h2, hne]

/-- A single text `tn` was merged into the sibling `k` and the node `old` removed with its subtree. -/
structure Absorbed (d : Dom) (ch : Nat → List Nat) (old k new : Nat) (text : Str) (d' : Dom) : Prop where
  inv : DomI d' (dropTree d.nodes.length ch old)
  text : textOf d' k = some text
  attrs : pairs d' k = pairs d k ∧ bools d' k = bools d k
  gone : ∀ m ∈ pre d.nodes.length ch old, typeOf d' m = some .removed
  temp : typeOf d' new = some .removed
  others : ∀ m, m ≠ k → m ≠ new → m ∉ pre d.nodes.length ch old → SameNode d d' m
  len : d'.nodes.length = d.nodes.length

/-- Neither sibling lies in the subtree of `old`. -/
theorem sibling_not_below (h : LinkedD d ch) {p old k : Nat} (ho : old ∈ ch p) (hk : k ∈ ch p) (hne : k ≠ old) :
    k ∉ pre d.nodes.length ch old := by
  intro hx
  have hr := h.range p old ho
  have hlive := (LiveC.mem_pre h.up hr.2.2).mpr hx
  have := (hlive.parent h.uniq hk hne).ge h.up
  omega

/-- `ch` with a floating leaf forgotten again. -/
theorem pre_upd_zero {N : Nat} (hu : Up N ch) {L : List Nat} {n : Nat} (hn : n ≠ 0)
    (hu' : Up N (upd ch 0 L)) (hlt : n < N) : pre N (upd ch 0 L) n = pre N ch n := by
  refine pre_congr hu hu' n hlt ?_
  intro q hq
  have := pre_ge hu n hlt q hq
  exact upd_ne (by omega)

theorem dropTree_upd {N : Nat} (hu : Up N ch) {L : List Nat} {n : Nat} (hn : n ≠ 0)
    (hu' : Up N (upd ch 0 L)) (hlt : n < N) (hL : n ∉ L) :
    dropTree N (upd ch 0 L) n = upd (dropTree N ch n) 0 L := by
  funext q
  unfold dropTree
  rw [pre_upd_zero hu hn hu' hlt]
  by_cases hq : q = 0
  · subst hq
    rw [upd_same]
    rw [if_neg, upd_same, List.erase_of_not_mem hL]
    intro hx
    have := pre_ge hu n hlt 0 hx
    omega
  · rw [upd_ne hq, upd_ne hq]

/-! ## First components of `nextNodes` rows -/

/-- Removing nodes leaves the first component of a row as it is or zeroes it. -/
def FirstsKept (nn nn' : List Row) : Prop := ∀ v, (rowAt nn' v).1 = (rowAt nn v).1 ∨ (rowAt nn' v).1 = 0

theorem FirstsKept.refl (nn : List Row) : FirstsKept nn nn := fun _ => Or.inl rfl

theorem FirstsKept.trans {a b c : List Row} (h : FirstsKept a b) (h' : FirstsKept b c) : FirstsKept a c := by
  intro v
  rcases h' v with e | e
  · rw [e]; exact h v
  · exact Or.inr e

theorem rowAt_set (l : List Row) (i j : Nat) (r : Row) (h : i < l.length) :
    rowAt (l.set i r) j = if i = j then r else rowAt l j := by
  unfold rowAt
  rw [List.getD_eq_getElem?_getD, List.getElem?_set]
  split
  · rename_i e; subst e; simp [h]
  · rw [List.getD_eq_getElem?_getD]

theorem FirstsKept.set (l : List Row) (i : Nat) (r : Row) (hr : r.1 = (rowAt l i).1 ∨ r.1 = 0) :
    FirstsKept l (l.set i r) := by
  intro v
  by_cases hi : i < l.length
  · rw [rowAt_set l i v r hi]
    split
    · rename_i e; subst e; exact hr
    · exact Or.inl rfl
  · rw [List.set_eq_of_length_le (by omega)]; exact Or.inl rfl

theorem unlinkPrev_firsts (n : Nat) (d : Dom) : FirstsKept d.nn (unlinkPrev n d) := by
  unfold unlinkPrev
  split
  · exact .refl _
  · split
    · exact .set _ _ _ (Or.inr rfl)
    · exact .set _ _ _ (Or.inl rfl)

theorem unlinkNode_firsts {n : Nat} {d d' : Dom} (h : unlinkNode n d = .ok d') : FirstsKept d.nn d'.nn := by
  unfold unlinkNode at h
  split at h
  · cases h
  · simp only [Out.bind_eq_ok] at h
    obtain ⟨⟨fc, pc⟩, _, h⟩ := h
    cases h
    show FirstsKept d.nn (unlinkNext n d)
    unfold unlinkNext
    split
    · exact unlinkPrev_firsts n d
    · exact (unlinkPrev_firsts n d).trans (.set _ _ _ (Or.inr rfl))

theorem removeLoop_firsts {rm : Nat → Dom → Out Dom}
    (hrm : ∀ n d d', rm n d = .ok d' → FirstsKept d.nn d'.nn) (n : Nat) : ∀ (k : Nat) (d d' : Dom),
    removeChildrenLoop rm n k d = .ok d' → FirstsKept d.nn d'.nn := by
  intro k
  induction k with
  | zero => intro d d' h; cases h
  | succ k ih =>
    intro d d' h
    unfold removeChildrenLoop at h
    dsimp only at h
    split at h
    · simp only [Out.bind_eq_ok] at h
      obtain ⟨d1, h1, h2⟩ := h
      exact (hrm _ _ _ h1).trans (ih _ _ h2)
    · cases h; exact .refl _

theorem removeNodeF_firsts : ∀ (f n : Nat) (d d' : Dom), removeNodeF f n d = .ok d' → FirstsKept d.nn d'.nn := by
  intro f
  induction f with
  | zero => intro n d d' h; cases h
  | succ f ih =>
    intro n d d' h
    unfold removeNodeF at h
    simp only [Out.bind_eq_ok] at h
    obtain ⟨d1, h1, h2⟩ := h
    exact (removeLoop_firsts ih n _ _ _ h1).trans (unlinkNode_firsts h2)

theorem removeNode_firsts {n : Nat} {d d' : Dom} (h : removeNode n d = .ok d') : FirstsKept d.nn d'.nn :=
  removeNodeF_firsts _ _ _ _ h

theorem Good.first_index {l : List Row} (h : Good l) {i j : Nat} (hi : (rowAt l i).1 ≠ 0)
    (he : (rowAt l i).1 = (rowAt l j).1) : i = j := by
  have some_of : ∀ i, (rowAt l i).1 ≠ 0 → ∃ hlt : i < l.length, rowAt l i = l[i] := by
    intro i hi
    have hlt : i < l.length := by
      by_contra hge
      apply hi
      unfold rowAt; rw [List.getD_eq_getElem?_getD, List.getElem?_eq_none (by omega)]; rfl
    refine ⟨hlt, ?_⟩
    unfold rowAt; rw [List.getD_eq_getElem?_getD, List.getElem?_eq_getElem hlt]; rfl
  obtain ⟨h1, e1⟩ := some_of i hi
  obtain ⟨h2, e2⟩ := some_of j (by rw [← he]; exact hi)
  rw [e1] at hi he
  rw [e2] at he
  have hp := List.pairwise_iff_getElem.mp h.inj
  by_contra hne
  have nz : l[i] ≠ (0, 0) := fun e => hi (by rw [e])
  have nz' : l[j] ≠ (0, 0) := fun e => hi (by rw [he, e])
  rcases Nat.lt_or_ge i j with hlt | hge
  · exact (hp i j h1 h2 hlt nz nz').1 he
  · exact (hp j i h2 h1 (by omega) nz' nz).1 he.symm

/-! ## A single text swallowed by a sibling -/

theorem absorb {d1 d2 : Dom} {c1 : Nat → List Nat} {N p old : Nat} {l₁ l₂ : List Nat} {tn : Str}
    (h : DomI d1 c1) (h0 : c1 0 = [N]) (hl : c1 N = []) (hp : p ≠ 0) (he : c1 p = l₁ ++ old :: l₂)
    (hb : Both d1 c1 l₁ l₂ tn (true, d2)) :
    ∃ d3 d4 k t, removeNode N d2 = .ok d3 ∧ removeNode old d3 = .ok d4 ∧
      Absorbed d1 (upd c1 0 []) old k N t d4 ∧
      ((∃ tk, textOf d1 (l₁.getLastD 0) = some tk ∧ k = l₁.getLastD 0 ∧ t = tk ++ [32] ++ tn) ∨
        (textOf d1 (l₁.getLastD 0) = none ∧ ∃ tk, textOf d1 (l₂.headD 0) = some tk ∧ k = l₂.headD 0 ∧
          t = tn ++ [32] ++ tk)) ∧
      (∀ v, getPreviousNode old d1 = some v → (rowAt d4.nn v).1 = if l₂ = [] then 0 else l₁.getLastD 0) := by
  have key : ∃ k t, Merged d1 c1 k t d2 ∧ k ∈ c1 p ∧ k ≠ old ∧
      ((∃ tk, textOf d1 (l₁.getLastD 0) = some tk ∧ k = l₁.getLastD 0 ∧ t = tk ++ [32] ++ tn) ∨
        (textOf d1 (l₁.getLastD 0) = none ∧ ∃ tk, textOf d1 (l₂.headD 0) = some tk ∧ k = l₂.headD 0 ∧
          t = tn ++ [32] ++ tk)) := by
    have hnd := h.linked.nodup p
    rw [he, List.nodup_append, List.nodup_cons] at hnd
    cases hb with
    | prev h1 h2 =>
      rename_i tk
      have hmem : l₁.getLastD 0 ∈ l₁ := getLastD_mem (by
        rintro rfl
        have := h.text_zero
        simp only [List.getLastD_nil] at h1
        rw [this] at h1; cases h1)
      exact ⟨_, _, h2, by rw [he]; exact List.mem_append_left _ hmem, fun e => hnd.2.2 _ hmem old (by simp) e,
        Or.inl ⟨tk, h1, rfl, rfl⟩⟩
    | next h1 h2 h3 =>
      rename_i tk
      have hmem : l₂.headD 0 ∈ l₂ := by
        cases l₂ with
        | nil =>
          have := h.text_zero
          simp only [List.headD_nil] at h2
          rw [this] at h2; cases h2
        | cons b l => simp
      exact ⟨_, _, h3, by rw [he]; exact List.mem_append_right _ (List.mem_cons_of_mem _ hmem), fun e => hnd.2.1.1 (e ▸ hmem),
        Or.inr ⟨h1, tk, h2, rfl, rfl⟩⟩
  obtain ⟨k, t, m, hk, hko, hcase⟩ := key
  have hN : N ∈ c1 0 := by rw [h0]; simp
  have hNr := h.linked.range 0 N hN
  have hold : old ∈ c1 p := by rw [he]; simp
  have hor := h.linked.range p old hold
  have hkN : k ≠ N := fun e => hp (h.linked.uniq p 0 k hk (e ▸ hN))
  have hoN : old ≠ N := fun e => hp (h.linked.uniq p 0 old hold (e ▸ hN))
  obtain ⟨d3, e3, i3, s3, g3, n3⟩ := dropLeaf m.inv (p := 0) (n := N) hN hl
  have hera : upd c1 0 ((c1 0).erase N) = upd c1 0 [] := by rw [h0]; simp
  rw [hera] at i3
  have hc : upd c1 0 [] p = c1 p := upd_ne hp
  obtain ⟨d4, e4, i4, s4, g4, n4⟩ := dropAll i3 (p := p) (n := old) (by rw [hc]; exact hold)
  have hlen : d3.nodes.length = d1.nodes.length := n3.trans m.len
  rw [hlen] at i4 s4 g4 n4
  have hu : Up d1.nodes.length (upd c1 0 []) := by rw [← hlen]; exact i3.linked.up
  have hkp : k ∉ pre d1.nodes.length (upd c1 0 []) old := by
    rw [← hlen]
    exact sibling_not_below i3.linked (p := p) (by rw [hc]; exact hold) (by rw [hc]; exact hk) hko
  have hNp : N ∉ pre d1.nodes.length (upd c1 0 []) old := by
    intro hx
    have hlive := (LiveC.mem_pre hu hor.2.2).mpr hx
    cases hlive with
    | root => exact hoN rfl
    | child hq hc' =>
      rename_i q
      by_cases hq0 : q = 0
      · subst hq0; simp at hc'
      · rw [upd_ne hq0] at hc'
        exact hq0 (h.linked.uniq q 0 N hc' hN)
  refine ⟨d3, d4, k, t, e3, e4, ⟨i4, ?_, ⟨?_, ?_⟩, g4, ?_, ?_, n4⟩, hcase, ?_⟩
  · rw [(s4 k hkp).text, (s3 k hkN).text]; exact m.text
  · rw [(s4 k hkp).pairs, (s3 k hkN).pairs]; exact m.attrs.1
  · rw [(s4 k hkp).bools, (s3 k hkN).bools]; exact m.attrs.2
  · rw [(s4 N hNp).type]; exact g3
  · intro q h1 h2 h3
    exact ((m.others q h1).trans (s3 q h2)).trans (s4 q h3)
  · intro v hv
    have hkept : FirstsKept d1.nn d4.nn := by
      have := (removeNode_firsts e3).trans (removeNode_firsts e4)
      rw [m.nn] at this; exact this
    rcases h.linked.prev_cases he with ⟨_, e⟩ | ⟨ms, a, v', e1, e2, e5⟩
    · rw [e] at hv; cases hv
    · rw [e2] at hv; cases hv
      have ha : a ∈ c1 p := by rw [he, e1]; simp
      have ha0 : a ≠ 0 := h.linked.pos ha
      have hva : (rowAt d1.nn v).1 = a := by simp [rowAt, List.getD, e5]
      have hnd := h.linked.nodup p
      rw [he, List.nodup_append, List.nodup_cons] at hnd
      have hpp : p ∉ pre d1.nodes.length (upd c1 0 []) old := by
        intro hx
        have := pre_ge hu old hor.2.2 p hx
        omega
      have hcp : dropTree d1.nodes.length (upd c1 0 []) old p = l₁ ++ l₂ := by
        unfold dropTree
        rw [if_neg hpp, hc, he, List.erase_append_right _ (fun hx => hnd.2.2 old hx old (by simp) rfl)]
        simp
      have hlast : l₁.getLastD 0 = a := by rw [e1]; simp
      rw [hlast]
      rcases hkept v with e | e
      · split
        · rename_i hnil
          exfalso
          rw [hnil, List.append_nil] at hcp
          have hno := i4.linked.no_next_last (p := p) (a := a) (by rw [hcp, e1]; simp)
          have hin : ((rowAt d4.nn v).1, (rowAt d4.nn v).2) ∈ d4.nn := by
            have hlt : v < d4.nn.length := by
              by_contra hge
              have : rowAt d4.nn v = (0, 0) := by
                unfold rowAt; rw [List.getD_eq_getElem?_getD, List.getElem?_eq_none (by omega)]; rfl
              rw [this] at e; rw [hva] at e; exact ha0 e.symm
            have : rowAt d4.nn v = d4.nn[v] := by
              unfold rowAt; rw [List.getD_eq_getElem?_getD, List.getElem?_eq_getElem hlt]; rfl
            rw [this]; exact List.getElem_mem hlt
          rw [e, hva] at hin
          exact hno _ hin
        · rw [e, hva]
      · split
        · exact e
        · rename_i hne
          exfalso
          obtain ⟨b, mm, rfl⟩ := List.exists_cons_of_ne_nil hne
          have hadj : Adj (dropTree d1.nodes.length (upd c1 0 []) old p) a b := by
            rw [hcp, e1]; exact adj_iff_split.mpr ⟨ms, mm, by simp⟩
          obtain ⟨j, hj1, hj2⟩ := i4.linked.nextNode hadj
          have hja : (rowAt d4.nn j).1 = a := by simp [rowAt, List.getD, hj2]
          have hjv : (rowAt d1.nn j).1 = a := by
            rcases hkept j with e' | e'
            · rw [← e', hja]
            · rw [hja] at e'; exact absurd e' ha0
          have hvj : v = j := Good.first_index h.linked.nnG (by rw [hva]; exact ha0) (by rw [hva, hjv])
          subst hvj
          rw [hja] at e
          exact ha0 e

/-- `Absorbed` seen from the DOM before the temporary text node was created. -/
structure Swallowed (d : Dom) (ch : Nat → List Nat) (old k : Nat) (text : Str) (d' : Dom) : Prop where
  inv : DomI d' (dropTree d.nodes.length ch old)
  text : textOf d' k = some text
  attrs : pairs d' k = pairs d k ∧ bools d' k = bools d k
  gone : ∀ m ∈ pre d.nodes.length ch old, typeOf d' m = some .removed
  temp : typeOf d' d.nodes.length = some .removed
  others : ∀ m, m ≠ k → m ≠ d.nodes.length → m ∉ pre d.nodes.length ch old → SameNode d d' m
  len : d'.nodes.length = d.nodes.length + 1

/-- A text took the place of `old`. -/
structure Replaced (d : Dom) (ch : Nat → List Nat) (p old : Nat) (L : List Nat) (text : Str) (d' : Dom) : Prop where
  inv : DomI d' (upd ch p L)
  text : textOf d' d.nodes.length = some text
  attrs : pairs d' d.nodes.length = [] ∧ bools d' d.nodes.length = []
  gone : typeOf d' old = some .removed
  others : ∀ m, m ≠ d.nodes.length → m ≠ old → SameNode d d' m
  len : d'.nodes.length = d.nodes.length + 1

theorem dropTree_mono {N M : Nat} (hu : Up N ch) (hNM : N ≤ M) {n : Nat} (hn : n < N) :
    dropTree M ch n = dropTree N ch n := by
  funext q
  unfold dropTree
  rw [pre_mono hu hNM hn]

theorem replaceText_spec (h : DomI d ch) (h0 : ch 0 = []) {p old : Nat} (hp : p ≠ 0) {l₁ l₂ : List Nat}
    (he : ch p = l₁ ++ old :: l₂) (text : Str) :
    Post NoUB (fun r => r.1 = d.nodes.length ∧
      ((∃ tk, textOf d (l₁.getLastD 0) = some tk ∧ Swallowed d ch old (l₁.getLastD 0) (tk ++ [32] ++ text) r.2) ∨
       (textOf d (l₁.getLastD 0) = none ∧ ∃ tk, textOf d (l₂.headD 0) = some tk ∧
          Swallowed d ch old (l₂.headD 0) (text ++ [32] ++ tk) r.2) ∨
       (textOf d (l₁.getLastD 0) = none ∧ textOf d (l₂.headD 0) = none ∧
          Replaced d ch p old (l₁ ++ d.nodes.length :: l₂) text r.2)))
      (replaceWithTextNode old text d) := by
  unfold replaceWithTextNode
  refine (mkText h h0 text).bindP ?_
  rintro ⟨id, d1⟩ ⟨m, h1, h2, h3⟩
  have hid := m.id
  dsimp only at hid h1 h2 h3 ⊢
  subst hid
  have htwo := h.linked.two
  rw [if_neg (by omega)]
  have hor := h.linked.range p old (by rw [he]; simp)
  have he1 : upd ch 0 [d.nodes.length] p = l₁ ++ old :: l₂ := by rw [m.ch_p hp]; exact he
  have hback : upd (upd ch 0 [d.nodes.length]) 0 [] = ch := by
    funext q; unfold upd; split
    · rename_i e; rw [e, h0]
    · rfl
  have hlen := m.len
  dsimp only at hlen
  -- siblings have the same text before and after the temporary node was made
  have ht1 : textOf d1 (l₁.getLastD 0) = textOf d (l₁.getLastD 0) := by
    apply (m.others _ _).text
    rcases List.eq_nil_or_concat' l₁ with rfl | ⟨ms, a, rfl⟩
    · simp; omega
    · have := h.linked.range p a (by rw [he]; simp)
      simp; omega
  have ht2 : textOf d1 (l₂.headD 0) = textOf d (l₂.headD 0) := by
    apply (m.others _ _).text
    cases l₂ with
    | nil => simp; omega
    | cons a l =>
      have := h.linked.range p a (by rw [he]; simp)
      simp; omega
  obtain ⟨⟨b, d2⟩, e2, hb⟩ := tryMergeBoth_spec m.inv (p := p) he1 h1
  rw [e2]
  simp only [Out.bind_ok]
  cases b with
  | true =>
    have hleaf : upd ch 0 [d.nodes.length] d.nodes.length = [] := by
      rw [upd_ne (by omega), List.eq_nil_iff_forall_not_mem]
      intro c hc
      have := h.linked.range _ _ hc; omega
    obtain ⟨d3, d4, k, t, e3, e4, ab, hcase, _⟩ := absorb m.inv (by simp) hleaf hp he1 hb
    simp only [if_true]
    rw [e3]; simp only [Out.bind_ok]
    rw [e4]; simp only [Out.bind_ok]
    have hpre : pre d1.nodes.length ch old = pre d.nodes.length ch old :=
      pre_mono h.linked.up (by omega) hor.2.2
    have hdrop : dropTree d1.nodes.length ch old = dropTree d.nodes.length ch old :=
      dropTree_mono h.linked.up (by omega) hor.2.2
    have hkk : k ≠ d.nodes.length := by
      rintro rfl
      have hx := ab.text
      have hy := ab.temp
      rw [typeOf_of_text hx] at hy; cases hy
    have fin : Swallowed d ch old k t d4 := by
      rw [hback] at ab
      refine ⟨by rw [← hdrop]; exact ab.inv, ab.text, ⟨?_, ?_⟩, by rw [← hpre]; exact ab.gone, ab.temp, ?_,
        by rw [ab.len]; exact hlen⟩
      · rw [ab.attrs.1]; exact (m.others k hkk).pairs
      · rw [ab.attrs.2]; exact (m.others k hkk).bools
      · intro q h1 h2 h3
        exact (m.others q h2).trans (ab.others q h1 h2 (by rw [hpre]; exact h3))
    refine ⟨rfl, ?_⟩
    rw [ht1, ht2] at hcase
    rcases hcase with ⟨tk, c1, c2, c3⟩ | ⟨c1, tk, c2, c3, c4⟩
    · subst c2 c3; exact Or.inl ⟨tk, c1, fin⟩
    · subst c3 c4; exact Or.inr (Or.inl ⟨c1, tk, c2, fin⟩)
  | false =>
    cases hb with
    | none n1 n2 =>
    simp only [Bool.false_eq_true, if_false]
    obtain ⟨d3, e, inv, same, hty, hn⟩ := linkReplace m.inv (p := p) (f0 := d.nodes.length) (F := []) (by simp) hp
      (old := old) he1 (by simp; omega)
    rw [e]
    rw [upd_float h0] at inv
    have hs := same d.nodes.length (by omega)
    refine ⟨rfl, Or.inr (Or.inr ⟨ht1 ▸ n1, ht2 ▸ n2, inv, hs.text.trans h1, ⟨hs.pairs.trans h2, hs.bools.trans h3⟩,
      hty, fun q hq hq' => (m.others q hq).trans (same q hq'), by rw [hn]; exact hlen⟩)⟩

/-! ## Fragments -/

/-- One new text `g` was merged into the old text `k`. -/
structure FragMerged (d1 : Dom) (ch' : Nat → List Nat) (k g : Nat) (text : Str) (d' : Dom) : Prop where
  inv : DomI d' ch'
  text : textOf d' k = some text
  attrs : pairs d' k = pairs d1 k ∧ bools d' k = bools d1 k
  gone : typeOf d' g = some .removed
  others : ∀ m, m ≠ k → m ≠ g → SameNode d1 d' m
  len : d'.nodes.length = d1.nodes.length

/-- All new nodes are linked in. -/
structure FragLinked (d1 : Dom) (ch' : Nat → List Nat) (d' : Dom) : Prop where
  inv : DomI d' ch'
  same : ∀ m, SameNode d1 d' m
  len : d'.nodes.length = d1.nodes.length

theorem lastNew {d1 : Dom} {c1 : Nat → List Nat} (h : LinkedD d1 c1) {N : Nat} {F : List Nat} (hF : c1 0 = N :: F) :
    getLastNext N d1 = .ok ((N :: F).getLastD 0) := by
  have := lastChild h (p := 0) hF
  rw [this, hF]

theorem Parsed.later {d d1 : Dom} {ch c1 : Nat → List Nat} (P : Parsed d ch d1 c1) {F : List Nat}
    (hF : c1 0 = d.nodes.length :: F) {c : Nat} (hc : c ∈ F) : d.nodes.length < c := by
  have h1 := P.mem0 (c := c) (by rw [hF]; exact List.mem_cons_of_mem _ hc)
  have := P.inv.linked.nodup 0
  rw [hF, List.nodup_cons] at this
  have : c ≠ d.nodes.length := fun e => this.1 (e ▸ hc)
  omega

theorem Parsed.lastNew_gt {d d1 : Dom} {ch c1 : Nat → List Nat} (P : Parsed d ch d1 c1) {F : List Nat}
    (hF : c1 0 = d.nodes.length :: F) : (d.nodes.length :: F).getLastD 0 > d.nodes.length ↔ F ≠ [] := by
  constructor
  · rintro h rfl
    simp at h
  · intro hne
    apply P.later hF
    rw [List.getLastD_cons]
    obtain ⟨a, l, rfl⟩ := List.exists_cons_of_ne_nil hne
    rw [List.getLastD_cons]
    have : (a :: l).getLastD 0 ∈ a :: l := getLastD_mem (by simp)
    rwa [List.getLastD_cons] at this

theorem Parsed.kid0 {d d1 : Dom} {ch c1 : Nat → List Nat} (P : Parsed d ch d1 c1) {c : Nat} (hc : c ∈ c1 0) :
    (∃ t, textOf d1 c = some t) ∨ (typeOf d1 c = some .document ∧ textOf d1 c = none) := kid_cases P.inv hc

theorem upd_zero_ne {c1 : Nat → List Nat} {p : Nat} (hp : p ≠ 0) (A B L : List Nat) :
    upd (upd (upd c1 0 A) 0 B) p L = upd (upd c1 0 B) p L := by
  funext q; unfold upd; split
  · rfl
  · split <;> rfl

theorem upd_zero_self {c1 : Nat → List Nat} {p : Nat} (hp : p ≠ 0) :
    upd (upd c1 0 []) p (c1 p) = upd c1 0 [] := by
  funext q; unfold upd; split
  · rename_i e; subst e; simp [hp]
  · rfl

/-- `removeNode` of a floating text. -/
theorem dropNew {d1 : Dom} {c1 : Nat → List Nat} (h : DomI d1 c1) {g : Nat} (hg : g ∈ c1 0) (hl : c1 g = []) :
    ∃ d', removeNode g d1 = .ok d' ∧ DomI d' (upd c1 0 ((c1 0).erase g)) ∧
      (∀ m, m ≠ g → SameNode d1 d' m) ∧ typeOf d' g = some .removed ∧ d'.nodes.length = d1.nodes.length :=
  dropLeaf h hg hl

/-- A floating text is merged into an old one and removed. -/
theorem mergeNew {d1 : Dom} {c1 : Nat → List Nat} (h : DomI d1 c1) {g k p : Nat} (hg : g ∈ c1 0) (hl : c1 g = [])
    (hp : p ≠ 0) (hk : k ∈ c1 p) {tk tg : Str} (htk : textOf d1 k = some tk) (htg : textOf d1 g = some tg) (app : Bool) :
    ∃ d2 d3, tryMerge k g app d1 = .ok (true, d2) ∧ DomI d2 c1 ∧ removeNode g d2 = .ok d3 ∧
      FragMerged d1 (upd c1 0 ((c1 0).erase g)) k g (if app then tk ++ [32] ++ tg else tg ++ [32] ++ tk) d3 := by
  obtain ⟨d2, e2, m⟩ := tryMerge_merged h hk htk htg app
  obtain ⟨d3, e3, i3, s3, g3, n3⟩ := dropNew m.inv hg hl
  have hkg : k ≠ g := fun e => hp (h.linked.uniq p 0 k hk (e ▸ hg))
  refine ⟨d2, d3, e2, m.inv, e3, i3, (s3 k hkg).text.trans m.text, ⟨(s3 k hkg).pairs.trans m.attrs.1,
    (s3 k hkg).bools.trans m.attrs.2⟩, g3, fun q h1 h2 => (m.others q h1).trans (s3 q h2), n3.trans m.len⟩

theorem FragMerged.link {d1 d2 d3 : Dom} {c c' : Nat → List Nat} {k g : Nat} {t : Str}
    (m : FragMerged d1 c k g t d2) (hi : DomI d3 c') (hs : ∀ q, SameNode d2 d3 q) (hn : d3.nodes.length = d2.nodes.length) :
    FragMerged d1 c' k g t d3 :=
  ⟨hi, (hs k).text.trans m.text, ⟨(hs k).pairs.trans m.attrs.1, (hs k).bools.trans m.attrs.2⟩,
    (hs g).type.trans m.gone, fun q h1 h2 => (m.others q h1 h2).trans (hs q), hn.trans m.len⟩

variable {d1 : Dom} {c1 : Nat → List Nat} {F : List Nat} {p : Nat}

theorem appendHTML_ok {junk : Nat → Out Bool} {html : Str} {r : ParseRes} (hr : parseExtra junk html d = .ok r)
    (hok : r.ok = true) (P : Parsed d ch r.dom c1)
    (hleaf : ∀ q, d.nodes.length ≤ q → typeOf r.dom q = some .text → c1 q = [])
    (hF : c1 0 = d.nodes.length :: F) (hp : p ≠ 0) (hlt : p < d.nodes.length) :
    (∃ tk tn d', textOf r.dom ((c1 p).getLastD 0) = some tk ∧ textOf r.dom d.nodes.length = some tn ∧
      appendHTML junk p html d = .ok (F.headD ((c1 p).getLastD 0), d') ∧
      FragMerged r.dom (upd (upd c1 0 []) p (c1 p ++ F)) ((c1 p).getLastD 0) d.nodes.length (tk ++ [32] ++ tn) d') ∨
    ((textOf r.dom ((c1 p).getLastD 0) = none ∨ textOf r.dom d.nodes.length = none) ∧
      ∃ d', appendHTML junk p html d = .ok (d.nodes.length, d') ∧
      FragLinked r.dom (upd (upd c1 0 []) p (c1 p ++ d.nodes.length :: F)) d') := by
  have hN : d.nodes.length ∈ c1 0 := by rw [hF]; simp
  have hltF : ∀ c ∈ c1 0, p < c := fun c hc => by have := (P.mem0 hc).1; omega
  obtain ⟨da, ea, ia, sa, na⟩ := linkAppend P.inv hF hp hltF
  have full : FragLinked r.dom (upd (upd c1 0 []) p (c1 p ++ d.nodes.length :: F)) da := ⟨ia, sa, by rw [na]⟩
  unfold appendHTML
  rw [hr]
  simp only [Out.bind_ok, hok, Bool.not_true, Bool.false_eq_true, if_false]
  rw [P.inv.linked.getFirstChild_eq hp, lastNew P.inv.linked hF]
  cases hc : c1 p with
  | nil =>
    rw [if_neg (by simp), ea]
    rw [hc] at full
    simp only [Out.bind_ok]
    exact Or.inr ⟨Or.inl (by simpa using P.inv.text_zero), _, rfl, full⟩
  | cons c l =>
    have hcm : c ∈ c1 p := by rw [hc]; simp
    have hcr := P.inv.linked.range p c hcm
    rw [if_pos (by simp; omega)]
    have hlast := lastChild P.inv.linked (p := p) hc
    have hmem : (c1 p).getLastD 0 ∈ c1 p := getLastD_mem (by rw [hc]; simp)
    rw [List.headD_cons, hlast]
    rw [← hc]
    simp only [Out.bind_ok]
    have hnode : ∃ nd, r.dom.nodes[d.nodes.length]? = some nd := by
      obtain ⟨nd, h1, _⟩ := P.inv.getType hN; exact ⟨nd, h1⟩
    obtain ⟨nd, hnd⟩ := hnode
    simp only [Dom.node, hnd, Out.bind_ok]
    have hgt := P.lastNew_gt hF
    rcases P.kid0 hN with ⟨tn, htn⟩ | ⟨hdoc, hnone⟩
    · have hndt : nd.type = .text := by
        have := typeOf_of_text htn; rw [typeOf_eq hnd] at this; simpa using this
      have hl := hleaf _ (Nat.le_refl _) (typeOf_of_text htn)
      simp only [hndt, if_true]
      rcases kid_cases P.inv hmem with ⟨tk, htk⟩ | ⟨hkdoc, hknone⟩
      · left
        obtain ⟨d2, d3, e2, i2, e3, m⟩ := mergeNew P.inv hN hl hp hmem htk htn true
        rw [hF, List.erase_cons_head] at m
        refine ⟨tk, tn, ?_⟩
        by_cases hFn : F = []
        · subst hFn
          rw [if_neg (fun hx => hgt.mp hx rfl), e2]
          simp only [Out.bind_ok, if_true, e3]
          refine ⟨_, htk, htn, rfl, ?_⟩
          rw [List.append_nil, upd_zero_self hp]
          exact m
        · rw [if_pos (hgt.mpr hFn), e2]
          simp only [Out.bind_ok, if_true]
          obtain ⟨f, F', rfl⟩ := List.exists_cons_of_ne_nil hFn
          have hnext : getNext d.nodes.length d2 = f :=
            i2.linked.getNext_eq (p := 0) (by rw [hF]; simp [Adj])
          rw [hnext, e3]
          simp only [Out.bind_ok]
          obtain ⟨d4, e4, i4, s4, n4⟩ := linkAppend m.inv (p := p) (f0 := f) (F := F') (by simp) hp
            (by
              intro c hc
              rw [upd_same] at hc
              have := P.later hF hc; omega)
          rw [e4]
          simp only [Out.bind_ok]
          refine ⟨_, htk, htn, rfl, m.link ?_ s4 (by rw [n4])⟩
          rw [upd_zero_ne hp, upd_ne hp] at i4
          exact i4
      · right
        rw [tryMerge_other hkdoc (by simp)]
        simp only [Out.bind_ok, Bool.false_eq_true, if_false, ea]
        exact ⟨Or.inl hknone, _, by split <;> rfl, full⟩
    · right
      have hndt : nd.type = .document := by rw [typeOf_eq hnd] at hdoc; simpa using hdoc
      simp only [hndt, ea, Out.bind_ok]
      exact ⟨Or.inr hnone, _, by split <;> rfl, full⟩

theorem erase_last {l : List Nat} (hn : l.Nodup) (hne : l ≠ []) : l.erase (l.getLastD 0) = l.dropLast := by
  rcases List.eq_nil_or_concat' l with rfl | ⟨m, a, rfl⟩
  · exact absurd rfl hne
  · rw [List.nodup_append] at hn
    have : a ∉ m := fun hx => hn.2.2 a hx a (by simp) rfl
    simp [List.erase_append_right _ this]

theorem prependHTML_ok {junk : Nat → Out Bool} {html : Str} {r : ParseRes} (hr : parseExtra junk html d = .ok r)
    (hok : r.ok = true) (P : Parsed d ch r.dom c1)
    (hleaf : ∀ q, d.nodes.length ≤ q → typeOf r.dom q = some .text → c1 q = [])
    (hF : c1 0 = d.nodes.length :: F) (hp : p ≠ 0) (hlt : p < d.nodes.length) :
    (∃ tk tn d', textOf r.dom ((c1 p).headD 0) = some tk ∧
      textOf r.dom ((d.nodes.length :: F).getLastD 0) = some tn ∧
      prependHTML junk p html d = .ok ((d.nodes.length :: F).dropLast.headD ((c1 p).headD 0), d') ∧
      FragMerged r.dom (upd (upd c1 0 []) p ((d.nodes.length :: F).dropLast ++ c1 p)) ((c1 p).headD 0)
        ((d.nodes.length :: F).getLastD 0) (tn ++ [32] ++ tk) d') ∨
    ((textOf r.dom ((c1 p).headD 0) = none ∨ textOf r.dom ((d.nodes.length :: F).getLastD 0) = none) ∧
      ∃ d', prependHTML junk p html d = .ok (d.nodes.length, d') ∧
      FragLinked r.dom (upd (upd c1 0 []) p (d.nodes.length :: F ++ c1 p)) d') := by
  have hN : d.nodes.length ∈ c1 0 := by rw [hF]; simp
  have hltF : ∀ c ∈ c1 0, p < c := fun c hc => by have := (P.mem0 hc).1; omega
  obtain ⟨da, ea, ia, sa, na⟩ := linkPrepend P.inv hF hp hltF
  have full : FragLinked r.dom (upd (upd c1 0 []) p (d.nodes.length :: F ++ c1 p)) da := ⟨ia, sa, by rw [na]⟩
  unfold prependHTML
  rw [hr]
  simp only [Out.bind_ok, hok, Bool.not_true, Bool.false_eq_true, if_false]
  rw [P.inv.linked.getFirstChild_eq hp, lastNew P.inv.linked hF]
  cases hc : c1 p with
  | nil =>
    rw [if_neg (by simp), ea]
    rw [hc] at full
    simp only [Out.bind_ok]
    exact Or.inr ⟨Or.inl (by simpa using P.inv.text_zero), _, rfl, full⟩
  | cons c l =>
    have hcm : c ∈ c1 p := by rw [hc]; simp
    have hcr := P.inv.linked.range p c hcm
    rw [if_pos (by simp; omega)]
    rw [List.headD_cons]
    rw [← hc]
    simp only [Out.bind_ok]
    have hgt := P.lastNew_gt hF
    have hlastmem : (d.nodes.length :: F).getLastD 0 ∈ c1 0 := by rw [hF]; exact getLastD_mem (by simp)
    have hera : (c1 0).erase ((d.nodes.length :: F).getLastD 0) = (d.nodes.length :: F).dropLast := by
      have := P.inv.linked.nodup 0
      rw [hF] at this ⊢
      exact erase_last this (by simp)
    have hone : F = [] → (d.nodes.length :: F).getLastD 0 = d.nodes.length := by rintro rfl; rfl
    have hge : d.nodes.length ≤ (d.nodes.length :: F).getLastD 0 := (P.mem0 hlastmem).1
    generalize hla : (d.nodes.length :: F).getLastD 0 = la at *
    obtain ⟨nd, hnd, _⟩ := P.inv.getType hlastmem
    simp only [Dom.node, hnd, Out.bind_ok]
    rcases P.kid0 hlastmem with ⟨tn, htn⟩ | ⟨hdoc, hnone⟩
    · have hndt : nd.type = .text := by
        have := typeOf_of_text htn; rw [typeOf_eq hnd] at this; simpa using this
      have hl := hleaf _ hge (typeOf_of_text htn)
      simp only [hndt, if_true]
      rcases kid_cases P.inv hcm with ⟨tk, htk⟩ | ⟨hkdoc, hknone⟩
      · left
        obtain ⟨d2, d3, e2, i2, e3, m⟩ := mergeNew P.inv hlastmem hl hp hcm htk htn false
        rw [hera] at m
        refine ⟨tk, tn, ?_⟩
        by_cases hFn : F = []
        · have e1 := hone hFn
          subst e1 hFn
          rw [if_neg (fun hx => hgt.mp hx rfl)]
          simp only [hnd, Out.bind_ok, hndt, if_true, e2, e3]
          refine ⟨_, htk, htn, rfl, ?_⟩
          simp only [List.dropLast_singleton, List.nil_append] at m ⊢
          rw [upd_zero_self hp]
          exact m
        · rw [if_pos (hgt.mpr hFn), e2]
          simp only [Out.bind_ok, if_true]
          rw [e3]
          simp only [Out.bind_ok]
          have hdl : (d.nodes.length :: F).dropLast = d.nodes.length :: F.dropLast := by
            obtain ⟨f, F', rfl⟩ := List.exists_cons_of_ne_nil hFn; simp
          rw [hdl] at m ⊢
          obtain ⟨d4, e4, i4, s4, n4⟩ := linkPrepend m.inv (p := p) (f0 := d.nodes.length) (F := F.dropLast) (by simp) hp
            (by
              intro c hc
              rw [upd_same, ← hdl] at hc
              exact hltF c (by rw [hF]; exact List.dropLast_subset _ hc))
          rw [e4]
          simp only [Out.bind_ok]
          refine ⟨_, htk, htn, rfl, m.link ?_ s4 (by rw [n4])⟩
          rw [upd_zero_ne hp, upd_ne hp] at i4
          exact i4
      · right
        rw [tryMerge_other hkdoc (by simp)]
        simp only [Out.bind_ok, Bool.false_eq_true, if_false, ea]
        refine ⟨Or.inl hknone, _, ?_, full⟩
        by_cases hFn : F = []
        · have e1 := hone hFn
          subst e1 hFn
          rw [if_neg (fun hx => hgt.mp hx rfl)]
          simp only [hnd, Out.bind_ok, hndt, if_true]
          rw [tryMerge_other hkdoc (by simp)]
          simp only [Out.bind_ok, Bool.false_eq_true, if_false, ea]
        · rw [if_pos (hgt.mpr hFn)]
    · right
      have hndt : nd.type = .document := by rw [typeOf_eq hnd] at hdoc; simpa using hdoc
      refine ⟨Or.inr hnone, da, ?_, full⟩
      by_cases hFn : F = []
      · have e1 := hone hFn
        subst e1 hFn
        rw [if_neg (fun hx => hgt.mp hx rfl)]
        simp [hnd, hndt, ea]
      · rw [if_pos (hgt.mpr hFn)]
        simp [hndt, ea]

/-- The first floating node `g` (of `g :: F`) is merged into the text `k`, or not. -/
def FirstStep (d1 : Dom) (c1 : Nat → List Nat) (k g : Nat) (F L : List Nat) (d2 : Dom) : Prop :=
  (∃ tk tg, textOf d1 k = some tk ∧ textOf d1 g = some tg ∧ L = F ∧
    FragMerged d1 (upd c1 0 F) k g (tk ++ [32] ++ tg) d2) ∨
  ((textOf d1 k = none ∨ textOf d1 g = none) ∧ L = g :: F ∧ d2 = d1)

/-- The last floating node of `L` is merged into the text `k`, or not. -/
def LastStep (d2 : Dom) (c2 : Nat → List Nat) (k : Nat) (L L' : List Nat) (d3 : Dom) : Prop :=
  (∃ tk tg, textOf d2 k = some tk ∧ textOf d2 (L.getLastD 0) = some tg ∧ L' = L.dropLast ∧
    FragMerged d2 (upd c2 0 L.dropLast) k (L.getLastD 0) (tg ++ [32] ++ tk) d3) ∨
  ((textOf d2 k = none ∨ textOf d2 (L.getLastD 0) = none) ∧ L' = L ∧ d3 = d2)

theorem replaceMergeFirst_spec (h : DomI d1 c1) {N old : Nat} {l₁ l₂ : List Nat} (hF : c1 0 = N :: F) (hp : p ≠ 0)
    (he : c1 p = l₁ ++ old :: l₂) (hleaf : typeOf d1 N = some .text → c1 N = []) (hFn : F ≠ []) :
    ∃ L d2, replaceMergeFirst old N d1 = .ok (L.headD 0, d2) ∧ FirstStep d1 c1 (l₁.getLastD 0) N F L d2 := by
  have hN : N ∈ c1 0 := by rw [hF]; simp
  unfold replaceMergeFirst
  obtain ⟨nd, hnd, _⟩ := h.getType hN
  simp only [Dom.node, hnd, Out.bind_ok]
  rcases kid_cases h hN with ⟨tn, htn⟩ | ⟨hdoc, hnone⟩
  · have hndt : nd.type = .text := by
      have := typeOf_of_text htn; rw [typeOf_eq hnd] at this; simpa using this
    simp only [hndt, if_true]
    rcases tryMergePrev_spec h he htn with ⟨tk, d', h1, h2, m⟩ | ⟨h1, h2⟩
    · rw [h2]
      simp only [Out.bind_ok, if_true]
      obtain ⟨f, F', rfl⟩ := List.exists_cons_of_ne_nil hFn
      have hnext : getNext N d' = f := m.inv.linked.getNext_eq (p := 0) (by rw [hF]; simp [Adj])
      obtain ⟨d3, e3, i3, s3, g3, n3⟩ := dropNew m.inv hN (hleaf (typeOf_of_text htn))
      rw [hF, List.erase_cons_head] at i3
      rw [hnext, e3]
      simp only [Out.bind_ok]
      have hkm : l₁.getLastD 0 ∈ c1 p := by
        rw [he]
        refine List.mem_append_left _ (getLastD_mem ?_)
        rintro rfl
        simp only [List.getLastD_nil] at h1
        rw [h.text_zero] at h1; cases h1
      have hkN : l₁.getLastD 0 ≠ N := fun e => hp (h.linked.uniq p 0 _ hkm (e ▸ hN))
      refine ⟨f :: F', d3, rfl, Or.inl ⟨tk, tn, h1, htn, rfl, i3, ?_, ⟨?_, ?_⟩, g3, ?_, n3.trans m.len⟩⟩
      · exact (s3 _ hkN).text.trans m.text
      · exact (s3 _ hkN).pairs.trans m.attrs.1
      · exact (s3 _ hkN).bools.trans m.attrs.2
      · exact fun q h1 h2 => (m.others q h1).trans (s3 q h2)
    · rw [h2]
      simp only [Out.bind_ok, Bool.false_eq_true, if_false]
      exact ⟨N :: F, d1, rfl, Or.inr ⟨Or.inl h1, rfl, rfl⟩⟩
  · have hndt : nd.type = .document := by rw [typeOf_eq hnd] at hdoc; simpa using hdoc
    rw [if_neg (by rw [hndt]; simp)]
    exact ⟨N :: F, d1, rfl, Or.inr ⟨Or.inr hnone, rfl, rfl⟩⟩

theorem replaceMergeLast_spec {d2 : Dom} {c2 : Nat → List Nat} (h : DomI d2 c2) {old : Nat} {L l₁ l₂ : List Nat}
    (hF : c2 0 = L) (hL : L ≠ []) (hp : p ≠ 0) (he : c2 p = l₁ ++ old :: l₂)
    (hleaf : typeOf d2 (L.getLastD 0) = some .text → c2 (L.getLastD 0) = []) :
    ∃ L' d3, replaceMergeLast old (L.getLastD 0) d2 = .ok d3 ∧ LastStep d2 c2 (l₂.headD 0) L L' d3 := by
  have hera : (c2 0).erase (L.getLastD 0) = L.dropLast := by
    have := h.linked.nodup 0
    rw [hF] at this ⊢
    exact erase_last this hL
  have hN : L.getLastD 0 ∈ c2 0 := by rw [hF]; exact getLastD_mem hL
  unfold replaceMergeLast LastStep
  generalize L.getLastD 0 = la at *
  obtain ⟨nd, hnd, _⟩ := h.getType hN
  simp only [Dom.node, hnd, Out.bind_ok]
  rcases kid_cases h hN with ⟨tn, htn⟩ | ⟨hdoc, hnone⟩
  · have hndt : nd.type = .text := by
      have := typeOf_of_text htn; rw [typeOf_eq hnd] at this; simpa using this
    simp only [hndt, if_true]
    rcases tryMergeNext_spec h he htn with ⟨tk, d', h1, h2, m⟩ | ⟨h1, h2⟩
    · rw [h2]
      simp only [Out.bind_ok, if_true]
      obtain ⟨d3, e3, i3, s3, g3, n3⟩ := dropNew m.inv hN (hleaf (typeOf_of_text htn))
      rw [hera] at i3
      have hkm : l₂.headD 0 ∈ c2 p := by
        rw [he]
        cases l₂ with
        | nil => rw [List.headD_nil, h.text_zero] at h1; cases h1
        | cons b l => simp
      have hkN : l₂.headD 0 ≠ la := fun e => hp (h.linked.uniq p 0 _ hkm (e ▸ hN))
      refine ⟨L.dropLast, d3, e3, Or.inl ⟨tk, tn, h1, htn, rfl, i3, ?_, ⟨?_, ?_⟩, g3, ?_, n3.trans m.len⟩⟩
      · exact (s3 _ hkN).text.trans m.text
      · exact (s3 _ hkN).pairs.trans m.attrs.1
      · exact (s3 _ hkN).bools.trans m.attrs.2
      · exact fun q h1 h2 => (m.others q h1).trans (s3 q h2)
    · rw [h2]
      simp only [Out.bind_ok, Bool.false_eq_true, if_false]
      exact ⟨L, d2, rfl, Or.inr ⟨Or.inl h1, rfl, rfl⟩⟩
  · have hndt : nd.type = .document := by rw [typeOf_eq hnd] at hdoc; simpa using hdoc
    rw [if_neg (by rw [hndt]; simp)]
    exact ⟨L, d2, rfl, Or.inr ⟨Or.inr hnone, rfl, rfl⟩⟩

theorem FirstStep.inv {k g : Nat} {L : List Nat} {d2 : Dom} (h : FirstStep d1 c1 k g F L d2) (hd : DomI d1 c1)
    (hF : c1 0 = g :: F) : DomI d2 (upd c1 0 L) := by
  rcases h with ⟨_, _, _, _, rfl, m⟩ | ⟨_, rfl, rfl⟩
  · exact m.inv
  · rw [← hF, upd_self]; exact hd

theorem LastStep.inv {d2 : Dom} {c2 : Nat → List Nat} {k : Nat} {L L' : List Nat} {d3 : Dom}
    (h : LastStep d2 c2 k L L' d3) (hd : DomI d2 c2) (hF : c2 0 = L) : DomI d3 (upd c2 0 L') := by
  rcases h with ⟨_, _, _, _, rfl, m⟩ | ⟨_, rfl, rfl⟩
  · exact m.inv
  · rw [← hF, upd_self]; exact hd

theorem upd_upd_zero (A B : List Nat) : upd (upd c1 0 A) 0 B = upd c1 0 B := by
  funext q; unfold upd; split <;> rfl

/-- Replacement by a fragment with at least two top-level nodes, not all of which are merged away. -/
theorem replaceHTML_multi {junk : Nat → Out Bool} {html : Str} {r : ParseRes} (hr : parseExtra junk html d = .ok r)
    (hok : r.ok = true) (P : Parsed d ch r.dom c1)
    (hleaf : ∀ q, d.nodes.length ≤ q → typeOf r.dom q = some .text → c1 q = [])
    (hF : c1 0 = d.nodes.length :: F) (hp : p ≠ 0) {old : Nat} {l₁ l₂ : List Nat} (hold : old < d.nodes.length)
    (he : c1 p = l₁ ++ old :: l₂) (hFn : F ≠ [])
    (hsome : ∀ d2 d3, FirstStep r.dom c1 (l₁.getLastD 0) d.nodes.length F F d2 →
      ¬LastStep d2 (upd c1 0 F) (l₂.headD 0) F [] d3) :
    ∃ L d2 L' d3 d', FirstStep r.dom c1 (l₁.getLastD 0) d.nodes.length F L d2 ∧
      LastStep d2 (upd c1 0 L) (l₂.headD 0) L L' d3 ∧ L' ≠ [] ∧ L.headD 0 = L'.headD 0 ∧
      replaceWithHTML junk old html d = .ok (L'.headD 0, d') ∧
      DomI d' (upd (upd c1 0 []) p (l₁ ++ L' ++ l₂)) ∧
      (∀ m, m ≠ old → SameNode d3 d' m) ∧ typeOf d' old = some .removed ∧
      d'.nodes.length = r.dom.nodes.length := by
  have hN : d.nodes.length ∈ c1 0 := by rw [hF]; simp
  have hpo := P.inv.linked.range p old (by rw [he]; simp)
  have hltF : ∀ c ∈ c1 0, p < c := fun c hc => by have := (P.mem0 hc).1; omega
  unfold replaceWithHTML
  rw [hr]
  simp only [Out.bind_ok, hok, Bool.not_true, Bool.false_eq_true, if_false]
  rw [lastNew P.inv.linked hF]
  simp only [Out.bind_ok]
  rw [if_pos ((P.lastNew_gt hF).mpr hFn)]
  obtain ⟨L, d2, e2, fs⟩ := replaceMergeFirst_spec P.inv hF hp he (hleaf _ (Nat.le_refl _)) hFn
  rw [e2]
  simp only [Out.bind_ok]
  have i2 := fs.inv P.inv hF
  have hLF : L = F ∨ L = d.nodes.length :: F := by
    rcases fs with ⟨_, _, _, _, h, _⟩ | ⟨_, h, _⟩
    · exact Or.inl h
    · exact Or.inr h
  have hLn : L ≠ [] := by rcases hLF with rfl | rfl <;> simp [hFn]
  have hlast : L.getLastD 0 = (d.nodes.length :: F).getLastD 0 := by
    rcases hLF with rfl | rfl
    · obtain ⟨f, F', rfl⟩ := List.exists_cons_of_ne_nil hFn
      simp [List.getLastD_cons]
    · rfl
  have hlastge : L.getLastD 0 ∈ c1 0 := by
    rw [hlast, hF]; exact getLastD_mem (by simp)
  have hlen2 : d2.nodes.length = r.dom.nodes.length := by
    rcases fs with ⟨_, _, _, _, _, m⟩ | ⟨_, _, rfl⟩
    · exact m.len
    · rfl
  have hlastF : L.getLastD 0 ∈ F := by
    rw [hlast]
    obtain ⟨f, F', rfl⟩ := List.exists_cons_of_ne_nil hFn
    have : (f :: F').getLastD 0 ∈ f :: F' := getLastD_mem (by simp)
    simpa [List.getLastD_cons] using this
  have hlastN : L.getLastD 0 > d.nodes.length := P.later hF hlastF
  have hsame2 : typeOf d2 (L.getLastD 0) = typeOf r.dom (L.getLastD 0) := by
    rcases fs with ⟨tk, _, htk, _, _, m⟩ | ⟨_, _, rfl⟩
    · refine (m.others _ ?_ (by omega)).type
      rcases List.eq_nil_or_concat' l₁ with rfl | ⟨ms, a, rfl⟩
      · rw [List.getLastD_nil]; omega
      · intro e
        have h1 : a ∈ c1 p := by rw [he]; simp
        have h2 : (ms ++ [a]).getLastD 0 = a := by simp
        rw [h2] at e
        exact hp (P.inv.linked.uniq p 0 a h1 (e ▸ hlastge))
    · rfl
  obtain ⟨L', d3, e3, ls⟩ := replaceMergeLast_spec i2 (L := L) (old := old) (by simp) hLn hp
    (by rw [upd_ne hp]; exact he) (by
      intro ht
      rw [upd_ne (by omega)]
      exact hleaf _ (by omega) (by rw [← hsame2]; exact ht))
  rw [hlast] at e3
  rw [e3]
  simp only [Out.bind_ok]
  have i3 := ls.inv i2 (by simp)
  rw [upd_upd_zero] at i3
  have hL' : L' = L ∨ L' = L.dropLast := by
    rcases ls with ⟨_, _, _, _, h, _⟩ | ⟨_, h, _⟩
    · exact Or.inr h
    · exact Or.inl h
  have hL'n : L' ≠ [] := by
    rintro rfl
    rcases hLF with rfl | rfl
    · exact hsome d2 d3 fs ls
    · rcases hL' with h | h
      · simp at h
      · obtain ⟨f, F', rfl⟩ := List.exists_cons_of_ne_nil hFn
        simp at h
  have hhead : L.headD 0 = L'.headD 0 := by
    rcases hL' with rfl | rfl
    · rfl
    · cases L with
      | nil => rfl
      | cons a l =>
        cases l with
        | nil => simp at hL'n
        | cons b l => simp
  have hsub : ∀ c ∈ L', c ∈ c1 0 := by
    intro c hc
    have h1 : c ∈ L := by
      rcases hL' with rfl | rfl
      · exact hc
      · exact List.dropLast_subset _ hc
    rw [hF]
    rcases hLF with rfl | rfl
    · exact List.mem_cons_of_mem _ h1
    · exact h1
  have hlen3 : d3.nodes.length = d2.nodes.length := by
    rcases ls with ⟨_, _, _, _, _, m⟩ | ⟨_, _, rfl⟩
    · exact m.len
    · rfl
  obtain ⟨a, l, hal⟩ := List.exists_cons_of_ne_nil hL'n
  obtain ⟨d4, e4, i4, s4, g4, n4⟩ := linkReplace i3 (p := p) (old := old) (f0 := a) (F := l) (by simp [hal]) hp
    (l₁ := l₁) (l₂ := l₂) (by rw [upd_ne hp]; exact he) (by
      intro c hc; rw [upd_same] at hc; exact hltF c (hsub c hc))
  have ha : L.headD 0 = a := by rw [hhead, hal]; rfl
  rw [ha, e4]
  refine ⟨L, d2, L', d3, d4, fs, ls, hL'n, hhead, by rw [hal]; rfl, ?_, s4, g4, ?_⟩
  · rw [upd_upd_zero] at i4
    rw [hal]; simpa using i4
  · rw [n4, hlen3, hlen2]

/-- Replacement by a fragment with a single top-level node. -/
theorem replaceHTML_single {junk : Nat → Out Bool} {html : Str} {r : ParseRes} (hr : parseExtra junk html d = .ok r)
    (hok : r.ok = true) (P : Parsed d ch r.dom c1)
    (hleaf : ∀ q, d.nodes.length ≤ q → typeOf r.dom q = some .text → c1 q = [])
    (hF : c1 0 = [d.nodes.length]) (hp : p ≠ 0) {old : Nat} {l₁ l₂ : List Nat}
    (hold : old < d.nodes.length) (he : c1 p = l₁ ++ old :: l₂) :
    (∃ tn k t d', textOf r.dom d.nodes.length = some tn ∧
      replaceWithHTML junk old html d =
        (if l₁ = [] then .ub .nullDeref else .ok (if l₂ = [] then 0 else l₁.getLastD 0, d')) ∧
      Absorbed r.dom (upd c1 0 []) old k d.nodes.length t d' ∧
      ((∃ tk, textOf r.dom (l₁.getLastD 0) = some tk ∧ k = l₁.getLastD 0 ∧ t = tk ++ [32] ++ tn) ∨
        (textOf r.dom (l₁.getLastD 0) = none ∧ ∃ tk, textOf r.dom (l₂.headD 0) = some tk ∧ k = l₂.headD 0 ∧
          t = tn ++ [32] ++ tk))) ∨
    ((textOf r.dom d.nodes.length = none ∨
        (textOf r.dom (l₁.getLastD 0) = none ∧ textOf r.dom (l₂.headD 0) = none)) ∧
      ∃ d', replaceWithHTML junk old html d = .ok (d.nodes.length, d') ∧
        DomI d' (upd (upd c1 0 []) p (l₁ ++ d.nodes.length :: l₂)) ∧
        (∀ m, m ≠ old → SameNode r.dom d' m) ∧ typeOf d' old = some .removed ∧
        d'.nodes.length = r.dom.nodes.length) := by
  have hN : d.nodes.length ∈ c1 0 := by rw [hF]; simp
  have hpo := P.inv.linked.range p old (by rw [he]; simp)
  have hltF : ∀ c ∈ c1 0, p < c := fun c hc => by have := (P.mem0 hc).1; omega
  obtain ⟨d4, e4, i4, s4, g4, n4⟩ := linkReplace P.inv (p := p) (old := old) (f0 := d.nodes.length) (F := []) hF hp
    he hltF
  unfold replaceWithHTML
  rw [hr]
  simp only [Out.bind_ok, hok, Bool.not_true, Bool.false_eq_true, if_false]
  rw [lastNew P.inv.linked hF]
  simp only [Out.bind_ok]
  rw [if_neg (fun hx => (P.lastNew_gt hF).mp hx rfl)]
  have fin : ∃ d', (replaceUpdateReferences old d.nodes.length r.dom >>= fun d' => Out.ok (d.nodes.length, d')) =
        Out.ok (d.nodes.length, d') ∧
      DomI d' (upd (upd c1 0 []) p (l₁ ++ d.nodes.length :: l₂)) ∧
      (∀ m, m ≠ old → SameNode r.dom d' m) ∧ typeOf d' old = some .removed ∧
      d'.nodes.length = r.dom.nodes.length := by
    rw [e4]
    exact ⟨d4, rfl, by simpa using i4, s4, g4, n4⟩
  rcases P.kid0 hN with ⟨tn, htn⟩ | ⟨hdoc, hnone⟩
  · obtain ⟨⟨b, d2⟩, e2, hb⟩ := tryMergeBoth_spec P.inv he htn
    rw [e2]
    simp only [Out.bind_ok]
    cases b with
    | true =>
      left
      obtain ⟨d3, d4, k, t, e3, e4, ab, hcase, hret⟩ := absorb P.inv hF (hleaf _ (Nat.le_refl _) (typeOf_of_text htn))
        hp he hb
      simp only [if_true]
      rw [e3]; simp only [Out.bind_ok]
      rw [e4]; simp only [Out.bind_ok]
      refine ⟨tn, k, t, d4, htn, ?_, ab, hcase⟩
      unfold replaceReturn
      rcases P.inv.linked.prev_cases he with ⟨rfl, e⟩ | ⟨ms, a, v', e1, e2, e5⟩
      · rw [e, if_pos rfl]
      · rw [e2, if_neg (by rw [e1]; simp)]
        dsimp only
        rw [hret v' e2]
    | false =>
      right
      cases hb with
      | none n1 n2 =>
        simp only [Bool.false_eq_true, if_false]
        exact ⟨Or.inr ⟨n1, n2⟩, fin⟩
  · rw [tryMergeBoth_other hdoc (by simp)]
    simp only [Out.bind_ok, Bool.false_eq_true, if_false]
    exact Or.inr ⟨Or.inl hnone, fin⟩

end
end Flo
