import Verif.Proofs.Compare
/-!
# Documents that are reported equal are compared the same with any third one
-/
namespace Flo
open Spec

namespace Trans

theorem setStatus_congr {xs ys : List Str} (h : setStatus xs ys = .success) (zs : List Str) : setStatus xs zs = setStatus ys zs := by
  have hm := setStatus_success h
  have hu : usedSlots xs = usedSlots ys := by
    unfold setStatus at h
    split at h
    · cases h
    · rename_i hc; simpa using hc
  unfold setStatus
  rw [hu]
  have hq : (∀ s ∈ xs ++ zs, s ≠ [] → (s ∈ xs ↔ s ∈ zs)) ↔ (∀ s ∈ ys ++ zs, s ≠ [] → (s ∈ ys ↔ s ∈ zs)) := by
    simp only [List.mem_append]
    constructor
    · intro h s hs hn; rw [← hm s]; exact h s (hs.imp_left (hm s).mpr) hn
    · intro h s hs hn; rw [hm s]; exact h s (hs.imp_left (hm s).mp) hn
  by_cases hx : ∀ s ∈ ys ++ zs, s ≠ [] → (s ∈ ys ↔ s ∈ zs)
  · rw [if_pos hx, if_pos (hq.mpr hx)]
  · rw [if_neg hx, if_neg (fun h => hx (hq.mp h))]

theorem boolsOut_congr {xs ys : List Str} (h : boolsOut xs ys = .ok .success) (zs : List Str) : boolsOut xs zs = boolsOut ys zs := by
  rcases boolsOut_cases xs ys with ⟨_, e⟩ | ⟨ho, e⟩
  · rw [e] at h; cases h
  · rw [e] at h
    have h := Out.ok.inj h
    have hx : ¬Over xs := fun x => ho (.inl x)
    have hy : ¬Over ys := fun x => ho (.inr x)
    unfold boolsOut
    rw [setStatus_congr h]
    by_cases hz : Over zs
    · rw [if_pos (.inr hz), if_pos (.inr hz)]
    · rw [if_neg (fun e => e.elim hx hz), if_neg (fun e => e.elim hy hz)]

theorem pairsOut_congr {xs ys : List (Str × Str)} (h : pairsOut xs ys = .ok .success) (zs : List (Str × Str)) :
    pairsOut xs zs = pairsOut ys zs := by
  unfold pairsOut at h
  split at h
  · cases h
  · rename_i ho
    have h := Out.ok.inj h
    have hk : setStatus (xs.map (·.1)) (ys.map (·.1)) = .success := by
      by_contra hc; rw [if_pos hc] at h; exact hc h
    rw [if_neg (not_not.mpr hk)] at h
    have hx : ¬(Over (xs.map (·.1)) ∨ Over (xs.map (·.2))) := fun x => ho (.inl x)
    have hy : ¬(Over (ys.map (·.1)) ∨ Over (ys.map (·.2))) := fun x => ho (.inr x)
    unfold pairsOut
    rw [setStatus_congr hk, setStatus_congr h]
    by_cases hz : Over (zs.map (·.1)) ∨ Over (zs.map (·.2))
    · rw [if_pos (.inr hz), if_pos (.inr hz)]
    · rw [if_neg (c := (Over (xs.map (·.1)) ∨ _) ∨ _) (fun e => e.elim hx hz),
        if_neg (c := (Over (ys.map (·.1)) ∨ _) ∨ _) (fun e => e.elim hy hz)]

variable {d1 d2 d3 : Dom}

theorem labelSpec_congr {a b : Nat} (h : labelSpec d1 a d2 b = .ok .success) (c : Nat) :
    labelSpec d1 a d3 c = labelSpec d2 b d3 c := by
  unfold labelSpec at h
  by_cases ht : tagStatus d1 a d2 b = .success
  · rw [if_neg (not_not.mpr ht)] at h
    obtain ⟨e1, e2, e3, e4⟩ := tagStatus_success ht
    have et : tagStatus d1 a d3 c = tagStatus d2 b d3 c := by
      unfold tagStatus
      rw [e1, e2, e3, e4]
    unfold labelSpec
    rw [et, ← e1]
    by_cases hd : typeOf d1 a = some .document
    · rw [if_pos hd] at h
      simp only [if_pos hd]
      cases hb : boolsOut (bools d1 a) (bools d2 b) with
      | ok st =>
        rw [hb, Out.bind_ok] at h
        by_cases hs : st = .success
        · subst hs
          rw [if_neg (by simp)] at h
          rw [boolsOut_congr hb, pairsOut_congr h]
        · rw [if_pos hs] at h; exact absurd (Out.ok.inj h) hs
      | longjmp => rw [hb] at h; cases h
      | ub w => rw [hb] at h; cases h
      | hang => rw [hb] at h; cases h
    · simp only [if_neg hd]
  · rw [if_pos ht] at h
    exact absurd (Out.ok.inj h) ht

/-- The same answer, but for the node of the first document. -/
inductive Alike : Out CResult → Out CResult → Prop
  | ok {st : CStatus} {x y z : Nat} : Alike (.ok ⟨st, x, z⟩) (.ok ⟨st, y, z⟩)
  | longjmp : Alike .longjmp .longjmp
  | ub {w : Why} : Alike (.ub w) (.ub w)
  | hang : Alike .hang .hang

theorem cmpL_congr {cmp cmp' : Nat → Nat → Out CResult} (p p' q : Nat) : ∀ (xs ys zs : List Nat), xs.length = ys.length →
    (∀ (i x y : Nat), xs[i]? = some x → ys[i]? = some y → ∀ z, Alike (cmp x z) (cmp' y z)) →
    Alike (cmpL cmp p q xs zs) (cmpL cmp' p' q ys zs) := by
  intro xs
  induction xs with
  | nil =>
    intro ys zs hl _
    cases ys with
    | nil => cases zs <;> exact .ok
    | cons y ys => cases hl
  | cons x xs ih =>
    intro ys zs hl h
    cases ys with
    | nil => cases hl
    | cons y ys =>
      cases zs with
      | nil => exact .ok
      | cons z zs =>
        unfold cmpL
        have h0 := h 0 x y rfl rfl z
        have ih' := ih ys zs (by simpa using hl) (fun i u v hu hv => h (i + 1) u v (by simpa using hu) (by simpa using hv))
        generalize cmp x z = o at h0
        generalize cmp' y z = o' at h0
        cases h0 with
        | ok =>
          rename_i st u v w
          rw [Out.bind_ok, Out.bind_ok]
          by_cases hs : st = .success
          · rw [if_neg (not_not.mpr hs), if_neg (not_not.mpr hs)]; exact ih'
          · rw [if_pos hs, if_pos hs]; exact .ok
        | longjmp => exact .longjmp
        | ub => exact .ub
        | hang => exact .hang

theorem cmpT_congr {a b : Nat} (h : SameTree (fun a b => labelSpec d1 a d2 b = .ok .success) d1 d2 a b) : ∀ (f c : Nat),
    Alike (cmpT d1 d3 f a c) (cmpT d2 d3 f b c) := by
  induction h with
  | node hr hlen hk ih =>
    rename_i a b
    intro f c
    cases f with
    | zero => exact .hang
    | succ f =>
      unfold cmpT
      rw [labelSpec_congr hr c]
      cases labelSpec d2 b d3 c with
      | ok st =>
        rw [Out.bind_ok, Out.bind_ok]
        by_cases hs : st = .success
        · rw [if_neg (not_not.mpr hs), if_neg (not_not.mpr hs)]
          exact cmpL_congr _ _ _ _ _ _ hlen (fun i x y hx hy z => ih i x y hx hy f z)
        · rw [if_pos hs, if_pos hs]; exact .ok
      | longjmp => exact .longjmp
      | ub w => exact .ub
      | hang => exact .hang

theorem equals_congr {c1 c2 c3 : Nat → List Nat} (h1 : DomI d1 c1) (h2 : DomI d2 c2) (h3 : DomI d3 c3) {r : CResult}
    (h : equals d1 d2 = .ok r) (hs : r.status = .success) : Alike (equals d1 d3) (equals d2 d3) := by
  rw [equals_eq h1 h2 (Nat.le_refl _)] at h
  have ht : SameTree (fun a b => labelSpec d1 a d2 b = .ok .success) d1 d2 1 1 := by
    rw [Out.bind_eq_ok] at h
    obtain ⟨r0, e1, e2⟩ := h
    refine cmpT_sound _ 1 1 r0 e1 ?_
    by_contra hc
    rw [if_pos hc] at e2
    cases e2
    exact hc hs
  rw [equals_eq h1 h3 (Nat.le_max_left d1.nodes.length d2.nodes.length), equals_eq h2 h3 (Nat.le_max_right d1.nodes.length d2.nodes.length)]
  have := cmpT_congr (d3 := d3) ht (max d1.nodes.length d2.nodes.length) 1
  generalize cmpT d1 d3 _ 1 1 = o at this
  generalize cmpT d2 d3 _ 1 1 = o' at this
  cases this with
  | ok =>
    rename_i st u v w
    rw [Out.bind_ok, Out.bind_ok]
    by_cases hs : st = .success
    · rw [if_neg (not_not.mpr hs), if_neg (not_not.mpr hs)]; exact .ok
    · rw [if_pos hs, if_pos hs]; exact .ok
  | longjmp => exact .longjmp
  | ub => exact .ub
  | hang => exact .hang

end Trans
end Flo
