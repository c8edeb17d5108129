import Verif.Proofs.Grow
import Verif.Proofs.QuerySem
/-!
# Reading a query with more names known (C77)
-/
namespace Flo
open Spec

section
variable {d d' : Dom} (hK : Keeps d d')
include hK

theorem leadFilter_keep {s : Str} {idx : Nat} {r : QRes (Nat × List Filter)} (h : leadFilter s d idx = .ok r)
    (hr : r ≠ .fail .notSeenBefore) : leadFilter s d' idx = .ok r := by
  unfold leadFilter at h ⊢
  simp only at h ⊢
  by_cases h1 : isTagStartChar (currentChar s idx) = true
  · rw [if_pos h1] at h ⊢
    rw [Out.bind_eq_ok] at h
    obtain ⟨t, ht, h⟩ := h
    rw [ht, Out.bind_ok]
    by_cases hz : d.tagMap.contains t = 0
    · rw [if_pos hz] at h; cases h; exact absurd rfl hr
    · rw [hK.tag t hz]; exact h
  · rw [if_neg h1] at h ⊢; exact h

theorem attrFilters_keep {s : Str} : ∀ (f idx : Nat) (fs : List Filter) (r : QRes (Nat × List Filter)),
    attrFilters s d f idx fs = .ok r → r ≠ .fail .notSeenBefore → attrFilters s d' f idx fs = .ok r := by
  intro f
  induction f with
  | zero => intro idx fs r h _; simp [attrFilters] at h
  | succ f ih =>
    intro idx fs r h hr
    unfold attrFilters at h ⊢
    cases hc : s[idx]? with
    | none => rw [hc] at h; exact h
    | some c =>
      rw [hc] at h
      simp only at h ⊢
      by_cases hs : (c == 91 || c == 46 || c == 35) = true
      · rw [if_pos hs] at h ⊢
        by_cases hm : fs.length ≥ maxFilters
        · rw [if_pos hm] at h ⊢; exact h
        rw [if_neg hm] at h ⊢
        rw [Out.bind_eq_ok] at h
        obtain ⟨⟨t, i⟩, ht, h⟩ := h
        rw [ht, Out.bind_ok]
        simp only at h ⊢
        by_cases hcls : (c == 46 || c == 35) = true
        · rw [if_pos hcls] at h ⊢
          generalize (if (c == 46) = true then b!"class" else b!"id") = key at h ⊢
          by_cases hk : d.keyMap.contains key = 0
          · rw [if_pos hk] at h; cases h; exact absurd rfl hr
          · rw [if_neg hk] at h
            rw [hK.key key hk, if_neg hk]
            by_cases hv : d.valMap.contains t = 0
            · rw [if_pos hv] at h; cases h; exact absurd rfl hr
            · rw [if_neg hv] at h
              rw [hK.val t hv, if_neg hv]
              exact ih _ _ _ h hr
        · rw [if_neg hcls] at h ⊢
          by_cases hb : (currentChar s i == 93) = true
          · rw [if_pos hb] at h ⊢
            by_cases hk : d.boolMap.contains t = 0
            · rw [if_pos hk] at h; cases h; exact absurd rfl hr
            · rw [if_neg hk] at h
              rw [hK.bool t hk, if_neg hk]
              exact ih _ _ _ h hr
          · rw [if_neg hb] at h ⊢
            by_cases he : (currentChar s i == cEq) = true
            · rw [if_pos he] at h ⊢
              by_cases hk : d.keyMap.contains t = 0
              · rw [if_pos hk] at h; cases h; exact absurd rfl hr
              · rw [if_neg hk] at h
                rw [hK.key t hk, if_neg hk]
                rw [Out.bind_eq_ok] at h
                obtain ⟨⟨v, i'⟩, hv', h⟩ := h
                rw [hv', Out.bind_ok]
                simp only at h ⊢
                by_cases hv : d.valMap.contains v = 0
                · rw [if_pos hv] at h; cases h; exact absurd rfl hr
                · rw [if_neg hv] at h
                  rw [hK.val v hv, if_neg hv]
                  exact ih _ _ _ h hr
            · rw [if_neg he] at h ⊢
              exact ih _ _ _ h hr
      · rw [if_neg hs] at h ⊢; exact h

theorem parseSteps_keep {s : Str} : ∀ (f idx : Nat) (c : Combinator) (r : QRes (List QStep)),
    parseSteps s d f idx c = .ok r → r ≠ .fail .notSeenBefore → parseSteps s d' f idx c = .ok r := by
  intro f
  induction f with
  | zero => intro idx c r h _; simp [parseSteps] at h
  | succ f ih =>
    intro idx c r h hr
    unfold parseSteps at h ⊢
    by_cases hi : idx < s.length
    · rw [if_pos hi] at h ⊢
      rw [Out.bind_eq_ok] at h
      obtain ⟨r1, h1, h⟩ := h
      cases r1 with
      | fail st =>
        cases h
        rw [leadFilter_keep hK h1 (by rintro e; cases e; exact hr rfl)]; rfl
      | go a =>
        obtain ⟨j, fs⟩ := a
        rw [leadFilter_keep hK h1 (by simp)]
        simp only [Out.bind_ok] at h ⊢
        rw [Out.bind_eq_ok] at h
        obtain ⟨r2, h2, h⟩ := h
        cases r2 with
        | fail st =>
          cases h
          rw [attrFilters_keep hK _ _ _ _ h2 (by rintro e; cases e; exact hr rfl)]; rfl
        | go a =>
          obtain ⟨j', fs'⟩ := a
          rw [attrFilters_keep hK _ _ _ _ h2 (by simp)]
          simp only [Out.bind_ok] at h ⊢
          by_cases hl : fs'.length < 1
          · rw [if_pos hl] at h ⊢; exact h
          · rw [if_neg hl] at h ⊢
            rw [Out.bind_eq_ok] at h
            obtain ⟨r3, h3, h⟩ := h
            cases r3 with
            | fail st =>
              cases h
              rw [ih _ _ _ h3 (by rintro e; cases e; exact hr rfl)]; rfl
            | go l =>
              rw [ih _ _ _ h3 (by simp)]
              exact h
    · rw [if_neg hi] at h ⊢; exact h

theorem firstFail_keep : ∀ {ps : List Str}, firstFail d ps ≠ some .notSeenBefore → firstFail d' ps = firstFail d ps := by
  intro ps
  induction ps with
  | nil => intro _; rfl
  | cons p ps ih =>
    intro h
    obtain ⟨r, hr⟩ := partSteps_ok p d
    have hr' : r ≠ .fail .notSeenBefore → partSteps p d' = .ok r := fun hn => parseSteps_keep hK _ _ _ _ hr hn
    unfold firstFail at h ⊢
    rw [hr] at h ⊢
    cases r with
    | fail st =>
      simp only at h ⊢
      rw [hr' (by rintro e; cases e; exact h rfl)]
    | go l =>
      simp only at h ⊢
      rw [hr' (by simp)]
      exact ih h

end
end Flo
