import Verif.Proofs.QuerySet
import Verif.Proofs.Scan
/-!
# Reading a query, and evaluating what was read
-/
namespace Flo
open Spec

/-- One element of a query with the combinator before it. -/
abbrev QStep := Combinator × List Filter

/-- The syntactic part of `queryLoop`. -/
def parseSteps (s : Str) (d : Dom) : Nat → Nat → Combinator → Out (QRes (List QStep))
  | 0, _, _ => .hang
  | f + 1, idx, comb =>
    if idx < s.length then do
      match ← leadFilter s d idx with
      | .fail st => .ok (.fail st)
      | .go (idx, fs) =>
        match ← attrFilters s d (s.length + 1) idx fs with
        | .fail st => .ok (.fail st)
        | .go (idx, fs) =>
          if fs.length < 1 then .ok (.fail .invalidElement)
          else do
            match ← parseSteps s d f (swoop (s.drop idx) idx cSp).1
                (combinatorOf (swoop (s.drop idx) idx cSp).2) with
            | .fail st => .ok (.fail st)
            | .go l => .ok (.go ((comb, fs) :: l))
    else .ok (.go [])

/-- The steps of one comma-free query. -/
def partSteps (s : Str) (d : Dom) : Out (QRes (List QStep)) :=
  parseSteps s d (s.length + 1) (scanUntil (fun ch => isElementStartChar ch || ch == 91 || ch == 42) s 0) .none

/-- Evaluating steps. -/
def evalSteps (pun : Nat → Nat) (d : Dom) : List QStep → (Nat → Prop) → Nat → Prop
  | [], S => S
  | (c, fs) :: l, S => evalSteps pun d l (sem pun d c fs S)

/-! ## Reading always returns -/

theorem scanUntil_ge (p : UInt8 → Bool) (l : Str) (i : Nat) : i ≤ scanUntil p l i := scanWhile_ge _ _ _

theorem scanUntil_le {p : UInt8 → Bool} {s : Str} {i : Nat} (h : i ≤ s.length) :
    scanUntil p (s.drop i) i ≤ s.length := by
  have := scanWhile_le (fun c => !p c) s i
  unfold scanUntil
  omega

theorem parseToken_ok {s : Str} {i : Nat} (h : i ≤ s.length) :
    ∃ t j, parseToken s i = .ok (t, j) ∧ i ≤ j ∧ j ≤ s.length := by
  have h1 := scanUntil_ge isTokenEnd (s.drop i) i
  have h2 : scanUntil isTokenEnd (s.drop i) i ≤ s.length := scanUntil_le h
  unfold parseToken
  simp only
  rw [subStr_ok' (a := i) (b := scanUntil isTokenEnd (s.drop i) i - i) rfl (by omega) (by omega)]
  refine ⟨_, _, rfl, ?_, scanUntil_le h2⟩
  have := scanUntil_ge isAfterToken (s.drop (scanUntil isTokenEnd (s.drop i) i)) (scanUntil isTokenEnd (s.drop i) i)
  omega

theorem swoop_ge : ∀ (l : Str) (i : Nat) (c : UInt8), i ≤ (swoop l i c).1 := by
  intro l
  induction l with
  | nil => intro i c; exact Nat.le_refl i
  | cons a l ih =>
    intro i c
    unfold swoop
    split
    · exact Nat.le_refl i
    · have := ih (i + 1) (if isSpecifiedCombinator a then a else c); omega

theorem startChar_facts : ∀ c : UInt8, (c == 91 || c == 46 || c == 35) = true → isTagStartChar c = false := by
  intro c h
  simp only [Bool.or_eq_true, beq_iff_eq] at h
  rcases h with (rfl | rfl) | rfl <;> decide

theorem attrFilters_ok (s : Str) (d : Dom) : ∀ (f idx : Nat) (fs : List Filter), s.length < idx + f → idx ≤ s.length →
    ∃ r, attrFilters s d f idx fs = .ok r ∧ ∀ j fs', r = .go (j, fs') → idx ≤ j ∧ j ≤ s.length ∧
      (idx < j ∨ fs' = fs) := by
  intro f
  induction f with
  | zero => intro idx fs h1 h2; omega
  | succ f ih =>
    intro idx fs h1 h2
    unfold attrFilters
    cases hc : s[idx]? with
    | none => exact ⟨_, rfl, by rintro j fs' e; cases e; exact ⟨Nat.le_refl _, h2, Or.inr rfl⟩⟩
    | some c =>
      have hlt := lt_of_getElem? hc
      simp only
      by_cases hs : (c == 91 || c == 46 || c == 35) = true
      · rw [if_pos hs]
        by_cases hm : fs.length ≥ maxFilters
        · rw [if_pos hm]; exact ⟨_, rfl, by intro j fs' e; cases e⟩
        rw [if_neg hm]
        have hgt := scanUntil_gt hc (startChar_facts c hs)
        have hle : scanUntil isTagStartChar (s.drop idx) idx ≤ s.length := scanUntil_le h2
        obtain ⟨t, i, ht, hi1, hi2⟩ := parseToken_ok hle
        rw [ht]
        simp only [Out.bind_ok]
        have go : ∀ j fs', idx < j → j ≤ s.length →
            ∃ r, attrFilters s d f j fs' = .ok r ∧ ∀ j' fs'', r = .go (j', fs'') → idx ≤ j' ∧ j' ≤ s.length ∧
              (idx < j' ∨ fs'' = fs) := by
          intro j fs' g1 g2
          obtain ⟨r, e1, e2⟩ := ih j fs' (by omega) g2
          refine ⟨r, e1, fun j' fs'' e => ?_⟩
          have := e2 j' fs'' e
          exact ⟨by omega, this.2.1, Or.inl (by omega)⟩
        have bump : ∀ {i : Nat}, idx < i → i ≤ s.length → ∀ fs',
            ∃ r, attrFilters s d f (if (currentChar s i == 93) = true then i + 1 else i) fs' = .ok r ∧
              ∀ j' fs'', r = .go (j', fs'') → idx ≤ j' ∧ j' ≤ s.length ∧ (idx < j' ∨ fs'' = fs) := by
          intro i g1 g2 fs'
          by_cases hb : (currentChar s i == 93) = true
          · rw [if_pos hb]
            have := lt_of_getElem? (currentChar_ne_zero (c := 93) (by simpa using hb) (by decide))
            exact go _ _ (by omega) (by omega)
          · rw [if_neg hb]; exact go _ _ g1 g2
        have fail : ∀ st, ∃ r, (Out.ok (QRes.fail st) : Out (QRes (Nat × List Filter))) = .ok r ∧
            ∀ j' fs'', r = .go (j', fs'') → idx ≤ j' ∧ j' ≤ s.length ∧ (idx < j' ∨ fs'' = fs) :=
          fun st => ⟨_, rfl, by intro j fs' e; cases e⟩
        by_cases hcls : (c == 46 || c == 35) = true
        · rw [if_pos hcls]
          generalize (if (c == 46) = true then b!"class" else b!"id") = key
          split
          · exact fail _
          · split
            · exact fail _
            · exact bump (by omega) hi2 _
        · rw [if_neg hcls]
          by_cases hb : (currentChar s i == 93) = true
          · rw [if_pos hb]
            split
            · exact fail _
            · have := lt_of_getElem? (currentChar_ne_zero (c := 93) (by simpa using hb) (by decide))
              exact go _ _ (by omega) (by omega)
          · rw [if_neg hb]
            by_cases he : (currentChar s i == cEq) = true
            · rw [if_pos he]
              split
              · exact fail _
              · have hil := lt_of_getElem? (currentChar_ne_zero (c := cEq) (by simpa using he) (by decide))
                have g1 := scanUntil_ge isTagStartChar (s.drop (i + 1)) (i + 1)
                have g2 : scanUntil isTagStartChar (s.drop (i + 1)) (i + 1) ≤ s.length := scanUntil_le (by omega)
                obtain ⟨v, i', hv, hv1, hv2⟩ := parseToken_ok g2
                rw [hv]
                simp only [Out.bind_ok]
                split
                · exact fail _
                · exact bump (by omega) hv2 _
            · rw [if_neg he]
              exact bump (by omega) hi2 _
      · rw [if_neg hs]
        exact ⟨_, rfl, by rintro j fs' e; cases e; exact ⟨Nat.le_refl _, h2, Or.inr rfl⟩⟩

theorem tagStart_facts : ∀ c : UInt8, isTagStartChar c = true → endOfCurrentFilter c = false := by
  intro c h
  by_contra hc
  have hc : endOfCurrentFilter c = true := by simpa using hc
  simp only [endOfCurrentFilter, isCombinatorChar, isSpecifiedCombinator, isFormatting, Bool.or_eq_true, beq_iff_eq] at hc
  rcases hc with (((hc | hc) | hc) | hc) | hc
  all_goals first
    | (subst hc; revert h; decide)
    | (rcases hc with hc | hc <;> subst hc <;> revert h <;> decide)
    | (rcases hc with (hc | hc) | hc <;> subst hc <;> revert h <;> decide)
    | (rcases hc with hc | (hc | hc) | hc <;> subst hc <;> revert h <;> decide)

theorem leadFilter_ok {s : Str} (d : Dom) {idx : Nat} (h : idx < s.length) :
    ∃ r, leadFilter s d idx = .ok r ∧ ∀ j fs, r = .go (j, fs) → idx ≤ j ∧ j ≤ s.length ∧ (idx < j ∨ fs = []) := by
  have hc : s[idx]? = some s[idx] := List.getElem?_eq_getElem h
  unfold leadFilter
  simp only [currentChar_eq hc]
  have hge := scanUntil_ge endOfCurrentFilter (s.drop idx) idx
  have hle : scanUntil endOfCurrentFilter (s.drop idx) idx ≤ s.length := scanUntil_le (by omega)
  by_cases ht : isTagStartChar s[idx] = true
  · rw [if_pos ht, subStr_ok' (a := idx) (b := scanUntil endOfCurrentFilter (s.drop idx) idx - idx) rfl (by omega) (by omega)]
    simp only [Out.bind_ok]
    split
    · exact ⟨_, rfl, by intro j fs e; cases e⟩
    · refine ⟨_, rfl, ?_⟩
      rintro j fs e; cases e
      have := scanUntil_gt hc (tagStart_facts _ ht)
      exact ⟨hge, hle, Or.inl this⟩
  · rw [if_neg ht]
    by_cases hs : (s[idx] == 42) = true
    · rw [if_pos hs]
      refine ⟨_, rfl, ?_⟩
      rintro j fs e; cases e
      have : s[idx] = 42 := by simpa using hs
      have := scanUntil_gt (p := endOfCurrentFilter) hc (by rw [this]; decide)
      exact ⟨hge, hle, Or.inl this⟩
    · rw [if_neg hs]
      exact ⟨_, rfl, by rintro j fs e; cases e; exact ⟨Nat.le_refl _, by omega, Or.inr rfl⟩⟩

theorem parseSteps_ok (s : Str) (d : Dom) : ∀ (f idx : Nat) (c : Combinator), s.length < idx + f → 1 ≤ f →
    ∃ r, parseSteps s d f idx c = .ok r := by
  intro f
  induction f with
  | zero => intro idx c h1 h2; omega
  | succ f ih =>
    intro idx c h1 _
    unfold parseSteps
    by_cases hi : idx < s.length
    · rw [if_pos hi]
      obtain ⟨r, e1, e2⟩ := leadFilter_ok d hi
      rw [e1]
      simp only [Out.bind_ok]
      cases r with
      | fail st => exact ⟨_, rfl⟩
      | go a =>
        obtain ⟨j, fs⟩ := a
        obtain ⟨g1, g2, g3⟩ := e2 j fs rfl
        obtain ⟨r', e3, e4⟩ := attrFilters_ok s d (s.length + 1) j fs (by omega) g2
        simp only [e3, Out.bind_ok]
        cases r' with
        | fail st => exact ⟨_, rfl⟩
        | go a =>
          obtain ⟨j', fs'⟩ := a
          obtain ⟨k1, k2, k3⟩ := e4 j' fs' rfl
          simp only
          by_cases hl : fs'.length < 1
          · rw [if_pos hl]; exact ⟨_, rfl⟩
          · rw [if_neg hl]
            have hprog : idx < j' := by
              rcases g3 with g3 | rfl
              · omega
              · rcases k3 with k3 | rfl
                · omega
                · simp at hl
            have hsw := swoop_ge (s.drop j') j' cSp
            obtain ⟨r, e5⟩ := ih (swoop (s.drop j') j' cSp).1 (combinatorOf (swoop (s.drop j') j' cSp).2) (by omega) (by omega)
            rw [e5]
            simp only [Out.bind_ok]
            cases r <;> exact ⟨_, rfl⟩
    · rw [if_neg hi]; exact ⟨_, rfl⟩

theorem partSteps_ok (s : Str) (d : Dom) : ∃ r, partSteps s d = .ok r :=
  parseSteps_ok s d _ _ _ (by omega) (by omega)

/-! ## Evaluation follows the steps -/

theorem combinatorOf_ne (c : UInt8) : combinatorOf c ≠ .none := by
  unfold combinatorOf
  split
  · simp
  · split
    · simp
    · split <;> simp

theorem queryLoop_eval {pun : Nat → Nat} {s : Str} {d : Dom} {ch : Nat → List Nat} (h : Walkable d ch) :
    ∀ (f idx : Nat) (c : Combinator) (S : Nat → Prop) (m : U16Set), SetIs S m → (c = .none → U16Exact m) →
    (∀ st, parseSteps s d f idx c = .ok (.fail st) → queryLoop pun s d f idx c m = .ok (.fail st)) ∧
    (∀ l, parseSteps s d f idx c = .ok (.go l) →
      ∃ m', queryLoop pun s d f idx c m = .ok (.go m') ∧ SetIs (evalSteps pun d l S) m') := by
  intro f
  induction f with
  | zero => intro idx c S m _ _; exact ⟨fun _ e => by simp [parseSteps] at e, fun _ e => by simp [parseSteps] at e⟩
  | succ f ih =>
    intro idx c S m hm hx
    unfold parseSteps queryLoop
    by_cases hi : idx < s.length
    · rw [if_pos hi, if_pos hi]
      cases hlf : leadFilter s d idx with
      | ok r =>
        simp only [Out.bind_ok]
        cases r with
        | fail st => exact ⟨fun st' e => by simpa using e, fun l e => by simp at e⟩
        | go a =>
          obtain ⟨j, fs⟩ := a
          simp only
          cases haf : attrFilters s d (s.length + 1) j fs with
          | ok r' =>
            simp only [Out.bind_ok]
            cases r' with
            | fail st => exact ⟨fun st' e => by simpa using e, fun l e => by simp at e⟩
            | go a =>
              obtain ⟨j', fs'⟩ := a
              simp only
              by_cases hl : fs'.length < 1
              · rw [if_pos hl, if_pos hl]
                exact ⟨fun st' e => by simpa using e, fun l e => by simp at e⟩
              · rw [if_neg hl, if_neg hl]
                obtain ⟨m1, e1, e2⟩ := applyCombinator_ok (pun := pun) (fs := fs') h c hm hx
                rw [e1]
                simp only [Out.bind_ok]
                obtain ⟨i1, i2⟩ := ih (swoop (s.drop j') j' cSp).1 (combinatorOf (swoop (s.drop j') j' cSp).2) _ m1 e2
                  (fun e => absurd e (combinatorOf_ne _))
                constructor
                · intro st e
                  apply i1
                  cases hp : parseSteps s d f (swoop (s.drop j') j' cSp).1 (combinatorOf (swoop (s.drop j') j' cSp).2) with
                  | ok r =>
                    rw [hp] at e
                    cases r with
                    | fail st' => simpa using e
                    | go l => simp at e
                  | _ => rw [hp] at e; simp at e
                · intro l e
                  cases hp : parseSteps s d f (swoop (s.drop j') j' cSp).1 (combinatorOf (swoop (s.drop j') j' cSp).2) with
                  | ok r =>
                    rw [hp] at e
                    cases r with
                    | fail st' => simp at e
                    | go l' =>
                      simp at e
                      subst e
                      exact i2 l' hp
                  | _ => rw [hp] at e; simp at e
          | _ => exact ⟨fun _ e => by simp at e, fun _ e => by simp at e⟩
      | _ => exact ⟨fun _ e => by simp at e, fun _ e => by simp at e⟩
    · rw [if_neg hi, if_neg hi]
      refine ⟨fun _ e => by simp at e, fun l e => ?_⟩
      simp at e
      subst e
      exact ⟨m, rfl, hm⟩

/-! ## Comma separated parts -/

/-- Split at the commas. -/
def splitComma : Str → List Str
  | [] => [[]]
  | c :: cs =>
    if c = 44 then [] :: splitComma cs
    else
      match splitComma cs with
      | [] => [[c]]
      | p :: ps => (c :: p) :: ps

theorem splitComma_ne (s : Str) : splitComma s ≠ [] := by
  cases s with
  | nil => simp [splitComma]
  | cons c cs =>
    unfold splitComma
    split
    · simp
    · split <;> simp

theorem splitComma_append (a b : Str) : splitComma (a ++ 44 :: b) = splitComma a ++ splitComma b := by
  induction a with
  | nil => simp [splitComma]
  | cons c a ih =>
    rw [List.cons_append]
    by_cases hc : c = 44
    · simp [splitComma, hc, ih]
    · rw [splitComma, splitComma, if_neg hc, if_neg hc, ih]
      cases h : splitComma a with
      | nil => exact absurd h (splitComma_ne a)
      | cons p ps => simp

theorem splitComma_none {s : Str} (h : 44 ∉ s) : splitComma s = [s] := by
  induction s with
  | nil => rfl
  | cons c s ih =>
    simp only [List.mem_cons, not_or] at h
    rw [splitComma, if_neg (Ne.symm h.1), ih h.2]

theorem splitComma_take (s : Str) : splitComma s = s.takeWhile (· != 44) ::
    (if (s.takeWhile (· != 44)).length < s.length then splitComma (s.drop ((s.takeWhile (· != 44)).length + 1)) else []) := by
  induction s with
  | nil => simp [splitComma]
  | cons c s ih =>
    by_cases hc : c = 44
    · simp [splitComma, hc]
    · rw [splitComma, if_neg hc, ih]
      simp [List.takeWhile_cons, hc]

/-- The first part that is refused decides. -/
def firstFail (d : Dom) : List Str → Option QStatus
  | [] => none
  | p :: ps =>
    match partSteps p d with
    | .ok (.fail st) => some st
    | _ => firstFail d ps

/-- The nodes some part selects. -/
def partsSem (pun : Nat → Nat) (d : Dom) (ps : List Str) (n : Nat) : Prop :=
  ∃ p ∈ ps, ∃ l, partSteps p d = .ok (.go l) ∧ evalSteps pun d l (fun _ => False) n

theorem partSteps_nil (d : Dom) : partSteps [] d = .ok (.go []) := rfl

theorem getQueryResults_eval {pun : Nat → Nat} {s : Str} {d : Dom} {ch : Nat → List Nat} (h : Walkable d ch)
    {m : U16Set} (hm : SetIs (fun _ => False) m) (hx : U16Exact m) :
    (∃ st, partSteps s d = .ok (.fail st) ∧ getQueryResults pun s d m = .ok (.fail st)) ∨
    (∃ l m', partSteps s d = .ok (.go l) ∧ getQueryResults pun s d m = .ok (.go m') ∧
      SetIs (evalSteps pun d l (fun _ => False)) m') := by
  obtain ⟨r, hr⟩ := partSteps_ok s d
  obtain ⟨h1, h2⟩ := queryLoop_eval (pun := pun) (s := s) h (s.length + 1)
    (scanUntil (fun ch => isElementStartChar ch || ch == 91 || ch == 42) s 0) .none _ m hm (fun _ => hx)
  cases r with
  | fail st => exact Or.inl ⟨st, hr, h1 st hr⟩
  | go l =>
    obtain ⟨m', e1, e2⟩ := h2 l hr
    exact Or.inr ⟨l, m', hr, e1, e2⟩

theorem sem_lt {pun : Nat → Nat} {d : Dom} {ch : Nat → List Nat} (h : Walkable d ch) {c : Combinator} {fs : List Filter}
    {S : Nat → Prop} (hS : ∀ n, S n → n < d.nodes.length) : ∀ n, sem pun d c fs S n → n < d.nodes.length := by
  intro n hn
  cases c with
  | none => rcases hn with hn | ⟨_, hn, _⟩; exacts [hS n hn, hn]
  | adjacent => obtain ⟨_, v, _, hn⟩ := hn; exact nx_range h.linked hn
  | general =>
    obtain ⟨_, v, _, hn⟩ := hn
    obtain ⟨w, _, hn⟩ := Relation.TransGen.tail'_iff.mp hn
    exact nx_range h.linked hn
  | child => obtain ⟨_, v, _, hn⟩ := hn; exact (pc_up h.linked h.zero hn).2.2
  | descendant =>
    obtain ⟨_, v, _, hn⟩ := hn
    obtain ⟨w, _, hn⟩ := Relation.TransGen.tail'_iff.mp hn
    exact (pc_up h.linked h.zero hn).2.2

theorem evalSteps_lt {pun : Nat → Nat} {d : Dom} {ch : Nat → List Nat} (h : Walkable d ch) : ∀ (l : List QStep)
    (S : Nat → Prop), (∀ n, S n → n < d.nodes.length) → ∀ n, evalSteps pun d l S n → n < d.nodes.length := by
  intro l
  induction l with
  | nil => intro S hS; exact hS
  | cons a l ih =>
    obtain ⟨c, fs⟩ := a
    intro S hS
    exact ih _ (sem_lt h hS)

theorem selectLoop_eval {pun : Nat → Nat} {css : Str} {d : Dom} {ch : Nat → List Nat} (h : Walkable d ch) :
    ∀ (f start : Nat) (R : Nat → Prop) (set res : U16Set), SetIs (fun _ => False) set → U16Exact set →
    SetIs R res → U16Exact res → css.length < start + f → 1 ≤ f →
    (∃ st, firstFail d (splitComma (css.drop start)) = some st ∧
      selectLoop pun css d f start set res = .ok (.fail st)) ∨
    (firstFail d (splitComma (css.drop start)) = none ∧ ∃ res',
      selectLoop pun css d f start set res = .ok (.go res') ∧ U16Exact res' ∧
      SetIs (fun n => R n ∨ partsSem pun d (splitComma (css.drop start)) n) res') := by
  intro f
  induction f with
  | zero => intro start R set res _ _ _ _ _ hf; omega
  | succ f ih =>
    intro start R set res hset hsx hres hrx hlen _
    unfold selectLoop
    by_cases hi : start < css.length
    · rw [if_pos hi]
      generalize hpart : (css.drop start).takeWhile (· != 44) = part
      have hsplit := splitComma_take (css.drop start)
      rw [hpart] at hsplit
      simp only
      rcases getQueryResults_eval (pun := pun) (s := part) h hset hsx with ⟨st, e1, e2⟩ | ⟨l, m', e1, e2, e3⟩
      · left
        refine ⟨st, ?_, by rw [e2]; rfl⟩
        rw [hsplit]
        unfold firstFail
        rw [e1]
      · rw [e2]
        simp only [Out.bind_ok]
        have hrng : ∀ v ∈ m'.toList 0, v ≠ 0 ∧ v < 65536 := by
          intro v hv
          have := (e3.mem v).mp hv
          refine ⟨e3.range v this, ?_⟩
          have := evalSteps_lt h l (fun _ => False) (fun _ hf => False.elim hf) v this
          have := h.cap
          omega
        obtain ⟨res1, g1, g2, g3, g4⟩ := hres.ok.insertAll hrx hrng
        rw [g1]
        simp only [Out.bind_ok]
        have hres1 : SetIs (fun n => R n ∨ evalSteps pun d l (fun _ => False) n) res1 := by
          refine ⟨g2, ?_, ?_⟩
          · intro n; rw [g4, e3.mem, hres.mem, or_comm]
          · rintro n (hn | hn)
            · exact hres.range n hn
            · exact e3.range n hn
        obtain ⟨r1, r2⟩ := e3.reset
        have hdrop : (css.drop start).drop (part.length + 1) = css.drop (start + part.length + 1) := by
          rw [List.drop_drop]; congr 1
        have rest := ih (start + part.length + 1) _ (u16Reset m') res1 r1 r2 hres1 g3 (by omega) (by omega)
        -- the tail of the split
        have htail : (part.length < (css.drop start).length ∧
              splitComma (css.drop start) = part :: splitComma (css.drop (start + part.length + 1))) ∨
            (splitComma (css.drop start) = [part] ∧ css.drop (start + part.length + 1) = []) := by
          by_cases hp : part.length < (css.drop start).length
          · left
            rw [if_pos hp, hdrop] at hsplit
            exact ⟨hp, hsplit⟩
          · right
            rw [if_neg hp] at hsplit
            refine ⟨hsplit, ?_⟩
            rw [List.drop_eq_nil_iff]
            simp at hp
            omega
        have hff : firstFail d (part :: splitComma (css.drop (start + part.length + 1))) =
            firstFail d (splitComma (css.drop (start + part.length + 1))) := by
          conv_lhs => unfold firstFail
          rw [e1]
        have hps : ∀ ps n, partsSem pun d (part :: ps) n ↔
            evalSteps pun d l (fun _ => False) n ∨ partsSem pun d ps n := by
          intro ps n
          unfold partsSem
          constructor
          · rintro ⟨p, hp, l', h1, h2⟩
            rcases List.mem_cons.mp hp with rfl | hp
            · rw [e1] at h1; cases h1; exact Or.inl h2
            · exact Or.inr ⟨p, hp, l', h1, h2⟩
          · rintro (h2 | ⟨p, hp, l', h1, h2⟩)
            · exact ⟨part, by simp, l, e1, h2⟩
            · exact ⟨p, List.mem_cons_of_mem _ hp, l', h1, h2⟩
        rcases htail with ⟨_, ht⟩ | ⟨ht, hnil⟩
        · rw [ht, hff]
          rcases rest with ⟨st, q1, q2⟩ | ⟨q1, res', q2, q3, q4⟩
          · exact Or.inl ⟨st, q1, q2⟩
          · refine Or.inr ⟨q1, res', q2, q3, q4.congr ?_⟩
            intro n
            rw [hps, or_assoc]
        · rw [ht]
          rw [hnil] at rest
          have hone : firstFail d (splitComma []) = none := rfl
          have hemp : ∀ n, ¬partsSem pun d (splitComma []) n := by
            rintro n ⟨p, hp, l', h1, h2⟩
            simp [splitComma] at hp
            subst hp
            rw [partSteps_nil] at h1; cases h1
            exact h2
          rcases rest with ⟨st, q1, q2⟩ | ⟨q1, res', q2, q3, q4⟩
          · rw [hone] at q1; cases q1
          · refine Or.inr ⟨?_, res', q2, q3, q4.congr ?_⟩
            · unfold firstFail; rw [e1]; rfl
            · intro n
              rw [hps]
              have h1 := hemp n
              have h2 : ¬partsSem pun d [] n := by rintro ⟨p, hp, _⟩; simp at hp
              tauto
    · rw [if_neg hi]
      right
      have : css.drop start = [] := by rw [List.drop_eq_nil_iff]; omega
      rw [this]
      refine ⟨rfl, res, rfl, hrx, hres.congr ?_⟩
      intro n
      have hemp : ¬partsSem pun d (splitComma []) n := by
        rintro ⟨p, hp, l', h1, h2⟩
        simp [splitComma] at hp
        subst hp
        rw [partSteps_nil] at h1; cases h1
        exact h2
      tauto

/-- **What `querySelectorAll` does on any query string.** -/
theorem querySelectorAll_walk {d : Dom} {ch : Nat → List Nat} (h : Walkable d ch) (pun : Nat → Nat) (css : Str) :
    (∃ st, firstFail d (splitComma css) = some st ∧ querySelectorAll pun css d = .ok (.fail st)) ∨
    (firstFail d (splitComma css) = none ∧ ∃ L, querySelectorAll pun css d = .ok (.go L) ∧ L.Nodup ∧
      (∀ n, n ∈ L ↔ partsSem pun d (splitComma css) n) ∧ ∀ n ∈ L, n ≠ 0 ∧ n < d.nodes.length) := by
  have fresh : SetIs (fun _ => False) U16Set.fresh ∧ U16Exact U16Set.fresh := by
    obtain ⟨h1, h2, h3⟩ := U16OK.fresh hashID
    exact ⟨⟨h1, by rw [h3]; simp, fun _ hf => False.elim hf⟩, h2⟩
  unfold querySelectorAll
  rcases selectLoop_eval (pun := pun) (css := css) h (css.length + 1) 0 _ _ _ fresh.1 fresh.2 fresh.1 fresh.2
    (by omega) (by omega) with ⟨st, e1, e2⟩ | ⟨e1, res, e2, e3, e4⟩
  · left; exact ⟨st, e1, by rw [e2]; rfl⟩
  · right
    rw [e2]
    simp only [Out.bind_ok]
    rw [U16OK.toArray e3]
    refine ⟨e1, _, rfl, e4.ok.msi.nodup, ?_, ?_⟩
    · intro n
      rw [e4.mem]
      simp
    · intro n hn
      have := (e4.mem n).mp hn
      refine ⟨e4.range n this, ?_⟩
      simp at this
      obtain ⟨p, _, l, _, hl⟩ := this
      exact evalSteps_lt h l (fun _ => False) (fun _ hf => False.elim hf) n hl

theorem querySelectorAll_eval {d : Dom} {ch : Nat → List Nat} (h : DomI d ch) (pun : Nat → Nat) (css : Str) :
    (∃ st, firstFail d (splitComma css) = some st ∧ querySelectorAll pun css d = .ok (.fail st)) ∨
    (firstFail d (splitComma css) = none ∧ ∃ L, querySelectorAll pun css d = .ok (.go L) ∧ L.Nodup ∧
      (∀ n, n ∈ L ↔ partsSem pun d (splitComma css) n) ∧ ∀ n ∈ L, n ≠ 0 ∧ n < d.nodes.length) :=
  querySelectorAll_walk h.walk pun css

end Flo
