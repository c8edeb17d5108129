import Verif.Proofs.Reference
import Verif.Proofs.ReplaceTwo
/-!
# What every fragment means (C94)
-/
namespace Flo
open Spec

theorem baseRef_frag {junk : Nat → Out Bool} {answer : Nat → Bool} (hj : ∀ i, junk i = .ok (answer i)) (s : Str) :
    BaseRef (fragBase junk s) s (fun r => answer (s.length - r.length)) := by
  intro i r h
  have hl : s.length - (60 :: r).length = i := by
    have := congrArg List.length h
    simp only [List.length_drop, List.length_cons] at this ⊢
    omega
  dsimp only
  rw [hl]
  unfold fragBase
  have hd1 : s.drop (i + 1) = r := drop_adv (s := s) (i := i) (X := [60]) (R := r) (by simpa using h)
  cases r with
  | nil =>
    have : currentChar s (i + 1) = 0 := by
      unfold currentChar
      rw [List.getD_eq_getElem?_getD, List.getElem?_eq_none (by
        have := congrArg List.length hd1
        simp at this; omega)]
      rfl
    rw [this]
    simp [List.isPrefixOf, cSlash]
  | cons c r =>
    rw [currentChar_at hd1]
    by_cases hc : c = cSlash
    · subst hc
      simp [hj, List.isPrefixOf, cSlash]
    · rw [if_neg (by simpa using hc)]
      have : ¬ (47 = c) := fun e => hc e.symm
      simp [List.isPrefixOf, this]

theorem fragTokens_lex {junk : Nat → Out Bool} {answer : Nat → Bool} (hj : ∀ i, junk i = .ok (answer i)) (s : Str) :
    ((fragTokens answer s).2 = false ∧ ∃ evs, lex (fragBase junk s) s = .ok evs ∧ (fragTokens answer s).1 = evs.map tokOf) ∨
    ((fragTokens answer s).2 = true ∧ ∃ evs, Stuck (fragBase junk s) s (s.length + 1) (skipSpace s 0) [] evs ∧
      (fragTokens answer s).1 = evs.map tokOf) :=
  lexAll_ref (baseRef_frag hj s) (s.length + 1) 0 (s.length + 1) [] (by omega) (by omega) (by simp)

theorem forest_nil {evs : List Ev} (h : closesOK 0 evs) (he : forest evs = []) : evs = [] := by
  rw [← treesOf_forest h] at he
  cases evs with
  | nil => rfl
  | cons e es =>
    cases e with
    | close => exact absurd h.1 (by omega)
    | text raw => simp [treesOf, tokOf, treesFrom] at he
    | elem tag can as => cases can <;> simp [treesOf, tokOf, treesFrom] at he

theorem parseExtra_ref {junk : Nat → Out Bool} {answer : Nat → Bool} (hj : ∀ i, junk i = .ok (answer i)) {d : Dom}
    {ch : Nat → List Nat} (h : DomI d ch) (h0 : ch 0 = []) (html : Str) :
    parseExtra junk html d = .longjmp ∨ (match fragOutcome answer html with
    | .document F => ∃ d1, parseExtra junk html d = .ok ⟨true, d1⟩ ∧ (F ≠ [] → FParse junk html d ch F) ∧ (F = [] → d1 = d) ∧
        Used d (tokenForms (fragTokens answer html).1) d1
    | .null => ∃ d1 c1, parseExtra junk html d = .ok ⟨false, d1⟩ ∧ Parsed d ch d1 c1
    | .outside => parseExtra junk html d = .ub .negLen) := by
  have hpost := parseExtra_domI (E := EQuote html) (s := html) h h0 (fun i => by rw [hj]; trivial : ∀ i, Post _ _ (junk i)) (fun _ h => h)
  unfold fragOutcome
  rcases fragTokens_lex hj html with ⟨h1, evs, h2, h3⟩ | ⟨h1, evs, h2, h3⟩
  · have hn := runEvs_nests (startLen := 0) (limit := 256) rfl evs ⟨d, [], 0⟩ 0 rfl
    rw [← parseExtra_lex h2] at hn
    rw [← h3] at hn
    rw [h1]
    cases hp : parseExtra junk html d with
    | longjmp => exact Or.inl rfl
    | ub w => rw [hp] at hn; exact False.elim hn
    | hang => rw [hp] at hn; exact False.elim hn
    | ok r =>
      right
      rw [hp] at hn hpost
      have hr : r.ok = !nestsBeyond 256 0 (fragTokens answer html).1 := hn
      obtain ⟨c1, P, _⟩ := hpost
      obtain ⟨ok, d1⟩ := r
      dsimp only at hr P
      by_cases hnest : nestsBeyond 256 0 (fragTokens answer html).1 = true
      · rw [if_pos hnest]
        rw [hnest] at hr
        subst hr
        exact ⟨d1, c1, rfl, P⟩
      · have hnest : nestsBeyond 256 0 (fragTokens answer html).1 = false := by simpa using hnest
        rw [hnest] at hr ⊢
        rw [if_neg (by simp), if_neg (by simp)]
        subst hr
        have hcl := lexAll_closes h2
        refine ⟨d1, rfl, ?_, ?_, ?_⟩
        · rw [h3, treesOf_forest hcl]
          exact fun hne => fparse_of_lex h h0 h2 hp hne
        · rw [h3, treesOf_forest hcl]
          intro he
          have := forest_nil hcl he
          subst this
          rw [parseExtra_lex h2] at hp
          simp [runEvs] at hp
          exact hp.symm
        · rw [parseExtra_lex h2] at hp
          have := runEvs_used (d := d) evs ⟨d, [], 0⟩ [] (Used.nil h.names.tag) _ hp
          dsimp only at this
          rw [if_pos (by rfl), List.nil_append, ← tokenForms_evs, ← h3] at this
          exact this
  · have hn := runEvs_nests (startLen := 0) (limit := 256) rfl evs ⟨d, [], 0⟩ 0 rfl
    rw [h1]
    obtain ⟨X, hX, hp⟩ := parseLoop_stuck (bt := []) (Or.inl rfl) (baseIs_frag junk html) h2
      (st := { idx := skipSpace html 0, dom := d, stack := [], prev := errorID }) rfl rfl
    have hp : parseExtra junk html d =
      (runEvs 0 evs ⟨d, [], 0⟩ >>= fun r => if r.ok then X r.dom else .ok r) := hp
    rw [← h3] at hn
    cases hr : runEvs 0 evs ⟨d, [], 0⟩ with
    | longjmp => left; rw [hp, hr]; rfl
    | ub w => rw [hr] at hn; exact False.elim hn
    | hang => rw [hr] at hn; exact False.elim hn
    | ok r =>
      rw [hr] at hn hp
      simp only [Out.bind_ok] at hp
      have hok : r.ok = !nestsBeyond 256 0 (fragTokens answer html).1 := hn
      by_cases hnest : nestsBeyond 256 0 (fragTokens answer html).1 = true
      · right
        rw [if_pos hnest]
        rw [hnest] at hok
        rw [if_neg (by simp [hok])] at hp
        rw [hp] at hpost ⊢
        obtain ⟨c1, P, _⟩ := hpost
        obtain ⟨ok, d1⟩ := r
        dsimp only at hok P
        subst hok
        exact ⟨d1, c1, rfl, P⟩
      · have hnest : nestsBeyond 256 0 (fragTokens answer html).1 = false := by simpa using hnest
        rw [hnest] at hok ⊢
        have hok : r.ok = true := hok
        rw [if_neg (by simp), if_pos rfl]
        rw [if_pos hok] at hp
        cases hc : parseExtra junk html d with
        | longjmp => exact Or.inl rfl
        | hang => rw [hc] at hpost; exact False.elim hpost
        | ub w =>
          rw [hc] at hpost
          have hw : w = .negLen := hpost.1
          right
          show Out.ub w = .ub .negLen
          rw [hw]
        | ok x =>
          rw [hp] at hc
          exact absurd hc (hX _ _)

end Flo
