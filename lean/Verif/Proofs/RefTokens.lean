import Verif.Proofs.RefTag
/-!
# The tokens of the reference reader are the events of the lexer (C93)
-/
namespace Flo
open Spec

/-- An event of the lexer as a token. -/
def tokOf : Ev → Token
  | .text raw => .text raw
  | .elem tag can as => .start tag (as.map attrRead) can
  | .close => .close

/-- What an end tag outside of every element is. -/
def BaseRef (base : Nat → Out Bool) (s : Str) (stray : Str → Bool) : Prop :=
  ∀ (i : Nat) (r : Str), s.drop i = 60 :: r → base i = .ok ((b!"</").isPrefixOf (60 :: r) && stray (60 :: r))

theorem baseRef_root (s : Str) : BaseRef (rootBase s) s (fun r => decide (2 < r.length)) := by
  intro i r h
  unfold rootBase
  rw [isEnd_ref (r := r) h]
  rfl

theorem tokens_skip (stray : Str → Bool) (g : Nat) (r : Str) (names : List Str) :
    tokens stray (g + 1) (skipBlank r) names = tokens stray (g + 1) r names := by
  unfold tokens
  rw [skipBlank_idem]

/-- One step. -/
theorem lexStep_ref {base : Nat → Out Bool} {s : Str} {stray : Str → Bool} (hb : BaseRef base s stray) {k : Nat} {c : UInt8} {r : Str}
    (h : s.drop k = c :: r) (hns : NoSp (c :: r)) (tags : List Str) :
    (lexStep base s k tags = .ub .negLen ∧ ∀ g, tokens stray (g + 1) (c :: r) tags = ([], true)) ∨
    ∃ oe j, lexStep base s k tags = .ok (oe, skipSpace s j) ∧ k < j ∧
      ∀ g, tokens stray (g + 1) (c :: r) tags =
        (oe.toList.map tokOf ++ (tokens stray g (s.drop j) (nextTagsO tags oe)).1, (tokens stray g (s.drop j) (nextTagsO tags oe)).2) := by
  have hsb : skipBlank (c :: r) = c :: r := by
    unfold skipBlank
    rw [List.dropWhile_cons_of_neg]
    rw [blank_eq]; intro hh; exact hns c r rfl ((isSpace_iff c).mp hh)
  have hd1 : s.drop (k + 1) = r := drop_adv (s := s) (i := k) (X := [c]) (R := r) (by simpa using h)
  by_cases hc : c = 60
  · subst hc
    by_cases hcm : atComment (60 :: r) = true
    · right
      obtain ⟨j, e1, e2, e3⟩ := skipComment_ref h
      refine ⟨none, j, ?_, by omega, fun g => ?_⟩
      · unfold lexStep
        rw [currentChar_at h, if_pos (by rfl), isCommentTag_ref h, hcm]
        simp only [Out.bind_ok]
        rw [if_pos trivial, e1]
        rfl
      · conv_lhs => unfold tokens
        rw [hsb]
        dsimp only
        rw [if_pos hcm, e3]
        rfl
    · have hend : lexEnd base s k tags = .ok (endTag stray (60 :: r) tags) := by
        cases tags with
        | nil => exact hb k r h
        | cons t ts => exact isEnd_ref h
      by_cases he : (endTag stray (60 :: r) tags) = true
      · right
        refine ⟨closeEv tags, scanUntil (· == cGt) (s.drop k) k + 1, ?_, ?_, fun g => ?_⟩
        · unfold lexStep
          rw [currentChar_at h, if_pos (by rfl), isCommentTag_ref h]
          have hcm' : atComment (cLt :: r) = false := by simpa using hcm
          rw [hcm']
          simp only [Out.bind_ok]
          rw [if_neg (by simp), hend]
          simp only [Out.bind_ok]
          rw [if_pos he]
        · have := scanWhile_ge (fun c => !(c == cGt)) (s.drop k) k
          exact Nat.lt_succ_of_le this
        · rw [past_gt_at, h]
          conv_lhs => unfold tokens
          rw [hsb]
          dsimp only
          rw [if_neg hcm, if_pos he]
          cases tags with
          | nil => rfl
          | cons t ts => rfl
      · by_cases hst : atStart (60 :: r) = true
        · cases r with
          | nil => simp [atStart] at hst
          | cons c r =>
            have hac : isAlphabetical c = true ∨ c = 33 := by
              simpa [atStart] using hst
            have hlex : lexStep base s k tags = (do
                let (t, can, as, j) ← lexElem s (k + 1) (c == cBang)
                .ok (some (.elem t can as), skipSpace s j)) := by
              unfold lexStep
              rw [currentChar_at h, if_pos (by rfl), isCommentTag_ref h]
              have hcm' : atComment (cLt :: c :: r) = false := by simpa using hcm
              rw [hcm']
              simp only [Out.bind_ok]
              rw [if_neg (by simp), hend]
              simp only [Out.bind_ok]
              rw [if_neg he, currentChar_at hd1, if_pos (by simpa [cBang] using hac)]
            rcases lexElem_ref hd1 hac with ⟨h1, h2⟩ | ⟨tag, can, as, j, h1, h2, h3⟩
            · left
              refine ⟨by rw [hlex, h2]; rfl, fun g => ?_⟩
              unfold tokens
              rw [hsb]
              dsimp only
              rw [if_neg hcm, if_neg he, if_pos hst, h1]
            · right
              refine ⟨some (.elem tag can as), j, by rw [hlex, h2]; rfl, by omega, fun g => ?_⟩
              conv_lhs => unfold tokens
              rw [hsb]
              dsimp only
              rw [if_neg hcm, if_neg he, if_pos hst, h1]
              cases can <;> rfl
        · right
          obtain ⟨j, h1, h2, h3⟩ := lexText_strayRef (tag := tags.headD []) h
          refine ⟨some (.text (textValue r (tp r).1)), j, ?_, h3, fun g => ?_⟩
          · unfold lexStep
            rw [currentChar_at h, if_pos (by rfl), isCommentTag_ref h]
            have hcm' : atComment (cLt :: r) = false := by simpa using hcm
            rw [hcm']
            simp only [Out.bind_ok]
            rw [if_neg (by simp), hend]
            simp only [Out.bind_ok]
            rw [if_neg he, if_neg ?_]
            · exact h1
            · cases r with
              | nil =>
                have hl : s.length ≤ k + 1 := by simpa using hd1
                have hc : currentChar s (k + 1) = 0 := by
                  unfold currentChar
                  simp [List.getD_eq_getElem?_getD, List.getElem?_eq_none hl]
                rw [hc]; decide
              | cons c r =>
                rw [currentChar_at hd1]
                simpa [atStart, cBang] using hst
          · conv_lhs => unfold tokens
            rw [hsb]
            dsimp only
            rw [if_neg hcm, if_neg he, if_neg hst, if_pos rfl, h2]
            rfl
  · right
    obtain ⟨j, h1, h2, h3⟩ := lexText_ref (tag := tags.headD []) h hns hc
    refine ⟨some (.text (textValue (c :: r) (tp (c :: r)).1)), j, ?_, h3, fun g => ?_⟩
    · unfold lexStep
      rw [currentChar_at h, if_neg (by simpa [cLt] using hc)]
      exact h1
    · have hcm : ¬ atComment (c :: r) = true := by
        intro hh
        simp [atComment, List.isPrefixOf] at hh
        exact hc hh.1.1.symm
      have he : ¬ (endTag stray (c :: r) tags) = true := by
        intro hh
        cases tags with
        | nil => simp [endTag, List.isPrefixOf] at hh; exact hc hh.1.1.symm
        | cons t ts => simp [endTag, atEnd, List.isPrefixOf] at hh; exact hc hh.1.1.symm
      have hst : ¬ atStart (c :: r) = true := by
        intro hh
        cases r with
        | nil => simp [atStart] at hh
        | cons d r => simp [atStart] at hh; exact hc hh.1
      conv_lhs => unfold tokens
      rw [hsb]
      dsimp only
      rw [if_neg hcm, if_neg he, if_neg hst, if_neg hc, h2]
      rfl

/-- The lexer reads outside the input behind these events. -/
inductive Stuck (base : Nat → Out Bool) (s : Str) : Nat → Nat → List Str → List Ev → Prop where
  | here {f k : Nat} {tags : List Str} (h : k < s.length) (e : lexStep base s k tags = .ub .negLen) : Stuck base s (f + 1) k tags []
  | step {f k i : Nat} {tags : List Str} {oe : Option Ev} {evs : List Ev} (h : k < s.length) (e : lexStep base s k tags = .ok (oe, i))
      (next : Stuck base s f i (nextTagsO tags oe) evs) : Stuck base s (f + 1) k tags (oe.toList ++ evs)

theorem lexAll_ref {base : Nat → Out Bool} {s : Str} {stray : Str → Bool} (hb : BaseRef base s stray) :
    ∀ (f i g : Nat) (tags : List Str), s.length < f + i → 1 ≤ f → (s.drop i).length < g →
    ((tokens stray g (s.drop i) tags).2 = false ∧ ∃ evs, lexAll base s f (skipSpace s i) tags = .ok evs ∧
      (tokens stray g (s.drop i) tags).1 = evs.map tokOf) ∨
    ((tokens stray g (s.drop i) tags).2 = true ∧ ∃ evs, Stuck base s f (skipSpace s i) tags evs ∧
      (tokens stray g (s.drop i) tags).1 = evs.map tokOf) := by
  intro f
  induction f with
  | zero => intro i g tags _ h; omega
  | succ f ih =>
    intro i g tags hf _ hg
    cases g with
    | zero => omega
    | succ g =>
    have hsp := skipBlank_at s i
    have hge := skipSpace_ge s i
    rw [← tokens_skip, ← hsp]
    have hns : NoSp (s.drop (skipSpace s i)) := hsp ▸ skipBlank_nosp _
    generalize skipSpace s i = k at *
    cases hr : s.drop k with
    | nil =>
      left
      have hl : s.length ≤ k := by simpa using hr
      refine ⟨rfl, [], ?_, rfl⟩
      unfold lexAll
      rw [if_neg (by omega)]
    | cons c r =>
      have hkl := le_of_drop hr (by simp)
      rw [hr] at hns
      rw [List.length_drop] at hg
      rcases lexStep_ref hb hr hns tags with ⟨h1, h2⟩ | ⟨oe, j, h1, h2, h3⟩
      · right
        rw [h2]
        exact ⟨rfl, [], .here hkl h1, rfl⟩
      · rw [h3]
        rcases ih j g (nextTagsO tags oe) (by omega) (by omega) (by rw [List.length_drop]; omega) with ⟨a, evs, a1, a2⟩ | ⟨a, evs, a1, a2⟩
        · left
          refine ⟨a, oe.toList ++ evs, ?_, by simp [a2]⟩
          unfold lexAll
          rw [if_pos hkl, h1]
          simp only [Out.bind_ok]
          rw [a1]; rfl
        · right
          exact ⟨a, oe.toList ++ evs, .step hkl h1 a1, by simp [a2]⟩

end Flo
