import Verif.Proofs.Forest
import Verif.Spec.Source
/-!
# The lexer on rendered source text
-/
namespace Flo
open Spec

/-! ## Positions -/

theorem drop_adv {s : Str} {i : Nat} {X R : Str} (h : s.drop i = X ++ R) : s.drop (i + X.length) = R := by
  rw [← List.drop_drop, h]; simp

theorem drop_len {s : Str} {i : Nat} {X : Str} (h : s.drop i = X) (hx : X ≠ []) : i + X.length = s.length := by
  subst h
  have : i < s.length := by
    by_contra hc; exact hx (List.drop_eq_nil_of_le (by omega))
  simp; omega

theorem drop_get {s : Str} {i : Nat} {c : UInt8} {R : Str} (h : s.drop i = c :: R) : s[i]? = some c := by
  have : (s.drop i)[0]? = some c := by rw [h]; rfl
  simpa using this

theorem isSpace_iff (c : UInt8) : isSpace c = true ↔ IsBlankChar c := by
  simp only [isSpace, isFormatting, IsBlankChar, Bool.or_eq_true, beq_iff_eq]
  rw [or_assoc (a := c = cTab)]

theorem skipSpace_eq (s : Str) (i : Nat) : skipSpace s i = i + ((s.drop i).takeWhile isSpace).length := scanWhile_eq _ _ _

theorem skipSpace_spaces {s : Str} {i : Nat} {g R : Str} (h : s.drop i = g ++ R) (hg : Spaces g) :
    skipSpace s i = skipSpace s (i + g.length) := by
  rw [skipSpace_eq, skipSpace_eq, drop_adv h, h]
  have : ∀ c ∈ g, isSpace c = true := fun c hc => (isSpace_iff c).mpr (hg c hc)
  rw [List.takeWhile_append_of_pos this]
  simp; omega

/-- The bytes do not start with white space. -/
def NoSp (R : Str) : Prop := ∀ c r, R = c :: r → ¬IsBlankChar c

theorem skipSpace_here {s : Str} {i : Nat} {R : Str} (h : s.drop i = R) (hR : NoSp R) : skipSpace s i = i := by
  rw [skipSpace_eq, h]
  cases R with
  | nil => rfl
  | cons c r =>
    have : isSpace c = false := by
      have := hR c r rfl
      rw [← isSpace_iff] at this
      simpa using this
    simp [List.takeWhile, this]

theorem skipSpace_gap {s : Str} {i : Nat} {g R : Str} (h : s.drop i = g ++ R) (hg : Spaces g) (hR : NoSp R) :
    skipSpace s i = i + g.length := by
  rw [skipSpace_spaces h hg, skipSpace_here (drop_adv h) hR]

theorem scanUntil_at {p : UInt8 → Bool} {s : Str} {i : Nat} {X R : Str} (h : s.drop i = X ++ R)
    (hX : ∀ c ∈ X, p c = false) (hR : ∀ c r, R = c :: r → p c = true) : scanUntil p (s.drop i) i = i + X.length := by
  unfold scanUntil
  rw [scanWhile_eq, h]
  rw [List.takeWhile_append_of_pos (by simpa using hX)]
  cases R with
  | nil => simp
  | cons c r => simp [List.takeWhile, hR c r rfl]

theorem subStr_at {s : Str} {i : Nat} {X R : Str} {a b : Int} (h : s.drop i = X ++ R) (ha : a = i)
    (hb : b = X.length) (hi : i ≤ s.length) : subStr s a b = .ok X := by
  subst ha hb
  rw [subStr_ok]
  · rw [h]; simp
  · have := congrArg List.length h
    simp at this; omega

theorem le_of_drop {s : Str} {i : Nat} {X : Str} (h : s.drop i = X) (hx : X ≠ []) : i < s.length := by
  by_contra hc; exact hx (by rw [← h]; exact List.drop_eq_nil_of_le (by omega))

/-! ## Comments -/

theorem commentLoop_at {s : Str} : ∀ (body pre : Str) (i : Nat) (R : Str), s.drop (i - pre.length) = pre ++ body ++ b!"-->" ++ R →
    2 ≤ pre.length → pre.length ≤ i → ¬ (b!"-->" <:+: pre ++ body ++ b!"--") →
    commentLoop s (s.drop i) i = .ok (i + body.length + 2) := by
  intro body pre i R h h2 hi hno
  have hd : s.drop i = body ++ b!"-->" ++ R := by
    have := drop_adv (s := s) (i := i - pre.length) (X := pre) (R := body ++ b!"-->" ++ R) (by simpa using h)
    rwa [Nat.sub_add_cancel hi] at this
  have key : ∀ (l : Str) (k : Nat), l = s.drop k → i ≤ k → k ≤ i + body.length + 2 →
      commentLoop s l k = .ok (i + body.length + 2) := by
    intro l
    induction l with
    | nil =>
      intro k hk h3 h4
      have hlen := congrArg List.length hd
      have := congrArg List.length hk
      simp at hlen this
      omega
    | cons c cs ih =>
      intro k hk h3 h4
      have hgk := drop_get hk.symm
      have htail : cs = s.drop (k + 1) := by
        have := drop_adv (s := s) (i := k) (X := [c]) (R := cs) (by simpa using hk.symm)
        simpa using this.symm
      have hlt := lt_of_getElem? hgk
      -- the two bytes before `k`
      have hsub : subStr s ((k : Int) - 2) 2 = .ok ((s.drop (k - 2)).take 2) :=
        subStr_ok' (by omega) rfl (by omega)
      unfold commentLoop
      by_cases hend : k = i + body.length + 2
      · have hc : c = cGt := by
          have : s[k]? = some cGt := by
            have := drop_get (drop_adv (s := s) (i := i) (X := body ++ b!"--") (R := cGt :: R) (by simpa using hd))
            rw [← this]; congr 1; simp; omega
          rw [hgk] at this; exact Option.some.inj this
        subst hc
        have h22 : (s.drop (k - 2)).take 2 = b!"--" := by
          have := drop_adv (s := s) (i := i) (X := body) (R := b!"--" ++ cGt :: R) (by simpa using hd)
          have e : k - 2 = i + body.length := by omega
          rw [e, this]; rfl
        rw [if_pos (by rfl), hsub, Out.bind_ok, h22]
        rw [if_pos (by rfl), hend]
      · have hnext := ih (k + 1) htail (by omega) (by omega)
        by_cases hgt : c = cGt
        · rw [if_pos (by simpa using hgt), hsub, Out.bind_ok]
          rw [if_neg ?_]
          · exact hnext
          · intro hh
            have hh : b!"--" = (s.drop (k - 2)).take 2 := by simpa [strEq] using hh
            apply hno
            -- `-->` occurs at `k - 2`
            have hpos : k - 2 = (i - pre.length) + (k - 2 - (i - pre.length)) := by omega
            have hd3 : (s.drop (k - 2)).take 3 = b!"-->" := by
              have e3 : (s.drop (k - 2)).take 3 = (s.drop (k - 2)).take 2 ++ (s.drop k).take 1 := by
                rw [show (3 : Nat) = 2 + 1 from rfl, List.take_add, List.drop_drop]
                congr 3; omega
              rw [e3, ← hh, ← hk, hgt]; rfl
            refine ⟨(pre ++ body ++ b!"--").take (k - 2 - (i - pre.length)), (pre ++ body ++ b!"--").drop (k - 2 - (i - pre.length) + 3), ?_⟩
            have hm : ((pre ++ body ++ b!"--").drop (k - 2 - (i - pre.length))).take 3 = b!"-->" := by
              rw [← hd3]
              have : s.drop (k - 2) = (pre ++ body ++ b!"--" ++ (cGt :: R)).drop (k - 2 - (i - pre.length)) := by
                conv_lhs => rw [hpos, ← List.drop_drop, h]
                simp
              have hm3 : k - 2 - (i - pre.length) + 3 ≤ (pre ++ body ++ b!"--").length := by
                simp only [List.length_append, List.length_cons, List.length_nil]; omega
              generalize k - 2 - (i - pre.length) = m at hm3 this ⊢
              generalize pre ++ body ++ b!"--" = Z at hm3 this ⊢
              rw [this, List.drop_append_of_le_length (by omega), List.take_append_of_le_length (by rw [List.length_drop]; omega)]
            rw [← hm, ← List.drop_drop, List.append_assoc, List.take_append_drop, List.take_append_drop]
        · rw [if_neg (by simpa using hgt)]
          exact hnext
  exact key _ i rfl (Nat.le_refl _) (by omega)

theorem isCommentTag_at {s : Str} {i : Nat} {body R : Str} (h : s.drop i = b!"<!--" ++ body ++ b!"-->" ++ R) :
    isCommentTag s i = .ok true := by
  have hl := drop_len h (by simp)
  unfold isCommentTag
  rw [if_pos (by simp at hl; omega)]
  rw [subStr_at (X := b!"!--") (R := body ++ b!"-->" ++ R) (i := i + 1) (a := (i : Int) + 1) (b := 3)
    (by have := drop_adv (s := s) (i := i) (X := b!"<") (R := b!"!--" ++ (body ++ b!"-->" ++ R)) (by simpa using h)
        simpa using this) (by simp) rfl (by simp at hl; omega)]
  rfl

theorem skipComment_at {s : Str} {i : Nat} {body R : Str} (h : s.drop i = b!"<!--" ++ body ++ b!"-->" ++ R)
    (hb : ¬ (b!"-->" <:+: b!"--" ++ body ++ b!"--")) :
    skipComment s i = .ok (i + (b!"<!--" ++ body ++ b!"-->").length) := by
  unfold skipComment
  rw [commentLoop_at body b!"--" (i + 4) R ?_ (by simp) (by simp) hb]
  · simp; omega
  · have := drop_adv (s := s) (i := i) (X := b!"<!") (R := b!"--" ++ body ++ b!"-->" ++ R) (by simpa using h)
    simpa using this

/-- The bytes are at the end of the input or at a `<` that does not start a comment. -/
def Stop (R : Str) : Prop := ∀ c r, R = c :: r → c = cLt ∧ ¬ b!"!--" <+: r

theorem Stop.nosp {R : Str} (h : Stop R) : NoSp R := by
  intro c r e hb
  rw [(h c r e).1] at hb
  rcases hb with hb | hb | hb | hb <;> exact absurd hb (by decide)

theorem isCommentTag_no {s : Str} {i : Nat} {c : UInt8} {r : Str} (h : s.drop i = c :: r) (hr : ¬ b!"!--" <+: r) :
    isCommentTag s i = .ok false := by
  unfold isCommentTag
  split
  · rename_i hlt
    have hd := drop_adv (s := s) (i := i) (X := [c]) (R := r) (by simpa using h)
    rw [subStr_at (X := r.take 3) (R := r.drop 3) (i := i + 1) (by simpa using hd) (by simp)
      (by have := congrArg List.length h; simp at this ⊢; omega) (by omega)]
    simp only [Out.bind_ok, Out.ok.injEq]
    unfold strEq
    rw [Bool.eq_false_iff]
    intro hh
    apply hr
    have hh : b!"!--" = r.take 3 := by simpa using hh
    rw [hh]; exact List.take_prefix _ _
  · rfl

end Flo
