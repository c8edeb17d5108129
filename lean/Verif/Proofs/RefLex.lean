import Verif.Spec.Reference
import Verif.Proofs.Broken
/-!
# The reference reader and the lexer of the parser: scanning, comments, attributes, start tags (C93)
-/
namespace Flo
open Spec

theorem blank_eq (c : UInt8) : blank c = isSpace c := by
  simp only [blank, isSpace, isFormatting, cSp, cTab, cNl, cCr, Bool.or_assoc]

theorem drop_takeWhile (p : UInt8 → Bool) (l : Str) : l.drop (l.takeWhile p).length = l.dropWhile p := by
  induction l with
  | nil => rfl
  | cons c l ih =>
    by_cases h : p c = true
    · simp [List.takeWhile, List.dropWhile, h, ih]
    · simp [List.takeWhile, List.dropWhile, h]

theorem skipBlank_at (s : Str) (i : Nat) : s.drop (skipSpace s i) = skipBlank (s.drop i) := by
  have h : blank = isSpace := funext blank_eq
  rw [skipSpace_eq, ← List.drop_drop, drop_takeWhile]
  unfold skipBlank
  rw [h]

theorem skipBlank_nosp (r : Str) : NoSp (skipBlank r) := by
  intro c t e hb
  unfold skipBlank at e
  have : blank c = false := by
    induction r with
    | nil => simp at e
    | cons a r ih =>
      by_cases ha : blank a = true
      · rw [List.dropWhile_cons_of_pos ha] at e; exact ih e
      · rw [List.dropWhile_cons_of_neg ha] at e
        cases e; simpa using ha
  rw [blank_eq] at this
  rw [(isSpace_iff c).mpr hb] at this
  cases this

theorem skipBlank_len (r : Str) : (skipBlank r).length ≤ r.length := (List.dropWhile_suffix _).length_le

theorem skipBlank_idem (r : Str) : skipBlank (skipBlank r) = skipBlank r := by
  cases h : skipBlank r with
  | nil => rfl
  | cons c t =>
    have := skipBlank_nosp r c t h
    unfold skipBlank
    rw [List.dropWhile_cons_of_neg]
    rw [blank_eq]; intro hh; exact this ((isSpace_iff c).mp hh)

theorem scan_drop (p : UInt8 → Bool) (s : Str) (i : Nat) :
    s.drop (scanUntil p (s.drop i) i) = (s.drop i).dropWhile (fun c => !p c) := by
  unfold scanUntil
  rw [scanWhile_eq, ← List.drop_drop, drop_takeWhile]

theorem past_len (m : Str) (hm : m ≠ []) : ∀ (r : Str), r ≠ [] → (past m r).length < r.length
  | [], h => absurd rfl h
  | c :: r, _ => by
    unfold past
    split
    · have := List.length_pos_iff.mpr hm
      simp only [List.length_drop, List.length_cons]; omega
    · by_cases hr : r = []
      · subst hr; simp [past]
      · have := past_len m hm r hr
        simp only [List.length_cons]; omega

theorem past_gt (r : Str) : past b!">" r = (r.dropWhile (fun c => !(c == cGt))).drop 1 := by
  induction r with
  | nil => rfl
  | cons c r ih =>
    by_cases h : c = cGt
    · subst h; simp [past, List.isPrefixOf, cGt]
    · have h' : (c == cGt) = false := by simpa using h
      have h'' : ((62 : UInt8) == c) = false := by
        rw [beq_eq_false_iff_ne]; intro e; exact h e.symm
      have hb : (b!">").isPrefixOf (c :: r) = false := by
        simp only [List.isPrefixOf, h'', Bool.false_and]
      rw [List.dropWhile_cons_of_pos (by rw [h']; rfl), ← ih]
      conv_lhs => unfold past
      rw [if_neg (by rw [hb]; simp)]

theorem past_gt_at (s : Str) (i : Nat) : s.drop (scanUntil (· == cGt) (s.drop i) i + 1) = past b!">" (s.drop i) := by
  rw [← List.drop_drop, scan_drop, past_gt]

/-! ## Comments -/

theorem past_short {m : Str} : ∀ {r : Str}, r.length < m.length → past m r = []
  | [], _ => rfl
  | c :: r, h => by
    unfold past
    rw [if_neg, past_short (by simp at h; omega)]
    intro hp
    have := (List.isPrefixOf_iff_prefix.mp hp).length_le
    omega

theorem commentLoop_ref {s : Str} : ∀ (l : Str) (k : Nat), l = s.drop k → 2 ≤ k →
    ∃ j, commentLoop s l k = .ok j ∧ k ≤ j ∧ s.drop (j + 1) = past b!"-->" (s.drop (k - 2)) := by
  intro l
  induction l with
  | nil =>
    intro k h hk
    refine ⟨k, rfl, Nat.le_refl _, ?_⟩
    have hl : s.length ≤ k := by simpa using h.symm
    rw [List.drop_eq_nil_of_le (by omega), past_short]
    simp; omega
  | cons c cs ih =>
    intro k h hk
    have hgk := drop_get h.symm
    have hlt := lt_of_getElem? hgk
    have htail : cs = s.drop (k + 1) := by
      have := drop_adv (s := s) (i := k) (X := [c]) (R := cs) (by simpa using h.symm)
      simpa using this.symm
    have h2 : s.drop (k - 2) = s[k - 2] :: s[k - 1] :: c :: cs := by
      rw [List.drop_eq_getElem_cons (by omega), show k - 2 + 1 = k - 1 by omega, List.drop_eq_getElem_cons (by omega),
        show k - 1 + 1 = k by omega, ← h]
    have h1 : s.drop (k + 1 - 2) = s[k - 1] :: c :: cs := by
      rw [show k + 1 - 2 = k - 1 by omega, List.drop_eq_getElem_cons (by omega), show k - 1 + 1 = k by omega, ← h]
    obtain ⟨j, e1, e2, e3⟩ := ih (k + 1) htail (by omega)
    have hpast : past b!"-->" (s.drop (k - 2)) =
        if s[k - 2] = 45 ∧ s[k - 1] = 45 ∧ c = 62 then cs else past b!"-->" (s.drop (k + 1 - 2)) := by
      rw [h2, h1]
      conv_lhs => unfold past
      by_cases hc : s[k - 2] = 45 ∧ s[k - 1] = 45 ∧ c = 62
      · rw [if_pos hc, if_pos (by simp [List.isPrefixOf, hc])]
        rfl
      · rw [if_neg hc, if_neg]
        intro hp
        apply hc
        simp [List.isPrefixOf] at hp
        exact ⟨hp.1.symm, hp.2.1.symm, hp.2.2.symm⟩
    unfold commentLoop
    rw [hpast]
    by_cases hgt : c = cGt
    · subst hgt
      rw [if_pos (by rfl)]
      rw [subStr_ok' (start := (k : Int) - 2) (len := 2) (a := k - 2) (b := 2) (by omega) rfl (by omega), h2]
      simp only [Out.bind_ok]
      by_cases hd : s[k - 2] = 45 ∧ s[k - 1] = 45
      · rw [if_pos (by simp [strEq, hd]), if_pos (by exact ⟨hd.1, hd.2, trivial⟩)]
        exact ⟨k, rfl, Nat.le_refl _, htail.symm⟩
      · rw [if_neg (by simp [strEq]; intro a b; exact hd ⟨a.symm, b.symm⟩), if_neg (fun hh => hd ⟨hh.1, hh.2.1⟩)]
        exact ⟨j, e1, by omega, e3⟩
    · rw [if_neg (by simpa using hgt), if_neg (fun hh => hgt hh.2.2)]
      exact ⟨j, e1, by omega, e3⟩

theorem isCommentTag_ref {s : Str} {i : Nat} {r : Str} (h : s.drop i = cLt :: r) :
    isCommentTag s i = .ok (atComment (cLt :: r)) := by
  have hlen := drop_len h (by simp)
  have hd := drop_adv (s := s) (i := i) (X := [cLt]) (R := r) (by simpa using h)
  simp only [List.length_cons] at hlen
  unfold isCommentTag atComment
  by_cases hlt : (i : Int) < (s.length : Int) - 4
  · rw [if_pos hlt, subStr_ok' (start := (i : Int) + 1) (len := 3) (a := i + 1) (b := 3) (by omega) rfl (by omega)]
    rw [show s.drop (i + 1) = r from hd]
    simp only [Out.bind_ok]
    congr 1
    have h4 : 4 < (cLt :: r).length := by simp only [List.length_cons]; omega
    rw [decide_eq_true h4, Bool.and_true]
    match r, h4 with
    | a :: b :: c :: r', _ =>
      simp only [strEq, List.isPrefixOf, List.take, cLt]
      simp
  · rw [if_neg hlt]
    congr 1
    have h4 : ¬ 4 < (cLt :: r).length := by simp only [List.length_cons]; omega
    rw [decide_eq_false h4, Bool.and_false]

theorem pastComment_len {r : Str} (h : atComment r = true) : (pastComment r).length + 3 ≤ r.length := by
  unfold atComment at h
  simp only [Bool.and_eq_true, decide_eq_true_eq] at h
  unfold pastComment
  have := past_len b!"-->" (by simp) (r.drop 2) (by intro e; have := congrArg List.length e; simp at this; omega)
  rw [List.length_drop] at this
  omega

theorem skipComment_ref {s : Str} {i : Nat} {r : Str} (h : s.drop i = r) :
    ∃ j, skipComment s i = .ok j ∧ i + 5 ≤ j ∧ s.drop j = pastComment r := by
  obtain ⟨j, e1, e2, e3⟩ := commentLoop_ref (s := s) (s.drop (i + 4)) (i + 4) rfl (by omega)
  refine ⟨j + 1, ?_, by omega, ?_⟩
  · unfold skipComment; rw [e1]; rfl
  · rw [e3]; unfold pastComment
    rw [show i + 4 - 2 = i + 2 by omega, ← h, List.drop_drop]

/-! ## End tags -/

theorem isEnd_ref {s : Str} {i : Nat} {r name : Str} (h : s.drop i = cLt :: r) :
    isEndDocumentTag s i name = .ok (atEnd name (cLt :: r)) := by
  have hlen := drop_len h (by simp)
  have hd := drop_adv (s := s) (i := i) (X := [cLt]) (R := r) (by simpa using h)
  simp only [List.length_cons] at hlen
  have hd : s.drop (i + 1) = r := hd
  unfold isEndDocumentTag atEnd
  dsimp only
  cases r with
  | nil =>
    have hc : currentChar s (i + 1) = 0 := by
      unfold currentChar
      have : s.length ≤ i + 1 := by simpa using hd
      simp [List.getD_eq_getElem?_getD, List.getElem?_eq_none this]
    rw [hc, if_neg (by simp; intro hh; exact absurd hh (by decide))]
    simp [List.isPrefixOf]
  | cons c r =>
    have hd2 : s.drop (i + 2) = r := drop_adv (s := s) (i := i) (X := [cLt, c]) (R := r) (by simpa using h)
    simp only [List.length_cons] at hlen
    rw [currentChar_at hd]
    by_cases hcs : c = cSlash
    · subst hcs
      by_cases hl : name.length + 2 < (cLt :: cSlash :: r).length
      · simp only [List.length_cons] at hl
        rw [if_pos ⟨by rfl, by push_cast; omega⟩, subStr_ok' (a := i + 2) (b := name.length) (by push_cast; omega) rfl (by omega), hd2]
        simp only [Out.bind_ok]
        congr 1
        rw [decide_eq_true (by simp only [List.length_cons]; omega), Bool.and_true]
        rw [Bool.eq_iff_iff, List.isPrefixOf_iff_prefix]
        simp only [strEq, beq_iff_eq]
        constructor
        · intro e
          refine ⟨r.drop name.length, ?_⟩
          simp [cLt, cSlash]
          conv_rhs => rw [← List.take_append_drop name.length r, e]
        · rintro ⟨q, e⟩
          simp [cLt, cSlash] at e
          rw [← e]; simp
      · simp only [List.length_cons] at hl
        rw [if_neg (by push_cast; omega), decide_eq_false (by simp only [List.length_cons]; omega), Bool.and_false]
    · rw [if_neg (by simp [hcs])]
      congr 1
      symm
      rw [Bool.and_eq_false_iff]
      left
      rw [Bool.eq_false_iff]
      intro hp
      obtain ⟨q, e⟩ := List.isPrefixOf_iff_prefix.mp hp
      simp at e
      exact hcs e.1.symm

/-! ## Attributes -/

theorem quoteLoop_ref (q : UInt8) : ∀ (r : Str) (i : Nat) (len : Int),
    quoteLoop q r i 1 len =
      (match r.dropWhile (· != q) with
       | [] => (i + r.length, len + r.length)
       | _ :: _ => (i + (r.takeWhile (· != q)).length + 1, len + (r.takeWhile (· != q)).length + 1)) := by
  intro r
  induction r with
  | nil => intro i len; simp [quoteLoop]
  | cons c r ih =>
    intro i len
    simp only [quoteLoop]
    rw [if_pos (by omega)]
    by_cases h : c = q
    · subst h
      rw [if_pos (by simp)]
      have : ∀ (r : Str) (i : Nat) (len : Int), quoteLoop c r i (1 + 1) len = (i, len) := by
        intro r i len; cases r <;> rfl
      rw [this]
      simp [List.dropWhile, List.takeWhile]
    · rw [if_neg (by simpa using h), Nat.add_zero, ih]
      have hb : (c != q) = true := by simpa using h
      simp only [List.dropWhile, List.takeWhile, hb]
      cases r.dropWhile (· != q) with
      | nil => simp only [List.length_cons]; congr 1; · omega
               · push_cast; omega
      | cons a t => simp only [List.length_cons]; congr 1; · omega
                    · push_cast; omega

theorem word_len {r t left : Str} (h : word r = some (t, left)) :
    left.length ≤ r.length ∧ (r ≠ [] → (∀ c x, r = c :: x → isSpace c = false ∧ c ≠ cEq ∧ c ≠ cGt) → left.length < r.length) := by
  cases r with
  | nil => simp [word] at h; simp [← h.2]
  | cons q r =>
    simp only [word] at h
    split at h
    · split at h
      · cases h
      · split at h
        · cases h; simp
        · rename_i x r' e
          cases h
          have : (r.dropWhile (· != q)).length ≤ r.length := (List.dropWhile_suffix _).length_le
          rw [e] at this
          simp at this
          simp only [List.length_cons]
          exact ⟨by omega, fun _ _ => by omega⟩
    · cases h
      refine ⟨(List.dropWhile_suffix _).length_le, fun _ hc => ?_⟩
      obtain ⟨h1, h2, h3⟩ := hc q r rfl
      rw [List.dropWhile_cons_of_pos]
      · have : (r.dropWhile (fun c => !(blank c || c == 61 || c == 62))).length ≤ r.length := (List.dropWhile_suffix _).length_le
        simp only [List.length_cons]; omega
      · rw [blank_eq, h1]
        have e2 : (q == 61) = false := by simpa [cEq] using h2
        have e3 : (q == 62) = false := by simpa [cGt] using h3
        simp [e2, e3]

theorem isPropEnd_fun : (fun c => !(blank c || c == 61 || c == 62)) = (fun c => !isPropEnd c) := by
  funext c
  rw [blank_eq]
  simp only [isPropEnd, isSpace, cEq, cGt, Bool.or_assoc]

theorem isTagEnd_fun : nameByte = (fun c => !isTagEnd c) := by
  funext c
  unfold nameByte
  rw [blank_eq]
  simp only [isTagEnd, isSpace, cGt]
  rw [Bool.or_comm, Bool.or_assoc]

theorem parseProp_ref {s : Str} {i : Nat} (hi : i ≤ s.length) :
    (word (s.drop i) = none ∧ parseProp s i = .ub .negLen) ∨
    ∃ t j, word (s.drop i) = some (t, s.drop j) ∧ parseProp s i = .ok (t, j) ∧ i ≤ j ∧ j ≤ s.length := by
  cases hr : s.drop i with
  | nil =>
    right
    have hl : s.length ≤ i := by simpa using hr
    have hc : currentChar s i = 0 := by
      unfold currentChar
      simp [List.getD_eq_getElem?_getD, List.getElem?_eq_none hl]
    refine ⟨[], i, by rw [hr]; rfl, ?_, Nat.le_refl _, hi⟩
    unfold parseProp
    dsimp only
    rw [hc, if_neg (by decide), hr]
    simp only [scanUntil, scanWhile]
    rw [subStr_ok' (a := i) (b := 0) rfl (by omega) (by omega)]
    simp
  | cons q r =>
    have hlen := drop_len hr (by simp)
    have hd : s.drop (i + 1) = r := drop_adv (s := s) (i := i) (X := [q]) (R := r) (by simpa using hr)
    simp only [List.length_cons] at hlen
    have hcur := currentChar_at hr
    by_cases hq : q = 34 ∨ q = 39
    · have hqb : (currentChar s i == cQuot || currentChar s i == cDQuot) = true := by
        rw [hcur]; rcases hq with rfl | rfl <;> rfl
      have hpp : parseProp s i = (do
          let t ← subStr s ((i : Int) + 1) (quoteLoop q (s.drop i) i 0 (-2)).2
          .ok (t, (quoteLoop q (s.drop i) i 0 (-2)).1)) := by
        unfold parseProp
        dsimp only
        rw [if_pos hqb, hcur]
      have hql : quoteLoop q (s.drop i) i 0 (-2) = quoteLoop q r (i + 1) 1 (-1) := by
        rw [hr]; simp [quoteLoop]
      rw [hpp, hql, quoteLoop_ref]
      simp only [word]
      rw [if_pos hq]
      by_cases hr0 : r = []
      · left
        subst hr0
        exact ⟨by simp, by simp [subStr]⟩
      · right
        rw [if_neg hr0]
        have hrl := List.length_pos_iff.mpr hr0
        cases hdw : r.dropWhile (· != q) with
        | nil =>
          dsimp only
          refine ⟨r.dropLast, s.length, by simp, ?_, by omega, Nat.le_refl _⟩
          rw [subStr_ok' (a := i + 1) (b := r.length - 1) (by push_cast; rfl) (by omega) (by omega), hd]
          simp only [Out.bind_ok]
          rw [← List.dropLast_eq_take]
          congr 2
          omega
        | cons x r' =>
          dsimp only
          have htd : r = r.takeWhile (· != q) ++ x :: r' := by rw [← hdw, List.takeWhile_append_dropWhile]
          have hl2 := congrArg List.length htd
          simp only [List.length_append, List.length_cons] at hl2
          refine ⟨r.takeWhile (· != q), i + 1 + (r.takeWhile (· != q)).length + 1, ?_, ?_, by omega, by omega⟩
          · congr 2
            have h1 : s.drop (i + 1) = (r.takeWhile (· != q) ++ [x]) ++ r' := by rw [hd]; simpa using htd
            have := drop_adv h1
            simp only [List.length_append, List.length_cons, List.length_nil] at this
            rw [← this]; rfl
          · rw [subStr_ok' (a := i + 1) (b := (r.takeWhile (· != q)).length) (by omega) (by omega) (by omega), hd]
            simp only [Out.bind_ok]
            congr 2
            exact take_length_of_prefix (List.takeWhile_prefix _)
    · right
      have hqb : (currentChar s i == cQuot || currentChar s i == cDQuot) = false := by
        rw [hcur]
        simp only [not_or] at hq
        simpa [cQuot, cDQuot, Bool.or_eq_false_iff] using ⟨hq.2, hq.1⟩
      have hsc : scanUntil isPropEnd (s.drop i) i = i + ((q :: r).takeWhile (fun c => !isPropEnd c)).length := by
        unfold scanUntil; rw [scanWhile_eq, hr]
      have hle : ((q :: r).takeWhile (fun c => !isPropEnd c)).length ≤ (q :: r).length := (List.takeWhile_prefix _).length_le
      simp only [List.length_cons] at hle
      refine ⟨(q :: r).takeWhile (fun c => !isPropEnd c), i + ((q :: r).takeWhile (fun c => !isPropEnd c)).length, ?_, ?_, by omega, by omega⟩
      · simp only [word]
        rw [if_neg hq, isPropEnd_fun, ← List.drop_drop, hr, drop_takeWhile]
      · unfold parseProp
        dsimp only
        rw [hqb, if_neg (by simp), hsc]
        rw [subStr_ok' (a := i) (b := ((q :: r).takeWhile (fun c => !isPropEnd c)).length) rfl (by omega) (by omega), hr]
        simp only [Out.bind_ok]
        congr 2
        exact take_length_of_prefix (List.takeWhile_prefix _)

/-- An attribute of the parser as the reference reader gives it. -/
def attrRead : Attr → AttrRead
  | .pair k v => .pair k v
  | .bool k => .flag k

theorem lexAttrs_ref {s : Str} : ∀ (f i g : Nat) (can : Bool), i ≤ s.length → s.length < f + i → (s.drop i).length < g →
    (attributes g (s.drop i) can = none ∧ lexAttrs s f (skipSpace s i) can = .ub .negLen) ∨
    ∃ j c as, attributes g (s.drop i) can = some (as.map attrRead, c, s.drop (j + 1)) ∧
      lexAttrs s f (skipSpace s i) can = .ok (j, c, as) ∧ i ≤ j := by
  intro f
  induction f with
  | zero => intro i g can hi hf; omega
  | succ f ih =>
    intro i g can hi hf hg
    cases g with
    | zero => omega
    | succ g =>
    have hsp := skipBlank_at s i
    have hge := skipSpace_ge s i
    have hle := skipSpace_le s i
    generalize hk : skipSpace s i = k at *
    unfold lexAttrs attributes
    rw [← hsp]
    cases hr : s.drop k with
    | nil =>
      right
      have hl : s.length ≤ k := by simpa using hr
      rw [List.getElem?_eq_none hl]
      exact ⟨k, can, [], by simp [List.drop_eq_nil_of_le (show s.length ≤ k + 1 by omega)], rfl, hge⟩
    | cons c r =>
      have hkl := le_of_drop hr (by simp)
      have hns : ¬IsBlankChar c := by
        have := skipBlank_nosp (s.drop i) c r (by rw [← hsp, hr])
        exact this
      have hisp : isSpace c = false := by
        rw [Bool.eq_false_iff]; intro hh; exact hns ((isSpace_iff c).mp hh)
      have hd1 : s.drop (k + 1) = r := drop_adv (s := s) (i := k) (X := [c]) (R := r) (by simpa using hr)
      rw [drop_get hr]
      dsimp only
      have hlen := drop_len hr (by simp)
      simp only [List.length_cons] at hlen
      have hgl : s.length ≤ i + g := by rw [List.length_drop] at hg; omega
      by_cases hgt : c = cGt
      · subst hgt
        right
        rw [if_pos (show (cGt == cGt) = true from rfl), if_pos (show cGt = 62 from rfl)]
        exact ⟨k, can, [], (by rw [hd1]; rfl), rfl, hge⟩
      · rw [if_neg (show ¬(c == cGt) = true by simpa using hgt), if_neg (show ¬ c = 62 from hgt)]
        by_cases hsl : c = cSlash
        · subst hsl
          rw [if_pos (show (cSlash == cSlash) = true from rfl), if_pos (show cSlash = 47 from rfl)]
          have := ih (k + 1) g false (by omega) (by omega) (by rw [List.length_drop]; omega)
          rw [hd1] at this
          rcases this with h | ⟨j, c, as, h1, h2, h3⟩
          · exact Or.inl h
          · exact Or.inr ⟨j, c, as, h1, h2, by omega⟩
        · rw [if_neg (show ¬(c == cSlash) = true by simpa using hsl), if_neg (show ¬ c = 47 from hsl)]
          have hcond : (c != cSp && !isFormatting c) = true := by
            simp [isSpace] at hisp
            simp [hisp]
          rw [if_pos hcond]
          rcases parseProp_ref (s := s) (i := k) (by omega) with ⟨h1, h2⟩ | ⟨key, k1, h1, h2, h3, h4⟩
          · left
            rw [hr] at h1
            rw [h1, h2]
            exact ⟨rfl, rfl⟩
          · rw [hr] at h1
            rw [h1, h2]
            simp only [Out.bind_ok]
            -- progress of the key
            have hprog := word_len h1
            by_cases heq : currentChar s k1 = cEq
            · have hk1 := currentChar_ne_zero heq (by decide)
              have hk1l := lt_of_getElem? hk1
              have hd : s.drop k1 = cEq :: s.drop (k1 + 1) := by
                rw [List.drop_eq_getElem_cons hk1l]
                congr 1
                rw [List.getElem?_eq_getElem hk1l] at hk1
                exact Option.some.inj hk1
              rw [if_pos (show (currentChar s k1 == cEq) = true by simpa using heq), hd, if_pos (show (cEq :: s.drop (k1 + 1)).head? = some 61 from rfl)]
              rcases parseProp_ref (s := s) (i := k1 + 1) (by omega) with ⟨g1, g2⟩ | ⟨v, k2, g1, g2, g3, g4⟩
              · left
                rw [g2]
                simp only [List.drop_succ_cons, List.drop_zero]
                rw [g1]
                exact ⟨rfl, rfl⟩
              · rw [g2]
                simp only [List.drop_succ_cons, List.drop_zero, Out.bind_ok]
                rw [g1]
                dsimp only
                rcases ih k2 g can g4 (by omega) (by rw [List.length_drop]; omega) with ⟨a1, a2⟩ | ⟨j, c', as, a1, a2, a3⟩
                · left
                  rw [a1, a2]; exact ⟨rfl, rfl⟩
                · right
                  rw [a1, a2]
                  exact ⟨j, c', .pair key v :: as, rfl, rfl, by omega⟩
            · rw [if_neg (show ¬(currentChar s k1 == cEq) = true by simpa using heq)]
              have hne : ¬ (s.drop k1).head? = some 61 := by
                intro hh
                apply heq
                cases hd : s.drop k1 with
                | nil => rw [hd] at hh; cases hh
                | cons x t => rw [hd] at hh; simp at hh; rw [currentChar_at hd, hh]
              rw [if_neg hne]
              have hlt : k < k1 := by
                by_contra hc
                have e : k1 = k := by omega
                subst e
                have hce : c ≠ cEq := by rintro rfl; exact heq (currentChar_at hr)
                have := hprog.2 (by simp) (by intro a b e; cases e; exact ⟨hisp, hce, hgt⟩)
                rw [hr] at this; omega
              rcases ih k1 g can h4 (by omega) (by rw [List.length_drop]; omega) with ⟨a1, a2⟩ | ⟨j, c', as, a1, a2, a3⟩
              · left
                rw [a1, a2]; exact ⟨rfl, rfl⟩
              · right
                rw [a1, a2]
                exact ⟨j, c', .bool key :: as, rfl, rfl, by omega⟩

end Flo
