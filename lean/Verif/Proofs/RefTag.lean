import Verif.Proofs.RefLex
/-!
# The reference reader and the lexer of the parser: start tags and texts (C93)
-/
namespace Flo
open Spec

/-! ## Start tags -/

theorem lexElem_ref {s : Str} {i : Nat} {c : UInt8} {r : Str} (h : s.drop i = c :: r) (hc : isAlphabetical c = true ∨ c = 33) :
    (startTag (c :: r) = none ∧ lexElem s i (c == cBang) = .ub .negLen) ∨
    ∃ tag can as j, startTag (c :: r) = some (tag, as.map attrRead, can, s.drop j) ∧
      lexElem s i (c == cBang) = .ok (tag, can, as, j) ∧ i < j := by
  have hlen := drop_len h (by simp)
  simp only [List.length_cons] at hlen
  have hcb : nameByte c = true := by
    have key : ∀ x : UInt8, isAlphabetical x = true ∨ x = 33 → nameByte x = true := by
      intro x hx
      have : ¬ (x = 32 ∨ x = 9 ∨ x = 10 ∨ x = 13 ∨ x = 62) := by
        rintro (rfl | rfl | rfl | rfl | rfl) <;> revert hx <;> decide
      simp only [not_or] at this
      simp [nameByte, blank, this]
    exact key c hc
  have hname : (c :: r).takeWhile nameByte = c :: r.takeWhile nameByte := by rw [List.takeWhile_cons_of_pos hcb]
  have hsplit : c :: r = (c :: r).takeWhile nameByte ++ (c :: r).dropWhile nameByte := (List.takeWhile_append_dropWhile).symm
  generalize hn : (c :: r).takeWhile nameByte = name at *
  generalize hrest : (c :: r).dropWhile nameByte = rest at *
  have hnl : 0 < name.length := by rw [hname]; simp
  have hd2 : s.drop (i + name.length) = rest := drop_adv (by rw [h]; exact hsplit)
  have hl2 := congrArg List.length hsplit
  simp only [List.length_cons, List.length_append] at hl2
  have hsc : scanUntil isTagEnd (s.drop i) i = i + name.length := by
    unfold scanUntil
    rw [scanWhile_eq, h, ← hn, isTagEnd_fun]
  have hslash : tagSlashed s (i + name.length) = .ok (slashed (c :: r)) := by
    unfold tagSlashed slashed
    rw [hn, hrest]
    have hcur : (currentChar s (i + name.length) == cGt) = (rest.head? == some 62) := by
      cases rest with
      | nil =>
        have hl : s.length ≤ i + name.length := by simpa using hd2
        have hc : currentChar s (i + name.length) = 0 := by
          unfold currentChar
          simp [List.getD_eq_getElem?_getD, List.getElem?_eq_none hl]
        rw [hc]; rfl
      | cons x t => rw [currentChar_at hd2]; simp [cGt]
    rw [hcur]
    by_cases hg : (rest.head? == some 62) = true
    · rw [hg, if_pos rfl, Bool.and_true]
      have : (((i + name.length : Nat) : Int) - 1) = ((i + name.length - 1 : Nat) : Int) := by omega
      rw [this, charAt_ok (by omega)]
      simp only [Out.bind_ok]
      congr 1
      have hgl : s[i + name.length - 1]? = name.getLast? := by
        rw [List.getLast?_eq_getElem?]
        have : (s.drop i)[name.length - 1]? = name[name.length - 1]? := by
          rw [h, hsplit, List.getElem?_append_left (by omega)]
        rw [← this, List.getElem?_drop]
        congr 1; omega
      rw [← hgl, List.getElem?_eq_getElem (by omega)]
      simp [cSlash]
    · rw [if_neg hg]
      have : (rest.head? == some 62) = false := by simpa using hg
      rw [this, Bool.and_false]
  have htag : subStr s i (if slashed (c :: r) = true then ((i + name.length : Nat) : Int) - i - 1 else ((i + name.length : Nat) : Int) - i) =
      .ok (startName (c :: r)) := by
    unfold startName
    rw [hn]
    by_cases hs : slashed (c :: r) = true
    · rw [if_pos hs, if_pos hs, subStr_ok' (a := i) (b := name.length - 1) rfl (by omega) (by omega), h, hsplit]
      congr 1
      rw [List.take_append_of_le_length (by omega), List.dropLast_eq_take]
    · rw [if_neg hs, if_neg hs, subStr_ok' (a := i) (b := name.length) rfl (by omega) (by omega), h, hsplit]
      congr 1
      simp
  have hhead : (startName (c :: r)).head? = some c := by
    unfold startName
    rw [hn]
    by_cases hs : slashed (c :: r) = true
    · rw [if_pos hs, hname]
      cases ht : r.takeWhile nameByte with
      | nil =>
        exfalso
        unfold slashed at hs
        rw [hn, hname, ht] at hs
        simp at hs
        rw [hs.1] at hc
        revert hc; decide
      | cons a t => simp
    · rw [if_neg hs, hname]; rfl
  have hcan : (if isVoidElement (startName (c :: r)) = true then false else if slashed (c :: r) = true then false else !(c == cBang)) =
      (!slashed (c :: r) && !decide (NeverContent (startName (c :: r)))) := by
    have hnv := never_iff (tag := startName (c :: r))
    rw [hhead] at hnv
    by_cases hv : isVoidElement (startName (c :: r)) = true
    · rw [if_pos hv, decide_eq_true (hnv.mpr (Or.inl hv))]; simp
    · rw [if_neg hv]
      by_cases hs : slashed (c :: r) = true
      · rw [if_pos hs, hs]; rfl
      · rw [if_neg hs]
        have : slashed (c :: r) = false := by simpa using hs
        rw [this]
        by_cases hb : c = cBang
        · rw [decide_eq_true (hnv.mpr (Or.inr (by rw [hb])))]; simp [hb]
        · rw [decide_eq_false (fun hh => (hnv.mp hh).elim hv (fun e => hb (Option.some.inj e)))]; simp [hb]
  unfold lexElem startTag
  dsimp only
  rw [hsc, hslash]
  simp only [Out.bind_ok]
  rw [htag]
  simp only [Out.bind_ok]
  rw [hcan]
  have hatt := lexAttrs_ref (s := s) (s.length + 1) (i + name.length) ((c :: r).length + 1)
    (!slashed (c :: r) && !decide (NeverContent (startName (c :: r)))) (by omega) (by omega)
    (by rw [List.length_drop, List.length_cons]; omega)
  rw [hd2] at hatt
  rw [hrest]
  rcases hatt with ⟨h1, h2⟩ | ⟨j, can, as, h1, h2, h3⟩
  · left
    rw [h1, h2]; exact ⟨rfl, rfl⟩
  · right
    rw [h1, h2]
    exact ⟨_, _, _, _, rfl, rfl, by omega⟩

/-! ## Words -/

theorem wordsFrom_append {a b : Str} (hb : b = [] ∨ ∃ c r, b = c :: r ∧ IsBlankChar c) : ∀ cur : Str,
    wordsFrom cur (a ++ b) = wordsFrom cur a ++ words b := by
  induction a with
  | nil =>
    intro cur
    rcases hb with rfl | ⟨c, r, rfl, hc⟩
    · simp [words, wordsFrom]
    · have hc : c = 32 ∨ c = 9 ∨ c = 10 ∨ c = 13 := hc
      simp only [List.nil_append, words, wordsFrom]
      rw [if_pos hc, if_pos hc, if_pos trivial]
      split <;> simp
  | cons c a ih =>
    intro cur
    simp only [List.cons_append, wordsFrom]
    split
    · split
      · exact ih []
      · rw [ih []]; rfl
    · exact ih _

theorem words_append {a b : Str} (hb : b = [] ∨ ∃ c r, b = c :: r ∧ IsBlankChar c) : words (a ++ b) = words a ++ words b :=
  wordsFrom_append hb []

theorem words_blank {c : UInt8} {r : Str} (hc : blank c = true) : words (c :: r) = words r := by
  have hc : c = 32 ∨ c = 9 ∨ c = 10 ∨ c = 13 := by simpa [blank, or_assoc] using hc
  simp only [words, wordsFrom]
  rw [if_pos hc, if_pos trivial]

theorem wordsFrom_ne {cur : Str} (h : cur ≠ []) : ∀ l, wordsFrom cur l ≠ [] := by
  intro l
  induction l generalizing cur with
  | nil => simp [wordsFrom, h]
  | cons c l ih =>
    simp only [wordsFrom]
    split
    · simp
    · exact ih (by simp)

theorem unwords_two (w : Str) {ws : List Str} (h : ws ≠ []) : unwords (w :: ws) = w ++ 32 :: unwords ws := by
  obtain ⟨v, vs, rfl⟩ := List.exists_cons_of_ne_nil h
  simp [unwords, List.intercalate, List.intersperse]

theorem unwords_one (w : Str) : unwords [w] = w := by simp [unwords, List.intercalate, List.intersperse]

theorem unwords_append : ∀ (a : List Str), a ≠ [] → ∀ (b : List Str),
    unwords (a ++ b) = unwords a ++ (if b = [] then [] else 32 :: unwords b)
  | [], h, _ => absurd rfl h
  | [w], _, b => by
    by_cases hb : b = []
    · simp [hb]
    · rw [if_neg hb, unwords_one]; exact unwords_two w hb
  | w :: v :: vs, _, b => by
    have := unwords_append (v :: vs) (by simp) b
    rw [List.cons_append, unwords_two w (by simp), this, unwords_two w (by simp)]
    simp

theorem trimLast_cons {c : UInt8} (h : c ≠ cSp) (l : Str) : trimLast (c :: l) = c :: trimLast l := by
  unfold trimLast
  cases l with
  | nil => simp [h]
  | cons d l =>
    rw [List.getLast?_cons_cons]
    split <;> simp

theorem trimLast_two (c d : UInt8) (l : Str) : trimLast (c :: d :: l) = c :: trimLast (d :: l) := by
  unfold trimLast
  rw [List.getLast?_cons_cons]
  split <;> simp

/-- A chunk that has been trimmed is its words. -/
theorem words_chunk : ∀ (l : Str), (∀ c ∈ l, isFormatting c = false) → l.IsChain NoDbl → ∀ cur : Str, cur ≠ [] →
    unwords (wordsFrom cur l) = cur ++ trimLast l
  | [], _, _, cur, h => by
    simp [wordsFrom, h, unwords_one, trimLast]
  | [c], hf, _, cur, h => by
    have hc := hf c (by simp)
    by_cases hs : c = cSp
    · subst hs
      simp [wordsFrom, h, cSp, unwords_one, trimLast]
    · have hnb : ¬(c = 32 ∨ c = 9 ∨ c = 10 ∨ c = 13) := by
        intro hb
        have := (isSpace_iff c).mpr hb
        simp [isSpace, hc] at this
        exact hs this
      rw [wordsFrom, if_neg hnb]
      simp [wordsFrom, unwords_one, trimLast, hs]
  | c :: d :: l, hf, hch, cur, h => by
    have hc := hf c (by simp)
    have hd := hf d (by simp)
    rw [List.isChain_cons_cons] at hch
    by_cases hs : c = cSp
    · subst hs
      have hds : d ≠ cSp := fun e => hch.1 ⟨rfl, e⟩
      have hnb : ¬(d = 32 ∨ d = 9 ∨ d = 10 ∨ d = 13) := by
        intro hb
        have := (isSpace_iff d).mpr hb
        simp [isSpace, hd] at this
        exact hds this
      have ih := words_chunk l (fun x hx => hf x (by simp [hx])) hch.2.tail [d] (by simp)
      have e : wordsFrom cur (cSp :: d :: l) = cur :: wordsFrom [d] l := by
        simp [wordsFrom, h, cSp, hnb]
      rw [e, unwords_two _ (wordsFrom_ne (by simp) _), ih, trimLast_two, trimLast_cons hds]
      rfl
    · have hnb : ¬(c = 32 ∨ c = 9 ∨ c = 10 ∨ c = 13) := by
        intro hb
        have := (isSpace_iff c).mpr hb
        simp [isSpace, hc] at this
        exact hs this
      have ih := words_chunk (d :: l) (fun x hx => hf x (by simp [hx])) hch.2 (cur ++ [c]) (by simp)
      have e : wordsFrom cur (c :: d :: l) = wordsFrom (cur ++ [c]) (d :: l) := by
        rw [wordsFrom, if_neg hnb]
      rw [e, ih, trimLast_two]
      simp

theorem words_chunk_head {c : UInt8} {l : Str} (hf : ∀ x ∈ c :: l, isFormatting x = false) (hch : (c :: l).IsChain NoDbl)
    (hs : c ≠ cSp) : unwords (words (c :: l)) = trimLast (c :: l) ∧ words (c :: l) ≠ [] := by
  have hc := hf c (by simp)
  have hnb : ¬(c = 32 ∨ c = 9 ∨ c = 10 ∨ c = 13) := by
    intro hb
    have := (isSpace_iff c).mpr hb
    simp [isSpace, hc] at this
    exact hs this
  have e : words (c :: l) = wordsFrom [c] l := by
    simp only [words, wordsFrom]
    rw [if_neg hnb]; rfl
  rw [e, words_chunk l (fun x hx => hf x (by simp [hx])) hch.tail [c] (by simp), trimLast_cons hs]
  exact ⟨rfl, wordsFrom_ne (by simp) _⟩

/-! ## Texts -/

theorem textPart_fuel : ∀ (n : Nat) (r : Str), r.length ≤ n → ∀ f f', r.length < f → r.length < f' → textPart f r = textPart f' r := by
  intro n
  induction n with
  | zero =>
    intro r hr f f' hf hf'
    have : r = [] := List.length_eq_zero_iff.mp (by omega)
    subst this
    cases f with
    | zero => simp at hf
    | succ f =>
      cases f' with
      | zero => simp at hf'
      | succ f' => rfl
  | succ n ih =>
    intro r hr f f' hf hf'
    cases f with
    | zero => omega
    | succ f =>
      cases f' with
      | zero => omega
      | succ f' =>
        cases r with
        | nil => rfl
        | cons c r =>
          simp only [List.length_cons] at hr hf hf'
          simp only [textPart]
          by_cases hc : c = 60
          · rw [if_pos hc, if_pos hc]
            by_cases hcm : atComment (c :: r) = true
            · have hl := pastComment_len hcm
              simp only [List.length_cons] at hl
              rw [if_pos hcm, if_pos hcm, ih (pastComment (c :: r)) (by omega) f f' (by omega) (by omega)]
            · rw [if_neg hcm, if_neg hcm]
          · rw [if_neg hc, if_neg hc, ih r (by omega) f f' (by omega) (by omega)]

/-- The text at the beginning of `r`. -/
def tp (r : Str) : Str × Str := textPart (r.length + 1) r

theorem tp_nil : tp [] = ([], []) := rfl

theorem tp_comment {r : Str} (h : atComment (60 :: r) = true) : tp (60 :: r) = (32 :: (tp (pastComment (60 :: r))).1, (tp (pastComment (60 :: r))).2) := by
  have hl := pastComment_len h
  unfold tp
  conv_lhs => unfold textPart
  rw [if_pos rfl, if_pos h, textPart_fuel _ _ (Nat.le_refl _) (60 :: r).length ((pastComment (60 :: r)).length + 1) (by omega) (by omega)]

theorem tp_stop {r : Str} (h : atComment (60 :: r) = false) : tp (60 :: r) = ([], 60 :: r) := by
  unfold tp
  conv_lhs => unfold textPart
  rw [if_pos rfl, if_neg (by rw [h]; simp)]

theorem tp_char {c : UInt8} (hc : c ≠ 60) (r : Str) : tp (c :: r) = (c :: (tp r).1, (tp r).2) := by
  unfold tp
  conv_lhs => unfold textPart
  rw [if_neg hc]
  rfl

theorem tp_append {a : Str} (ha : ∀ c ∈ a, c ≠ 60) (r : Str) : tp (a ++ r) = (a ++ (tp r).1, (tp r).2) := by
  induction a with
  | nil => rfl
  | cons c a ih =>
    rw [List.cons_append, tp_char (ha c (by simp)), ih (fun x hx => ha x (by simp [hx]))]
    rfl

theorem tp_skip (r : Str) : words (tp (skipBlank r)).1 = words (tp r).1 ∧ (tp (skipBlank r)).2 = (tp r).2 := by
  unfold skipBlank
  induction r with
  | nil => exact ⟨rfl, rfl⟩
  | cons c r ih =>
    by_cases hb : blank c = true
    · have hc : c ≠ 60 := by rintro rfl; revert hb; decide
      rw [List.dropWhile_cons_of_pos hb, tp_char hc, words_blank hb]
      exact ih
    · rw [List.dropWhile_cons_of_neg hb]
      exact ⟨rfl, rfl⟩

/-- What a text may end with. -/
theorem tp_head {c : UInt8} {r : Str} (hc : c = 60 ∨ IsBlankChar c) : (tp (c :: r)).1 = [] ∨ ∃ d t, (tp (c :: r)).1 = d :: t ∧ IsBlankChar d := by
  by_cases h : c = 60
  · subst h
    by_cases hcm : atComment (60 :: r) = true
    · rw [tp_comment hcm]; exact Or.inr ⟨_, _, rfl, Or.inl rfl⟩
    · rw [tp_stop (by simpa using hcm)]; exact Or.inl rfl
  · rw [tp_char h]
    exact Or.inr ⟨_, _, rfl, hc.resolve_left h⟩

/-- What follows a chunk. -/
theorem takeChunk_rest (p : UInt8) (l : Str) : ∀ c r, l = takeChunk p l ++ c :: r → c = 60 ∨ IsBlankChar c := by
  induction l generalizing p with
  | nil => intro c r e; simp [takeChunk] at e
  | cons d l ih =>
    intro c r e
    simp only [takeChunk] at e
    by_cases h : (contP p d && d != cLt) = true
    · rw [if_pos h, List.cons_append] at e
      exact ih d c r (List.cons.inj e).2
    · rw [if_neg h] at e
      simp only [List.nil_append, List.cons.injEq] at e
      obtain ⟨rfl, -⟩ := e
      by_cases hl : d = cLt
      · exact Or.inl hl
      · right
        rw [← isSpace_iff]
        simp [contP, hl] at h
        unfold isSpace
        by_cases hf : isFormatting d = true
        · simp [hf]
        · simp [h (by simpa using hf)]

/-- The words that a text loop appends. -/
def glue (app : Bool) (ws : List Str) : Str := if ws = [] then [] else (if app then [cSp] else []) ++ unwords ws

theorem glue_append {app : Bool} {a b : List Str} (ha : a ≠ []) :
    glue app (a ++ b) = ((if app then [cSp] else []) ++ unwords a) ++ glue true b := by
  unfold glue
  rw [if_neg (by simp [ha]), unwords_append a ha]
  by_cases hb : b = []
  · simp [hb]
  · rw [if_neg hb, if_neg hb]; simp [cSp]

theorem isCloseTag_bang {s tag : Str} {i : Nat} {r : Str} (h : s.drop i = cLt :: r) (hc : atComment (cLt :: r) = true) :
    isCloseTag s i tag = .ok false := by
  unfold atComment at hc
  simp only [Bool.and_eq_true, decide_eq_true_eq, List.isPrefixOf_iff_prefix] at hc
  obtain ⟨⟨q, e⟩, hl⟩ := hc
  have hlen := drop_len h (by simp)
  simp only [List.length_cons] at hlen hl
  have hd : s.drop (i + 1) = b!"!" ++ (b!"--" ++ q) := by
    have := drop_adv (s := s) (i := i) (X := [cLt]) (R := r) (by simpa using h)
    simp [cLt] at e
    show s.drop (i + 1) = 33 :: 45 :: 45 :: q
    rw [e]; exact this
  unfold isCloseTag
  split
  · rw [subStr_at (X := b!"!") (R := b!"--" ++ q) (i := i + 1) (a := (i : Int) + 1) (b := 1) hd (by simp) rfl (by omega)]
    rfl
  · rfl

theorem textLoop_ref {s tag : Str} : ∀ (f i : Nat) (raw : Str) (app : Bool) (r : Str), s.drop i = r → NoSp r → i ≤ s.length →
    s.length < f + i →
    ∃ j, textLoop s tag f i raw app = .ok (raw ++ glue app (words (tp r).1), j) ∧ s.drop j = (tp r).2 ∧ i ≤ j ∧
      (∀ c x, r = c :: x → c ≠ 60 → i < j) := by
  intro f
  induction f with
  | zero => intro i raw app r _ _ hi hf; omega
  | succ f ih =>
    intro i raw app r h hns hi hf
    unfold textLoop
    cases r with
    | nil =>
      have hl : s.length ≤ i := by simpa using h
      rw [List.getElem?_eq_none hl]
      exact ⟨i, by simp [tp_nil, words, wordsFrom, glue], h, Nat.le_refl _, by intro c x e; cases e⟩
    | cons c r =>
      have hlt := le_of_drop h (by simp)
      rw [drop_get h]
      dsimp only
      by_cases hc : c = cLt
      · subst hc
        have hcr := isCommentTag_ref h
        by_cases hcm : atComment (cLt :: r) = true
        · have hstop : textStop s tag i cLt = .ok (false, true) := by
            unfold textStop
            rw [if_pos (by rfl), hcr, hcm]
            simp only [Out.bind_ok, isCloseTag_bang h hcm]
            simp
          obtain ⟨k, e1, e2, e3⟩ := skipComment_ref h
          rw [hstop]
          simp only [Out.bind_ok]
          rw [if_neg (by simp), if_pos trivial, e1]
          simp only [Out.bind_ok]
          have hge := skipSpace_ge s k
          by_cases hk : skipSpace s k ≤ s.length
          · obtain ⟨j, a1, a2, a3, _⟩ := ih (skipSpace s k) raw app (skipBlank (pastComment (cLt :: r)))
              (by rw [skipBlank_at, e3]) (skipBlank_nosp _) hk (by omega)
            have hsk := tp_skip (pastComment (cLt :: r))
            rw [hsk.1] at a1
            rw [hsk.2] at a2
            have htc : tp (cLt :: r) = _ := tp_comment hcm
            refine ⟨j, ?_, ?_, by omega, by intro c x e hne; cases e; exact absurd rfl hne⟩
            · rw [a1, htc, words_blank (by rfl)]
            · rw [a2, htc]
          · have hsk := tp_skip (pastComment (cLt :: r))
            have hnil : pastComment (cLt :: r) = [] := by
              rw [← e3]
              have := skipSpace_le s k
              exact List.drop_eq_nil_of_le (by omega)
            have htc : tp (cLt :: r) = _ := tp_comment hcm
            have htc' : tp (cLt :: r) = ([32], []) := by
              rw [htc]; show (32 :: (tp (pastComment (cLt :: r))).1, (tp (pastComment (cLt :: r))).2) = _; rw [hnil]; rfl
            refine ⟨skipSpace s k, ?_, ?_, by omega, by intro c x e hne; cases e; exact absurd rfl hne⟩
            · cases f with
              | zero => omega
              | succ f =>
                unfold textLoop
                rw [List.getElem?_eq_none (by omega), htc']
                simp [words, wordsFrom, glue]
            · rw [htc']; exact List.drop_eq_nil_of_le (by omega)
        · have hcm : atComment (cLt :: r) = false := by simpa using hcm
          have hstop : textStop s tag i cLt = .ok (true, false) := by
            unfold textStop
            rw [if_pos (by rfl), hcr, hcm]
            simp
          rw [hstop]
          simp only [Out.bind_ok]
          rw [if_pos trivial]
          have hts : tp (cLt :: r) = ([], cLt :: r) := tp_stop hcm
          rw [hts]
          exact ⟨i, by simp [words, wordsFrom, glue], h, Nat.le_refl _, by intro c x e hne; cases e; exact absurd rfl hne⟩
      · have hstop : textStop s tag i c = .ok (false, false) := by
          unfold textStop
          rw [if_neg (by simpa using hc)]
        have hcs : isSpace c = false := by
          rw [Bool.eq_false_iff]; intro hh; exact hns c r rfl ((isSpace_iff c).mp hh)
        have hne : takeChunk (prevAt s i) (s.drop i) ≠ [] := by
          rw [h, takeChunk_head hcs hc]; simp
        rw [hstop]
        simp only [Out.bind_ok]
        rw [if_neg (by simp), if_neg (by simp), parseChunk_eq hi (Or.inl hne), h]
        simp only [Out.bind_ok]
        have hck : takeChunk (prevAt s i) (c :: r) = c :: takeChunk c r := takeChunk_head hcs hc
        have hmem : ∀ x ∈ takeChunk (prevAt s i) (c :: r), x ≠ cLt ∧ isFormatting x = false := fun x hx => takeChunk_mem hx
        have hchain := takeChunk_chain (prevAt s i) (c :: r)
        have hpre := takeChunk_prefix (prevAt s i) (c :: r)
        have hrest := takeChunk_rest (prevAt s i) (c :: r)
        obtain ⟨X, hX⟩ := hpre
        generalize takeChunk (prevAt s i) (c :: r) = ck at *
        have hcsp : c ≠ cSp := by rintro rfl; revert hcs; decide
        obtain ⟨w1, w2⟩ : unwords (words ck) = trimLast ck ∧ words ck ≠ [] := by
          rw [hck] at hmem hchain ⊢
          exact words_chunk_head (fun x hx => (hmem x hx).2) hchain.tail hcsp
        have hdX : s.drop (i + ck.length) = X := drop_adv (by rw [h, hX])
        have hlX := congrArg List.length hX
        have hlen := drop_len h (by simp)
        simp only [List.length_append] at hlX
        have hckl : 0 < ck.length := by rw [hck]; simp
        have hge := skipSpace_ge s (i + ck.length)
        have hle := skipSpace_le s (i + ck.length)
        obtain ⟨j, a1, a2, a3, _⟩ := ih (skipSpace s (i + ck.length)) ((if app = true then raw ++ [cSp] else raw) ++ trimLast ck) true
          (skipBlank X) (by rw [skipBlank_at, hdX]) (skipBlank_nosp _) (by omega) (by omega)
        have hsk := tp_skip X
        rw [hsk.1] at a1
        rw [hsk.2] at a2
        have htp : tp (c :: r) = (ck ++ (tp X).1, (tp X).2) := by
          rw [← hX, tp_append (fun x hx => (hmem x hx).1)]
        have hbl : (tp X).1 = [] ∨ ∃ d t, (tp X).1 = d :: t ∧ IsBlankChar d := by
          cases hXe : X with
          | nil => exact Or.inl rfl
          | cons d t => exact tp_head (hrest d t (by rw [← hXe, hX]))
        refine ⟨j, ?_, ?_, by omega, fun _ _ _ _ => by omega⟩
        · rw [a1, htp]
          dsimp only
          rw [words_append hbl, glue_append w2, w1]
          cases app <;> simp
        · rw [a2, htp]

theorem textValue_nosp {r : Str} (h : NoSp r) (t : Str) : textValue r t = glue false (words t) := by
  unfold textValue glue
  rw [if_neg]
  · by_cases hw : words t = []
    · rw [if_pos hw, hw]; rfl
    · rw [if_neg hw]; simp
  · rintro ⟨h1, -⟩
    cases r with
    | nil => simp at h1
    | cons c r =>
      simp at h1
      rw [blank_eq] at h1
      exact h c r rfl ((isSpace_iff c).mp h1)

/-- A text at a token. -/
theorem lexText_ref {s tag : Str} {i : Nat} {c : UInt8} {r : Str} (h : s.drop i = c :: r) (hns : NoSp (c :: r)) (hc : c ≠ 60) :
    ∃ j, lexText s tag i = .ok (some (.text (textValue (c :: r) (tp (c :: r)).1)), skipSpace s j) ∧ s.drop j = (tp (c :: r)).2 ∧ i < j := by
  have hlt := le_of_drop h (by simp)
  obtain ⟨j, a1, a2, a3, a4⟩ := textLoop_ref (tag := tag) (s.length + 1) i [] false _ h hns (by omega) (by omega)
  refine ⟨j, ?_, a2, a4 c r rfl hc⟩
  unfold lexText
  rw [a1]
  simp only [Out.bind_ok, List.nil_append]
  rw [textValue_nosp hns]

/-- A text behind a stray `<`. -/
theorem lexText_strayRef {s tag : Str} {i : Nat} {r : Str} (h : s.drop i = cLt :: r) :
    ∃ j, lexText s tag (i + 1) = .ok (some (.text (textValue r (tp r).1)), skipSpace s j) ∧ s.drop j = (tp r).2 ∧ i < j := by
  have hlt := le_of_drop h (by simp)
  have hd : s.drop (i + 1) = r := drop_adv (s := s) (i := i) (X := [cLt]) (R := r) (by simpa using h)
  have hp := prevAt_lt h
  have hlen := drop_len h (by simp)
  simp only [List.length_cons] at hlen
  by_cases hns : NoSp r
  · obtain ⟨j, a1, a2, a3, _⟩ := textLoop_ref (tag := tag) (s.length + 1) (i + 1) [] false _ hd hns (by omega) (by omega)
    refine ⟨j, ?_, a2, by omega⟩
    unfold lexText
    rw [a1]
    simp only [Out.bind_ok, List.nil_append]
    rw [textValue_nosp hns]
  · cases r with
    | nil => exact absurd (fun c r e => by cases e) hns
    | cons c r =>
      have hb : IsBlankChar c := by
        by_contra hb
        exact hns (nosp_cons hb)
      have hbl : blank c = true := by rw [blank_eq]; exact (isSpace_iff c).mpr hb
      have hc : c ≠ cLt := by rintro rfl; revert hbl; decide
      have hstop : textStop s tag (i + 1) c = .ok (false, false) := by
        unfold textStop
        rw [if_neg (by simpa using hc)]
      have hval : textValue (c :: r) (tp (c :: r)).1 = glue true (words (tp (c :: r)).1) := by
        unfold textValue glue
        by_cases hw : words (tp (c :: r)).1 = []
        · rw [if_neg (fun hh => hh.2 hw), if_pos hw, hw]; rfl
        · rw [if_pos ⟨by simpa using hbl, hw⟩, if_neg hw]; rfl
      have hchain := takeChunk_chain (prevAt s (i + 1)) (c :: r)
      have hmem : ∀ x ∈ takeChunk (prevAt s (i + 1)) (c :: r), x ≠ cLt ∧ isFormatting x = false := fun x hx => takeChunk_mem hx
      have hpre := takeChunk_prefix (prevAt s (i + 1)) (c :: r)
      have hrest := takeChunk_rest (prevAt s (i + 1)) (c :: r)
      have hhd : takeChunk (prevAt s (i + 1)) (c :: r) = [] ∨ ∃ t, takeChunk (prevAt s (i + 1)) (c :: r) = c :: t ∧ c = cSp := by
        simp only [takeChunk]
        split
        · rename_i hh
          refine Or.inr ⟨_, rfl, ?_⟩
          have := (isSpace_iff c).mpr hb
          simp [contP] at hh
          simpa [isSpace, hh] using this
        · exact Or.inl rfl
      have hpc := parseChunk_eq (s := s) (i := i + 1) (by omega) (Or.inr (Or.inr (by rw [hp]; decide)))
      rw [hd] at hpc
      obtain ⟨X, hX⟩ := hpre
      generalize takeChunk (prevAt s (i + 1)) (c :: r) = ck at *
      have hdX : s.drop (i + 1 + ck.length) = X := drop_adv (by rw [hd, hX])
      have hlX := congrArg List.length hX
      simp only [List.length_append, List.length_cons] at hlX hlen
      have hge := skipSpace_ge s (i + 1 + ck.length)
      have hle := skipSpace_le s (i + 1 + ck.length)
      have hprog : i + 1 < skipSpace s (i + 1 + ck.length) := by
        rcases hhd with e | ⟨t, e, _⟩
        · rw [e]; exact skipSpace_gt (drop_get hd) ((isSpace_iff c).mpr hb)
        · rw [e] at hge ⊢; simp only [List.length_cons] at hge ⊢; omega
      obtain ⟨j, a1, a2, a3, _⟩ := textLoop_ref (tag := tag) s.length (skipSpace s (i + 1 + ck.length)) ([] ++ trimLast ck) true
        (skipBlank X) (by rw [skipBlank_at, hdX]) (skipBlank_nosp _) (by omega) (by omega)
      have hsk := tp_skip X
      rw [hsk.1] at a1
      rw [hsk.2] at a2
      have htp : tp (c :: r) = (ck ++ (tp X).1, (tp X).2) := by
        rw [← hX, tp_append (fun x hx => (hmem x hx).1)]
      have hbX : (tp X).1 = [] ∨ ∃ d t, (tp X).1 = d :: t ∧ IsBlankChar d := by
        cases hXe : X with
        | nil => exact Or.inl rfl
        | cons d t => exact tp_head (hrest d t (by rw [← hXe, hX]))
      have hraw : trimLast ck ++ glue true (words (tp X).1) = glue true (words (tp (c :: r)).1) := by
        rw [htp]
        dsimp only
        rw [words_append hbX]
        rcases hhd with e | ⟨t, e, hsp⟩
        · rw [e]; rfl
        · subst hsp
          rw [e] at hmem hchain ⊢
          rw [words_blank (by rfl)]
          cases t with
          | nil => rfl
          | cons d t =>
            have hd1 : (cSp :: d :: t).IsChain NoDbl := hchain.tail
            rw [List.isChain_cons_cons] at hd1
            have hds : d ≠ cSp := fun e => hd1.1 ⟨rfl, e⟩
            obtain ⟨w1, w2⟩ := words_chunk_head (fun x hx => (hmem x (by simp [List.mem_cons.mp hx])).2) hd1.2 hds
            rw [glue_append w2, trimLast_two, w1]
            rfl
      refine ⟨j, ?_, by rw [a2, htp], by omega⟩
      unfold lexText
      rw [hval, ← hraw]
      unfold textLoop
      rw [drop_get hd]
      simp only [hstop, Out.bind_ok, hpc]
      rw [if_neg (by simp), if_neg (by simp), if_neg (by simp), a1]
      rfl

end Flo
