import Verif.Proofs.QueryParse
import Verif.Proofs.LexAt
import Verif.Spec.Query
/-!
# Reading the written form of a query
-/
namespace Flo
open Spec

/-! ## Characters -/

theorem blank_facts {c : UInt8} (h : c = 32 ∨ c = 9 ∨ c = 10 ∨ c = 13) : isTagStartChar c = false ∧
    isElementStartChar c = false ∧ isAfterToken c = false ∧ isSpecifiedCombinator c = false ∧ isTokenEnd c = true ∧
    endOfCurrentFilter c = true ∧ c ≠ 91 ∧ c ≠ 46 ∧ c ≠ 35 ∧ c ≠ 42 ∧ c ≠ 44 := by
  rcases h with rfl | rfl | rfl | rfl <;> decide

theorem nameStart_iff (c : UInt8) : NameStart c ↔ isTagStartChar c = true := by
  simp only [NameStart, isTagStartChar, isAlphabetical, cBang, Bool.or_eq_true, Bool.and_eq_true, decide_eq_true_eq,
    beq_iff_eq, or_assoc]

theorem tagStop_iff {c : UInt8} (h : ¬TagStop c) : endOfCurrentFilter c = false ∧ c ≠ 44 := by
  simp only [TagStop, not_or] at h
  obtain ⟨h1, h2, h3, h4, h5, h6, h7, h8, h9, h10, h11⟩ := h
  refine ⟨?_, h11⟩
  simp [endOfCurrentFilter, isCombinatorChar, isSpecifiedCombinator, isFormatting, cSp, cTab, cNl, cCr, cGt, *]

theorem wordStop_iff {c : UInt8} (h : ¬WordStop c) : isTokenEnd c = false ∧ c ≠ 44 := by
  simp only [WordStop, not_or] at h
  obtain ⟨h1, h2, h3, h4, h5, h6, h7⟩ := h
  refine ⟨?_, h7⟩
  simp [isTokenEnd, isFormatting, cSp, cTab, cNl, cCr, cEq, *]

/-! ## Tokens -/

/-- Blanks, a word, blanks, and then the end or `=` or `]`. -/
theorem token_at {s : Str} {i : Nat} {w X w' R : Str} (h : s.drop i = w ++ (X ++ (w' ++ R))) (hi : i ≤ s.length)
    (hw : Blanks w) (hX : Word X) (hw' : Blanks w') (hR : ∀ c r, R = c :: r → c = 61 ∨ c = 93) :
    scanUntil isTagStartChar (s.drop i) i = i + w.length ∧
    parseToken s (i + w.length) = .ok (X, i + w.length + X.length + w'.length) := by
  obtain ⟨⟨c0, l0, rfl, hc0⟩, hX⟩ := hX
  have h1 := drop_adv h
  have h2 := drop_adv h1
  have hsp : isTagStartChar c0 = true := (nameStart_iff c0).mp hc0
  constructor
  · refine scanUntil_at h (fun c hc => (blank_facts (hw c hc)).1) ?_
    intro c r e
    simp at e
    rw [← e.1]; exact hsp
  · have e1 : scanUntil isTokenEnd (s.drop (i + w.length)) (i + w.length) = i + w.length + (c0 :: l0).length := by
      refine scanUntil_at h1 (fun c hc => (wordStop_iff (hX c hc)).1) ?_
      intro c r e
      cases w' with
      | nil =>
        rcases hR c r (by simpa using e) with rfl | rfl <;> decide
      | cons a w' =>
        simp at e
        rw [← e.1]; exact (blank_facts (hw' a (by simp))).2.2.2.2.1
    have e2 : scanUntil isAfterToken (s.drop (i + w.length + (c0 :: l0).length)) (i + w.length + (c0 :: l0).length) =
        i + w.length + (c0 :: l0).length + w'.length := by
      refine scanUntil_at h2 (fun c hc => (blank_facts (hw' c hc)).2.2.1) ?_
      intro c r e
      rcases hR c r e with rfl | rfl <;> decide
    unfold parseToken
    simp only [e1]
    rw [subStr_at (X := c0 :: l0) (R := w' ++ R) h1 rfl (by push_cast; omega) (by
      have := congrArg List.length h
      simp at this; omega)]
    simp only [Out.bind_ok, e2]

theorem drop_lt {s : Str} {i : Nat} {X R : Str} (h : s.drop i = X ++ R) (hi : i ≤ s.length) :
    i + X.length ≤ s.length := by
  have := congrArg List.length h
  simp at this; omega

/-! ## Filters -/

def condFilter (d : Dom) : Cond → Option Filter
  | .flag _ b _ => if d.boolMap.contains b = 0 then none else some (.bool (d.boolMap.contains b))
  | .eq _ k _ _ v _ => if d.keyMap.contains k = 0 ∨ d.valMap.contains v = 0 then none
      else some (.prop (d.keyMap.contains k) (d.valMap.contains v))

def finKey : Final → Str
  | .cls _ => b!"class"
  | .ident _ => b!"id"

def finFilter (d : Dom) (f : Final) : Option Filter :=
  if d.keyMap.contains (finKey f) = 0 ∨ d.valMap.contains f.word = 0 then none
  else some (.prop (d.keyMap.contains (finKey f)) (d.valMap.contains f.word))

/-- Filters added one after the other, until one is refused. -/
def addConds : List (Option Filter) → List Filter → QRes (List Filter)
  | [], fs => .go fs
  | o :: os, fs =>
    if fs.length ≥ maxFilters then .fail .tooManyFilters
    else
      match o with
      | none => .fail .notSeenBefore
      | some f => addConds os (fs ++ [f])

def atPos (j : Nat) : QRes (List Filter) → QRes (Nat × List Filter)
  | .fail st => .fail st
  | .go fs => .go (j, fs)

theorem attr_flag {s : Str} {d : Dom} {f idx : Nat} {fs : List Filter} {w1 n w2 R : Str}
    (h : s.drop idx = Cond.text (.flag w1 n w2) ++ R) (hw : Cond.WF (.flag w1 n w2)) (hi : idx ≤ s.length) :
    attrFilters s d (f + 1) idx fs =
      if fs.length ≥ maxFilters then .ok (.fail .tooManyFilters)
      else match condFilter d (.flag w1 n w2) with
        | none => .ok (.fail .notSeenBefore)
        | some x => attrFilters s d f (idx + (Cond.text (.flag w1 n w2)).length) (fs ++ [x]) := by
  obtain ⟨hb1, hn, hb2⟩ := hw
  have h0 : s.drop idx = 91 :: (w1 ++ (n ++ (w2 ++ (93 :: R)))) := by rw [h]; simp [Cond.text]
  have hg := drop_get h0
  have hW : s.drop idx = (91 :: w1) ++ (n ++ (w2 ++ (93 :: R))) := by rw [h0]; simp
  have h0' : s.drop (idx + 1) = w1 ++ (n ++ (w2 ++ (93 :: R))) := drop_adv (X := [91]) h0
  have hlt := lt_of_getElem? hg
  obtain ⟨t1, t2⟩ := token_at h0' (by omega) hb1 hn hb2 (by intro c r e; cases e; exact Or.inr rfl)
  have t1' : scanUntil isTagStartChar (s.drop idx) idx = idx + 1 + w1.length := by
    have := scanUntil_at (p := isTagStartChar) hW (by
        intro c hc
        rcases List.mem_cons.mp hc with rfl | hc
        · decide
        · exact (blank_facts (hb1 c hc)).1) (by
        intro c r e
        obtain ⟨⟨c0, l0, rfl, hc0⟩, _⟩ := hn
        simp at e
        rw [← e.1]; exact (nameStart_iff c0).mp hc0)
    rw [this]; simp; omega
  have hend : s.drop (idx + 1 + w1.length + n.length + w2.length) = 93 :: R := drop_adv (drop_adv (drop_adv h0'))
  conv_lhs => unfold attrFilters
  rw [hg]
  simp only
  rw [if_pos (by decide)]
  by_cases hm : fs.length ≥ maxFilters
  · rw [if_pos hm, if_pos hm]
  rw [if_neg hm, if_neg hm, t1', t2]
  simp only [Out.bind_ok, currentChar_eq (drop_get hend)]
  rw [if_neg (by decide), if_pos (by decide)]
  have hlen : (Cond.text (.flag w1 n w2)).length = 1 + w1.length + n.length + w2.length + 1 := by
    simp [Cond.text]; omega
  have hcf : condFilter d (.flag w1 n w2) = if d.boolMap.contains n = 0 then none else some (.bool (d.boolMap.contains n)) := rfl
  rw [hcf]
  by_cases hz : d.boolMap.contains n = 0
  · rw [if_pos hz, if_pos hz]
  · rw [if_neg hz, if_neg hz]
    simp only
    congr 1
    rw [hlen]; omega

theorem attr_eq {s : Str} {d : Dom} {f idx : Nat} {fs : List Filter} {w1 k w2 w3 v w4 R : Str}
    (h : s.drop idx = Cond.text (.eq w1 k w2 w3 v w4) ++ R) (hw : Cond.WF (.eq w1 k w2 w3 v w4)) (hi : idx ≤ s.length) :
    attrFilters s d (f + 1) idx fs =
      if fs.length ≥ maxFilters then .ok (.fail .tooManyFilters)
      else match condFilter d (.eq w1 k w2 w3 v w4) with
        | none => .ok (.fail .notSeenBefore)
        | some x => attrFilters s d f (idx + (Cond.text (.eq w1 k w2 w3 v w4)).length) (fs ++ [x]) := by
  obtain ⟨hb1, hk, hb2, hb3, hv, hb4⟩ := hw
  have h0 : s.drop idx = 91 :: (w1 ++ (k ++ (w2 ++ (61 :: (w3 ++ (v ++ (w4 ++ (93 :: R)))))))) := by
    rw [h]; simp [Cond.text]
  have hg := drop_get h0
  have hW : s.drop idx = (91 :: w1) ++ (k ++ (w2 ++ (61 :: (w3 ++ (v ++ (w4 ++ (93 :: R))))))) := by rw [h0]; simp
  have h0' : s.drop (idx + 1) = w1 ++ (k ++ (w2 ++ (61 :: (w3 ++ (v ++ (w4 ++ (93 :: R))))))) := drop_adv (X := [91]) h0
  have hlt := lt_of_getElem? hg
  obtain ⟨t1, t2⟩ := token_at h0' (by omega) hb1 hk hb2 (by intro c r e; cases e; exact Or.inl rfl)
  have t1' : scanUntil isTagStartChar (s.drop idx) idx = idx + 1 + w1.length := by
    have := scanUntil_at (p := isTagStartChar) hW (by
        intro c hc
        rcases List.mem_cons.mp hc with rfl | hc
        · decide
        · exact (blank_facts (hb1 c hc)).1) (by
        intro c r e
        obtain ⟨⟨c0, l0, rfl, hc0⟩, _⟩ := hk
        simp at e
        rw [← e.1]; exact (nameStart_iff c0).mp hc0)
    rw [this]; simp; omega
  have hend : s.drop (idx + 1 + w1.length + k.length + w2.length) = 61 :: (w3 ++ (v ++ (w4 ++ (93 :: R)))) :=
    drop_adv (drop_adv (drop_adv h0'))
  have hmid : s.drop (idx + 1 + w1.length + k.length + w2.length + 1) = w3 ++ (v ++ (w4 ++ (93 :: R))) :=
    drop_adv (X := [61]) hend
  have hlt2 := lt_of_getElem? (drop_get hend)
  obtain ⟨u1, u2⟩ := token_at hmid (by omega) hb3 hv hb4 (by intro c r e; cases e; exact Or.inr rfl)
  have hfin : s.drop (idx + 1 + w1.length + k.length + w2.length + 1 + w3.length + v.length + w4.length) = 93 :: R :=
    drop_adv (drop_adv (drop_adv hmid))
  conv_lhs => unfold attrFilters
  rw [hg]
  simp only
  rw [if_pos (by decide)]
  by_cases hm : fs.length ≥ maxFilters
  · rw [if_pos hm, if_pos hm]
  rw [if_neg hm, if_neg hm, t1', t2]
  simp only [Out.bind_ok, currentChar_eq (drop_get hend)]
  rw [if_neg (by decide), if_neg (by decide), if_pos (by decide)]
  have hlen : (Cond.text (.eq w1 k w2 w3 v w4)).length =
      1 + w1.length + k.length + w2.length + 1 + w3.length + v.length + w4.length + 1 := by
    simp [Cond.text]; omega
  have hcf : condFilter d (.eq w1 k w2 w3 v w4) = if d.keyMap.contains k = 0 ∨ d.valMap.contains v = 0 then none
      else some (.prop (d.keyMap.contains k) (d.valMap.contains v)) := rfl
  rw [hcf]
  by_cases hz : d.keyMap.contains k = 0
  · rw [if_pos hz, if_pos (Or.inl hz)]
  · rw [if_neg hz, u1, u2]
    simp only [Out.bind_ok, currentChar_eq (drop_get hfin)]
    by_cases hv : d.valMap.contains v = 0
    · rw [if_pos hv, if_pos (Or.inr hv)]
    · rw [if_neg hv, if_neg (not_or.mpr ⟨hz, hv⟩)]
      simp only
      rw [if_pos (by decide)]
      congr 1
      rw [hlen]; omega

theorem attr_cond {s : Str} {d : Dom} {f idx : Nat} {fs : List Filter} {c : Cond} {R : Str}
    (h : s.drop idx = c.text ++ R) (hw : c.WF) (hi : idx ≤ s.length) :
    attrFilters s d (f + 1) idx fs =
      if fs.length ≥ maxFilters then .ok (.fail .tooManyFilters)
      else match condFilter d c with
        | none => .ok (.fail .notSeenBefore)
        | some x => attrFilters s d f (idx + c.text.length) (fs ++ [x]) := by
  cases c with
  | flag w1 n w2 => exact attr_flag h hw hi
  | eq w1 k w2 w3 v w4 => exact attr_eq h hw hi

theorem attr_final {s : Str} {d : Dom} {f idx : Nat} {fs : List Filter} {fin : Final} {R : Str}
    (h : s.drop idx = fin.text ++ R) (hw : Word fin.word) (hR : Blanks R) (hi : idx ≤ s.length) :
    attrFilters s d (f + 2) idx fs = .ok (atPos s.length (addConds [finFilter d fin] fs)) := by
  obtain ⟨ch, hch, htext⟩ : ∃ ch : UInt8, (ch = 46 ∧ finKey fin = b!"class" ∨ ch = 35 ∧ finKey fin = b!"id") ∧
      fin.text = ch :: fin.word := by
    cases fin with
    | cls v => exact ⟨46, Or.inl ⟨rfl, rfl⟩, rfl⟩
    | ident v => exact ⟨35, Or.inr ⟨rfl, rfl⟩, rfl⟩
  have h0 : s.drop idx = ch :: (fin.word ++ (R ++ [])) := by rw [h, htext]; simp
  have hg := drop_get h0
  have hlt := lt_of_getElem? hg
  have h0' : s.drop (idx + 1) = [] ++ (fin.word ++ (R ++ [])) := drop_adv (X := [ch]) h0
  have hW : s.drop idx = [ch] ++ (fin.word ++ (R ++ [])) := h0
  obtain ⟨t1, t2⟩ := token_at h0' (by omega) (by intro c hc; cases hc) hw hR (by intro c r e; cases e)
  simp only [List.length_nil, Nat.add_zero] at t1 t2
  have hkf : (ch == 91 || ch == 46 || ch == 35) = true ∧ (ch == 46 || ch == 35) = true ∧ isTagStartChar ch = false ∧
      (if (ch == 46) = true then b!"class" else b!"id") = finKey fin := by
    rcases hch with ⟨rfl, e⟩ | ⟨rfl, e⟩ <;> rw [e] <;> decide
  have t1' : scanUntil isTagStartChar (s.drop idx) idx = idx + 1 := by
    have := scanUntil_at (p := isTagStartChar) hW (by
        intro c hc
        rw [List.mem_singleton] at hc
        subst hc; exact hkf.2.2.1) (by
        intro c r e
        obtain ⟨⟨c0, l0, e0, hc0⟩, _⟩ := hw
        rw [e0] at e
        simp at e
        rw [← e.1]; exact (nameStart_iff c0).mp hc0)
    rw [this]; simp
  have hend : idx + 1 + fin.word.length + R.length = s.length := by
    have := congrArg List.length h0
    simp at this; omega
  conv_lhs => unfold attrFilters
  rw [hg]
  simp only
  rw [if_pos hkf.1]
  unfold addConds
  by_cases hm : fs.length ≥ maxFilters
  · rw [if_pos hm, if_pos hm]; rfl
  rw [if_neg hm, if_neg hm, t1', t2]
  simp only [Out.bind_ok]
  rw [if_pos hkf.2.1, hkf.2.2.2, hend]
  unfold finFilter
  by_cases hz : d.keyMap.contains (finKey fin) = 0
  · rw [if_pos hz, if_pos (Or.inl hz)]; rfl
  · rw [if_neg hz]
    by_cases hv : d.valMap.contains fin.word = 0
    · rw [if_pos hv, if_pos (Or.inr hv)]; rfl
    · rw [if_neg hv, if_neg (not_or.mpr ⟨hz, hv⟩)]
      have hnone : s[s.length]? = none := by simp
      have hcc : (currentChar s s.length == 93) = false := by
        by_contra hc
        have := currentChar_ne_zero (s := s) (i := s.length) (c := 93) (by simpa using hc) (by decide)
        rw [hnone] at this; cases this
      rw [if_neg (by rw [hcc]; decide)]
      unfold attrFilters
      rw [hnone]
      rfl

/-- The filters of a compound selector after its tag. -/
def condList (d : Dom) (cs : List Cond) (fin : Option Final) : List (Option Filter) :=
  cs.map (condFilter d) ++ fin.toList.map (finFilter d)

theorem attr_text {s : Str} {d : Dom} {fin : Option Final} {R : Str} (hfin : ∀ x, fin = some x → Word x.word ∧ Blanks R)
    (hR : fin = none → ∀ c r, R = c :: r → c ≠ 91 ∧ c ≠ 46 ∧ c ≠ 35) :
    ∀ (cs : List Cond) (f idx : Nat) (fs : List Filter), (∀ c ∈ cs, c.WF) →
    s.drop idx = (cs.flatMap Cond.text ++ (fin.map Final.text).getD []) ++ R → idx ≤ s.length → s.length + 1 ≤ idx + f →
    ∃ j, attrFilters s d f idx fs = .ok (atPos j (addConds (condList d cs fin) fs)) ∧ idx ≤ j ∧ j ≤ s.length ∧
      (s.drop j = R ∨ (s.drop j = [] ∧ fin ≠ none)) := by
  intro cs
  induction cs with
  | nil =>
    intro f idx fs _ hd hi hf
    cases fin with
    | none =>
      have hd : s.drop idx = R := by simpa using hd
      refine ⟨idx, ?_, Nat.le_refl _, hi, Or.inl hd⟩
      obtain ⟨f, rfl⟩ : ∃ g, f = g + 1 := ⟨f - 1, by omega⟩
      unfold attrFilters
      cases hR' : R with
      | nil =>
        rw [hR', List.drop_eq_nil_iff] at hd
        rw [List.getElem?_eq_none hd]; rfl
      | cons c r =>
        rw [hR'] at hd
        rw [drop_get hd]
        have := hR rfl c r hR'
        simp only
        rw [if_neg (by simp [this])]
        rfl
    | some x =>
      have hd : s.drop idx = x.text ++ R := by simpa using hd
      obtain ⟨g1, g2⟩ := hfin x rfl
      have hne : x.text ++ R ≠ [] := by cases x <;> simp [Final.text]
      have hlt := le_of_drop hd hne
      obtain ⟨f, rfl⟩ : ∃ g, f = g + 2 := ⟨f - 2, by omega⟩
      refine ⟨s.length, ?_, by omega, Nat.le_refl _, Or.inr ⟨by simp, by simp⟩⟩
      rw [attr_final hd g1 g2 hi]
      rfl
  | cons c cs ih =>
    intro f idx fs hwf hd hi hf
    have hd' : s.drop idx = c.text ++ ((cs.flatMap Cond.text ++ (fin.map Final.text).getD []) ++ R) := by
      rw [hd]; simp [List.flatMap_cons]
    have hpos : 1 ≤ c.text.length := by cases c <;> simp [Cond.text]
    have hle := drop_lt hd' hi
    obtain ⟨f, rfl⟩ : ∃ g, f = g + 1 := ⟨f - 1, by omega⟩
    rw [attr_cond hd' (hwf c (by simp)) hi]
    have hcl : condList d (c :: cs) fin = condFilter d c :: condList d cs fin := rfl
    rw [hcl]
    unfold addConds
    by_cases hm : fs.length ≥ maxFilters
    · rw [if_pos hm, if_pos hm]
      obtain ⟨j, _, e2, e3, e4⟩ := ih f (idx + c.text.length) fs (fun c hc => hwf c (List.mem_cons_of_mem _ hc)) (drop_adv hd') hle (by omega)
      exact ⟨j, rfl, by omega, e3, e4⟩
    · rw [if_neg hm, if_neg hm]
      cases hcf : condFilter d c with
      | none =>
        obtain ⟨j, _, e2, e3, e4⟩ := ih f (idx + c.text.length) fs (fun c hc => hwf c (List.mem_cons_of_mem _ hc)) (drop_adv hd') hle (by omega)
        exact ⟨j, rfl, by omega, e3, e4⟩
      | some x =>
        obtain ⟨j, e1, e2, e3, e4⟩ := ih f (idx + c.text.length) (fs ++ [x]) (fun c hc => hwf c (List.mem_cons_of_mem _ hc)) (drop_adv hd') hle (by omega)
        exact ⟨j, e1, by omega, e3, e4⟩

/-! ## Compound selectors -/

def tagFilter (d : Dom) (x : Str) : Option Filter :=
  if d.tagMap.contains x = 0 then none else some (.tag (d.tagMap.contains x))

/-- The filters of a compound selector, or why it is refused. -/
def compFilters (d : Dom) : Compound → QRes (List Filter)
  | .any => .go [.all]
  | .mk none cs fin => addConds (condList d cs fin) []
  | .mk (some x) cs fin =>
    match tagFilter d x with
    | none => .fail .notSeenBefore
    | some f => addConds (condList d cs fin) [f]

/-- What may follow a compound selector. -/
def After (R : Str) : Prop := ∀ c r, R = c :: r → (c = 32 ∨ c = 9 ∨ c = 10 ∨ c = 13) ∨ c = 62 ∨ c = 43 ∨ c = 126

theorem After.facts {R : Str} (h : After R) : ∀ c r, R = c :: r → endOfCurrentFilter c = true ∧ c ≠ 91 ∧ c ≠ 46 ∧ c ≠ 35 := by
  intro c r e
  rcases h c r e with h | rfl | rfl | rfl
  · have := blank_facts h; exact ⟨this.2.2.2.2.2.1, this.2.2.2.2.2.2.1, this.2.2.2.2.2.2.2.1, this.2.2.2.2.2.2.2.2.1⟩
  all_goals decide

theorem blanks_after {w : Str} (h : Blanks w) : After w := by
  rintro c r rfl; exact Or.inl (h c (by simp))

theorem cond_head (c : Cond) : ∃ l, c.text = 91 :: l := by cases c <;> exact ⟨_, rfl⟩

theorem final_head (f : Final) : ∃ c l, f.text = c :: l ∧ (c = 46 ∨ c = 35) := by
  cases f
  · exact ⟨46, _, rfl, Or.inl rfl⟩
  · exact ⟨35, _, rfl, Or.inr rfl⟩

theorem tail_head {cs : List Cond} {fin : Option Final} {R : Str} {c : UInt8} {r : Str}
    (h : (cs.flatMap Cond.text ++ (fin.map Final.text).getD []) ++ R = c :: r) :
    (c = 91 ∨ c = 46 ∨ c = 35) ∨ (cs = [] ∧ fin = none ∧ R = c :: r) := by
  cases cs with
  | cons a cs =>
    obtain ⟨l, hl⟩ := cond_head a
    rw [List.flatMap_cons, hl] at h
    simp at h
    exact Or.inl (Or.inl h.1.symm)
  | nil =>
    cases fin with
    | some f =>
      obtain ⟨c', l, hl, hc⟩ := final_head f
      simp [hl] at h
      rw [← h.1]
      exact Or.inl (Or.inr hc)
    | none => exact Or.inr ⟨rfl, rfl, by simpa using h⟩

/-- Reading one compound selector. -/
theorem compound_at {s : Str} {d : Dom} {idx : Nat} {c : Compound} {R : Str} {last : Bool} (h : s.drop idx = c.text ++ R)
    (hi : idx ≤ s.length) (hw : c.WF last) (hR : After R) (hlast : last = true → Blanks R) :
    (∃ st, compFilters d c = .fail st ∧ (leadFilter s d idx = .ok (.fail st) ∨
      ∃ i fs, leadFilter s d idx = .ok (.go (i, fs)) ∧ attrFilters s d (s.length + 1) i fs = .ok (.fail st))) ∨
    (∃ fs' i fs j, compFilters d c = .go fs' ∧ 1 ≤ fs'.length ∧ leadFilter s d idx = .ok (.go (i, fs)) ∧
      attrFilters s d (s.length + 1) i fs = .ok (.go (j, fs')) ∧ idx ≤ j ∧ j ≤ s.length ∧
      (s.drop j = R ∨ (s.drop j = [] ∧ last = true))) := by
  have fromAttr : ∀ {cs : List Cond} {fin : Option Final} {t : Option Str} {i : Nat} {fs : List Filter},
      Compound.WF last (.mk t cs fin) → idx ≤ i → i ≤ s.length →
      s.drop i = (cs.flatMap Cond.text ++ (fin.map Final.text).getD []) ++ R → leadFilter s d idx = .ok (.go (i, fs)) →
      (1 ≤ fs.length ∨ cs ≠ [] ∨ fin ≠ none) →
      (∃ st, addConds (condList d cs fin) fs = .fail st ∧
        ∃ i fs, leadFilter s d idx = .ok (.go (i, fs)) ∧ attrFilters s d (s.length + 1) i fs = .ok (.fail st)) ∨
      (∃ fs' i fs0 j, addConds (condList d cs fin) fs = .go fs' ∧ 1 ≤ fs'.length ∧ leadFilter s d idx = .ok (.go (i, fs0)) ∧
        attrFilters s d (s.length + 1) i fs0 = .ok (.go (j, fs')) ∧ idx ≤ j ∧ j ≤ s.length ∧
        (s.drop j = R ∨ (s.drop j = [] ∧ last = true))) := by
    intro cs fin t i fs hwf h1 h2 h3 h4 h5
    obtain ⟨w1, w2, w3, w4⟩ := hwf
    obtain ⟨j, e1, e2, e3, e4⟩ := attr_text (s := s) (d := d) (fin := fin) (R := R)
      (fun x hx => ⟨(w3 x hx).2, hlast (w3 x hx).1⟩) (fun _ c r e => (hR.facts c r e).2) cs (s.length + 1) i fs w2 h3 h2 (by omega)
    cases hadd : addConds (condList d cs fin) fs with
    | fail st =>
      rw [hadd] at e1
      exact Or.inl ⟨st, rfl, i, fs, h4, e1⟩
    | go fs' =>
      rw [hadd] at e1
      refine Or.inr ⟨fs', i, fs, j, rfl, ?_, h4, e1, by omega, e3, ?_⟩
      · have hlen : ∀ (os : List (Option Filter)) (fs fs' : List Filter), addConds os fs = .go fs' →
            fs'.length = fs.length + os.length := by
          intro os
          induction os with
          | nil => intro fs fs' e; simp [addConds] at e; simp [e]
          | cons o os ih =>
            intro fs fs' e
            unfold addConds at e
            split at e
            · cases e
            · split at e
              · cases e
              · rename_i x
                have := ih _ _ e
                simp at this ⊢; omega
        have := hlen _ _ _ hadd
        rcases h5 with h5 | h5 | h5
        · omega
        · have : 1 ≤ cs.length := by cases cs <;> simp_all
          simp [condList] at *; omega
        · cases fin with
          | none => exact absurd rfl h5
          | some x => simp [condList] at *; omega
      · rcases e4 with e4 | ⟨e4, e5⟩
        · exact Or.inl e4
        · right
          refine ⟨e4, ?_⟩
          cases fin with
          | none => exact absurd rfl e5
          | some x => exact (w3 x rfl).1
  cases c with
  | any =>
    have h' : s.drop idx = 42 :: R := h
    have hg := drop_get h'
    have hlead : leadFilter s d idx = .ok (.go (idx + 1, [.all])) := by
      unfold leadFilter
      simp only [currentChar_eq hg]
      rw [if_neg (by decide), if_pos (by decide)]
      have := scanUntil_at (p := endOfCurrentFilter) (X := [42]) h' (by decide) (fun c r e => (hR.facts c r e).1)
      rw [this]; rfl
    right
    have hd : s.drop (idx + 1) = R := drop_adv (X := [42]) h'
    have hlt := lt_of_getElem? hg
    obtain ⟨j, e1, e2, e3, e4⟩ := attr_text (s := s) (d := d) (fin := none) (R := R) (by simp)
      (fun _ c r e => (hR.facts c r e).2) [] (s.length + 1) (idx + 1) [.all] (by simp) (by simpa using hd) (by omega) (by omega)
    refine ⟨[.all], idx + 1, [.all], j, rfl, by simp, hlead, e1, by omega, e3, ?_⟩
    rcases e4 with e4 | ⟨_, e4⟩
    · exact Or.inl e4
    · exact absurd rfl e4
  | mk t cs fin =>
    cases t with
    | none =>
      have h' : s.drop idx = (cs.flatMap Cond.text ++ (fin.map Final.text).getD []) ++ R := by
        simpa [Compound.text] using h
      have hne : cs ≠ [] ∨ fin ≠ none := by
        rcases hw.2.2.2 with e | e | e
        · exact absurd rfl e
        · exact Or.inl e
        · exact Or.inr e
      have hlead : leadFilter s d idx = .ok (.go (idx, [])) := by
        have hx : (cs.flatMap Cond.text ++ (fin.map Final.text).getD []) ++ R ≠ [] := by
          rcases hne with e | e
          · cases cs with
            | nil => exact absurd rfl e
            | cons a cs => obtain ⟨l, hl⟩ := cond_head a; simp [hl]
          · cases fin with
            | none => exact absurd rfl e
            | some f => obtain ⟨c', l, hl, _⟩ := final_head f; simp [hl]
        obtain ⟨c, r, e⟩ := List.exists_cons_of_ne_nil hx
        rcases tail_head e with hc | ⟨e1, e2, _⟩
        · unfold leadFilter
          simp only [currentChar_eq (drop_get (h'.trans e))]
          have : isTagStartChar c = false ∧ (c == 42) = false := by rcases hc with rfl | rfl | rfl <;> decide
          rw [if_neg (by rw [this.1]; decide), if_neg (by rw [this.2]; decide)]
        · rcases hne with h | h
          · exact absurd e1 h
          · exact absurd e2 h
      rcases fromAttr hw (Nat.le_refl _) hi h' hlead (Or.inr hne) with ⟨st, e1, e2⟩ | e
      · exact Or.inl ⟨st, e1, Or.inr e2⟩
      · exact Or.inr e
    | some x =>
      have h' : s.drop idx = x ++ ((cs.flatMap Cond.text ++ (fin.map Final.text).getD []) ++ R) := by
        simpa [Compound.text] using h
      obtain ⟨⟨c0, l0, hx0, hc0⟩, hxs⟩ := hw.1 x rfl
      have hscan := scanUntil_at (p := endOfCurrentFilter) h' (fun c hc => (tagStop_iff (hxs c hc)).1) (by
        intro c r e
        rcases tail_head e with hc | ⟨_, _, e⟩
        · rcases hc with rfl | rfl | rfl <;> decide
        · exact (hR.facts c r e).1)
      have hg : s[idx]? = some c0 := drop_get (by rw [h', hx0]; rfl)
      have hle := drop_lt h' hi
      have hlead : leadFilter s d idx = match tagFilter d x with
          | none => .ok (.fail .notSeenBefore)
          | some f => .ok (.go (idx + x.length, [f])) := by
        unfold leadFilter
        simp only [currentChar_eq hg]
        rw [if_pos ((nameStart_iff c0).mp hc0), hscan, subStr_at h' rfl (by push_cast; omega) hi]
        simp only [Out.bind_ok]
        unfold tagFilter
        by_cases hz : d.tagMap.contains x = 0
        · rw [if_pos hz, if_pos hz]
        · rw [if_neg hz, if_neg hz]
      have hcf : compFilters d (.mk (some x) cs fin) = match tagFilter d x with
          | none => .fail .notSeenBefore
          | some f => addConds (condList d cs fin) [f] := rfl
      rw [hcf]
      cases htf : tagFilter d x with
      | none =>
        rw [htf] at hlead
        exact Or.inl ⟨_, rfl, Or.inl hlead⟩
      | some f =>
        rw [htf] at hlead
        rcases fromAttr (fs := [f]) hw (by omega) hle (drop_adv h') hlead (Or.inl (by simp)) with ⟨st, e1, e2⟩ | e
        · exact Or.inl ⟨st, e1, Or.inr e2⟩
        · exact Or.inr e

/-! ## Whole parts -/

def kindOf : CombKind → Combinator
  | .child => .child
  | .descendant => .descendant
  | .adjacent => .adjacent
  | .sibling => .general

/-- The steps of a part, or why it is refused. -/
def stepsRes (d : Dom) : List (Combinator × Compound) → QRes (List QStep)
  | [] => .go []
  | (k, c) :: r =>
    match compFilters d c with
    | .fail st => .fail st
    | .go fs =>
      match stepsRes d r with
      | .fail st => .fail st
      | .go l => .go ((k, fs) :: l)

def partRes (d : Dom) (p : Part) : QRes (List QStep) :=
  stepsRes d ((.none, p.first) :: p.rest.map (fun r => (kindOf r.1.kind, r.2)))

theorem swoop_blank {w : Str} (hw : Blanks w) : ∀ (R : Str) (i : Nat) (ch : UInt8),
    swoop (w ++ R) i ch = swoop R (i + w.length) ch := by
  induction w with
  | nil => intro R i ch; rfl
  | cons a w ih =>
    intro R i ch
    have ha := blank_facts (hw a (by simp))
    rw [List.cons_append, swoop, if_neg (by simp [ha]), if_neg (by simp [ha]), ih (fun c hc => hw c (by simp [hc]))]
    congr 1
    simp; omega

theorem swoop_stop {c : UInt8} {r : Str} (h : isElementStartChar c = true ∨ c = 91) (i : Nat) (ch : UInt8) :
    swoop (c :: r) i ch = (i, ch) := by
  unfold swoop
  rw [if_pos (by simpa using h)]

theorem compound_head {c : Compound} {last : Bool} (hw : c.WF last) (hc : c ≠ .any) : ∃ a l, c.text = a :: l ∧
    (isElementStartChar a = true ∨ a = 91) := by
  cases c with
  | any => exact absurd rfl hc
  | mk t cs fin =>
    cases t with
    | some x =>
      obtain ⟨⟨c0, l0, rfl, hc0⟩, _⟩ := hw.1 x rfl
      exact ⟨c0, l0 ++ _, rfl, Or.inl (by simp [isElementStartChar, (nameStart_iff c0).mp hc0])⟩
    | none =>
      cases cs with
      | cons a cs =>
        obtain ⟨l, hl⟩ := cond_head a
        exact ⟨91, _, by simp [Compound.text, hl]; rfl, Or.inr rfl⟩
      | nil =>
        cases fin with
        | none => simp [Compound.WF] at hw
        | some f =>
          obtain ⟨a, l, hl, ha⟩ := final_head f
          refine ⟨a, l, by simp [Compound.text, hl], Or.inl ?_⟩
          rcases ha with rfl | rfl <;> decide

theorem comb_at {k : Comb} (hk : k.WF) {c : UInt8} {r : Str} (hc : isElementStartChar c = true ∨ c = 91) (i : Nat) :
    (swoop (k.text ++ c :: r) i cSp).1 = i + k.text.length ∧
    combinatorOf (swoop (k.text ++ c :: r) i cSp).2 = kindOf k.kind := by
  obtain ⟨h1, h2, _⟩ := hk
  unfold Comb.text
  rw [List.append_assoc, swoop_blank h1]
  cases k.kind with
  | descendant =>
    have e : CombKind.text .descendant ++ k.after ++ c :: r = k.after ++ c :: r := rfl
    rw [e, swoop_blank h2, swoop_stop hc]
    refine ⟨?_, rfl⟩
    simp [CombKind.text]; omega
  | child =>
    have e : CombKind.text .child ++ k.after ++ c :: r = 62 :: (k.after ++ c :: r) := rfl
    rw [e, swoop, if_neg (by decide), swoop_blank h2, swoop_stop hc]
    refine ⟨?_, rfl⟩
    simp [CombKind.text]; omega
  | adjacent =>
    have e : CombKind.text .adjacent ++ k.after ++ c :: r = 43 :: (k.after ++ c :: r) := rfl
    rw [e, swoop, if_neg (by decide), swoop_blank h2, swoop_stop hc]
    refine ⟨?_, rfl⟩
    simp [CombKind.text]; omega
  | sibling =>
    have e : CombKind.text .sibling ++ k.after ++ c :: r = 126 :: (k.after ++ c :: r) := rfl
    rw [e, swoop, if_neg (by decide), swoop_blank h2, swoop_stop hc]
    refine ⟨?_, rfl⟩
    simp [CombKind.text]; omega

theorem comb_after {k : Comb} (hk : k.WF) (R : Str) : After (k.text ++ R) := by
  obtain ⟨h1, h2, h3⟩ := hk
  intro c r e
  unfold Comb.text at e
  cases hb : k.before with
  | cons a w =>
    rw [hb] at e h1
    simp at e
    rw [← e.1]; exact Or.inl (h1 a (by simp))
  | nil =>
    rw [hb] at e h3
    cases hkk : k.kind with
    | descendant =>
      rw [hkk] at e h3
      have := h3 rfl
      cases ha : k.after with
      | nil => rw [ha] at this; exact absurd rfl this
      | cons a w =>
        rw [ha] at e h2
        simp [CombKind.text] at e
        rw [← e.1]; exact Or.inl (h2 a (by simp))
    | child => rw [hkk] at e; simp [CombKind.text] at e; rw [← e.1]; simp
    | adjacent => rw [hkk] at e; simp [CombKind.text] at e; rw [← e.1]; simp
    | sibling => rw [hkk] at e; simp [CombKind.text] at e; rw [← e.1]; simp

theorem parseSteps_text {s : Str} {d : Dom} {trail : Str} (htr : Blanks trail) :
    ∀ (rest : List (Comb × Compound)) (f idx : Nat) (comb : Combinator) (c : Compound), c.WF rest.isEmpty → restWF rest →
    s.drop idx = c.text ++ (restText rest ++ trail) → idx < s.length → s.length < idx + f →
    parseSteps s d f idx comb = .ok (stepsRes d ((comb, c) :: rest.map (fun r => (kindOf r.1.kind, r.2)))) := by
  intro rest
  induction rest with
  | nil =>
    intro f idx comb c hc _ hd hi hf
    obtain ⟨f, rfl⟩ : ∃ g, f = g + 2 := ⟨f - 2, by omega⟩
    have hd' : s.drop idx = c.text ++ trail := by simpa [restText] using hd
    unfold parseSteps
    rw [if_pos hi]
    unfold stepsRes
    rcases compound_at hd' (by omega) hc (blanks_after htr) (fun _ => htr) with ⟨st, e1, e2 | ⟨i, fs, e2, e3⟩⟩ |
      ⟨fs', i, fs, j, e1, e2, e3, e4, e5, e6, e7⟩
    · rw [e1, e2]; rfl
    · rw [e1, e2]; simp only [Out.bind_ok]; rw [e3]; rfl
    · rw [e1, e3]
      simp only [Out.bind_ok]
      rw [e4]
      simp only [Out.bind_ok]
      rw [if_neg (by omega)]
      have hstop : ¬ (swoop (s.drop j) j cSp).1 < s.length := by
        rcases e7 with e7 | ⟨e7, _⟩
        · rw [e7]
          have := swoop_blank htr [] j cSp
          rw [List.append_nil] at this
          rw [this]
          have := congrArg List.length e7
          simp at this
          show ¬ j + trail.length < _
          omega
        · rw [e7]
          rw [List.drop_eq_nil_iff] at e7
          show ¬ j < _
          omega
      unfold parseSteps
      rw [if_neg hstop]
      rfl
  | cons a rest ih =>
    obtain ⟨k, c'⟩ := a
    intro f idx comb c hc hr hd hi hf
    obtain ⟨hk, hc', hany, hr⟩ := hr
    obtain ⟨f, rfl⟩ : ∃ g, f = g + 1 := ⟨f - 1, by omega⟩
    have hrt : restText ((k, c') :: rest) ++ trail = k.text ++ (c'.text ++ (restText rest ++ trail)) := by
      simp [restText]
    rw [hrt] at hd
    obtain ⟨a, l, hl, ha⟩ := compound_head hc' hany
    unfold parseSteps
    rw [if_pos hi]
    rw [List.map_cons]
    unfold stepsRes
    rcases compound_at hd (by omega) hc (comb_after hk _) (fun e => by simp at e) with ⟨st, e1, e2 | ⟨i, fs, e2, e3⟩⟩ |
      ⟨fs', i, fs, j, e1, e2, e3, e4, e5, e6, e7⟩
    · rw [e1, e2]; rfl
    · rw [e1, e2]; simp only [Out.bind_ok]; rw [e3]; rfl
    · rw [e1, e3]
      simp only [Out.bind_ok]
      rw [e4]
      simp only [Out.bind_ok]
      rw [if_neg (by omega)]
      have e7 : s.drop j = k.text ++ (c'.text ++ (restText rest ++ trail)) := by
        rcases e7 with e7 | ⟨_, e7⟩
        · exact e7
        · simp at e7
      have hsw : (swoop (s.drop j) j cSp).1 = j + k.text.length ∧
          combinatorOf (swoop (s.drop j) j cSp).2 = kindOf k.kind := by
        rw [e7, hl]
        exact comb_at hk ha j
      have hne : c'.text ++ (restText rest ++ trail) ≠ [] := by rw [hl]; simp
      have hdj := drop_adv e7
      have hkpos : 1 ≤ k.text.length := by
        have := hk.2.2
        unfold Comb.text
        by_contra hcon
        simp at hcon
        obtain ⟨b1, b2, b3⟩ := hcon
        exact this b2 (by simp [b1, b3])
      rw [hsw.1, hsw.2, ih f (j + k.text.length) (kindOf k.kind) c' hc' hr hdj (le_of_drop hdj hne) (by omega)]
      simp only [Out.bind_ok]
      cases stepsRes d ((kindOf k.kind, c') :: rest.map (fun r => (kindOf r.1.kind, r.2))) <;> rfl

theorem part_text {p : Part} (h : p.WF) (d : Dom) : partSteps p.text d = .ok (partRes d p) := by
  obtain ⟨h1, h2, h3, h4⟩ := h
  have h0 : p.text.drop 0 = p.lead ++ (p.first.text ++ (restText p.rest ++ p.trail)) := rfl
  have hhead : ∃ a l, p.first.text = a :: l ∧ (isElementStartChar a || a == 91 || a == 42) = true := by
    by_cases hany : p.first = .any
    · rw [hany]; exact ⟨42, [], rfl, by decide⟩
    · obtain ⟨a, l, e1, e2⟩ := compound_head h3 hany
      refine ⟨a, l, e1, ?_⟩
      rcases e2 with e2 | e2 <;> simp [e2]
  obtain ⟨a, l, hl, ha⟩ := hhead
  have hscan : scanUntil (fun ch => isElementStartChar ch || ch == 91 || ch == 42) p.text 0 = p.lead.length := by
    have := scanUntil_at (p := fun ch => isElementStartChar ch || ch == 91 || ch == 42) h0 (by
      intro c hc
      have := blank_facts (h1 c hc)
      simp [this]) (by
      intro c r e
      rw [hl] at e
      simp at e
      rw [← e.1]; exact ha)
    simpa using this
  have hd : p.text.drop p.lead.length = p.first.text ++ (restText p.rest ++ p.trail) := by
    have := drop_adv h0
    simpa using this
  unfold partSteps
  rw [hscan]
  exact parseSteps_text h2 p.rest _ _ _ p.first h3 h4 hd (le_of_drop hd (by rw [hl]; simp)) (by omega)

end Flo
