import Verif.Proofs.QueryText
import Verif.Proofs.QuerySem
import Verif.Spec.Skip
/-!
# Reading a class or id with something behind it
-/
namespace Flo
open Spec

/-- What follows: the end, or another class or id. -/
def Next (R : Str) : Prop := ∀ c r, R = c :: r → c = 46 ∨ c = 35

theorem skip_facts {c : UInt8} (h : c ≠ 61 ∧ c ≠ 93 ∧ c ≠ 46 ∧ c ≠ 35 ∧ c ≠ 44) : isAfterToken c = false := by
  simp [isAfterToken, cEq, h]

theorem skip_token {s : Str} {i : Nat} {X w R : Str} (h : s.drop i = X ++ (w ++ R)) (hi : i ≤ s.length)
    (hX : Word X) (hw : Skip w ∨ (w = [] ∧ R = [])) (hR : Next R) : parseToken s i = .ok (X, i + X.length + w.length) := by
  obtain ⟨_, hX⟩ := hX
  have h2 := drop_adv h
  have e1 : scanUntil isTokenEnd (s.drop i) i = i + X.length := by
    refine scanUntil_at h (fun c hc => (wordStop_iff (hX c hc)).1) ?_
    intro c r e
    rcases hw with ⟨⟨c', l, rfl, hc'⟩, _⟩ | ⟨rfl, rfl⟩
    · simp at e
      rw [← e.1]; exact (blank_facts hc').2.2.2.2.1
    · cases e
  have e2 : scanUntil isAfterToken (s.drop (i + X.length)) (i + X.length) = i + X.length + w.length := by
    refine scanUntil_at h2 (fun c hc => ?_) ?_
    · rcases hw with ⟨_, hw⟩ | ⟨rfl, _⟩
      · exact skip_facts (hw c hc)
      · cases hc
    · intro c r e
      rcases hR c r e with rfl | rfl <;> decide
  unfold parseToken
  simp only [e1]
  rw [subStr_at (X := X) (R := w ++ R) h rfl (by push_cast; omega) hi]
  simp only [Out.bind_ok, e2]

theorem attr_skip {s : Str} {d : Dom} {f idx : Nat} {fs : List Filter} {fin : Final} {w R : Str}
    (h : s.drop idx = fin.text ++ (w ++ R)) (hf : Word fin.word) (hw : Skip w ∨ (w = [] ∧ R = [])) (hR : Next R)
    (hi : idx ≤ s.length) :
    attrFilters s d (f + 1) idx fs =
      if fs.length ≥ maxFilters then .ok (.fail .tooManyFilters)
      else match condFilter d fin.cond with
        | none => .ok (.fail .notSeenBefore)
        | some x => attrFilters s d f (idx + fin.text.length + w.length) (fs ++ [x]) := by
  obtain ⟨ch, hch, htext⟩ : ∃ ch : UInt8, (ch = 46 ∧ finKey fin = b!"class" ∨ ch = 35 ∧ finKey fin = b!"id") ∧
      fin.text = ch :: fin.word := by
    cases fin with
    | cls v => exact ⟨46, Or.inl ⟨rfl, rfl⟩, rfl⟩
    | ident v => exact ⟨35, Or.inr ⟨rfl, rfl⟩, rfl⟩
  have hcond : condFilter d fin.cond = finFilter d fin := by cases fin <;> rfl
  have h0 : s.drop idx = ch :: (fin.word ++ (w ++ R)) := by rw [h, htext]; simp
  have hg := drop_get h0
  have hlt := lt_of_getElem? hg
  have h0' : s.drop (idx + 1) = fin.word ++ (w ++ R) := drop_adv (X := [ch]) h0
  have hW : s.drop idx = [ch] ++ (fin.word ++ (w ++ R)) := h0
  have t2 := skip_token h0' (by omega) hf hw hR
  have hkf : (ch == 91 || ch == 46 || ch == 35) = true ∧ (ch == 46 || ch == 35) = true ∧ isTagStartChar ch = false ∧
      (if (ch == 46) = true then b!"class" else b!"id") = finKey fin := by
    rcases hch with ⟨rfl, e⟩ | ⟨rfl, e⟩ <;> rw [e] <;> decide
  have t1' : scanUntil isTagStartChar (s.drop idx) idx = idx + 1 := by
    have := scanUntil_at (p := isTagStartChar) hW (by
        intro c hc
        rw [List.mem_singleton] at hc
        subst hc; exact hkf.2.2.1) (by
        intro c r e
        obtain ⟨⟨c0, l0, e0, hc0⟩, _⟩ := hf
        rw [e0] at e
        simp at e
        rw [← e.1]; exact (nameStart_iff c0).mp hc0)
    rw [this]; simp
  have hend : s.drop (idx + 1 + fin.word.length + w.length) = R := drop_adv (drop_adv h0')
  have hcc : (currentChar s (idx + 1 + fin.word.length + w.length) == 93) = false := by
    by_contra hc
    have := currentChar_ne_zero (s := s) (i := idx + 1 + fin.word.length + w.length) (c := 93) (by simpa using hc) (by decide)
    cases R with
    | nil => rw [List.drop_eq_nil_iff] at hend; rw [List.getElem?_eq_none hend] at this; cases this
    | cons c r =>
      rw [drop_get hend] at this
      rcases hR c r rfl with rfl | rfl <;> cases this
  have hlen : fin.text.length = 1 + fin.word.length := by rw [htext]; simp; omega
  conv_lhs => unfold attrFilters
  rw [hg]
  simp only
  rw [if_pos hkf.1]
  by_cases hm : fs.length ≥ maxFilters
  · rw [if_pos hm, if_pos hm]
  rw [if_neg hm, if_neg hm, t1', t2]
  simp only [Out.bind_ok]
  rw [if_pos hkf.2.1, hkf.2.2.2, hcond]
  unfold finFilter
  by_cases hz : d.keyMap.contains (finKey fin) = 0
  · rw [if_pos hz, if_pos (Or.inl hz)]
  · rw [if_neg hz]
    by_cases hv : d.valMap.contains fin.word = 0
    · rw [if_pos hv, if_pos (Or.inr hv)]
    · rw [if_neg hv, if_neg (not_or.mpr ⟨hz, hv⟩), if_neg (by rw [hcc]; decide)]
      simp only
      congr 1
      rw [hlen]; omega

/-- The texts of a class or id and what follows it. -/
def endText (f : Final) (more : List (Str × Final)) (rest : Str) : Str := f.text ++ (moreText more ++ rest)

theorem end_next (f : Final) (more : List (Str × Final)) (rest : Str) : ∃ c r, endText f more rest = c :: r ∧ (c = 46 ∨ c = 35) := by
  obtain ⟨c, l, h, hc⟩ := final_head f
  exact ⟨c, _, by unfold endText; rw [h]; rfl, hc⟩

theorem attr_end {s : Str} {d : Dom} {rest : Str} (hrest : rest = [] ∨ Skip rest) :
    ∀ (more : List (Str × Final)) (fin : Final) (f idx : Nat) (fs : List Filter), Word fin.word →
    (∀ x ∈ more, Skip x.1 ∧ Word x.2.word) → s.drop idx = endText fin more rest → idx ≤ s.length → s.length + 1 ≤ idx + f →
    ∃ j, attrFilters s d f idx fs = .ok (atPos j (addConds ((fin :: more.map (·.2)).map (fun x => condFilter d x.cond)) fs)) ∧
      idx ≤ j ∧ j = s.length := by
  intro more
  induction more with
  | nil =>
    intro fin f idx fs hf _ hd hi hlen
    obtain ⟨c, r, hc, _⟩ := end_next fin [] rest
    have hlt := le_of_drop hd (by rw [hc]; simp)
    obtain ⟨f, rfl⟩ : ∃ g, f = g + 2 := ⟨f - 2, by omega⟩
    have hd' : s.drop idx = fin.text ++ (rest ++ []) := by rw [hd]; simp [endText, moreText]
    refine ⟨s.length, ?_, hi, rfl⟩
    rw [attr_skip hd' hf (by rcases hrest with h | h; exacts [Or.inr ⟨h, rfl⟩, Or.inl h]) (by intro c r e; cases e) hi]
    simp only [List.map_nil, List.map_cons]
    unfold addConds
    by_cases hm : fs.length ≥ maxFilters
    · rw [if_pos hm, if_pos hm]; rfl
    · rw [if_neg hm, if_neg hm]
      cases condFilter d fin.cond with
      | none => rfl
      | some x =>
        have hend : idx + fin.text.length + rest.length = s.length := by
          have := congrArg List.length hd'
          simp at this; omega
        simp only
        rw [hend]
        unfold attrFilters
        rw [List.getElem?_eq_none (Nat.le_refl _)]
        rfl
  | cons a more ih =>
    obtain ⟨w, fin'⟩ := a
    intro fin f idx fs hf hmore hd hi hlen
    obtain ⟨c, r, hc, hc'⟩ := end_next fin' more rest
    have hd' : s.drop idx = fin.text ++ (w ++ endText fin' more rest) := by
      rw [hd]; simp [endText, moreText]
    obtain ⟨hw, hf'⟩ := hmore (w, fin') (by simp)
    obtain ⟨f, rfl⟩ : ∃ g, f = g + 1 := ⟨f - 1, by omega⟩
    have hdn : s.drop (idx + fin.text.length + w.length) = endText fin' more rest := drop_adv (drop_adv hd')
    have hlt := le_of_drop hdn (by rw [hc]; simp)
    have hpos : 1 ≤ fin.text.length := by cases fin <;> simp [Final.text]
    rw [attr_skip hd' hf (Or.inl hw) (by intro c0 r0 e; rw [hc] at e; cases e; exact hc') hi]
    simp only [List.map_cons]
    conv => enter [1, j, 1]; unfold addConds
    by_cases hm : fs.length ≥ maxFilters
    · rw [if_pos hm]
      exact ⟨s.length, by rw [if_pos hm]; rfl, hi, rfl⟩
    · rw [if_neg hm]
      cases hcf : condFilter d fin.cond with
      | none => exact ⟨s.length, by rw [if_neg hm]; rfl, hi, rfl⟩
      | some x =>
        obtain ⟨j, e1, e2, e3⟩ := ih fin' f _ (fs ++ [x]) hf' (fun x hx => hmore x (by simp [hx])) hdn (by omega) (by omega)
        refine ⟨j, ?_, by omega, e3⟩
        rw [if_neg hm]
        exact e1

theorem attr_conds_end {s : Str} {d : Dom} {rest : Str} (hrest : rest = [] ∨ Skip rest) {more : List (Str × Final)} {fin : Final}
    (hf : Word fin.word) (hmore : ∀ x ∈ more, Skip x.1 ∧ Word x.2.word) :
    ∀ (cs : List Cond) (f idx : Nat) (fs : List Filter), (∀ c ∈ cs, c.WF) →
    s.drop idx = cs.flatMap Cond.text ++ endText fin more rest → idx ≤ s.length → s.length + 1 ≤ idx + f →
    ∃ j, attrFilters s d f idx fs = .ok (atPos j (addConds
        ((cs ++ (fin :: more.map (·.2)).map Final.cond).map (condFilter d)) fs)) ∧ idx ≤ j ∧ j = s.length := by
  intro cs
  induction cs with
  | nil =>
    intro f idx fs _ hd hi hlen
    have := attr_end (d := d) hrest more fin f idx fs hf hmore (by simpa using hd) hi hlen
    rw [List.nil_append, List.map_map]
    exact this
  | cons c cs ih =>
    intro f idx fs hwf hd hi hlen
    have hd' : s.drop idx = c.text ++ (cs.flatMap Cond.text ++ endText fin more rest) := by
      rw [hd]; simp [List.flatMap_cons]
    have hpos : 1 ≤ c.text.length := by cases c <;> simp [Cond.text]
    have hle := drop_lt hd' hi
    obtain ⟨f, rfl⟩ : ∃ g, f = g + 1 := ⟨f - 1, by omega⟩
    rw [attr_cond hd' (hwf c (by simp)) hi]
    rw [List.cons_append, List.map_cons]
    conv => enter [1, j, 1]; unfold addConds
    by_cases hm : fs.length ≥ maxFilters
    · rw [if_pos hm]
      exact ⟨s.length, by rw [if_pos hm]; rfl, hi, rfl⟩
    · rw [if_neg hm]
      cases hcf : condFilter d c with
      | none => exact ⟨s.length, by rw [if_neg hm]; rfl, hi, rfl⟩
      | some x =>
        obtain ⟨j, e1, e2, e3⟩ := ih f (idx + c.text.length) (fs ++ [x]) (fun c hc => hwf c (List.mem_cons_of_mem _ hc)) (drop_adv hd') hle (by omega)
        exact ⟨j, by rw [if_neg hm]; exact e1, by omega, e3⟩

theorem addConds_length : ∀ (os : List (Option Filter)) (fs fs' : List Filter), addConds os fs = .go fs' →
    fs'.length = fs.length + os.length := by
  intro os
  induction os with
  | nil => intro fs fs' e; simp [addConds] at e; simp [e]
  | cons o os ih =>
    intro fs fs' e
    unfold addConds at e
    split at e
    · cases e
    · split at e
      · cases e
      · rename_i x
        have := ih _ _ e
        simp at this ⊢; omega

/-- Reading the last compound. -/
theorem compound_end {s : Str} {d : Dom} {idx : Nat} {t : Option Str} {cs : List Cond} {fin : Final} {more : List (Str × Final)}
    {rest : Str} (hrest : rest = [] ∨ Skip rest) (hmore : ∀ x ∈ more, Skip x.1 ∧ Word x.2.word)
    (h : s.drop idx = Compound.text (.mk t cs (some fin)) ++ (moreText more ++ rest)) (hi : idx ≤ s.length)
    (hw : Compound.WF true (.mk t cs (some fin))) :
    (∃ st, compFilters d (Compound.both (more.map (·.2)) (.mk t cs (some fin))) = .fail st ∧ (leadFilter s d idx = .ok (.fail st) ∨
      ∃ i fs, leadFilter s d idx = .ok (.go (i, fs)) ∧ attrFilters s d (s.length + 1) i fs = .ok (.fail st))) ∨
    (∃ fs' i fs, compFilters d (Compound.both (more.map (·.2)) (.mk t cs (some fin))) = .go fs' ∧ 1 ≤ fs'.length ∧
      leadFilter s d idx = .ok (.go (i, fs)) ∧ attrFilters s d (s.length + 1) i fs = .ok (.go (s.length, fs'))) := by
  obtain ⟨w1, w2, w3, _⟩ := hw
  have hb : Compound.both (more.map (·.2)) (.mk t cs (some fin)) =
      .mk t (cs ++ (fin :: more.map (·.2)).map Final.cond) none := rfl
  rw [hb]
  generalize hcs' : cs ++ (fin :: more.map (·.2)).map Final.cond = cs'
  have hpos : 1 ≤ cs'.length := by rw [← hcs']; simp; omega
  have hcl : condList d cs' none = cs'.map (condFilter d) := by simp [condList]
  have h' : s.drop idx = t.getD [] ++ (cs.flatMap Cond.text ++ endText fin more rest) := by
    rw [h]; simp [Compound.text, endText]
  have hhead : ∃ c r, cs.flatMap Cond.text ++ endText fin more rest = c :: r ∧ (c = 91 ∨ c = 46 ∨ c = 35) := by
    cases cs with
    | cons a cs => obtain ⟨l, hl⟩ := cond_head a; exact ⟨91, _, by rw [List.flatMap_cons, hl]; rfl, Or.inl rfl⟩
    | nil => obtain ⟨c, r, h, hc⟩ := end_next fin more rest; exact ⟨c, r, by simpa using h, Or.inr hc⟩
  have fromAttr : ∀ (i : Nat) (fs : List Filter), i ≤ s.length → s.drop i = cs.flatMap Cond.text ++ endText fin more rest →
      leadFilter s d idx = .ok (.go (i, fs)) →
      (∃ st, addConds (condList d cs' none) fs = .fail st ∧
        ∃ i fs, leadFilter s d idx = .ok (.go (i, fs)) ∧ attrFilters s d (s.length + 1) i fs = .ok (.fail st)) ∨
      (∃ fs' i fs0, addConds (condList d cs' none) fs = .go fs' ∧ 1 ≤ fs'.length ∧ leadFilter s d idx = .ok (.go (i, fs0)) ∧
        attrFilters s d (s.length + 1) i fs0 = .ok (.go (s.length, fs'))) := by
    intro i fs hi' hd hl
    obtain ⟨j, e1, _, rfl⟩ := attr_conds_end (d := d) hrest (w3 fin rfl).2 hmore cs (s.length + 1) i fs w2 hd hi' (by omega)
    rw [hcs'] at e1
    rw [hcl]
    cases hadd : addConds (cs'.map (condFilter d)) fs with
    | fail st => rw [hadd] at e1; exact Or.inl ⟨st, rfl, i, fs, hl, e1⟩
    | go fs' =>
      rw [hadd] at e1
      have := addConds_length _ _ _ hadd
      rw [List.length_map] at this
      exact Or.inr ⟨fs', i, fs, rfl, by omega, hl, e1⟩
  obtain ⟨ch, rr, hcr, hch⟩ := hhead
  cases t with
  | none =>
    have h'' : s.drop idx = cs.flatMap Cond.text ++ endText fin more rest := by simpa using h'
    have hlead : leadFilter s d idx = .ok (.go (idx, [])) := by
      unfold leadFilter
      simp only [currentChar_eq (drop_get (h''.trans hcr))]
      have : isTagStartChar ch = false ∧ (ch == 42) = false := by rcases hch with rfl | rfl | rfl <;> decide
      rw [if_neg (by rw [this.1]; decide), if_neg (by rw [this.2]; decide)]
    rcases fromAttr idx [] hi h'' hlead with ⟨st, e1, e2⟩ | e
    · exact Or.inl ⟨st, e1, Or.inr e2⟩
    · exact Or.inr e
  | some x =>
    have h'' : s.drop idx = x ++ (cs.flatMap Cond.text ++ endText fin more rest) := h'
    obtain ⟨⟨c0, l0, hx0, hc0⟩, hxs⟩ := w1 x rfl
    have hscan := scanUntil_at (p := endOfCurrentFilter) h'' (fun c hc => (tagStop_iff (hxs c hc)).1) (by
      intro c r e
      rw [hcr] at e
      cases e
      rcases hch with rfl | rfl | rfl <;> decide)
    have hg : s[idx]? = some c0 := drop_get (by rw [h'', hx0]; rfl)
    have hle := drop_lt h'' hi
    have hlead : leadFilter s d idx = match tagFilter d x with
        | none => .ok (.fail .notSeenBefore)
        | some f => .ok (.go (idx + x.length, [f])) := by
      unfold leadFilter
      simp only [currentChar_eq hg]
      rw [if_pos ((nameStart_iff c0).mp hc0), hscan, subStr_at h'' rfl (by push_cast; omega) hi]
      simp only [Out.bind_ok]
      unfold tagFilter
      by_cases hz : d.tagMap.contains x = 0
      · rw [if_pos hz, if_pos hz]
      · rw [if_neg hz, if_neg hz]
    have hcf : compFilters d (.mk (some x) cs' none) = match tagFilter d x with
        | none => .fail .notSeenBefore
        | some f => addConds (condList d cs' none) [f] := rfl
    rw [hcf]
    cases htf : tagFilter d x with
    | none =>
      rw [htf] at hlead
      exact Or.inl ⟨_, rfl, Or.inl hlead⟩
    | some f =>
      rw [htf] at hlead
      rcases fromAttr _ [f] hle (drop_adv h'') hlead with ⟨st, e1, e2⟩ | e
      · exact Or.inl ⟨st, e1, Or.inr e2⟩
      · exact Or.inr e

/-- The steps with the last compound changed. -/
def lastStep (g : Compound → Compound) : List (Combinator × Compound) → List (Combinator × Compound)
  | [] => []
  | [(k, c)] => [(k, g c)]
  | a :: b :: r => a :: lastStep g (b :: r)

theorem parseSteps_end {s : Str} {d : Dom} {more : List (Str × Final)} {tail : Str} (htail : tail = [] ∨ Skip tail)
    (hmore : ∀ x ∈ more, Skip x.1 ∧ Word x.2.word) :
    ∀ (rest : List (Comb × Compound)) (f idx : Nat) (comb : Combinator) (c : Compound), c.WF rest.isEmpty → restWF rest →
    (∃ t cs x, (c :: rest.map (·.2)).getLast? = some (.mk t cs (some x))) →
    s.drop idx = c.text ++ (restText rest ++ (moreText more ++ tail)) → idx < s.length → s.length < idx + f →
    parseSteps s d f idx comb = .ok (stepsRes d (lastStep (Compound.both (more.map (·.2)))
      ((comb, c) :: rest.map (fun r => (kindOf r.1.kind, r.2))))) := by
  intro rest
  induction rest with
  | nil =>
    intro f idx comb c hc _ hend hd hi hf
    obtain ⟨f, rfl⟩ : ∃ g, f = g + 2 := ⟨f - 2, by omega⟩
    obtain ⟨t, cs, x, he⟩ := hend
    have he : c = .mk t cs (some x) := by simpa using he
    subst he
    have hd' : s.drop idx = Compound.text (.mk t cs (some x)) ++ (moreText more ++ tail) := by simpa [restText] using hd
    unfold parseSteps
    rw [if_pos hi, List.map_nil]
    unfold lastStep stepsRes
    rcases compound_end (d := d) htail hmore hd' (by omega) hc with ⟨st, e1, e2 | ⟨i, fs, e2, e3⟩⟩ |
      ⟨fs', i, fs, e1, e2, e3, e4⟩
    · rw [e1, e2]; rfl
    · rw [e1, e2]; simp only [Out.bind_ok]; rw [e3]; rfl
    · rw [e1, e3]
      simp only [Out.bind_ok]
      rw [e4]
      simp only [Out.bind_ok]
      rw [if_neg (by omega)]
      have hstop : ¬ (swoop (s.drop s.length) s.length cSp).1 < s.length := by
        rw [List.drop_length]
        show ¬ s.length < _
        omega
      unfold parseSteps
      rw [if_neg hstop]
      rfl
  | cons a rest ih =>
    obtain ⟨k, c'⟩ := a
    intro f idx comb c hc hr hend hd hi hf
    obtain ⟨hk, hc', hany, hr⟩ := hr
    obtain ⟨f, rfl⟩ : ∃ g, f = g + 1 := ⟨f - 1, by omega⟩
    have hrt : restText ((k, c') :: rest) ++ (moreText more ++ tail) = k.text ++ (c'.text ++ (restText rest ++ (moreText more ++ tail))) := by
      simp [restText]
    rw [hrt] at hd
    obtain ⟨a, l, hl, ha⟩ := compound_head hc' hany
    unfold parseSteps
    rw [if_pos hi]
    rw [List.map_cons]
    have hls : lastStep (Compound.both (more.map (·.2))) ((comb, c) :: (kindOf k.kind, c') :: rest.map (fun r => (kindOf r.1.kind, r.2))) =
        (comb, c) :: lastStep (Compound.both (more.map (·.2))) ((kindOf k.kind, c') :: rest.map (fun r => (kindOf r.1.kind, r.2))) := rfl
    rw [hls]
    unfold stepsRes
    rcases compound_at hd (by omega) hc (comb_after hk _) (fun e => by simp at e) with ⟨st, e1, e2 | ⟨i, fs, e2, e3⟩⟩ |
      ⟨fs', i, fs, j, e1, e2, e3, e4, e5, e6, e7⟩
    · rw [e1, e2]; rfl
    · rw [e1, e2]; simp only [Out.bind_ok]; rw [e3]; rfl
    · rw [e1, e3]
      simp only [Out.bind_ok]
      rw [e4]
      simp only [Out.bind_ok]
      rw [if_neg (by omega)]
      have e7 : s.drop j = k.text ++ (c'.text ++ (restText rest ++ (moreText more ++ tail))) := by
        rcases e7 with e7 | ⟨_, e7⟩
        · exact e7
        · simp at e7
      have hsw : (swoop (s.drop j) j cSp).1 = j + k.text.length ∧
          combinatorOf (swoop (s.drop j) j cSp).2 = kindOf k.kind := by
        rw [e7, hl]
        exact comb_at hk ha j
      have hne : c'.text ++ (restText rest ++ (moreText more ++ tail)) ≠ [] := by rw [hl]; simp
      have hdj := drop_adv e7
      have hkpos : 1 ≤ k.text.length := by
        have := hk.2.2
        unfold Comb.text
        by_contra hcon
        simp at hcon
        obtain ⟨b1, b2, b3⟩ := hcon
        exact this b2 (by simp [b1, b3])
      have hend' : ∃ t cs x, (c' :: rest.map (·.2)).getLast? = some (.mk t cs (some x)) := by
        obtain ⟨t, cs, x, he⟩ := hend
        exact ⟨t, cs, x, by simpa using he⟩
      rw [hsw.1, hsw.2, ih f (j + k.text.length) (kindOf k.kind) c' hc' hr hend' hdj (le_of_drop hdj hne) (by omega)]
      simp only [Out.bind_ok]
      cases stepsRes d (lastStep (Compound.both (more.map (·.2))) ((kindOf k.kind, c') :: rest.map (fun r => (kindOf r.1.kind, r.2)))) <;> rfl

theorem lastStep_rest (g : Compound → Compound) : ∀ (k : Combinator) (c : Compound) (rest : List (Comb × Compound)), rest ≠ [] →
    lastStep g ((k, c) :: rest.map (fun r => (kindOf r.1.kind, r.2))) = (k, c) :: (restLast g rest).map (fun r => (kindOf r.1.kind, r.2)) := by
  intro k c rest
  induction rest generalizing k c with
  | nil => intro h; exact absurd rfl h
  | cons a rest ih =>
    intro _
    obtain ⟨k', c'⟩ := a
    cases rest with
    | nil => rfl
    | cons b rest =>
      have := ih (kindOf k'.kind) c' (by simp)
      show (k, c) :: lastStep g ((kindOf k'.kind, c') :: (b :: rest).map _) = _
      rw [this]
      rfl

theorem lastStep_part (g : Compound → Compound) (p : Part) :
    lastStep g ((.none, p.first) :: p.rest.map (fun r => (kindOf r.1.kind, r.2))) =
      (.none, (p.mapLast g).first) :: (p.mapLast g).rest.map (fun r => (kindOf r.1.kind, r.2)) := by
  by_cases h : p.rest = []
  · have : p.mapLast g = { p with first := g p.first } := by unfold Part.mapLast; rw [h]
    rw [this, h]
    rfl
  · have : p.mapLast g = { p with rest := restLast g p.rest } := by unfold Part.mapLast; split; exacts [absurd ‹_› h, rfl]
    rw [this]
    exact lastStep_rest g _ _ _ h

theorem part_end {p : Part} (h : p.WF) (hend : p.endsInFinal) (htr : p.trail = []) {more : List (Str × Final)} {tail : Str}
    (htail : tail = [] ∨ Skip tail) (hmore : ∀ x ∈ more, Skip x.1 ∧ Word x.2.word) (d : Dom) :
    partSteps (p.text ++ (moreText more ++ tail)) d = .ok (partRes d (p.mapLast (Compound.both (more.map (·.2))))) := by
  obtain ⟨h1, h2, h3, h4⟩ := h
  generalize hs : p.text ++ (moreText more ++ tail) = s
  have h0 : s.drop 0 = p.lead ++ (p.first.text ++ (restText p.rest ++ (moreText more ++ tail))) := by
    rw [← hs, List.drop_zero, Part.text, htr]; simp
  have hhead : ∃ a l, p.first.text = a :: l ∧ (isElementStartChar a || a == 91 || a == 42) = true := by
    by_cases hany : p.first = .any
    · rw [hany]; exact ⟨42, [], rfl, by decide⟩
    · obtain ⟨a, l, e1, e2⟩ := compound_head h3 hany
      refine ⟨a, l, e1, ?_⟩
      rcases e2 with e2 | e2 <;> simp [e2]
  obtain ⟨a, l, hl, ha⟩ := hhead
  have hscan : scanUntil (fun ch => isElementStartChar ch || ch == 91 || ch == 42) s 0 = p.lead.length := by
    have := scanUntil_at (p := fun ch => isElementStartChar ch || ch == 91 || ch == 42) h0 (by
      intro c hc
      have := blank_facts (h1 c hc)
      simp [this]) (by
      intro c r e
      rw [hl] at e
      simp at e
      rw [← e.1]; exact ha)
    simpa using this
  have hd : s.drop p.lead.length = p.first.text ++ (restText p.rest ++ (moreText more ++ tail)) := by
    have := drop_adv h0
    simpa using this
  unfold partSteps
  rw [hscan, parseSteps_end htail hmore p.rest _ _ _ p.first h3 h4 hend hd (le_of_drop hd (by rw [hl]; simp)) (by omega), lastStep_part]
  rfl

/-! ## The changed part is well-formed -/

theorem final_cond_wf {f : Final} (h : Word f.word) : f.cond.WF := by
  have hc : ∀ w : Str, Blanks ([] : Str) := fun _ c hc => by cases hc
  cases f with
  | cls v => exact ⟨hc [], ⟨⟨99, _, rfl, by unfold NameStart; decide⟩, by unfold WordStop; decide⟩, hc [], hc [], h, hc []⟩
  | ident v => exact ⟨hc [], ⟨⟨105, _, rfl, by unfold NameStart; decide⟩, by unfold WordStop; decide⟩, hc [], hc [], h, hc []⟩

theorem both_wf {more : List Final} (hmore : ∀ x ∈ more, Word x.word) {c : Compound} {b : Bool} (h : c.WF b) : (c.both more).WF b := by
  cases c with
  | any => trivial
  | mk t cs fin =>
    obtain ⟨h1, h2, h3, h4⟩ := h
    refine ⟨h1, ?_, (by intro f hf; cases hf), ?_⟩
    · intro c hc
      rcases List.mem_append.1 hc with hc | hc
      · exact h2 c hc
      · obtain ⟨f, hf, rfl⟩ := List.mem_map.1 hc
        rcases List.mem_append.1 hf with hf | hf
        · exact final_cond_wf (h3 f (by simpa using hf)).2
        · exact final_cond_wf (hmore f hf)
    · rcases h4 with h4 | h4 | h4
      · exact Or.inl h4
      · right; left; simp [h4]
      · right; left
        cases fin with
        | none => exact absurd rfl h4
        | some f => simp

theorem both_any {more : List Final} {c : Compound} (h : c ≠ .any) : c.both more ≠ .any := by
  cases c with
  | any => exact absurd rfl h
  | mk t cs fin => intro h; cases h

theorem restLast_isEmpty (g : Compound → Compound) (r : List (Comb × Compound)) : (restLast g r).isEmpty = r.isEmpty := by
  rcases r with _ | ⟨a, _ | ⟨b, r⟩⟩ <;> rfl

theorem restLast_wf {more : List Final} (hmore : ∀ x ∈ more, Word x.word) : ∀ (r : List (Comb × Compound)), restWF r →
    restWF (restLast (Compound.both more) r) := by
  intro r
  induction r with
  | nil => intro _; trivial
  | cons a r ih =>
    obtain ⟨k, c⟩ := a
    rintro ⟨h1, h2, h3, h4⟩
    cases r with
    | nil => exact ⟨h1, both_wf hmore h2, both_any h3, trivial⟩
    | cons b r => exact ⟨h1, by rw [restLast_isEmpty]; exact h2, h3, ih h4⟩

theorem mapLast_wf {more : List Final} (hmore : ∀ x ∈ more, Word x.word) {p : Part} (h : p.WF) : (p.mapLast (Compound.both more)).WF := by
  obtain ⟨h1, h2, h3, h4⟩ := h
  by_cases hr : p.rest = []
  · have : p.mapLast (Compound.both more) = { p with first := p.first.both more } := by unfold Part.mapLast; rw [hr]
    rw [this]
    exact ⟨h1, h2, both_wf hmore h3, h4⟩
  · have : p.mapLast (Compound.both more) = { p with rest := restLast (Compound.both more) p.rest } := by
      unfold Part.mapLast; split; exacts [absurd ‹_› hr, rfl]
    rw [this]
    exact ⟨h1, h2, by rw [restLast_isEmpty]; exact h3, restLast_wf hmore _ h4⟩

/-- Queries without commas that are read as the same steps have the same answers. -/
theorem sameAnswer_of_steps {d : Dom} {ch : Nat → List Nat} (h : DomI d ch) (pun : Nat → Nat) {s s' : Str} (hs : 44 ∉ s) (hs' : 44 ∉ s')
    (he : partSteps s d = partSteps s' d) : SameAnswer pun d s s' := by
  have hff : firstFail d (splitComma s) = firstFail d (splitComma s') := by
    rw [splitComma_none hs, splitComma_none hs']; unfold firstFail; rw [he]
  have hps : ∀ n, partsSem pun d (splitComma s) n ↔ partsSem pun d (splitComma s') n := by
    intro n
    rw [splitComma_none hs, splitComma_none hs']; unfold partsSem
    simp only [List.mem_singleton, exists_eq_left]
    rw [he]
  rcases querySelectorAll_eval h pun s with ⟨st, e1, e2⟩ | ⟨e1, L, e2, e3, e4, _⟩
  · rcases querySelectorAll_eval h pun s' with ⟨st', f1, f2⟩ | ⟨f1, _⟩
    · rw [← hff, e1] at f1; cases f1
      exact Or.inl ⟨st, e2, f2⟩
    · rw [← hff, e1] at f1; cases f1
  · rcases querySelectorAll_eval h pun s' with ⟨st', f1, f2⟩ | ⟨_, L', f2, f3, f4, _⟩
    · rw [← hff, e1] at f1; cases f1
    · exact Or.inr ⟨L, L', e2, f2, (List.perm_ext_iff_of_nodup e3 f3).2 fun n => by rw [e4, f4]; exact hps n⟩

end Flo
