import Verif.Proofs.LexSrc
/-!
# The events of rendered tags and documents
-/
namespace Flo
open Spec

def Spec.AttrSrc.ev : AttrSrc → Attr
  | .bool _ k => .bool k
  | .dquoted _ k v => .pair k v
  | .squoted _ k v => .pair k v
  | .bare _ k v => .pair k v

section
variable {base : Nat → Out Bool} {s : Str}

theorem isPropEnd_iff (c : UInt8) : isPropEnd c = true ↔ (IsBlankChar c ∨ c = cEq ∨ c = cGt) := by
  unfold IsBlankChar
  simp only [isPropEnd, isFormatting, Bool.or_eq_true, beq_iff_eq]
  tauto

theorem isTagEnd_iff (c : UInt8) : isTagEnd c = true ↔ (IsBlankChar c ∨ c = cGt) := by
  unfold IsBlankChar
  simp only [isTagEnd, isFormatting, Bool.or_eq_true, beq_iff_eq]
  tauto

theorem bare_noEnd {k : Str} (h : Bare k) : ∀ c ∈ k, isPropEnd c = false := by
  intro c hc
  rw [Bool.eq_false_iff]
  intro hp
  have := h c hc
  rcases (isPropEnd_iff c).mp hp with h1 | h1 | h1
  · exact this.1 h1
  · exact this.2.1 h1
  · exact this.2.2 h1

/-- The bytes start with a byte that ends a bare token. -/
def EndsBare (R : Str) : Prop := ∃ c r, R = c :: r ∧ isPropEnd c = true

theorem parseProp_bare {i : Nat} {k R : Str} (h : s.drop i = k ++ R) (hk : Bare k) (hq : NoQuoteStart k)
    (hR : EndsBare R) : parseProp s i = .ok (k, i + k.length) := by
  obtain ⟨c, r, rfl, hc⟩ := hR
  have hlen := drop_len h (by simp)
  have hcur : (currentChar s i == cQuot || currentChar s i == cDQuot) = false := by
    cases k with
    | nil =>
      rw [currentChar_at (by simpa using h)]
      rcases (isPropEnd_iff c).mp hc with (h1 | h1 | h1 | h1) | h1 | h1 <;> subst h1 <;> decide
    | cons a k =>
      rw [currentChar_at (by simpa using h)]
      obtain ⟨h1, h2⟩ := hq
      simp at h1 h2
      simp [h1, h2]
  unfold parseProp
  dsimp only
  rw [if_neg (by rw [hcur]; simp)]
  rw [scanUntil_at h (bare_noEnd hk) (by intro c' r' e; cases e; exact hc)]
  rw [subStr_at h rfl (by omega) (by omega)]
  rfl

theorem quoteLoop_at (q : UInt8) : ∀ (v : Str), q ∉ v → ∀ (R : Str) (i : Nat) (len : Int),
    quoteLoop q (v ++ q :: R) i 1 len = (i + v.length + 1, len + v.length + 1) := by
  intro v
  induction v with
  | nil =>
    intro _ R i len
    simp only [List.nil_append, quoteLoop]
    rw [if_pos (by omega)]
    cases R with
    | nil => simp [quoteLoop]
    | cons a R => simp [quoteLoop]
  | cons c v ih =>
    intro hv R i len
    simp at hv
    simp only [List.cons_append, quoteLoop]
    rw [if_pos (by omega)]
    have : (c == q) = false := by
      simp; exact fun h => hv.1 h.symm
    rw [this]
    simp only [Bool.false_eq_true, if_false, Nat.add_zero]
    rw [ih hv.2]
    simp; omega

theorem parseProp_quoted {i : Nat} {q : UInt8} (hq : q = cQuot ∨ q = cDQuot) {v R : Str} (hv : q ∉ v)
    (h : s.drop i = q :: (v ++ q :: R)) : parseProp s i = .ok (v, i + v.length + 2) := by
  have hlen := drop_len h (by simp)
  unfold parseProp
  dsimp only
  rw [currentChar_at h, if_pos (by rcases hq with rfl | rfl <;> rfl), h]
  simp only [quoteLoop]
  rw [if_pos (by omega)]
  simp only [beq_self_eq_true, if_true, Nat.zero_add]
  rw [quoteLoop_at q v hv]
  dsimp only
  rw [subStr_at (X := v) (R := q :: R) (i := i + 1) (by have := drop_adv (s := s) (i := i) (X := [q]) (R := v ++ q :: R) (by simpa using h)
                                                        simpa using this) (by omega) (by omega) (by simp at hlen; omega)]
  simp only [Out.bind_ok]
  congr 2; omega

/-! ## Attributes -/

/-- The end of a start tag. -/
def finS (slash : Bool) : Str := if slash then b!"/>" else b!">"

theorem finS_true : finS true = b!"/>" := rfl
theorem finS_false : finS false = b!">" := rfl

theorem endsBare_rest {as : List AttrSrc} {gap R : Str} {slash : Bool} (has : ∀ a ∈ as, a.Clean) (hg : Spaces gap)
    (hs : slash = true → as ≠ [] ∨ gap ≠ []) : EndsBare (as.flatMap AttrSrc.render ++ (gap ++ (finS slash ++ R))) := by
  have hsp : ∀ (g X : Str), Spaces g → g ≠ [] → EndsBare (g ++ X) := by
    intro g X hg hne
    obtain ⟨c, r, rfl⟩ := List.exists_cons_of_ne_nil hne
    exact ⟨c, r ++ X, rfl, (isPropEnd_iff c).mpr (Or.inl (hg c (by simp)))⟩
  cases as with
  | nil =>
    by_cases hne : gap = []
    · subst hne
      cases slash with
      | true => rcases hs rfl with h | h <;> exact absurd rfl h
      | false => exact ⟨cGt, R, rfl, rfl⟩
    · exact hsp gap _ hg hne
  | cons a as =>
    have ha := has a (by simp)
    cases a with
    | bool g k =>
      obtain ⟨h1, h2, _⟩ := ha
      simp only [List.flatMap_cons, AttrSrc.render, List.append_assoc]
      exact hsp g _ h1 h2
    | dquoted g k v =>
      obtain ⟨h1, h2, _⟩ := ha
      simp only [List.flatMap_cons, AttrSrc.render, List.append_assoc]
      exact hsp g _ h1 h2
    | squoted g k v =>
      obtain ⟨h1, h2, _⟩ := ha
      simp only [List.flatMap_cons, AttrSrc.render, List.append_assoc]
      exact hsp g _ h1 h2
    | bare g k v =>
      obtain ⟨h1, h2, _⟩ := ha
      simp only [List.flatMap_cons, AttrSrc.render, List.append_assoc]
      exact hsp g _ h1 h2

theorem Spec.KeyName.first {k : Str} (h : KeyName k) : ∃ c r, k = c :: r ∧ (c == cGt) = false ∧ (c == cSlash) = false ∧
    (c != cSp && !isFormatting c) = true ∧ ¬IsBlankChar c := by
  obtain ⟨c, r, rfl⟩ := List.exists_cons_of_ne_nil h.ne
  obtain ⟨h1, h2, h3⟩ := h.bare c (by simp)
  have h4 := h.slash
  refine ⟨c, r, rfl, by simpa using h3, by simpa using h4, ?_, h1⟩
  have : isSpace c = false := by
    rw [Bool.eq_false_iff, Ne, isSpace_iff]; exact h1
  simp [isSpace] at this
  simp [this]

theorem nosp_cons {c : UInt8} {r : Str} (h : ¬IsBlankChar c) : NoSp (c :: r) := by
  intro c' r' e; cases e; exact h

theorem nosp_finS (slash : Bool) (R : Str) : NoSp (finS slash ++ R) := by
  intro c r e hb
  cases slash <;> (simp [finS] at e; obtain ⟨rfl, _⟩ := e; rcases hb with hb | hb | hb | hb <;> exact absurd hb (by decide))

/-- One step of `lexAttrs` on a key. -/
theorem lexAttrs_key {f p : Nat} {can : Bool} {k X : Str} (hk : KeyName k) (h : s.drop p = k ++ X)
    (hp : parseProp s p = .ok (k, p + k.length)) :
    lexAttrs s (f + 1) p can =
      (if currentChar s (p + k.length) == cEq then do
          let (value, j) ← parseProp s (p + k.length + 1)
          let (a, b, c) ← lexAttrs s f (skipSpace s j) can
          .ok (a, b, .pair k value :: c)
        else do
          let (a, b, c) ← lexAttrs s f (skipSpace s (p + k.length)) can
          .ok (a, b, .bool k :: c)) := by
  obtain ⟨c, r, e, h1, h2, h3, _⟩ := hk.first
  have hg : s[p]? = some c := drop_get (by rw [h, e]; rfl)
  conv_lhs => unfold lexAttrs
  rw [hg]
  dsimp only
  rw [if_neg (by rw [h1]; simp), if_neg (by rw [h2]; simp), if_pos h3, hp]
  rfl

theorem lexAttrs_at {gap R : Str} {slash : Bool} (hg : Spaces gap) : ∀ (as : List AttrSrc), (∀ a ∈ as, a.Clean) →
    (slash = true → SlashOK as gap) → ∀ (i f : Nat) (can : Bool),
    s.drop i = as.flatMap AttrSrc.render ++ (gap ++ (finS slash ++ R)) → s.length < f + i →
    lexAttrs s f (skipSpace s i) can =
      .ok (i + (as.flatMap AttrSrc.render).length + gap.length + (finS slash).length - 1, can && !slash,
        as.map AttrSrc.ev) := by
  intro as
  induction as with
  | nil =>
    intro _ _ i f can h hf
    have h : s.drop i = gap ++ (finS slash ++ R) := by simpa using h
    rw [skipSpace_gap h hg (nosp_finS slash R)]
    have hd := drop_adv h
    have hlen := drop_len h (by cases slash <;> simp [finS])
    have hlt := le_of_drop hd (by cases slash <;> simp [finS])
    cases f with
    | zero => omega
    | succ f =>
      unfold lexAttrs
      cases slash with
      | false =>
        rw [drop_get (c := cGt) (R := R) hd]
        simp [finS]
      | true =>
        rw [drop_get (c := cSlash) (R := cGt :: R) hd]
        dsimp only
        rw [if_neg (by decide), if_pos (by rfl)]
        have hd2 : s.drop (i + gap.length + 1) = cGt :: R :=
          drop_adv (s := s) (i := i + gap.length) (X := [cSlash]) (R := cGt :: R) hd
        rw [skipSpace_here hd2 (nosp_finS false R)]
        have := le_of_drop hd2 (by simp)
        cases f with
        | zero => omega
        | succ f =>
          unfold lexAttrs
          rw [drop_get hd2]
          simp [finS]
  | cons a as ih =>
    intro has hso i f can h hf
    have hih := ih (fun x hx => has x (by simp [hx])) (fun hs => by
      rcases hso hs with h1 | h1
      · exact Or.inl h1
      · right
        intro x hx
        refine h1 x ?_
        cases as with
        | nil => simp at hx
        | cons b as => rw [List.getLast?_cons_cons]; exact hx)
    have hrest := fun hq : ¬ a.Quoted => endsBare_rest (R := R) (slash := slash) (as := as) (fun x hx => has x (by simp [hx])) hg (by
      intro hs
      rcases hso hs with h1 | h1
      · exact Or.inr h1
      · left
        rintro rfl
        exact hq (h1 a (by simp)))
    have ha := has a (by simp)
    have hnz : ∀ {p : Nat}, p < s.length → s.length < f + p → ∃ f', f = f' + 1 := by
      intro p h1 h2
      cases f with
      | zero => omega
      | succ f => exact ⟨f, rfl⟩
    have hkeylen : ∀ {k : Str}, KeyName k → 0 < k.length := fun hk => List.length_pos_iff.mpr hk.ne
    have hkeysp : ∀ {k X : Str}, KeyName k → NoSp (k ++ X) := by
      intro k X hk c r e
      obtain ⟨c', r', e', _, _, _, hb⟩ := hk.first
      rw [e'] at e
      simp at e
      rw [← e.1]; exact hb
    -- a key with `=` after it
    have hpair : ∀ (g k v V : Str), Spaces g → g ≠ [] → KeyName k →
        s.drop i = g ++ (k ++ (cEq :: (V ++ (as.flatMap AttrSrc.render ++ (gap ++ (finS slash ++ R)))))) →
        (∀ p, s.drop p = V ++ (as.flatMap AttrSrc.render ++ (gap ++ (finS slash ++ R))) → parseProp s p = .ok (v, p + V.length)) →
        lexAttrs s f (skipSpace s i) can =
          .ok (i + (g.length + (k.length + (1 + V.length))) + (as.flatMap AttrSrc.render).length + gap.length + (finS slash).length - 1,
            can && !slash, .pair k v :: as.map AttrSrc.ev) := by
      intro g k v V h1 h2 h3 hd hv
      rw [skipSpace_gap hd h1 (hkeysp h3)]
      have hd1 := drop_adv hd
      have hlt := le_of_drop hd1 (by simp)
      obtain ⟨f', rfl⟩ := hnz hlt (by omega)
      have hd2 := drop_adv hd1
      have hd3 := drop_adv (s := s) (X := [cEq]) hd2
      rw [lexAttrs_key h3 hd1 (parseProp_bare hd1 h3.bare h3.start ⟨cEq, _, rfl, rfl⟩)]
      rw [currentChar_at hd2, if_pos (by rfl)]
      have hd3 : s.drop (i + g.length + k.length + 1) = V ++ (as.flatMap AttrSrc.render ++ (gap ++ (finS slash ++ R))) := by
        simpa using hd3
      rw [hv _ hd3]
      simp only [Out.bind_ok]
      have hd4 := drop_adv hd3
      rw [hih _ _ _ hd4 (by have := hkeylen h3; omega)]
      simp only [Out.bind_ok]
      congr 2
      omega
    cases a with
    | bool g k =>
      obtain ⟨h1, h2, h3⟩ := ha
      have hd : s.drop i = g ++ (k ++ (as.flatMap AttrSrc.render ++ (gap ++ (finS slash ++ R)))) := by
        simpa [AttrSrc.render] using h
      rw [skipSpace_gap hd h1 (hkeysp h3)]
      have hd1 := drop_adv hd
      have hlt := le_of_drop hd1 (by simp [h3.ne])
      obtain ⟨f', rfl⟩ := hnz hlt (by omega)
      have hd2 := drop_adv hd1
      have hr := hrest (by simp [AttrSrc.Quoted])
      rw [lexAttrs_key h3 hd1 (parseProp_bare hd1 h3.bare h3.start hr)]
      have hne : ¬ (currentChar s (i + g.length + k.length) == cEq) = true := by
        cases as with
        | nil =>
          simp only [List.flatMap_nil, List.nil_append] at hd2
          by_cases hgn : gap = []
          · subst hgn
            simp only [List.nil_append] at hd2
            cases slash with
            | false => rw [currentChar_at (c := cGt) hd2]; decide
            | true => rw [currentChar_at (c := cSlash) hd2]; decide
          · obtain ⟨c, r, rfl⟩ := List.exists_cons_of_ne_nil hgn
            rw [currentChar_at (c := c) hd2]
            rcases hg c (by simp) with hb | hb | hb | hb <;> subst hb <;> decide
        | cons b as =>
          have hb := has b (by simp)
          have : ∃ c r, AttrSrc.render b = c :: r ∧ IsBlankChar c := by
            cases b with
            | bool g k =>
              obtain ⟨c, r, rfl⟩ := List.exists_cons_of_ne_nil hb.2.1
              exact ⟨c, _, rfl, hb.1 c (by simp)⟩
            | dquoted g k v =>
              obtain ⟨c, r, rfl⟩ := List.exists_cons_of_ne_nil hb.2.1
              exact ⟨c, _, rfl, hb.1 c (by simp)⟩
            | squoted g k v =>
              obtain ⟨c, r, rfl⟩ := List.exists_cons_of_ne_nil hb.2.1
              exact ⟨c, _, rfl, hb.1 c (by simp)⟩
            | bare g k v =>
              obtain ⟨c, r, rfl⟩ := List.exists_cons_of_ne_nil hb.2.1
              exact ⟨c, _, rfl, hb.1 c (by simp)⟩
          obtain ⟨c, r, e, hc⟩ := this
          rw [List.flatMap_cons, e] at hd2
          rw [currentChar_at (c := c) hd2]
          rcases hc with hb | hb | hb | hb <;> subst hb <;> decide
      rw [if_neg hne, hih _ _ _ hd2 (by have := hkeylen h3; omega)]
      simp only [Out.bind_ok]
      congr 2
      simp only [List.flatMap_cons, AttrSrc.render, List.length_append]
      omega
    | dquoted g k v =>
      obtain ⟨h1, h2, h3, h4⟩ := ha
      rw [hpair g k v (cDQuot :: (v ++ [cDQuot])) h1 h2 h3 (by simpa [AttrSrc.render] using h) ?_]
      · simp only [List.flatMap_cons, AttrSrc.render, List.length_append, List.length_cons, List.length_nil]
        congr 2; omega
      · intro p hp
        rw [parseProp_quoted (Or.inr rfl) h4 (by simpa using hp)]
        simp; omega
    | squoted g k v =>
      obtain ⟨h1, h2, h3, h4⟩ := ha
      rw [hpair g k v (cQuot :: (v ++ [cQuot])) h1 h2 h3 (by simpa [AttrSrc.render] using h) ?_]
      · simp only [List.flatMap_cons, AttrSrc.render, List.length_append, List.length_cons, List.length_nil]
        congr 2; omega
      · intro p hp
        rw [parseProp_quoted (Or.inl rfl) h4 (by simpa using hp)]
        simp; omega
    | bare g k v =>
      obtain ⟨h1, h2, h3, h4, h5⟩ := ha
      rw [hpair g k v v h1 h2 h3 (by simpa [AttrSrc.render] using h) ?_]
      · simp only [List.flatMap_cons, AttrSrc.render, List.length_append, List.length_cons, List.length_nil]
        congr 2; omega
      · intro p hp
        exact parseProp_bare hp h4 h5 (hrest (by simp [AttrSrc.Quoted]))

/-! ## Start tags -/

theorem Spec.TagName.noEnd {tag : Str} (h : TagName tag) : ∀ c ∈ tag, isTagEnd c = false := by
  intro c hc
  rw [Bool.eq_false_iff]
  intro hp
  rcases (isTagEnd_iff c).mp hp with h1 | h1
  · exact (h.chars c hc).1 h1
  · exact (h.chars c hc).2 h1

/-- Does an element with this start tag get content? -/
def canS (tag : Str) (slash : Bool) : Bool := !slash && !isVoidElement tag && !(tag.headD 0 == cBang)

theorem never_iff {tag : Str} : NeverContent tag ↔ (isVoidElement tag = true ∨ tag.head? = some cBang) := by
  unfold NeverContent isVoidElement
  rw [List.any_eq_true]
  refine or_congr ?_ Iff.rfl
  constructor
  · intro h; exact ⟨tag, h, by simp [strEq]⟩
  · rintro ⟨x, hx, he⟩
    have : tag = x := by simpa [strEq] using he
    rw [this]; exact hx

theorem canS_true {tag : Str} (h : TagName tag) (hn : ¬NeverContent tag) : canS tag false = true := by
  rw [never_iff] at hn
  obtain ⟨c, r, rfl, _⟩ := h.start
  simp only [not_or] at hn
  simp [canS]
  exact ⟨by simpa using hn.1, by simpa using hn.2⟩

theorem canS_false {tag : Str} {slash : Bool} (h : slash = true ∨ NeverContent tag) : canS tag slash = false := by
  rcases h with rfl | h
  · simp [canS]
  · rw [never_iff] at h
    rcases h with h | h
    · simp [canS, h]
    · cases tag with
      | nil => simp at h
      | cons c r => simp at h; simp [canS, h]

/-- The text after the tag name of a start tag does not begin like more tag name, unless it is `/>`. -/
theorem rest_cases {as : List AttrSrc} {gap R : Str} {slash : Bool} (has : ∀ a ∈ as, a.Clean) (hg : Spaces gap) :
    (as = [] ∧ gap = [] ∧ slash = true) ∨ (as = [] ∧ gap = [] ∧ slash = false) ∨
    (∃ c r, as.flatMap AttrSrc.render ++ (gap ++ (finS slash ++ R)) = c :: r ∧ IsBlankChar c) := by
  cases as with
  | nil =>
    by_cases hgn : gap = []
    · cases slash
      · exact Or.inr (Or.inl ⟨rfl, hgn, rfl⟩)
      · exact Or.inl ⟨rfl, hgn, rfl⟩
    · right; right
      obtain ⟨c, r, rfl⟩ := List.exists_cons_of_ne_nil hgn
      exact ⟨c, _, rfl, hg c (by simp)⟩
  | cons b as =>
    right; right
    have hb := has b (by simp)
    have : ∃ c r, AttrSrc.render b = c :: r ∧ IsBlankChar c := by
      cases b with
      | bool g k =>
        obtain ⟨c, r, rfl⟩ := List.exists_cons_of_ne_nil hb.2.1
        exact ⟨c, _, rfl, hb.1 c (by simp)⟩
      | dquoted g k v =>
        obtain ⟨c, r, rfl⟩ := List.exists_cons_of_ne_nil hb.2.1
        exact ⟨c, _, rfl, hb.1 c (by simp)⟩
      | squoted g k v =>
        obtain ⟨c, r, rfl⟩ := List.exists_cons_of_ne_nil hb.2.1
        exact ⟨c, _, rfl, hb.1 c (by simp)⟩
      | bare g k v =>
        obtain ⟨c, r, rfl⟩ := List.exists_cons_of_ne_nil hb.2.1
        exact ⟨c, _, rfl, hb.1 c (by simp)⟩
    obtain ⟨c, r, e, hc⟩ := this
    exact ⟨c, r ++ (as.flatMap AttrSrc.render ++ (gap ++ (finS slash ++ R))), by simp [e], hc⟩

/-- The text between `<` and the byte after `>`. -/
def tagS (tag : Str) (as : List AttrSrc) (gap : Str) (slash : Bool) : Str :=
  tag ++ (as.flatMap AttrSrc.render ++ (gap ++ finS slash))

theorem lexElem_at {tag gap R : Str} {as : List AttrSrc} {slash : Bool} (ht : TagName tag) (has : ∀ a ∈ as, a.Clean)
    (hg : Spaces gap) (hso : slash = true → SlashOK as gap) {i : Nat}
    (h : s.drop i = tagS tag as gap slash ++ R) :
    lexElem s i (tag.headD 0 == cBang) =
      .ok (tag, canS tag slash, as.map AttrSrc.ev, i + (tagS tag as gap slash).length) := by
  have h : s.drop i = tag ++ (as.flatMap AttrSrc.render ++ (gap ++ (finS slash ++ R))) := by
    simpa [tagS] using h
  obtain ⟨c0, r0, e0, _⟩ := ht.start
  have htl : 0 < tag.length := by rw [e0]; simp
  have hlen := drop_len h (by rw [e0]; simp)
  have hd1 := drop_adv h
  have hfin : 0 < (finS slash).length := by cases slash <;> simp [finS]
  simp only [List.length_append] at hlen
  unfold lexElem
  dsimp only
  rcases rest_cases (R := R) (slash := slash) has hg with ⟨rfl, rfl, rfl⟩ | hrest
  · -- `<tag/>`
    have hsc : scanUntil isTagEnd (s.drop i) i = i + (tag ++ [cSlash]).length := by
      refine scanUntil_at (R := cGt :: R) (by rw [h]; simp [finS]) ?_ ?_
      · intro c hc
        simp at hc
        rcases hc with hc | rfl
        · exact ht.noEnd c hc
        · rfl
      · intro c r e; cases e; rfl
    have hd2 : s.drop (i + (tag ++ [cSlash]).length) = cGt :: R := drop_adv (by rw [h]; simp [finS])
    have hsl : tagSlashed s (i + (tag ++ [cSlash]).length) = .ok true := by
      unfold tagSlashed
      rw [currentChar_at hd2, if_pos (by rfl)]
      have : (((i + (tag ++ [cSlash]).length : Nat) : Int) - 1) = ((i + tag.length : Nat) : Int) := by simp; omega
      rw [this, charAt_ok (by simp [finS] at hlen; omega)]
      have hgs : s[i + tag.length]? = some cSlash := drop_get (R := cGt :: R) (by simpa [finS] using hd1)
      obtain ⟨_, hgs⟩ := List.getElem?_eq_some_iff.mp hgs
      rw [hgs]; rfl
    rw [hsc, hsl]
    simp only [Out.bind_ok, if_true]
    rw [subStr_at h rfl (by simp; omega) (by omega)]
    simp only [Out.bind_ok]
    have hla := lexAttrs_at (s := s) (gap := []) (R := R) (slash := false) (by intro c hc; simp at hc) [] (by simp) (by simp)
      (i + (tag ++ [cSlash]).length) (s.length + 1) (if isVoidElement tag then false else false) (by simpa [finS] using hd2) (by omega)
    rw [hla]
    simp [canS, tagS, finS]
    omega
  · have hend : ∀ c r, as.flatMap AttrSrc.render ++ (gap ++ (finS slash ++ R)) = c :: r → isTagEnd c = true := by
      intro c r e
      rcases hrest with ⟨rfl, rfl, rfl⟩ | ⟨c', r', e', hb⟩
      · simp [finS] at e; rw [← e.1]; rfl
      · rw [e'] at e; cases e; exact (isTagEnd_iff c).mpr (Or.inl hb)
    rw [scanUntil_at h ht.noEnd hend]
    have hsl : tagSlashed s (i + tag.length) = .ok false := by
      unfold tagSlashed
      split
      · have : (((i + tag.length : Nat) : Int) - 1) = ((i + tag.length - 1 : Nat) : Int) := by omega
        rw [this, charAt_ok (by omega)]
        have hgl : s[i + tag.length - 1]? = tag.getLast? := by
          rw [List.getLast?_eq_getElem?]
          have : (s.drop i)[tag.length - 1]? = tag[tag.length - 1]? := by
            rw [h, List.getElem?_append_left (by omega)]
          rw [← this, List.getElem?_drop]
          congr 1; omega
        have hne := ht.last
        rw [← hgl, List.getElem?_eq_getElem (by omega)] at hne
        simp only [Out.bind_ok, Out.ok.injEq]
        simpa using hne
      · rfl
    rw [hsl]
    simp only [Out.bind_ok, Bool.false_eq_true, if_false]
    rw [subStr_at h rfl (by omega) (by omega)]
    simp only [Out.bind_ok]
    rw [lexAttrs_at hg as has hso _ _ _ hd1 (by omega)]
    simp only [Out.bind_ok]
    congr 2
    refine Prod.ext ?_ (Prod.ext rfl ?_)
    · unfold canS
      cases slash <;> cases isVoidElement tag <;> simp
    · simp only [tagS, List.length_append]
      omega

/-- The end-tag test at the bottom says no when the next character is not '/'. -/
def BaseOK (base : Nat → Out Bool) (s : Str) : Prop := ∀ i, currentChar s (i + 1) ≠ cSlash → base i = .ok false

theorem rootBase_ok (s : Str) : BaseOK (rootBase s) s := by
  intro i hi
  unfold rootBase isEndDocumentTag
  dsimp only
  rw [if_neg (fun h => hi (by simpa using h.1))]

theorem fragBase_ok (junk : Nat → Out Bool) (s : Str) : BaseOK (fragBase junk s) s := by
  intro i hi
  unfold fragBase
  rw [if_neg (by simpa using hi)]

theorem lexEnd_no {tags : List Str} {i : Nat} (hb : BaseOK base s) (h : currentChar s (i + 1) ≠ cSlash) :
    lexEnd base s i tags = .ok false := by
  cases tags with
  | nil => exact hb i h
  | cons t l =>
    show isEndDocumentTag s i t = _
    unfold isEndDocumentTag
    dsimp only
    rw [if_neg (fun hh => h (by simpa using hh.1))]

theorem noComment_tag {tag gap R : Str} {as : List AttrSrc} {slash : Bool} (ht : TagName tag)
    (has : ∀ a ∈ as, a.Clean) (hg : Spaces gap) : ¬ b!"!--" <+: tagS tag as gap slash ++ R := by
  intro hp
  have hX : tagS tag as gap slash ++ R = tag ++ (as.flatMap AttrSrc.render ++ (gap ++ (finS slash ++ R))) := by simp [tagS]
  rw [hX] at hp
  have hhead : ∀ r, as.flatMap AttrSrc.render ++ (gap ++ (finS slash ++ R)) ≠ cDash :: r := by
    intro r e
    rcases rest_cases (R := R) (slash := slash) has hg with ⟨rfl, rfl, rfl⟩ | ⟨rfl, rfl, rfl⟩ | ⟨c', r', e', hb⟩
    · simp [finS] at e; exact absurd e.1 (by decide)
    · simp [finS] at e; exact absurd e.1 (by decide)
    · rw [e'] at e; cases e
      rcases hb with hb | hb | hb | hb <;> exact absurd hb (by decide)
  obtain ⟨c0, r0, e0, _⟩ := ht.start
  obtain ⟨q, hp⟩ := hp
  rcases List.append_eq_append_iff.mp hp with ⟨L, h1, _⟩ | ⟨L, h1, h2⟩
  · exact ht.noComment ⟨L, h1.symm⟩
  · -- the prefix reaches past the tag name
    have hLn : L ≠ [] := by
      rintro rfl
      apply ht.noComment
      rw [h1]; simp
    obtain ⟨c, L', rfl⟩ := List.exists_cons_of_ne_nil hLn
    have hc : c = cDash := by
      rw [e0] at h1
      have : c ∈ (c0 :: r0 ++ c :: L').tail := by simp
      rw [← h1] at this
      simpa using this
    subst hc
    exact hhead _ h2

theorem LexTo.tag {tag gap R : Str} {as : List AttrSrc} {slash : Bool} {tags : List Str} (hb : BaseOK base s) (ht : TagName tag)
    (has : ∀ a ∈ as, a.Clean) (hg : Spaces gap) (hso : slash = true → SlashOK as gap) {i : Nat}
    (h : s.drop i = cLt :: tagS tag as gap slash ++ R) :
    LexTo base s i tags [.elem tag (canS tag slash) (as.map AttrSrc.ev)] (i + (cLt :: tagS tag as gap slash).length)
      (nextTags tags (.elem tag (canS tag slash) (as.map AttrSrc.ev))) := by
  obtain ⟨c0, r0, e0, hc0⟩ := ht.start
  have hd1 : s.drop (i + 1) = tagS tag as gap slash ++ R := drop_adv (s := s) (X := [cLt]) h
  have hd1' : s.drop (i + 1) = c0 :: (r0 ++ (as.flatMap AttrSrc.render ++ (gap ++ (finS slash ++ R)))) := by
    rw [hd1]; simp [tagS, e0]
  refine LexTo.step (oe := some _) (skipSpace_here h ?_) (le_of_drop h (by simp)) (by simp) ?_
  · exact nosp_cons (by intro hb; rcases hb with hb | hb | hb | hb <;> exact absurd hb (by decide))
  · unfold lexStep
    rw [currentChar_at h, if_pos (by rfl), isCommentTag_no h (noComment_tag ht has hg)]
    have hcur := currentChar_at hd1'
    have hns : currentChar s (i + 1) ≠ cSlash := by
      rw [hcur]
      rintro rfl
      rcases hc0 with hh | hh
      · exact absurd hh (by decide)
      · exact absurd hh (by decide)
    simp only [Out.bind_ok, Bool.false_eq_true, if_false, lexEnd_no hb hns]
    rw [hcur, if_pos ?_]
    · have hle := lexElem_at ht has hg hso hd1
      rw [e0] at hle
      rw [show (List.headD (c0 :: r0) 0) = c0 from rfl] at hle
      rw [hle, ← e0]
      simp only [Out.bind_ok]
      congr 3
      simp; omega
    · rcases hc0 with hh | rfl
      · rw [hh]; rfl
      · simp

/-! ## End tags -/

theorem LexTo.close {tag gap R : Str} {tags : List Str} (ht : TagName tag) (hg : Spaces gap) {i : Nat}
    (h : s.drop i = b!"</" ++ tag ++ gap ++ b!">" ++ R) :
    LexTo base s i (tag :: tags) [.close] (i + (b!"</" ++ tag ++ gap ++ b!">").length) tags := by
  have h0 : s.drop i = cLt :: (cSlash :: (tag ++ (gap ++ (cGt :: R)))) := by simpa using h
  have h1 : s.drop (i + 1) = cSlash :: (tag ++ (gap ++ (cGt :: R))) := drop_adv (s := s) (X := [cLt]) h0
  have h2 : s.drop (i + 2) = tag ++ (gap ++ (cGt :: R)) := drop_adv (s := s) (i := i) (X := [cLt, cSlash]) h0
  have hlen := drop_len h0 (by simp)
  simp at hlen
  refine LexTo.step (oe := some .close) (skipSpace_here h0 ?_) (le_of_drop h0 (by simp)) (by simp) ?_
  · exact nosp_cons (by intro hb; rcases hb with hb | hb | hb | hb <;> exact absurd hb (by decide))
  · unfold lexStep
    rw [currentChar_at h0, if_pos (by rfl), isCommentTag_no h0 (by intro hp; simp at hp; exact absurd hp.1 (by decide))]
    have he : lexEnd base s i (tag :: tags) = .ok true := by
      show isEndDocumentTag s i tag = _
      unfold isEndDocumentTag
      dsimp only
      rw [currentChar_at h1, if_pos ⟨by rfl, by push_cast; omega⟩]
      rw [subStr_at h2 (by push_cast; omega) rfl (by omega)]
      simp [strEq]
    have hsc : scanUntil (· == cGt) (s.drop i) i = i + (b!"</" ++ tag ++ gap).length := by
      refine scanUntil_at (R := cGt :: R) (by rw [h]; simp) ?_ ?_
      · intro c hc
        simp at hc
        rcases hc with rfl | rfl | hc | hc
        · rfl
        · rfl
        · simpa using (ht.chars c hc).2
        · rcases hg c hc with hb | hb | hb | hb <;> subst hb <;> decide
      · intro c r e; cases e; rfl
    simp only [Out.bind_ok, Bool.false_eq_true, if_false, he, if_true]
    show Out.ok (_, skipSpace s (scanUntil (· == cGt) (s.drop i) i + 1)) = _
    rw [hsc]
    simp [closeEv]
    congr 1

/-! ## Documents -/

mutual
def Spec.Src.evs : Src → List Ev
  | .text first more => [.text (first ++ joined more)]
  | .single tag as _ slash => [.elem tag (canS tag slash) (as.map AttrSrc.ev)]
  | .paired tag as _ _ ks _ => .elem tag true (as.map AttrSrc.ev) :: (ks.evs ++ [.close])
def Spec.Srcs.evs : Srcs → List Ev
  | .nil => []
  | .cons t _ rest => t.evs ++ rest.evs
end

theorem stop_tag {tag gap R : Str} {as : List AttrSrc} {slash : Bool} (ht : TagName tag)
    (has : ∀ a ∈ as, a.Clean) (hg : Spaces gap) : Stop (cLt :: (tagS tag as gap slash ++ R)) := by
  intro c r e
  cases e
  exact ⟨rfl, noComment_tag ht has hg⟩

theorem stop_srcs {ks : Srcs} (h : ks.Clean) (hs : ¬ks.StartsText) {R : Str} (hR : Stop R) : Stop (ks.render ++ R) := by
  cases ks with
  | nil => exact hR
  | cons t b rest =>
    cases t with
    | text first more => exact absurd trivial hs
    | single tag as gap slash =>
      simp only [Srcs.Clean, Src.Clean] at h
      obtain ⟨⟨h1, h2, h3, _⟩, _⟩ := h
      have := stop_tag (slash := slash) (R := b ++ rest.render ++ R) h1 h2 h3
      simpa [Srcs.render, Src.render, tagS, finS] using this
    | paired tag as gap lead ks gap' =>
      simp only [Srcs.Clean, Src.Clean] at h
      obtain ⟨⟨h1, h2, h3, _⟩, _⟩ := h
      have := stop_tag (slash := false) (R := lead ++ ks.render ++ b!"</" ++ tag ++ gap' ++ b!">" ++ b ++ rest.render ++ R) h1 h2 h3
      simpa [Srcs.render, Src.render, tagS, finS] using this

mutual
theorem LexTo.src (hb : BaseOK base s) : ∀ (t : Src), t.Clean → ∀ {B R : Str} {i : Nat} {tags : List Str}, Blank B →
    ((∃ first more, t = .text first more) → Stop R) → s.drop i = t.render ++ B ++ R →
    LexTo base s i tags t.evs (i + (t.render ++ B).length) tags
  | .text first more, hc, B, R, i, tags, hB, hR, h => by
    simp only [Src.Clean] at hc
    obtain ⟨⟨hn, c, r, e, hsp⟩, hm⟩ := hc
    have hR := hR ⟨first, more, rfl⟩
    have h : s.drop i = first ++ (stretches more ++ (B ++ R)) := by simpa [Src.render] using h
    have hnt := NText.of_normal hn
    have hcc := hnt.chars c (by rw [e]; simp)
    have hd : s.drop i = c :: (r ++ (stretches more ++ (B ++ R))) := by rw [h, e]; simp
    have hnb : ¬IsBlankChar c := by
      rw [← isSpace_iff]
      simp [isSpace, hcc.2]; exact hsp
    refine LexTo.step (oe := some (.text (first ++ joined more))) (skipSpace_here hd (nosp_cons hnb)) (le_of_drop hd (by simp))
      (by simp [Src.render, e]) ?_
    unfold lexStep
    rw [currentChar_at hd, if_neg (by simpa using hcc.1)]
    exact lexText_at ⟨hnt, c, r, e, hsp⟩ (fun m hm' => ⟨(hm m hm').1, (hm m hm').2.1, (hm m hm').2.2.ntext⟩) hB hR h
  | .single tag as gap slash, hc, B, R, i, tags, hB, _, h => by
    simp only [Src.Clean] at hc
    obtain ⟨h1, h2, h3, h4, h5⟩ := hc
    have hr : (Src.single tag as gap slash).render = cLt :: tagS tag as gap slash := by simp [Src.render, tagS, finS]
    rw [hr] at h ⊢
    have ht := LexTo.tag (tags := tags) (R := B ++ R) hb h1 h2 h3 h4 (i := i) (by simpa using h)
    have hbl := LexTo.blank (base := base) (s := s) (tags := tags) hB (i := i + (cLt :: tagS tag as gap slash).length) (R := R)
      (drop_adv (by simpa using h))
    have hcan := canS_false h5
    rw [hcan] at ht
    have := ht.trans hbl
    simp only [Src.evs, hcan]
    rw [List.length_append, ← Nat.add_assoc]
    simpa using this
  | .paired tag as gap lead ks gap', hc, B, R, i, tags, hB, _, h => by
    simp only [Src.Clean] at hc
    obtain ⟨h1, h2, h3, h4, h5, h6, h7⟩ := hc
    have hr : (Src.paired tag as gap lead ks gap').render =
        (cLt :: tagS tag as gap false) ++ (lead ++ (ks.render ++ (b!"</" ++ tag ++ gap' ++ b!">"))) := by
      simp [Src.render, tagS, finS]
    rw [hr] at h ⊢
    have e1 : s.drop i = (cLt :: tagS tag as gap false) ++ (lead ++ (ks.render ++ ((b!"</" ++ tag ++ gap' ++ b!">") ++ (B ++ R)))) := by
      simpa using h
    have e2 := drop_adv e1
    have e3 := drop_adv e2
    have e4 := drop_adv e3
    have e5 := drop_adv e4
    have ht := LexTo.tag (tags := tags) hb h1 h2 h3 (by simp) e1
    have hcan := canS_true h1 h4
    rw [hcan] at ht
    have hl := LexTo.blank (base := base) (s := s) (tags := tag :: tags) h5 e2
    have hk := LexTo.srcs hb ks h6 (tags := tag :: tags) (R := (b!"</" ++ tag ++ gap' ++ b!">") ++ (B ++ R))
      (by intro c r e; simp at e; rw [← e.1, ← e.2]; exact ⟨rfl, by simp⟩) e3
    have hc := LexTo.close (base := base) (tags := tags) h1 h7 e4
    have hbl := LexTo.blank (base := base) (s := s) (tags := tags) hB e5
    have := (((ht.trans hl).trans hk).trans hc).trans hbl
    simp only [Src.evs]
    have el : i + ((cLt :: tagS tag as gap false) ++ (lead ++ (ks.render ++ (b!"</" ++ tag ++ gap' ++ b!">"))) ++ B).length =
      i + (cLt :: tagS tag as gap false).length + lead.length + ks.render.length + (b!"</" ++ tag ++ gap' ++ b!">").length + B.length := by
      simp only [List.length_append]; omega
    rw [el]
    simpa using this
theorem LexTo.srcs (hb : BaseOK base s) : ∀ (ks : Srcs), ks.Clean → ∀ {R : Str} {i : Nat} {tags : List Str}, Stop R →
    s.drop i = ks.render ++ R → LexTo base s i tags ks.evs (i + ks.render.length) tags
  | .nil, _, R, i, tags, _, _ => by
    simp only [Srcs.evs, Srcs.render]
    exact LexTo.refl
  | .cons t b rest, hc, R, i, tags, hR, h => by
    simp only [Srcs.Clean] at hc
    obtain ⟨h1, h2, h3, h4⟩ := hc
    simp only [Srcs.render] at h ⊢
    have e1 : s.drop i = (t.render ++ b) ++ (rest.render ++ R) := by simpa using h
    have ht := LexTo.src hb t h1 (tags := tags) h2 (R := rest.render ++ R) (by
      rintro ⟨first, more, rfl⟩
      exact stop_srcs h3 h4 hR) e1
    have hk := LexTo.srcs hb rest h3 (tags := tags) hR (drop_adv e1)
    have := ht.trans hk
    simp only [Srcs.evs]
    rw [List.length_append, ← Nat.add_assoc]
    exact this
end

/-- The events of a whole document: leading white space and comments, then the pieces. -/
theorem lex_doc {lead : Str} {ks : Srcs} (hl : Blank lead) (hk : ks.Clean) (hs : s = lead ++ ks.render)
    (hb : BaseOK base s) : lex base s = .ok ks.evs := by
  have e1 : s.drop 0 = lead ++ ks.render := by simpa using hs
  have h1 := LexTo.blank (base := base) (s := s) (tags := []) hl e1
  have e2 := drop_adv e1
  have h2 := LexTo.srcs hb ks hk (tags := []) (i := 0 + lead.length) (R := []) (by intro c r e; cases e) (by simpa using e2)
  have := h1.trans h2
  have hlen : 0 + lead.length + ks.render.length = s.length := by rw [hs]; simp
  rw [hlen] at this
  exact LexTo.finish this

end
end Flo
