import Verif.Proofs.LexAt
/-!
# The events of rendered source text
-/
namespace Flo
open Spec

/-- From position `i` (after white space) the lexer produces `evs` and arrives at `j` (after white space). -/
def LexTo (base : Nat → Out Bool) (s : Str) (i : Nat) (tags : List Str) (evs : List Ev) (j : Nat) (tags' : List Str) : Prop :=
  ∀ f, s.length < f + i → ∃ f', s.length < f' + j ∧
    lexAll base s f (skipSpace s i) tags =
      (lexAll base s f' (skipSpace s j) tags' >>= fun r => .ok (evs ++ r))

section
variable {base : Nat → Out Bool} {s : Str}

theorem LexTo.refl {i : Nat} {tags : List Str} : LexTo base s i tags [] i tags := by
  intro f hf
  refine ⟨f, hf, ?_⟩
  cases lexAll base s f (skipSpace s i) tags <;> rfl

theorem LexTo.trans {i j k : Nat} {t1 t2 t3 : List Str} {e1 e2 : List Ev} (h1 : LexTo base s i t1 e1 j t2)
    (h2 : LexTo base s j t2 e2 k t3) : LexTo base s i t1 (e1 ++ e2) k t3 := by
  intro f hf
  obtain ⟨f1, hf1, e⟩ := h1 f hf
  obtain ⟨f2, hf2, e'⟩ := h2 f1 hf1
  refine ⟨f2, hf2, ?_⟩
  rw [e, e']
  cases lexAll base s f2 (skipSpace s k) t3 <;> simp

theorem LexTo.spaces {i : Nat} {tags : List Str} {g R : Str} (h : s.drop i = g ++ R) (hg : Spaces g) :
    LexTo base s i tags [] (i + g.length) tags := by
  intro f hf
  refine ⟨f, by omega, ?_⟩
  rw [skipSpace_spaces h hg]
  cases lexAll base s f (skipSpace s (i + g.length)) tags <;> rfl

theorem LexTo.step {i j : Nat} {tags : List Str} {oe : Option Ev} (hi : skipSpace s i = i) (hlt : i < s.length)
    (hij : i < j) (h : lexStep base s i tags = .ok (oe, skipSpace s j)) :
    LexTo base s i tags oe.toList j (nextTagsO tags oe) := by
  intro f hf
  cases f with
  | zero => omega
  | succ f =>
    refine ⟨f, by omega, ?_⟩
    rw [hi]
    conv_lhs => unfold lexAll
    rw [if_pos hlt, h]
    rfl

theorem LexTo.finish {evs : List Ev} {tags : List Str} (h : LexTo base s 0 [] evs s.length tags) :
    lex base s = .ok evs := by
  obtain ⟨f', hf', e⟩ := h (s.length + 1) (by omega)
  unfold lex
  rw [e]
  cases f' with
  | zero => omega
  | succ f' =>
    unfold lexAll
    rw [if_neg (by have := skipSpace_ge s s.length; omega)]
    simp

/-! ## White space and comments -/

theorem currentChar_at {i : Nat} {c : UInt8} {r : Str} (h : s.drop i = c :: r) : currentChar s i = c :=
  currentChar_eq (drop_get h)

theorem LexTo.blank {B : Str} (hB : Blank B) : ∀ {i : Nat} {tags : List Str} {R : Str}, s.drop i = B ++ R →
    LexTo base s i tags [] (i + B.length) tags := by
  induction hB with
  | nil => intro i tags R _; exact LexTo.refl
  | @space c B' hc _ ih =>
    intro i tags R h
    have h1 : s.drop i = [c] ++ (B' ++ R) := by simpa using h
    have hs := LexTo.spaces (base := base) (tags := tags) h1 (by intro x hx; simp at hx; subst hx; exact hc)
    have := hs.trans (ih (tags := tags) (drop_adv h1))
    simpa [Nat.add_assoc, Nat.add_comm 1] using this
  | @comment body B' hb _ ih =>
    intro i tags R h
    have h1 : s.drop i = (b!"<!--" ++ body ++ b!"-->") ++ (B' ++ R) := by simpa using h
    have hlt := le_of_drop h1 (by simp)
    have hcom := isCommentTag_at (R := B' ++ R) h1
    have hskip := skipComment_at (R := B' ++ R) h1 hb
    have hc := currentChar_at (s := s) (i := i) (c := cLt) (by simpa using h1)
    have hst : LexTo base s i tags [] (i + (b!"<!--" ++ body ++ b!"-->").length) tags := by
      refine LexTo.step (oe := none) (skipSpace_here h1 ?_) hlt (by simp) ?_
      · intro c r e
        have : c = cLt := by simp at e; exact e.1.symm
        subst this
        intro hb
        rcases hb with hb | hb | hb | hb <;> exact absurd hb (by decide)
      · unfold lexStep
        rw [hc, if_pos (by rfl), hcom]
        simp only [Out.bind_ok, if_true, hskip]
    have := hst.trans (ih (tags := tags) (drop_adv h1))
    rw [Nat.add_assoc, ← List.length_append] at this
    exact this

/-! ## Texts -/

theorem takeChunk_append {p : UInt8} {a rest : Str} (h1 : ∀ c ∈ a, c ≠ cLt ∧ isFormatting c = false)
    (h2 : (p :: a).IsChain NoDbl) : takeChunk p (a ++ rest) = a ++ takeChunk (a.getLastD p) rest := by
  induction a generalizing p with
  | nil => rfl
  | cons c a ih =>
    have hc := h1 c (by simp)
    rw [List.isChain_cons_cons] at h2
    have hcont : (contP p c && c != cLt) = true := by
      have : ¬(p = cSp ∧ c = cSp) := h2.1
      simp [contP, hc.1, hc.2]
      tauto
    simp only [List.cons_append, takeChunk]
    rw [if_pos hcont, ih (fun x hx => h1 x (by simp [hx])) h2.2]
    simp [List.getLastD]
    cases a <;> simp [List.getLastD]

/-- Leading white space of a `Blank` can be dropped. -/
theorem Spec.Blank.tail {c : UInt8} {B : Str} (h : Blank (c :: B)) (hc : IsBlankChar c) : Blank B := by
  generalize e : c :: B = X at h
  cases h with
  | nil => cases e
  | space _ h => cases e; exact h
  | comment _ _ =>
    simp at e
    have := e.1
    subst this
    rcases hc with hb | hb | hb | hb <;> exact absurd hb (by decide)

theorem Spec.Blank.head {B R : Str} (h : Blank B) (hR : Stop R) : ∀ c r, B ++ R = c :: r → IsBlankChar c ∨ c = cLt := by
  intro c r e
  cases h with
  | nil => exact Or.inr (hR c r e).1
  | space hc _ => simp at e; exact Or.inl (e.1 ▸ hc)
  | comment _ _ => simp at e; exact Or.inr e.1.symm

theorem takeChunk_blank {p : UInt8} (hp : p ≠ cSp) {B R : Str} (hB : Blank B) (hR : Stop R) :
    (takeChunk p (B ++ R) = [] ∧ True) ∨ ∃ B', B = cSp :: B' ∧ takeChunk p (B ++ R) = [cSp] ∧ Blank B' := by
  have key : ∀ X : Str, (∀ c r, X = c :: r → IsBlankChar c ∨ c = cLt) → takeChunk cSp X = [] := by
    intro X hX
    cases X with
    | nil => rfl
    | cons c r =>
      have := hX c r rfl
      simp only [takeChunk]
      rw [if_neg]
      rcases this with (h | h | h | h) | h <;> subst h <;> decide
  cases hX : B ++ R with
  | nil => exact Or.inl ⟨rfl, trivial⟩
  | cons c r =>
    have hh := hB.head hR c r hX
    by_cases hc : c = cSp
    · subst hc
      cases B with
      | nil =>
        exact absurd (hR _ _ hX).1 (by decide)
      | cons c' B' =>
        simp at hX
        obtain ⟨rfl, rfl⟩ := hX
        refine Or.inr ⟨B', rfl, ?_, hB.tail (Or.inl rfl)⟩
        have hB' : Blank B' := hB.tail (Or.inl rfl)
        simp only [takeChunk]
        rw [if_pos (by simp [contP, hp]; decide), key _ (hB'.head hR)]
    · left
      refine ⟨?_, trivial⟩
      simp only [takeChunk]
      rw [if_neg]
      rcases hh with (h | h | h | h) | h
      · exact absurd h hc
      all_goals subst h; simp [contP, isFormatting]

/-- The text loop passes over white space and comments. -/
theorem textLoop_skip {tag : Str} {raw : Str} {app : Bool} {R : Str} (hR : NoSp R) {B : Str} (hB : Blank B) :
    ∀ {i f : Nat}, s.drop i = B ++ R → i ≤ s.length → s.length < f + i →
    ∃ f', s.length < f' + (i + B.length) ∧
      textLoop s tag f (skipSpace s i) raw app = textLoop s tag f' (i + B.length) raw app := by
  induction hB with
  | nil =>
    intro i f h hi hf
    have h : s.drop i = R := by simpa using h
    rw [skipSpace_here h hR]
    exact ⟨f, by simpa using hf, by simp⟩
  | @space c B' hc _ ih =>
    intro i f h hi hf
    have h1 : s.drop i = [c] ++ (B' ++ R) := by simpa using h
    rw [skipSpace_spaces h1 (by intro x hx; simp at hx; subst hx; exact hc)]
    have hlt := le_of_drop h1 (by simp)
    obtain ⟨f', hf', e⟩ := ih (f := f) (drop_adv h1) (by simp; omega) (by simp; omega)
    have el : i + [c].length + B'.length = i + (c :: B').length := by simp; omega
    rw [el] at hf' e
    exact ⟨f', hf', e⟩
  | @comment body B' hb _ ih =>
    intro i f h hi hf
    have h1 : s.drop i = (b!"<!--" ++ body ++ b!"-->") ++ (B' ++ R) := by simpa using h
    have hlen := drop_len h1 (by simp)
    have hcom := isCommentTag_at (R := B' ++ R) h1
    have hskip := skipComment_at (R := B' ++ R) h1 hb
    have hg : s[i]? = some cLt := drop_get (s := s) (i := i) (c := cLt) (by simpa using h1)
    rw [skipSpace_here h1 ?_]
    · cases f with
      | zero => omega
      | succ f =>
        unfold textLoop
        rw [hg]
        have hcl : isCloseTag s i tag = .ok false := by
          unfold isCloseTag
          split
          · rw [subStr_at (X := b!"!") (R := b!"--" ++ (body ++ b!"-->" ++ (B' ++ R))) (i := i + 1) (a := (i : Int) + 1) (b := 1)
              (by have := drop_adv (s := s) (i := i) (X := b!"<") (R := b!"!--" ++ (body ++ b!"-->" ++ (B' ++ R))) (by simpa using h1)
                  simpa using this) (by simp) rfl (by simp at hlen; omega)]
            rfl
          · rfl
        have hstop : textStop s tag i cLt = .ok (false, true) := by
          unfold textStop
          rw [if_pos (by rfl), hcom]
          simp only [Out.bind_ok, hcl]
          simp
        simp only [hstop, Out.bind_ok, hskip]
        rw [if_neg (by simp), if_pos trivial]
        obtain ⟨f', hf', e⟩ := ih (f := f) (drop_adv h1) (by simp only [List.length_append] at hlen ⊢; omega) (by simp; omega)
        have el : i + (b!"<!--" ++ body ++ b!"-->").length + B'.length = i + (b!"<!--" ++ body ++ b!"-->" ++ B').length := by
          simp only [List.length_append]; omega
        rw [el] at hf' e
        refine ⟨f', hf', ?_⟩
        rw [e]
        conv_lhs => unfold textLoop
    · intro c r e
      have : c = cLt := by simp at e; exact e.1.symm
      subst this
      intro hb
      rcases hb with hb | hb | hb | hb <;> exact absurd hb (by decide)

/-- The text ends at a stop. -/
theorem textLoop_stop {tag : Str} {raw : Str} {app : Bool} {R : Str} (hR : Stop R) {i f : Nat} (h : s.drop i = R)
    (hf : s.length < f + i) : textLoop s tag f i raw app = .ok (raw, i) ∨ f = 0 := by
  cases f with
  | zero => exact Or.inr rfl
  | succ f =>
    left
    unfold textLoop
    cases R with
    | nil =>
      have : s.length ≤ i := by simpa using h
      rw [List.getElem?_eq_none this]
    | cons c r =>
      obtain ⟨rfl, hr⟩ := hR c r rfl
      rw [drop_get h]
      simp only [textStop]
      rw [if_pos (by rfl), isCommentTag_no h hr]
      simp

theorem textLoop_blank {tag : Str} {raw : Str} {app : Bool} {R : Str} (hR : Stop R) {B : Str} (hB : Blank B)
    {i f : Nat} (h : s.drop i = B ++ R) (hi : i ≤ s.length) (hf : s.length < f + i) :
    textLoop s tag f (skipSpace s i) raw app = .ok (raw, i + B.length) := by
  obtain ⟨f', hf', e⟩ := textLoop_skip (tag := tag) (raw := raw) (app := app) hR.nosp hB h hi hf
  rw [e]
  rcases textLoop_stop (tag := tag) (raw := raw) (app := app) hR (drop_adv h) hf' with h1 | rfl
  · exact h1
  · have : i + B.length ≤ s.length := by
      have := congrArg List.length h
      simp at this
      omega
    omega

theorem NText.of_normal {t : Str} (h : NormalText t) : NText t := by
  obtain ⟨h1, h2, h3⟩ := h
  refine ⟨fun c hc => ?_, ?_, ?_⟩
  · obtain ⟨a, b, c', d⟩ := h1 c hc
    exact ⟨a, by simp [isFormatting]; exact ⟨⟨b, c'⟩, d⟩⟩
  · clear h1 h3
    induction t with
    | nil => simp
    | cons a t ih =>
      rw [List.isChain_cons]
      refine ⟨?_, ih (fun x y e => h2 (a :: x) y (by rw [e]; rfl))⟩
      rintro y hy ⟨rfl, rfl⟩
      cases t with
      | nil => simp at hy
      | cons b t =>
        simp at hy; subst hy
        exact h2 [] t rfl
  · intro hl
    have hne : t ≠ [] := by rintro rfl; simp at hl
    apply h3 t.dropLast
    have := List.dropLast_append_getLast hne
    rw [List.getLast?_eq_some_getLast hne] at hl
    simp at hl
    rw [hl] at this; exact this.symm


/-- A stretch in inductive form. -/
def NStretch (t : Str) : Prop := NText t ∧ ∃ c r, t = c :: r ∧ c ≠ cSp

/-- A first stretch may also start with a space, if there is none before it. -/
structure Starts (p : UInt8) (t : Str) : Prop where
  nt : NText t
  ne : t ≠ []
  sp : t.head? = some cSp → p ≠ cSp

theorem NStretch.starts {t : Str} (h : NStretch t) (p : UInt8) : Starts p t := by
  obtain ⟨hn, c, r, e, hc⟩ := h
  exact ⟨hn, by rw [e]; simp, by rw [e]; intro h; simp at h; exact absurd h hc⟩

theorem Spec.Stretch.ntext {t : Str} (h : Stretch t) : NStretch t := ⟨NText.of_normal h.1, h.2⟩

/-- The text loop on one stretch followed by something that is not more of the same chunk: `ck` is the chunk, including
perhaps one space of what follows. -/
theorem textLoop_stretch {tag raw : Str} {app : Bool} {f i : Nat} {t X : Str} (ht : Starts (prevAt s i) t) (h : s.drop i = t ++ X)
    (hX : takeChunk (t.getLastD cLt) X = [] ∨ takeChunk (t.getLastD cLt) X = [cSp]) :
    textLoop s tag (f + 1) i raw app =
      textLoop s tag f (skipSpace s (i + t.length + (takeChunk (t.getLastD cLt) X).length))
        ((if app then raw ++ [cSp] else raw) ++ t) true := by
  obtain ⟨hn, hne, hc⟩ := ht
  obtain ⟨c, r, hraw⟩ := List.exists_cons_of_ne_nil hne
  have hcc := hn.chars c (by rw [hraw]; simp)
  have hd : s.drop i = c :: (r ++ X) := by rw [h, hraw]; simp
  have hgi := drop_get hd
  have hlt := lt_of_getElem? hgi
  have hchain : (prevAt s i :: t).IsChain NoDbl := by
    rw [hraw, List.isChain_cons_cons]
    exact ⟨fun hh => hc (by rw [hraw, hh.2]; rfl) hh.1, by rw [← hraw]; exact hn.chain⟩
  have hD : ∀ q, t.getLastD q = t.getLastD cLt := by
    intro q; rw [hraw, List.getLastD_eq_getLast?, List.getLastD_eq_getLast?, List.getLast?_eq_some_getLast (by simp)]; rfl
  have htk := takeChunk_append (rest := X) hn.chars hchain
  rw [hD] at htk
  have hstop : textStop s tag i c = .ok (false, false) := by
    unfold textStop
    rw [if_neg (by simpa using hcc.1)]
  have htrim : trimLast (t ++ takeChunk (t.getLastD cLt) X) = t := by
    rcases hX with e | e
    · rw [e, List.append_nil]; unfold trimLast; rw [if_neg hn.last]
    · rw [e]; unfold trimLast; rw [if_pos (by simp)]; simp
  have hchunk : parseChunk s i = .ok (i + (t.length + (takeChunk (t.getLastD cLt) X).length), t) := by
    rw [parseChunk_eq (by omega) (Or.inl ?_), h, htk, htrim, List.length_append]
    rw [h, htk, hraw]; simp
  conv_lhs => unfold textLoop
  rw [hgi]
  simp only [hstop, Out.bind_ok, hchunk]
  rw [if_neg (by simp), if_neg (by simp), ← Nat.add_assoc]

/-- What separates two stretches, other than a single space, ends the chunk. -/
theorem takeChunk_sep {p : UInt8} (hp : p ≠ cSp) {B X : Str} (hB : Blank B) (hne : B ≠ []) (h1 : B ≠ [cSp]) :
    takeChunk p (B ++ X) = [] ∨ ∃ B', B = cSp :: B' ∧ takeChunk p (B ++ X) = [cSp] ∧ Blank B' := by
  have hhead : ∀ {B : Str}, Blank B → B ≠ [] → ∃ c r, B = c :: r ∧ (IsBlankChar c ∨ c = cLt) := by
    intro B hB hne
    cases hB with
    | nil => exact absurd rfl hne
    | space hc _ => exact ⟨_, _, rfl, Or.inl hc⟩
    | comment _ _ => exact ⟨cLt, _, rfl, Or.inr rfl⟩
  obtain ⟨c, r, rfl, hc⟩ := hhead hB hne
  by_cases hcs : c = cSp
  · subst hcs
    have hr : Blank r := hB.tail (Or.inl rfl)
    obtain ⟨c2, r2, rfl, hc2⟩ := hhead hr (by rintro rfl; exact h1 rfl)
    refine Or.inr ⟨_, rfl, ?_, hr⟩
    simp only [List.cons_append, takeChunk]
    rw [if_pos (by simp [contP, hp]; decide), if_neg]
    rcases hc2 with (h | h | h | h) | h <;> subst h <;> decide
  · left
    simp only [List.cons_append, takeChunk]
    rw [if_neg]
    rcases hc with (h | h | h | h) | h
    · exact absurd h hcs
    all_goals subst h; simp [contP, isFormatting]

theorem Starts.lastD {p : UInt8} {t : Str} (h : Starts p t) : t.getLastD cLt ≠ cSp := by
  obtain ⟨hn, hne, _⟩ := h
  obtain ⟨c, r, e⟩ := List.exists_cons_of_ne_nil hne
  intro hh
  apply hn.last
  rw [e] at hh ⊢
  rw [List.getLast?_eq_some_getLast (by simp)]
  rw [List.getLastD_eq_getLast?, List.getLast?_eq_some_getLast (by simp)] at hh
  simpa using hh

theorem NStretch.nosp {t X : Str} (h : NStretch t) : NoSp (t ++ X) := by
  obtain ⟨hn, c, r, e, hc⟩ := h
  intro c' r' e' hb
  rw [e] at e'
  simp at e'
  obtain ⟨rfl, _⟩ := e'
  have hcc := hn.chars c (by rw [e]; simp)
  rw [← isSpace_iff] at hb
  simp [isSpace, hcc.2] at hb
  exact hc hb

theorem Starts.append {p : UInt8} {a b : Str} (ha : Starts p a) (hb : NStretch b) : Starts p (a ++ [cSp] ++ b) := by
  obtain ⟨hb, c, r, e, hc⟩ := hb
  obtain ⟨ha, hne, hp⟩ := ha
  refine ⟨NText.append ha hb (c := c) (by rw [e]; rfl) hc, by simp, fun h => hp ?_⟩
  obtain ⟨c', r', e'⟩ := List.exists_cons_of_ne_nil hne
  rw [e'] at h ⊢
  simpa using h

/-- The text loop on a whole text. -/
theorem textLoop_text {tag : Str} {B R : Str} (hB : Blank B) (hR : Stop R) :
    ∀ (more : List (Str × Str)) (first raw : Str) (app : Bool) (i f : Nat), Starts (prevAt s i) first →
    (∀ m ∈ more, Blank m.1 ∧ m.1 ≠ [] ∧ NStretch m.2) → s.drop i = first ++ (stretches more ++ (B ++ R)) →
    s.length < f + i →
    textLoop s tag f i raw app = .ok ((if app then raw ++ [cSp] else raw) ++ first ++ joined more,
      i + (first ++ (stretches more ++ B)).length) := by
  intro more
  induction more with
  | nil =>
    intro first raw app i f hfirst _ h hf
    have hlen := drop_len h (by obtain ⟨c, r, e⟩ := List.exists_cons_of_ne_nil hfirst.ne; rw [e]; simp)
    have hpos : 0 < first.length := by obtain ⟨c, r, e⟩ := List.exists_cons_of_ne_nil hfirst.ne; rw [e]; simp
    simp only [List.length_append] at hlen
    obtain ⟨f, rfl⟩ : ∃ k, f = k + 1 := ⟨f - 1, by omega⟩
    have h : s.drop i = first ++ (B ++ R) := by simpa [stretches] using h
    have hj : joined [] = ([] : Str) := rfl
    have hst : stretches [] = ([] : Str) := rfl
    rw [hj, hst, List.append_nil, List.nil_append]
    rw [hst] at hlen
    rcases takeChunk_blank hfirst.lastD hB hR with ⟨e, _⟩ | ⟨B', rfl, e, hb⟩
    · rw [textLoop_stretch hfirst h (Or.inl e), e, List.length_nil, Nat.add_zero]
      rw [textLoop_blank hR hB (drop_adv h) (by simp at hlen; omega) (by omega)]
      simp; omega
    · rw [textLoop_stretch hfirst h (Or.inr e), e]
      have h2 : s.drop (i + first.length + [cSp].length) = B' ++ R := by
        apply drop_adv
        rw [drop_adv h]; rfl
      simp only [List.length_cons] at hlen
      rw [textLoop_blank hR hb h2 (by simp; omega) (by simp; omega)]
      simp; omega
  | cons m more ih =>
    intro first raw app i f hfirst hm h hf
    obtain ⟨sep, t⟩ := m
    obtain ⟨h1, h2, h3⟩ := hm (sep, t) (by simp)
    have hm' : ∀ m ∈ more, Blank m.1 ∧ m.1 ≠ [] ∧ NStretch m.2 := fun m h => hm m (by simp [h])
    have hst : stretches ((sep, t) :: more) = sep ++ (t ++ stretches more) := by simp [stretches]
    have hj : joined ((sep, t) :: more) = [cSp] ++ (t ++ joined more) := by simp [joined]
    rw [hst] at h ⊢
    rw [hj]
    by_cases hsp : sep = [cSp]
    · subst hsp
      have := ih (first ++ [cSp] ++ t) raw app i f (hfirst.append h3) hm' (by simpa using h) hf
      rw [this]
      simp
    · have hlen := drop_len h (by obtain ⟨c, r, e⟩ := List.exists_cons_of_ne_nil hfirst.ne; rw [e]; simp)
      have hpos : 0 < first.length := by obtain ⟨c, r, e⟩ := List.exists_cons_of_ne_nil hfirst.ne; rw [e]; simp
      simp only [List.length_append] at hlen
      obtain ⟨f, rfl⟩ : ∃ k, f = k + 1 := ⟨f - 1, by omega⟩
      have h : s.drop i = first ++ (sep ++ (t ++ (stretches more ++ (B ++ R)))) := by simpa using h
      have hstep : ∃ f', s.length < f' + (i + first.length + sep.length) ∧
          textLoop s tag (f + 1) i raw app =
            textLoop s tag f' (i + first.length + sep.length) ((if app then raw ++ [cSp] else raw) ++ first) true := by
        rcases takeChunk_sep (X := t ++ (stretches more ++ (B ++ R))) hfirst.lastD h1 h2 hsp with e | ⟨B', rfl, e, hb⟩
        · rw [textLoop_stretch hfirst h (Or.inl e), e, List.length_nil, Nat.add_zero]
          exact textLoop_skip h3.nosp h1 (drop_adv h) (by omega) (by omega)
        · rw [textLoop_stretch hfirst h (Or.inr e), e]
          have hd2 : s.drop (i + first.length + [cSp].length) = B' ++ (t ++ (stretches more ++ (B ++ R))) := by
            apply drop_adv
            rw [drop_adv h]; rfl
          simp only [List.length_cons] at hlen
          obtain ⟨f', hf', e'⟩ := textLoop_skip (tag := tag) (raw := (if app then raw ++ [cSp] else raw) ++ first) (app := true)
            h3.nosp hb hd2 (f := f) (by simp; omega) (by simp; omega)
          have el : i + first.length + [cSp].length + B'.length = i + first.length + (cSp :: B').length := by simp; omega
          rw [el] at hf' e'
          exact ⟨f', hf', e'⟩
      obtain ⟨f', hf', e⟩ := hstep
      rw [e, ih t _ true _ f' (h3.starts _) hm' (drop_adv (drop_adv h)) hf']
      simp; omega

theorem lexText_at {tag first : Str} {more : List (Str × Str)} {i : Nat} {B R : Str} (hn : NStretch first)
    (hm : ∀ m ∈ more, Blank m.1 ∧ m.1 ≠ [] ∧ NStretch m.2) (hB : Blank B) (hR : Stop R)
    (h : s.drop i = first ++ (stretches more ++ (B ++ R))) :
    lexText s tag i = .ok (some (.text (first ++ joined more)),
      skipSpace s (i + ((Src.text first more).render ++ B).length)) := by
  have := textLoop_text (tag := tag) hB hR more first [] false i (s.length + 1) (hn.starts _) hm h (by omega)
  unfold lexText
  rw [this]
  simp [Src.render]

end
end Flo
