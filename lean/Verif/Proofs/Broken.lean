import Verif.Spec.Broken
import Verif.Proofs.Source
import Verif.Proofs.Words
/-!
# Parsing source with markup errors (C76)
-/
namespace Flo
open Spec

section
variable {base : Nat → Out Bool} {s : Str}

theorem prevAt_lt {i : Nat} {X : Str} (h : s.drop i = cLt :: X) : prevAt s (i + 1) = cLt := by
  have := drop_get h
  unfold prevAt
  rw [if_neg (by omega)]
  simp [List.getD_eq_getElem?_getD, this]

/-- A chunk that yields nothing. -/
theorem textLoop_empty {tag : Str} {f i : Nat} {c : UInt8} {r ck : Str} (h : s.drop i = c :: r) (hc : c ≠ cLt)
    (hp : prevAt s i ≠ cSp) (hk : takeChunk (prevAt s i) (s.drop i) = ck) (hck : ck = [] ∨ ck = [cSp]) :
    textLoop s tag (f + 1) i [] false = textLoop s tag f (skipSpace s (i + ck.length)) [] true := by
  have hgi := drop_get h
  have hlt := lt_of_getElem? hgi
  have hstop : textStop s tag i c = .ok (false, false) := by
    unfold textStop
    rw [if_neg (by simpa using hc)]
  have hchunk : parseChunk s i = .ok (i + ck.length, []) := by
    rw [parseChunk_eq (by omega) (Or.inr (Or.inr hp)), hk]
    rcases hck with rfl | rfl <;> rfl
  conv_lhs => unfold textLoop
  rw [hgi]
  simp only [hstop, Out.bind_ok, hchunk]
  rfl

/-- Text behind a stray `<`. -/
theorem lexText_stray {tag gap first : Str} {more : List (Str × Str)} {i : Nat} {B R : Str} (hg : Spaces gap) (hn : NStretch first)
    (hm : ∀ m ∈ more, Blank m.1 ∧ m.1 ≠ [] ∧ NStretch m.2) (hB : Blank B) (hR : Stop R)
    (h : s.drop i = cLt :: (gap ++ (first ++ (stretches more ++ (B ++ R))))) :
    lexText s tag (i + 1) = .ok (some (.text ((if gap = [] then [] else [cSp]) ++ first ++ joined more)),
      skipSpace s (i + ((Item.stray gap first more).render ++ B).length)) := by
  have hp : prevAt s (i + 1) = cLt := prevAt_lt h
  have h1 : s.drop (i + 1) = gap ++ (first ++ (stretches more ++ (B ++ R))) := drop_adv (s := s) (X := [cLt]) h
  have hlen := drop_len h (by simp)
  simp only [List.length_cons, List.length_append] at hlen
  have hmain : textLoop s tag (s.length + 1) (i + 1) [] false =
      .ok ((if gap = [] then [] else [cSp]) ++ first ++ joined more, i + ((Item.stray gap first more).render ++ B).length) := by
    by_cases hg0 : gap = []
    · subst hg0
      have := textLoop_text (tag := tag) hB hR more first [] false (i + 1) (s.length + 1) (hn.starts _) hm (by simpa using h1) (by omega)
      rw [this]
      simp [Item.render]; omega
    · rw [if_neg hg0]
      by_cases hg1 : gap = [cSp]
      · subst hg1
        have hst : Starts (prevAt s (i + 1)) (cSp :: first) := by
          refine ⟨?_, by simp, fun _ => by rw [hp]; decide⟩
          obtain ⟨hn1, c, r, e, hc⟩ := hn
          have := NText.append (a := []) NText.nil hn1 (c := c) (by rw [e]; rfl) hc
          simpa using this
        have := textLoop_text (tag := tag) hB hR more (cSp :: first) [] false (i + 1) (s.length + 1) hst hm (by simpa using h1) (by omega)
        rw [this]
        simp [Item.render]; omega
      · have hgb : Blank gap := blank_spaces hg
        obtain ⟨c, g, rfl⟩ := List.exists_cons_of_ne_nil hg0
        have hcl : c ≠ cLt := by
          rcases hg c (by simp) with e | e | e | e <;> subst e <;> decide
        have hsep := takeChunk_sep (p := cLt) (by decide) (X := first ++ (stretches more ++ (B ++ R))) hgb hg0 hg1
        rw [← h1] at hsep
        have hstep : ∃ f', s.length < f' + (i + 1 + (c :: g).length) ∧
            textLoop s tag (s.length + 1) (i + 1) [] false = textLoop s tag f' (i + 1 + (c :: g).length) [] true := by
          rcases hsep with e | ⟨B', e0, e, hb⟩
          · rw [textLoop_empty (ck := []) (by rw [h1]; rfl) hcl (by rw [hp]; decide) (by rw [hp]; exact e) (Or.inl rfl)]
            exact textLoop_skip hn.nosp hgb h1 (by omega) (by omega)
          · rw [textLoop_empty (ck := [cSp]) (by rw [h1]; rfl) hcl (by rw [hp]; decide) (by rw [hp]; exact e) (Or.inr rfl)]
            have hd2 : s.drop (i + 1 + [cSp].length) = B' ++ (first ++ (stretches more ++ (B ++ R))) := by
              apply drop_adv; rw [h1, e0]; rfl
            obtain ⟨f', hf', e'⟩ := textLoop_skip (tag := tag) (raw := []) (app := true) hn.nosp hb hd2 (f := s.length)
              (by simp only [e0, List.length_cons, List.length_nil] at hlen ⊢; omega) (by omega)
            have el : i + 1 + [cSp].length + B'.length = i + 1 + (c :: g).length := by rw [e0]; simp; omega
            rw [el] at hf' e'
            exact ⟨f', hf', e'⟩
        obtain ⟨f', hf', e⟩ := hstep
        rw [e, textLoop_text (tag := tag) hB hR more first [] true _ f' (hn.starts _) hm (drop_adv h1) hf']
        simp [Item.render]; omega
  unfold lexText
  rw [hmain]
  rfl

/-- A `<` without text behind it. -/
theorem lexText_lone {tag : Str} {i : Nat} {B R : Str} (hB : Blank B) (hR : Stop R)
    (h : s.drop i = cLt :: (B ++ R)) :
    lexText s tag (i + 1) = .ok (some (.text []), skipSpace s (i + (cLt :: B).length)) := by
  have hp : prevAt s (i + 1) = cLt := prevAt_lt h
  have h1 : s.drop (i + 1) = B ++ R := drop_adv (s := s) (X := [cLt]) h
  have hlen := drop_len h (by simp)
  simp only [List.length_cons, List.length_append] at hlen
  have hmain : textLoop s tag (s.length + 1) (i + 1) [] false = .ok ([], i + (cLt :: B).length) := by
    have hfin : skipSpace s (i + 1) = i + 1 →
        textLoop s tag (s.length + 1) (i + 1) [] false = .ok ([], i + (cLt :: B).length) := by
      intro hsk
      have := textLoop_blank (tag := tag) (raw := []) (app := false) hR hB h1 (f := s.length + 1) (by omega) (by omega)
      rw [hsk] at this
      rw [this]; simp; omega
    by_cases hB0 : B = []
    · refine hfin (skipSpace_here h1 ?_)
      rw [hB0]; exact hR.nosp
    · obtain ⟨c, g, hB'⟩ := List.exists_cons_of_ne_nil hB0
      by_cases hc : c = cLt
      · subst hc
        refine hfin (skipSpace_here h1 ?_)
        rw [hB']
        exact nosp_cons (by intro hb; rcases hb with hb | hb | hb | hb <;> exact absurd hb (by decide))
      · have hd : s.drop (i + 1) = c :: (g ++ R) := by rw [h1, hB']; rfl
        have hbl := takeChunk_blank (p := cLt) (by decide) hB hR
        rw [← h1] at hbl
        rcases hbl with ⟨e, _⟩ | ⟨B', e0, e, hb⟩
        · rw [textLoop_empty (ck := []) hd hc (by rw [hp]; decide) (by rw [hp]; exact e) (Or.inl rfl)]
          rw [List.length_nil, Nat.add_zero, textLoop_blank hR hB h1 (by omega) (by omega)]
          simp; omega
        · rw [textLoop_empty (ck := [cSp]) hd hc (by rw [hp]; decide) (by rw [hp]; exact e) (Or.inr rfl)]
          have hd2 : s.drop (i + 1 + [cSp].length) = B' ++ R := by
            apply drop_adv; rw [h1, e0]; rfl
          rw [e0] at hlen ⊢
          simp only [List.length_cons] at hlen
          rw [textLoop_blank hR hb hd2 (by simp; omega) (by omega)]
          simp; omega
  unfold lexText
  rw [hmain]
  rfl

theorem differs_take {a b R : Str} (h : Differs a b) : ¬ a <+: b ++ R := by
  rintro ⟨q, e⟩
  obtain ⟨p, x, y, r, r', hne, rfl, rfl⟩ := h
  simp at e
  exact hne e.1

/-- At a `/` that does not name the innermost element there is no end tag. -/
theorem lexEnd_differs {tag : Str} {tags : List Str} {i : Nat} {r : Str} (h : s.drop i = cLt :: cSlash :: r) (hd : ¬ tag <+: r) :
    lexEnd base s i (tag :: tags) = .ok false := by
  have h2 : s.drop (i + 2) = r := drop_adv (s := s) (i := i) (X := [cLt, cSlash]) h
  have hlen := drop_len h (by simp)
  simp at hlen
  show isEndDocumentTag s i tag = _
  unfold isEndDocumentTag
  dsimp only
  split
  · rename_i hc
    have hle : tag.length ≤ r.length := by have := hc.2; push_cast at this; omega
    rw [subStr_at (X := r.take tag.length) (R := r.drop tag.length) (i := i + 2) (by rw [h2]; simp) (by push_cast; omega)
      (by rw [List.length_take]; omega) (by omega)]
    show Out.ok _ = _
    congr 1
    have : r.take tag.length ≠ tag := fun e => hd ⟨r.drop tag.length, by conv_rhs => rw [← List.take_append_drop tag.length r, e]⟩
    simp [strEq, this]
  · rfl

/-- The lexer at a `<` that starts no tag. -/
theorem lexStep_stray {tags : List Str} {i : Nat} {X : Str} (h : s.drop i = cLt :: X)
    (hb : BaseOK base s) (hX : ∀ c r, X = c :: r → isAlphabetical c = false ∧ c ≠ cBang ∧
      (c = cSlash → ∃ tag tags', tags = tag :: tags' ∧ ¬ tag <+: r)) :
    lexStep base s i tags = lexText s (tags.headD []) (i + 1) := by
  have h1 : s.drop (i + 1) = X := drop_adv (s := s) (X := [cLt]) h
  unfold lexStep
  rw [currentChar_at h, if_pos (by rfl)]
  have hnc : ¬ b!"!--" <+: X := by
    rintro ⟨q, e⟩
    exact (hX _ _ e.symm).2.1 rfl
  rw [isCommentTag_no h hnc]
  simp only [Out.bind_ok, Bool.false_eq_true, if_false]
  cases X with
  | nil =>
    have hcur : currentChar s (i + 1) = 0 := by
      unfold currentChar
      have : s.length ≤ i + 1 := by simpa using h1
      simp [List.getD_eq_getElem?_getD, List.getElem?_eq_none this]
    rw [lexEnd_no hb (by rw [hcur]; decide), hcur]
    rfl
  | cons c r =>
    obtain ⟨a1, a2, a3⟩ := hX c r rfl
    have hcur := currentChar_at h1
    have he : lexEnd base s i tags = .ok false := by
      by_cases hc : c = cSlash
      · subst hc
        obtain ⟨tag, tags', rfl, hd⟩ := a3 rfl
        exact lexEnd_differs h hd
      · exact lexEnd_no hb (by rw [hcur]; exact hc)
    simp only [he, Out.bind_ok, Bool.false_eq_true, if_false]
    rw [hcur, if_neg (by simp [a1, a2])]

/-- An end tag outside of every element. -/
theorem LexTo.skipped {name R : Str} (hn : cGt ∉ name) {i : Nat} (h : s.drop i = b!"</" ++ name ++ b!">" ++ R) :
    LexTo (rootBase s) s i [] [] (i + (b!"</" ++ name ++ b!">").length) [] := by
  have h0 : s.drop i = cLt :: (cSlash :: (name ++ (cGt :: R))) := by simpa using h
  have h1 : s.drop (i + 1) = cSlash :: (name ++ (cGt :: R)) := drop_adv (s := s) (X := [cLt]) h0
  have h2 : s.drop (i + 2) = [] ++ (name ++ (cGt :: R)) := drop_adv (s := s) (i := i) (X := [cLt, cSlash]) h0
  have hlen := drop_len h0 (by simp)
  simp at hlen
  refine LexTo.step (oe := none) (skipSpace_here h0 ?_) (le_of_drop h0 (by simp)) (by simp) ?_
  · exact nosp_cons (by intro hb; rcases hb with hb | hb | hb | hb <;> exact absurd hb (by decide))
  · unfold lexStep
    rw [currentChar_at h0, if_pos (by rfl), isCommentTag_no h0 (by intro hp; simp at hp; exact absurd hp.1 (by decide))]
    have he : lexEnd (rootBase s) s i [] = .ok true := by
      show isEndDocumentTag s i [] = _
      unfold isEndDocumentTag
      dsimp only
      rw [currentChar_at h1, if_pos ⟨by rfl, by push_cast; simp; omega⟩]
      rw [subStr_at h2 (by push_cast; omega) rfl (by omega)]
      simp [strEq]
    have hsc : scanUntil (· == cGt) (s.drop i) i = i + (b!"</" ++ name).length := by
      refine scanUntil_at (R := cGt :: R) (by rw [h]; simp) ?_ ?_
      · intro c hc
        simp at hc
        rcases hc with rfl | rfl | hc
        · rfl
        · rfl
        · simp; rintro rfl; exact hn hc
      · intro c r e; cases e; rfl
    simp only [Out.bind_ok, Bool.false_eq_true, if_false, he, if_true]
    show Out.ok (_, skipSpace s (scanUntil (· == cGt) (s.drop i) i + 1)) = _
    rw [hsc]
    simp [closeEv]
    congr 1

/-- An end tag with anything behind the name. -/
theorem LexTo.closeAny {tag rest R : Str} {tags : List Str} (ht : TagName tag) (hg : cGt ∉ rest) {i : Nat}
    (h : s.drop i = b!"</" ++ tag ++ rest ++ b!">" ++ R) :
    LexTo base s i (tag :: tags) [.close] (i + (b!"</" ++ tag ++ rest ++ b!">").length) tags := by
  have h0 : s.drop i = cLt :: (cSlash :: (tag ++ (rest ++ (cGt :: R)))) := by simpa using h
  have h1 : s.drop (i + 1) = cSlash :: (tag ++ (rest ++ (cGt :: R))) := drop_adv (s := s) (X := [cLt]) h0
  have h2 : s.drop (i + 2) = tag ++ (rest ++ (cGt :: R)) := drop_adv (s := s) (i := i) (X := [cLt, cSlash]) h0
  have hlen := drop_len h0 (by simp)
  simp at hlen
  refine LexTo.step (oe := some .close) (skipSpace_here h0 ?_) (le_of_drop h0 (by simp)) (by simp) ?_
  · exact nosp_cons (by intro hb; rcases hb with hb | hb | hb | hb <;> exact absurd hb (by decide))
  · unfold lexStep
    rw [currentChar_at h0, if_pos (by rfl), isCommentTag_no h0 (by intro hp; simp at hp; exact absurd hp.1 (by decide))]
    have he : lexEnd base s i (tag :: tags) = .ok true := by
      show isEndDocumentTag s i tag = _
      unfold isEndDocumentTag
      dsimp only
      rw [currentChar_at h1, if_pos ⟨by rfl, by push_cast; omega⟩]
      rw [subStr_at h2 (by push_cast; omega) rfl (by omega)]
      simp [strEq]
    have hsc : scanUntil (· == cGt) (s.drop i) i = i + (b!"</" ++ tag ++ rest).length := by
      refine scanUntil_at (R := cGt :: R) (by rw [h]; simp) ?_ ?_
      · intro c hc
        simp at hc
        rcases hc with rfl | rfl | hc | hc
        · rfl
        · rfl
        · simpa using (ht.chars c hc).2
        · simp; rintro rfl; exact hg hc
      · intro c r e; cases e; rfl
    simp only [Out.bind_ok, Bool.false_eq_true, if_false, he, if_true]
    show Out.ok (_, skipSpace s (scanUntil (· == cGt) (s.drop i) i + 1)) = _
    rw [hsc]
    simp [closeEv]
    congr 1

/-! ## Documents -/

mutual
def Spec.Item.evs : Item → List Ev
  | .text first more => [.text (first ++ joined more)]
  | .stray gap first more => [.text ((if gap = [] then [] else [cSp]) ++ first ++ joined more)]
  | .lone => [.text []]
  | .skipped _ => []
  | .single tag as _ slash => [.elem tag (canS tag slash) (as.map AttrSrc.ev)]
  | .paired tag as _ _ ks _ => .elem tag true (as.map AttrSrc.ev) :: (ks.evs ++ [.close])
def Spec.Items.evs : Items → List Ev
  | .nil => []
  | .cons t _ rest => t.evs ++ rest.evs
end

def Spec.Tail.evs : Tail → List Ev
  | .done => []
  | .opened tag as _ _ ks rest => .elem tag true (as.map AttrSrc.ev) :: (ks.evs ++ rest.evs)

theorem noTag_head {ctx : Option Str} {first X : Str} (h : NoTag ctx first) : ¬ b!"!--" <+: first ++ X := by
  obtain ⟨c, r, rfl, _, h2, _⟩ := h
  rintro ⟨q, e⟩
  simp at e
  exact h2 e.1.symm

theorem spaces_head {g X : Str} (h : Spaces g) (hne : g ≠ []) : ¬ b!"!--" <+: g ++ X := by
  obtain ⟨c, r, rfl⟩ := List.exists_cons_of_ne_nil hne
  rintro ⟨q, e⟩
  simp at e
  rcases h c (by simp) with hb | hb | hb | hb <;> exact absurd (e.1.trans hb) (by decide)

theorem blank_noBang {B R : Str} (hB : Blank B) (hR : Stop R) : ¬ b!"!--" <+: B ++ R := by
  rintro ⟨q, e⟩
  rcases hB.head hR _ _ e.symm with (hb | hb | hb | hb) | hb <;> exact absurd hb (by decide)

theorem stop_items {ctx : Option Str} : ∀ {ks : Items}, ks.Clean ctx → ¬ks.StartsText → ∀ {R : Str}, Stop R → Stop (ks.render ++ R)
  | .nil, _, _, R, hR => hR
  | .cons t b rest, h, hs, R, hR => by
    simp only [Items.Clean] at h
    obtain ⟨h1, hb, hr, hs'⟩ := h
    cases t with
    | text first more => exact absurd trivial hs
    | stray gap first more =>
      simp only [Item.Clean] at h1
      obtain ⟨g1, g2, g3, g4⟩ := h1
      intro c r e
      simp [Items.render, Item.render] at e
      obtain ⟨rfl, rfl⟩ := e
      refine ⟨rfl, ?_⟩
      by_cases hg : gap = []
      · have := noTag_head (X := stretches more ++ (b ++ (rest.render ++ R))) (g4 hg)
        subst hg; exact this
      · exact spaces_head g1 hg
    | lone =>
      intro c r e
      simp [Items.render, Item.render] at e
      obtain ⟨rfl, rfl⟩ := e
      exact ⟨rfl, blank_noBang hb (stop_items hr (hs' trivial) hR)⟩
    | skipped name =>
      intro c r e
      simp [Items.render, Item.render] at e
      obtain ⟨rfl, rfl⟩ := e
      exact ⟨rfl, by simp⟩
    | single tag as gap slash =>
      simp only [Item.Clean] at h1
      obtain ⟨h1, h2, h3, _⟩ := h1
      have := stop_tag (slash := slash) (R := b ++ rest.render ++ R) h1 h2 h3
      simpa [Items.render, Item.render, tagS, finS] using this
    | paired tag as gap lead ks rs =>
      simp only [Item.Clean] at h1
      obtain ⟨h1, h2, h3, _⟩ := h1
      have := stop_tag (slash := false) (R := lead ++ ks.render ++ b!"</" ++ tag ++ rs ++ b!">" ++ b ++ rest.render ++ R) h1 h2 h3
      simpa [Items.render, Item.render, tagS, finS] using this

mutual
theorem LexTo.item : ∀ (t : Item) {ctx : Option Str}, t.Clean ctx → ∀ {B R : Str} {i : Nat} {tags : List Str}, tags.head? = ctx → Blank B →
    (t.IsText → Stop R) → s.drop i = t.render ++ B ++ R →
    LexTo (rootBase s) s i tags t.evs (i + (t.render ++ B).length) tags
  | .text first more, ctx, hc, B, R, i, tags, _, hB, hR, h => by
    have := LexTo.src (tags := tags) (rootBase_ok s) (.text first more) hc hB (fun _ => hR trivial) (R := R) (i := i)
      (by simpa [Src.render, Item.render] using h)
    simpa [Src.render, Item.render, Src.evs, Item.evs] using this
  | .stray gap first more, ctx, hc, B, R, i, tags, hctx, hB, hR, h => by
    simp only [Item.Clean] at hc
    obtain ⟨g1, g2, g3, g4⟩ := hc
    have hR := hR trivial
    have h : s.drop i = cLt :: (gap ++ (first ++ (stretches more ++ (B ++ R)))) := by simpa [Item.render] using h
    refine LexTo.step (oe := some (.text ((if gap = [] then [] else [cSp]) ++ first ++ joined more))) (skipSpace_here h ?_)
      (le_of_drop h (by simp)) (by simp [Item.render]) ?_
    · exact nosp_cons (by intro hb; rcases hb with hb | hb | hb | hb <;> exact absurd hb (by decide))
    · rw [lexStep_stray h (rootBase_ok s)]
      · exact lexText_stray g1 g2.ntext (fun m hm' => ⟨(g3 m hm').1, (g3 m hm').2.1, (g3 m hm').2.2.ntext⟩) hB hR h
      · intro c r e
        by_cases hg : gap = []
        · subst hg
          obtain ⟨c', r', rfl, k1, k2, k3⟩ := g4 rfl
          simp at e
          obtain ⟨rfl, rfl⟩ := e
          refine ⟨k1, k2, fun hh => ?_⟩
          obtain ⟨tag, hct, hdf⟩ := k3 hh
          rw [hct] at hctx
          cases tags with
          | nil => cases hctx
          | cons t0 ts =>
            simp at hctx
            subst hctx
            exact ⟨_, _, rfl, differs_take hdf⟩
        · obtain ⟨c', g', rfl⟩ := List.exists_cons_of_ne_nil hg
          simp at e
          obtain ⟨rfl, _⟩ := e
          rcases g1 c' (by simp) with hb | hb | hb | hb <;> subst hb <;>
            exact ⟨by decide, by decide, fun hh => absurd hh (by decide)⟩
  | .lone, ctx, hc, B, R, i, tags, hctx, hB, hR, h => by
    have hR := hR trivial
    have h : s.drop i = cLt :: (B ++ R) := by simpa [Item.render] using h
    refine LexTo.step (oe := some (.text [])) (skipSpace_here h ?_)
      (le_of_drop h (by simp)) (by simp [Item.render]) ?_
    · exact nosp_cons (by intro hb; rcases hb with hb | hb | hb | hb <;> exact absurd hb (by decide))
    · rw [lexStep_stray h (rootBase_ok s)]
      · exact lexText_lone hB hR h
      · intro c r e
        rcases hB.head hR c r e with (hb | hb | hb | hb) | hb <;> subst hb <;>
            exact ⟨by decide, by decide, fun hh => absurd hh (by decide)⟩
  | .skipped name, ctx, hc, B, R, i, tags, hctx, hB, hR, h => by
    simp only [Item.Clean] at hc
    obtain ⟨rfl, hn⟩ := hc
    have ht : tags = [] := by cases tags with
      | nil => rfl
      | cons _ _ => cases hctx
    subst ht
    have e1 : s.drop i = (b!"</" ++ name ++ b!">") ++ (B ++ R) := by simpa [Item.render] using h
    have := (LexTo.skipped hn e1).trans (LexTo.blank hB (drop_adv e1))
    have el : i + ((Item.skipped name).render ++ B).length = i + (b!"</" ++ name ++ b!">").length + B.length := by
      simp [Item.render]; omega
    rw [el]
    exact this
  | .single tag as gap slash, ctx, hc, B, R, i, tags, _, hB, _, h => by
    have := LexTo.src (tags := tags) (rootBase_ok s) (.single tag as gap slash) hc hB (by rintro ⟨_, _, e⟩; cases e) (R := R) (i := i)
      (by simpa [Src.render, Item.render] using h)
    simpa [Src.render, Item.render, Src.evs, Item.evs] using this
  | .paired tag as gap lead ks rest, ctx, hc, B, R, i, tags, _, hB, _, h => by
    simp only [Item.Clean] at hc
    obtain ⟨h1, h2, h3, h4, h5, h6, h7⟩ := hc
    have hr : (Item.paired tag as gap lead ks rest).render =
        (cLt :: tagS tag as gap false) ++ (lead ++ (ks.render ++ (b!"</" ++ tag ++ rest ++ b!">"))) := by
      simp [Item.render, tagS, finS]
    rw [hr] at h ⊢
    have e1 : s.drop i = (cLt :: tagS tag as gap false) ++ (lead ++ (ks.render ++ ((b!"</" ++ tag ++ rest ++ b!">") ++ (B ++ R)))) := by
      simpa using h
    have e2 := drop_adv e1
    have e3 := drop_adv e2
    have e4 := drop_adv e3
    have e5 := drop_adv e4
    have ht := LexTo.tag (tags := tags) (rootBase_ok s) h1 h2 h3 (by simp) e1
    have hcan := canS_true h1 h4
    rw [hcan] at ht
    have hl := LexTo.blank (base := rootBase s) (s := s) (tags := tag :: tags) h5 e2
    have hk := LexTo.items ks h6 (tags := tag :: tags) rfl (R := (b!"</" ++ tag ++ rest ++ b!">") ++ (B ++ R))
      (by intro c r e; simp at e; rw [← e.1, ← e.2]; exact ⟨rfl, by simp⟩) e3
    have hc := LexTo.closeAny (base := rootBase s) (tags := tags) h1 h7 e4
    have hbl := LexTo.blank (base := rootBase s) (s := s) (tags := tags) hB e5
    have := (((ht.trans hl).trans hk).trans hc).trans hbl
    simp only [Item.evs]
    have el : i + ((cLt :: tagS tag as gap false) ++ (lead ++ (ks.render ++ (b!"</" ++ tag ++ rest ++ b!">"))) ++ B).length =
      i + (cLt :: tagS tag as gap false).length + lead.length + ks.render.length + (b!"</" ++ tag ++ rest ++ b!">").length + B.length := by
      simp only [List.length_append]; omega
    rw [el]
    simpa using this
theorem LexTo.items : ∀ (ks : Items) {ctx : Option Str}, ks.Clean ctx → ∀ {R : Str} {i : Nat} {tags : List Str}, tags.head? = ctx → Stop R →
    s.drop i = ks.render ++ R → LexTo (rootBase s) s i tags ks.evs (i + ks.render.length) tags
  | .nil, ctx, _, R, i, tags, _, _, _ => by
    simp only [Items.evs, Items.render]
    exact LexTo.refl
  | .cons t b rest, ctx, hc, R, i, tags, hctx, hR, h => by
    simp only [Items.Clean] at hc
    obtain ⟨h1, h2, h3, h4⟩ := hc
    simp only [Items.render] at h ⊢
    have e1 : s.drop i = (t.render ++ b) ++ (rest.render ++ R) := by simpa using h
    have ht := LexTo.item t h1 (tags := tags) hctx h2 (R := rest.render ++ R) (fun ht => stop_items h3 (h4 ht) hR) e1
    have hk := LexTo.items rest h3 (tags := tags) hctx hR (drop_adv e1)
    have := ht.trans hk
    simp only [Items.evs]
    rw [List.length_append, ← Nat.add_assoc]
    exact this
end

theorem stop_tail {tl : Tail} (h : tl.Clean) : Stop tl.render := by
  cases tl with
  | done => intro c r e; cases e
  | opened tag as gap lead ks rest =>
    simp only [Tail.Clean] at h
    obtain ⟨h1, h2, h3, _⟩ := h
    have := stop_tag (slash := false) (R := lead ++ ks.render ++ rest.render) h1 h2 h3
    simpa [Tail.render, tagS, finS] using this

theorem LexTo.tail : ∀ (tl : Tail), tl.Clean → ∀ {i : Nat} {tags : List Str}, s.drop i = tl.render →
    ∃ tags', LexTo (rootBase s) s i tags tl.evs (i + tl.render.length) tags'
  | .done, _, i, tags, _ => ⟨tags, LexTo.refl⟩
  | .opened tag as gap lead ks rest, hc, i, tags, h => by
    simp only [Tail.Clean] at hc
    obtain ⟨h1, h2, h3, h4, h5, h6, h7⟩ := hc
    have hr : (Tail.opened tag as gap lead ks rest).render =
        (cLt :: tagS tag as gap false) ++ (lead ++ (ks.render ++ rest.render)) := by
      simp [Tail.render, tagS, finS]
    rw [hr] at h ⊢
    have e2 := drop_adv h
    have e3 := drop_adv e2
    have e4 := drop_adv e3
    have ht := LexTo.tag (tags := tags) (rootBase_ok s) h1 h2 h3 (by simp) h
    have hcan := canS_true h1 h4
    rw [hcan] at ht
    have hl := LexTo.blank (base := rootBase s) (s := s) (tags := tag :: tags) h5 e2
    have hk := LexTo.items ks h6 (tags := tag :: tags) rfl (stop_tail h7) e3
    obtain ⟨tags', hrest⟩ := LexTo.tail rest h7 (tags := tag :: tags) e4
    refine ⟨tags', ?_⟩
    have := ((ht.trans hl).trans hk).trans hrest
    simp only [Tail.evs]
    have el : i + ((cLt :: tagS tag as gap false) ++ (lead ++ (ks.render ++ rest.render))).length =
      i + (cLt :: tagS tag as gap false).length + lead.length + ks.render.length + rest.render.length := by
      simp only [List.length_append]; omega
    rw [el]
    simpa using this

theorem lex_broken {lead : Str} {ks : Items} {tl : Tail} (hl : Blank lead) (hk : ks.Clean none) (ht : tl.Clean)
    (hs : s = lead ++ ks.render ++ tl.render) : lex (rootBase s) s = .ok (ks.evs ++ tl.evs) := by
  have e1 : s.drop 0 = lead ++ (ks.render ++ tl.render) := by simpa using hs
  have h1 := LexTo.blank (base := rootBase s) (s := s) (tags := []) hl e1
  have e2 := drop_adv e1
  have h2 := LexTo.items ks hk (tags := []) rfl (stop_tail ht) e2
  obtain ⟨tags', h3⟩ := LexTo.tail tl ht (tags := []) (drop_adv e2)
  have := (h1.trans h2).trans h3
  have hlen : 0 + lead.length + ks.render.length + tl.render.length = s.length := by rw [hs]; simp; omega
  rw [hlen] at this
  exact LexTo.finish this

end

/-! ## The forest -/

mutual
theorem Spec.Item.feed : ∀ (t : Item) {ctx : Option Str}, t.Clean ctx → ∀ (z : Zip), t.evs.foldl Zip.feed z = addAll z t.trees
  | .text first more, _, _, z => rfl
  | .stray _ first more, _, _, z => rfl
  | .lone, _, _, z => rfl
  | .skipped _, _, _, z => rfl
  | .single tag as gap slash, _, h, z => by
    have hc := canS_false h.2.2.2.2
    simp [Item.evs, Zip.feed, hc, Item.trees, attrPairs_ev, attrBools_ev, addAll]
  | .paired tag as gap lead ks gap', _, h, z => by
    have := Items.feed ks h.2.2.2.2.2.1 ⟨⟨tag, attrPairs (as.map AttrSrc.ev), attrBools (as.map AttrSrc.ev), []⟩ :: z.frames, z.bot⟩
    simp only [Item.evs, List.foldl_cons, List.foldl_append, List.foldl_nil]
    have e : z.feed (.elem tag true (as.map AttrSrc.ev)) =
      ⟨⟨tag, attrPairs (as.map AttrSrc.ev), attrBools (as.map AttrSrc.ev), []⟩ :: z.frames, z.bot⟩ := rfl
    rw [e, this]
    have := addAll_frames ⟨tag, attrPairs (as.map AttrSrc.ev), attrBools (as.map AttrSrc.ev), []⟩ z.frames z.bot ks.trees []
    rw [this]
    simp [Zip.feed, Item.trees, attrPairs_ev, attrBools_ev, addAll]
theorem Spec.Items.feed : ∀ (ks : Items) {ctx : Option Str}, ks.Clean ctx → ∀ (z : Zip), ks.evs.foldl Zip.feed z = addAll z ks.trees
  | .nil, _, _, z => rfl
  | .cons t blank rest, _, h, z => by
    simp only [Items.evs, List.foldl_append]
    rw [Item.feed t h.1, Items.feed rest h.2.2.1]
    simp [Items.trees, addAll, List.foldl_append]
end

theorem Spec.Tail.feed : ∀ (tl : Tail), tl.Clean → ∀ (z : Zip), (tl.evs.foldl Zip.feed z).out = (addAll z tl.trees).out
  | .done, _, z => rfl
  | .opened tag as gap lead ks rest, h, z => by
    simp only [Tail.evs, List.foldl_cons, List.foldl_append]
    have e : z.feed (.elem tag true (as.map AttrSrc.ev)) =
      ⟨⟨tag, attrPairs (as.map AttrSrc.ev), attrBools (as.map AttrSrc.ev), []⟩ :: z.frames, z.bot⟩ := rfl
    rw [e, Items.feed ks h.2.2.2.2.2.1, Spec.Tail.feed rest h.2.2.2.2.2.2]
    have := addAll_frames ⟨tag, attrPairs (as.map AttrSrc.ev), attrBools (as.map AttrSrc.ev), []⟩ z.frames z.bot ks.trees []
    rw [this]
    have := addAll_frames ⟨tag, attrPairs (as.map AttrSrc.ev), attrBools (as.map AttrSrc.ev), []⟩ z.frames z.bot rest.trees ([] ++ ks.trees)
    rw [this]
    simp [Tail.trees, attrPairs_ev, attrBools_ev, addAll, Zip.out]
    cases hz : z.frames with
    | nil => simp [sealAll, addTree]
    | cons f fs => simp [sealAll, addTree]

theorem forest_broken {ks : Items} {tl : Tail} (h : ks.Clean none) (ht : tl.Clean) : forest (ks.evs ++ tl.evs) = ks.trees ++ tl.trees := by
  unfold forest
  rw [List.foldl_append, Tail.feed tl ht, Items.feed ks h, addAll_bot, addAll_bot]
  simp [Zip.out, sealAll]

/-! ## The nesting limit -/

theorem Accepts.text {startLen : Nat} {raw : Str} {E : List Ev} {b : BState}
    (h : ∀ b', b'.stack = b.stack → Accepts startLen E b') : Accepts startLen (.text raw :: E) b := by
  unfold Accepts
  simp only [runEvs]
  refine Post.bindP (P := fun x => ∃ b', x = .inl b' ∧ b'.stack = b.stack) ?_ ?_
  · unfold runEv
    refine (parseTextElement_post _ _).bindP (fun r _ => ?_)
    obtain ⟨id, d⟩ := r
    exact ⟨_, rfl, rfl⟩
  · rintro x ⟨b', rfl, e⟩
    exact h b' e

theorem Accepts.openElem {startLen : Nat} {tag : Str} {as : List Attr} {E : List Ev} {b : BState} (hd : b.stack.length < 256)
    (h : ∀ b' id, b'.stack = (id, tag) :: b.stack → Accepts startLen E b') : Accepts startLen (.elem tag true as :: E) b := by
  unfold Accepts
  simp only [runEvs]
  refine Post.bindP (P := fun x => ∃ b' id, x = .inl b' ∧ b'.stack = (id, tag) :: b.stack) ?_ ?_
  · unfold runEv
    refine (buildElem_post _ _ _ _).bindP (fun r _ => ?_)
    obtain ⟨id, d⟩ := r
    dsimp only
    rw [if_pos rfl, if_neg (by show ¬ b.stack.length ≥ 256; omega)]
    exact ⟨_, _, rfl, rfl⟩
  · rintro x ⟨b', id, rfl, e⟩
    exact h b' id e

mutual
theorem Spec.Item.accepts : ∀ (t : Item) {ctx : Option Str}, t.Clean ctx → ∀ {startLen : Nat} {E : List Ev} {b : BState},
    startLen ≤ b.stack.length → b.stack.length + t.depth ≤ 256 →
    (∀ b', b'.stack = b.stack → Accepts startLen E b') → Accepts startLen (t.evs ++ E) b
  | .text first more, _, _, startLen, E, b, hs, hd, h => Accepts.text h
  | .stray _ first more, _, _, startLen, E, b, hs, hd, h => Accepts.text h
  | .lone, _, _, startLen, E, b, hs, hd, h => Accepts.text h
  | .skipped _, _, _, startLen, E, b, hs, hd, h => h b rfl
  | .single tag as gap slash, _, hc, startLen, E, b, hs, hd, h => by
    simp only [Item.evs, canS_false hc.2.2.2.2, List.cons_append, List.nil_append]
    exact Accepts.leafElem h
  | .paired tag as gap lead ks gap', _, hc, startLen, E, b, hs, hd, h => by
    have hd : b.stack.length + (ks.depth + 1) ≤ 256 := hd
    simp only [Item.evs, List.cons_append]
    refine Accepts.openElem (by omega) fun b' id e => ?_
    rw [List.append_assoc]
    refine Items.accepts ks hc.2.2.2.2.2.1 (startLen := startLen) (b := b') (by rw [e]; simp; omega) (by rw [e]; simp; omega) ?_
    intro b2 e2
    unfold Accepts
    simp only [List.cons_append, List.nil_append, runEvs]
    refine Post.bindP (P := fun x => ∃ b', x = .inl b' ∧ b'.stack = b.stack) ?_ ?_
    · unfold runEv
      have e3 : b2.stack = (id, tag) :: b.stack := by rw [e2, e]
      rw [e3]
      dsimp only
      rw [if_pos (by simp; omega)]
      exact ⟨_, rfl, rfl⟩
    · rintro x ⟨b3, rfl, e3⟩
      exact h b3 e3
theorem Spec.Items.accepts : ∀ (ks : Items) {ctx : Option Str}, ks.Clean ctx → ∀ {startLen : Nat} {E : List Ev} {b : BState},
    startLen ≤ b.stack.length → b.stack.length + ks.depth ≤ 256 →
    (∀ b', b'.stack = b.stack → Accepts startLen E b') → Accepts startLen (ks.evs ++ E) b
  | .nil, _, _, startLen, E, b, hs, hd, h => h b rfl
  | .cons t blank rest, _, hc, startLen, E, b, hs, hd, h => by
    have hd : b.stack.length + max t.depth rest.depth ≤ 256 := hd
    simp only [Items.evs, List.append_assoc]
    refine Item.accepts t hc.1 hs (by omega) ?_
    intro b' e
    refine Items.accepts rest hc.2.2.1 (by rw [e]; exact hs) (by rw [e]; omega) ?_
    intro b2 e2
    exact h b2 (by rw [e2, e])
end

theorem Spec.Tail.accepts : ∀ (tl : Tail), tl.Clean → ∀ {startLen : Nat} {b : BState},
    startLen ≤ b.stack.length → b.stack.length + tl.depth ≤ 256 → Accepts startLen tl.evs b
  | .done, _, startLen, b, hs, hd => rfl
  | .opened tag as gap lead ks rest, hc, startLen, b, hs, hd => by
    have hd : b.stack.length + (max ks.depth rest.depth + 1) ≤ 256 := hd
    simp only [Tail.evs]
    refine Accepts.openElem (by omega) fun b' id e => ?_
    refine Items.accepts ks hc.2.2.2.2.2.1 (startLen := startLen) (b := b') (by rw [e]; simp; omega) (by rw [e]; simp; omega) ?_
    intro b2 e2
    exact Spec.Tail.accepts rest hc.2.2.2.2.2.2 (by rw [e2, e]; simp; omega) (by rw [e2, e]; simp; omega)

theorem createDom_broken {lead : Str} {ks : Items} {tl : Tail} (hl : Blank lead) (hk : ks.Clean none) (ht : tl.Clean)
    (hd : max ks.depth tl.depth ≤ 255) :
    createDom (lead ++ ks.render ++ tl.render) = .longjmp ∨
    ∃ d, createDom (lead ++ ks.render ++ tl.render) = .ok (some d) ∧ RepL d (ks.trees ++ tl.trees) (kids d 1) := by
  have hlex := lex_broken (s := lead ++ ks.render ++ tl.render) hl hk ht rfl
  have hacc : Accepts 1 (ks.evs ++ tl.evs) ⟨Dom.init, [(1, [])], 1⟩ :=
    Items.accepts ks hk (startLen := 1) (by simp) (by simp; omega)
      (fun b' e => Tail.accepts tl ht (by rw [e]; simp) (by rw [e]; simp; omega))
  unfold Accepts at hacc
  rw [← parseRoot_lex (junk := fun _ => .ub .oobIndex) hlex] at hacc
  cases hp : parseRoot (fun _ => Out.ub .oobIndex) (lead ++ ks.render ++ tl.render) Dom.init with
  | longjmp => left; unfold createDom; rw [hp]; rfl
  | ub w => rw [hp] at hacc; exact False.elim hacc
  | hang => rw [hp] at hacc; exact False.elim hacc
  | ok r =>
    rw [hp] at hacc
    have hr : r.ok = true := hacc
    right
    have hcd : createDom (lead ++ ks.render ++ tl.render) = .ok (some r.dom) := by unfold createDom; rw [hp]; simp [hr]
    obtain ⟨evs, h1, h2⟩ := createDom_lex hcd
    rw [hlex] at h1
    cases h1
    rw [forest_broken hk ht] at h2
    exact ⟨_, hcd, h2⟩

end Flo
