import Verif.Spec.Concat
import Verif.Proofs.Copy
import Verif.Proofs.PageMerge
/-!
# Reading strings one after the other (C117)
-/
namespace Flo.Cat
open Spec

section
variable {base : Nat → Out Bool} {s : Str}

theorem lexTo_srcs (hb : BaseOK base s) : ∀ (ks : Srcs), ks.Clean → ∀ {R : Str} {i : Nat} {tags : List Str}, (ks.endsInText = true → Stop R) →
    s.drop i = ks.render ++ R → LexTo base s i tags ks.evs (i + ks.render.length) tags
  | .nil, _, R, i, tags, _, _ => by
    simp only [Srcs.evs, Srcs.render]
    exact LexTo.refl
  | .cons t b .nil, hc, R, i, tags, hR, h => by
    simp only [Srcs.Clean] at hc
    obtain ⟨h1, h2, _, _⟩ := hc
    simp only [Srcs.render, Srcs.evs, List.append_nil] at h ⊢
    refine LexTo.src hb t h1 (tags := tags) h2 (R := R) ?_ h
    rintro ⟨first, more, rfl⟩
    exact hR rfl
  | .cons t b (.cons t' b' rest), hc, R, i, tags, hR, h => by
    simp only [Srcs.Clean] at hc
    obtain ⟨h1, h2, h3, h4⟩ := hc
    have hR' : (Srcs.cons t' b' rest).endsInText = true → Stop R := fun e => hR (by cases t <;> exact e)
    have e1 : s.drop i = (t.render ++ b) ++ ((Srcs.cons t' b' rest).render ++ R) := by simpa [Srcs.render] using h
    have ht := LexTo.src hb t h1 (tags := tags) h2 (R := (Srcs.cons t' b' rest).render ++ R) (by
      rintro ⟨first, more, rfl⟩
      dsimp only at h4
      cases t' with
      | text first more => exact absurd trivial h4
      | single tag as gap slash =>
        obtain ⟨⟨g1, g2, g3, _⟩, _⟩ := h3
        have := stop_tag (slash := slash) (R := b' ++ rest.render ++ R) g1 g2 g3
        simpa [Srcs.render, Src.render, tagS, finS] using this
      | paired tag as gap lead ks gap' =>
        obtain ⟨⟨g1, g2, g3, _⟩, _⟩ := h3
        have := stop_tag (slash := false) (R := lead ++ ks.render ++ b!"</" ++ tag ++ gap' ++ b!">" ++ b' ++ rest.render ++ R) g1 g2 g3
        simpa [Srcs.render, Src.render, tagS, finS] using this) e1
    have hk := lexTo_srcs hb (.cons t' b' rest) (by simp only [Srcs.Clean]; exact h3) (tags := tags) hR' (drop_adv e1)
    have := ht.trans hk
    simp only [Srcs.evs, Srcs.render, List.length_append, Nat.add_assoc] at this ⊢
    exact this

/-- The tokens of a clean source followed by anything. -/
theorem tokens_concat {stray : Str → Bool} (hbr : BaseRef base s stray) (hb : BaseOK base s) {lead : Str} {ks : Srcs} {R : Str}
    (hl : Blank lead) (hk : ks.Clean) (hR : ks.endsInText = true → Stop R) (hs : s = lead ++ ks.render ++ R) :
    (tokens stray (s.length + 1) s []).2 = (tokens stray (R.length + 1) R []).2 ∧
    ((tokens stray (R.length + 1) R []).2 = false → ∃ r, closesOK 0 (ks.evs ++ r) ∧ closesOK 0 r ∧
      (tokens stray (s.length + 1) s []).1 = (ks.evs ++ r).map tokOf ∧ (tokens stray (R.length + 1) R []).1 = r.map tokOf) := by
  have e1 : s.drop 0 = lead ++ (ks.render ++ R) := by simpa using hs
  have h1 := LexTo.blank (base := base) (s := s) (tags := []) hl e1
  have h2 := lexTo_srcs hb ks hk (tags := []) hR (drop_adv e1)
  have hT := h1.trans h2
  have eR : s.drop (0 + lead.length + ks.render.length) = R := by rw [hs]; simp
  generalize 0 + lead.length + ks.render.length = j at hT eR
  obtain ⟨f', hf', e⟩ := hT (s.length + 1) (by omega)
  rw [List.nil_append] at e
  have whole := lexAll_ref hbr (s.length + 1) 0 (s.length + 1) [] (by omega) (by omega) (by simp)
  have hf1 : 1 ≤ f' ∨ f' = 0 := by omega
  rw [List.drop_zero] at whole
  rcases hf1 with hf1 | hf1
  · have tail := lexAll_ref hbr f' j (R.length + 1) [] hf' hf1 (by rw [eR]; omega)
    rw [eR] at tail
    rcases tail with ⟨t1, r, t2, t3⟩ | ⟨t1, r, t2, t3⟩
    · rw [t2] at e
      rcases whole with ⟨w1, evs, w2, w3⟩ | ⟨w1, evs, w2, w3⟩
      · rw [e] at w2
        cases w2
        exact ⟨by rw [w1, t1], fun _ => ⟨r, lexAll_closes (tags := []) e, lexAll_closes (tags := []) t2, w3, t3⟩⟩
      · rw [Copy.stuck_ub w2] at e; cases e
    · rw [Copy.stuck_ub t2] at e
      rcases whole with ⟨w1, evs, w2, w3⟩ | ⟨w1, evs, w2, w3⟩
      · rw [e] at w2; cases w2
      · exact ⟨by rw [w1, t1], fun x => by rw [t1] at x; cases x⟩
  · subst hf1
    have tail := lexAll_ref hbr 1 j (R.length + 1) [] (by omega) (by omega) (by rw [eR]; omega)
    have hRn : R = [] := by rw [← eR]; simp; omega
    subst hRn
    have : lexAll base s 0 (skipSpace s j) [] = .hang := rfl
    rw [this] at e
    rcases whole with ⟨w1, evs, w2, w3⟩ | ⟨w1, evs, w2, w3⟩
    · rw [e] at w2; cases w2
    · rw [Copy.stuck_ub w2] at e; cases e
end

theorem forest_concat {ks : Srcs} (hk : ks.Clean) {r : List Ev} (h : closesOK 0 (ks.evs ++ r)) (h2 : closesOK 0 r) :
    treesOf ((ks.evs ++ r).map tokOf) = ks.trees ++ treesOf (r.map tokOf) := by
  rw [treesOf_forest h]
  unfold forest
  rw [List.foldl_append, Srcs.feed ks hk, addAll_bot, treesFrom_bottom ((r.map tokOf).length + 1) r (by simp) h2]
  rfl

theorem stuck_det {base : Nat → Out Bool} {s : Str} {f k : Nat} {tags : List Str} {e1 e2 : List Ev} (h1 : Stuck base s f k tags e1)
    (h2 : Stuck base s f k tags e2) : e1 = e2 := by
  induction h1 generalizing e2 with
  | here h e =>
    cases h2 with
    | here => rfl
    | step _ e' _ => rw [e] at e'; cases e'
  | step h e _ ih =>
    cases h2 with
    | here _ e' => rw [e] at e'; cases e'
    | step _ e' n' => rw [e] at e'; cases e'; rw [ih n']

theorem tokens_congr {base : Nat → Out Bool} {s : Str} {st1 st2 : Str → Bool} (h1 : BaseRef base s st1) (h2 : BaseRef base s st2) :
    tokens st1 (s.length + 1) s [] = tokens st2 (s.length + 1) s [] := by
  have a := lexAll_ref h1 (s.length + 1) 0 (s.length + 1) [] (by omega) (by omega) (by simp)
  have b := lexAll_ref h2 (s.length + 1) 0 (s.length + 1) [] (by omega) (by omega) (by simp)
  rw [List.drop_zero] at a b
  rcases a with ⟨a1, e1, a2, a3⟩ | ⟨a1, e1, a2, a3⟩ <;> rcases b with ⟨b1, e2, b2, b3⟩ | ⟨b1, e2, b2, b3⟩
  · rw [a2] at b2; cases b2
    exact Prod.ext (a3.trans b3.symm) (a1.trans b1.symm)
  · rw [Copy.stuck_ub b2] at a2; cases a2
  · rw [Copy.stuck_ub a2] at b2; cases b2
  · rw [stuck_det a2 b2] at a3
    exact Prod.ext (a3.trans b3.symm) (a1.trans b1.symm)

/-- A clean source in front of any input. -/
theorem doc_concat {lead : Str} {ks : Srcs} {R : Str} (hl : Blank lead) (hk : ks.Clean) (hd : ks.depth ≤ 255)
    (hR : ks.endsInText = true → Stop R) : (docTokens (lead ++ ks.render ++ R)).2 = (docTokens R).2 ∧
    ((docTokens R).2 = false → outcome (lead ++ ks.render ++ R) = (outcome R).after ks.trees ∧
      tokenForms (docTokens (lead ++ ks.render ++ R)).1 = evForms ks.evs ++ tokenForms (docTokens R).1) := by
  obtain ⟨h1, h2⟩ := tokens_concat (baseRef_root _) (rootBase_ok (lead ++ ks.render ++ R)) hl hk hR rfl
  refine ⟨h1, fun h0 => ?_⟩
  obtain ⟨r, c1, c2, t1, t2⟩ := h2 h0
  have t1 : (docTokens (lead ++ ks.render ++ R)).1 = (ks.evs ++ r).map tokOf := t1
  have t2 : (docTokens R).1 = r.map tokOf := t2
  have h1 : (docTokens (lead ++ ks.render ++ R)).2 = (docTokens R).2 := h1
  have h0 : (docTokens R).2 = false := h0
  constructor
  · unfold outcome
    rw [h1, h0, t1, t2, Copy.srcs_nests ks hk 0 r (by omega), forest_concat hk c1 c2]
    split <;> rfl
  · rw [t1, t2, tokenForms_evs, tokenForms_evs, evForms_append]

/-- A clean source in front of any HTML string. -/
theorem frag_concat (answer : Nat → Bool) {lead : Str} {ks : Srcs} {R : Str} (hl : Blank lead) (hk : ks.Clean) (hd : ks.depth ≤ 256)
    (hR : ks.endsInText = true → Stop R) :
    (fragTokens answer (lead ++ ks.render ++ R)).2 = (fragTokens (fun i => answer ((lead ++ ks.render).length + i)) R).2 ∧
    ((fragTokens (fun i => answer ((lead ++ ks.render).length + i)) R).2 = false →
      fragOutcome answer (lead ++ ks.render ++ R) = (fragOutcome (fun i => answer ((lead ++ ks.render).length + i)) R).after ks.trees ∧
      tokenForms (fragTokens answer (lead ++ ks.render ++ R)).1 =
        evForms ks.evs ++ tokenForms (fragTokens (fun i => answer ((lead ++ ks.render).length + i)) R).1) := by
  obtain ⟨h1, h2⟩ := tokens_concat (baseRef_frag (junk := fun i => .ok (answer i)) (fun _ => rfl) _)
    (fragBase_ok (fun i => .ok (answer i)) (lead ++ ks.render ++ R)) hl hk hR rfl
  have hb := baseRef_frag (junk := fun i => .ok (answer ((lead ++ ks.render).length + i))) (answer := fun i => answer ((lead ++ ks.render).length + i))
    (fun _ => rfl) R
  have hb2 : BaseRef (fragBase (fun i => .ok (answer ((lead ++ ks.render).length + i))) R) R
      (fun r => answer ((lead ++ ks.render ++ R).length - r.length)) := by
    intro i r h
    have := hb i r h
    dsimp only at this ⊢
    rw [this]
    have hle : (60 :: r).length ≤ R.length := by
      rw [← h]; simp
    rw [show (lead ++ ks.render).length + (R.length - (60 :: r).length) = (lead ++ ks.render ++ R).length - (60 :: r).length by
      rw [List.length_append (as := lead ++ ks.render)]; omega]
  have e : tokens (fun r => answer ((lead ++ ks.render ++ R).length - r.length)) (R.length + 1) R [] =
      fragTokens (fun i => answer ((lead ++ ks.render).length + i)) R := tokens_congr hb2 hb
  rw [e] at h1 h2
  refine ⟨h1, fun h0 => ?_⟩
  obtain ⟨r, c1, c2, t1, t2⟩ := h2 h0
  have t1 : (fragTokens answer (lead ++ ks.render ++ R)).1 = (ks.evs ++ r).map tokOf := t1
  have h1 : (fragTokens answer (lead ++ ks.render ++ R)).2 = _ := h1
  constructor
  · unfold fragOutcome
    rw [h1, h0, t1, t2, Copy.srcs_nests ks hk 0 r (by omega), forest_concat hk c1 c2]
    split <;> rfl
  · rw [t1, t2, tokenForms_evs, tokenForms_evs, evForms_append]

/-! ## On the page -/

mutual
theorem within_within (p : Nat) (f g : List PTree → List PTree) : ∀ t : PTree, (t.within p g).within p f = t.within p fun ks => f (g ks)
  | .node n l ks => by
    simp only [PTree.within]
    by_cases h : n = p
    · simp [h]
    · simp only [if_neg h, withinAll_withinAll p f g ks]
theorem withinAll_withinAll (p : Nat) (f g : List PTree → List PTree) : ∀ ts : List PTree, withinAll p f (withinAll p g ts) = withinAll p (fun ks => f (g ks)) ts
  | [] => rfl
  | t :: ts => by simp only [withinAll, within_within p f g t, withinAll_withinAll p f g ts]
end

theorem between_right (a b : List PTree) : between a b [] = (mergeLeft a b).1 ++ (mergeLeft a b).2 := by
  unfold between mergeRight
  split
  · rename_i h; cases h
  · simp

theorem mergeLeft_not {a b : List PTree} (h : ¬((a.getLast?.any PTree.isText) = true ∧ (b.head?.any PTree.isText) = true)) :
    mergeLeft a b = (a, b) := by
  unfold mergeLeft
  split
  · rename_i h1
    exact absurd ⟨by simp [h1, PTree.isText, Label.isText], by simp [PTree.isText, Label.isText]⟩ h
  · rfl

theorem between_twice {ks A B : List PTree} (hA : A ≠ []) (h : ¬((A.getLast?.any PTree.isText) = true ∧ (B.head?.any PTree.isText) = true)) :
    between (between ks A []) B [] = between ks (A ++ B) [] := by
  rw [between_right ks A, between_right ks (A ++ B), between_right]
  by_cases hm : (ks.getLast?.any PTree.isText) = true ∧ (A.head?.any PTree.isText) = true
  · obtain ⟨m1, m2⟩ := hm
    cases A with
    | nil => exact absurd rfl hA
    | cons t A =>
      obtain ⟨k, l, js⟩ := t
      cases l with
      | root => cases m2
      | elem _ _ _ => cases m2
      | text b =>
        cases hk : ks.getLast? with
        | none => rw [hk] at m1; cases m1
        | some u =>
          obtain ⟨k', l', js'⟩ := u
          rw [hk] at m1
          cases l' with
          | root => cases m1
          | elem _ _ _ => cases m1
          | text a =>
            have e1 : mergeLeft ks (.node k (.text b) js :: A) = (ks.dropLast ++ [.node k' (.text (a ++ b!" " ++ b)) js'], A) := by
              unfold mergeLeft; rw [hk]
            have e2 : mergeLeft ks (.node k (.text b) js :: A ++ B) = (ks.dropLast ++ [.node k' (.text (a ++ b!" " ++ b)) js'], A ++ B) := by
              unfold mergeLeft; rw [hk]; rfl
            rw [e1, e2, mergeLeft_not]
            · simp
            · rintro ⟨g1, g2⟩
              refine h ⟨?_, g2⟩
              cases A with
              | nil => simp [PTree.isText, Label.isText]
              | cons x A =>
                rw [List.getLast?_append_of_ne_nil _ (by simp)] at g1
                rw [List.getLast?_cons_cons]; exact g1
  · rw [mergeLeft_not hm, mergeLeft_not (a := ks) (b := A ++ B) (by
      rw [List.head?_append_of_ne_nil _ hA]; exact hm)]
    rw [mergeLeft_not]
    · simp
    · rintro ⟨g1, g2⟩
      rw [List.getLast?_append_of_ne_nil _ hA] at g1
      exact h ⟨g1, g2⟩

end Flo.Cat
