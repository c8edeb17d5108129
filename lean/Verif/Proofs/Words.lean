import Verif.Spec.Source
import Mathlib.Data.List.Basic
/-!
# A text without markup as a clean source (C06, C07)
-/
namespace Flo
open Spec

/-- A word: not empty, no white space, no `<`. -/
def IsWord (w : Str) : Prop := w ≠ [] ∧ ∀ c ∈ w, c ≠ 60 ∧ c ≠ 9 ∧ c ≠ 10 ∧ c ≠ 13 ∧ c ≠ 32

theorem IsWord.stretch {w : Str} (h : IsWord w) : Stretch w := by
  obtain ⟨h1, h⟩ := h
  refine ⟨⟨fun c hc => ?_, ?_, ?_⟩, ?_⟩
  · obtain ⟨a, b, c, d, e⟩ := h c hc; exact ⟨a, b, c, d⟩
  · rintro a b rfl; exact (h 32 (by simp)).2.2.2.2 rfl
  · rintro a rfl; exact (h 32 (by simp)).2.2.2.2 rfl
  · cases w with
    | nil => exact absurd rfl h1
    | cons c r => exact ⟨c, r, rfl, (h c (by simp)).2.2.2.2⟩

/-- Words with white space before each. -/
structure Pieces (ws : List (Str × Str)) (trail : Str) : Prop where
  gaps : ∀ m ∈ ws, Spaces m.1
  seps : ∀ m ∈ ws.drop 1, m.1 ≠ []
  words : ∀ m ∈ ws, IsWord m.2
  trail : Spaces trail

theorem spaces_cons {c : UInt8} {g : Str} (hc : IsBlankChar c) (h : Spaces g) : Spaces (c :: g) := by
  intro x hx
  rcases List.mem_cons.1 hx with rfl | hx
  · exact hc
  · exact h x hx

theorem blank_spaces {g : Str} (h : Spaces g) : Blank g := by
  induction g with
  | nil => exact .nil
  | cons c g ih => exact .space (h c (by simp)) (ih fun x hx => h x (by simp [hx]))

theorem words_pieces : ∀ (s : Str), (∀ c ∈ s, c ≠ 60) →
    (∃ ws trail, s = stretches ws ++ trail ∧ Pieces ws trail ∧ wordsFrom [] s = ws.map Prod.snd) ∧
    (∀ cur, IsWord cur → ∃ w ws trail, cur ++ s = w ++ stretches ws ++ trail ∧ IsWord w ∧ Pieces ws trail ∧
      (∀ m ∈ ws, m.1 ≠ []) ∧ wordsFrom cur s = w :: ws.map Prod.snd) := by
  intro s
  induction s with
  | nil =>
    intro _
    refine ⟨⟨[], [], rfl, ⟨by simp, by simp, by simp, by simp [Spaces]⟩, rfl⟩, fun cur hc => ?_⟩
    exact ⟨cur, [], [], by simp [stretches], hc, ⟨by simp, by simp, by simp, by simp [Spaces]⟩, by simp, by
      simp [wordsFrom, hc.1]⟩
  | cons c s ih =>
    intro hs
    obtain ⟨⟨ws, trail, e, hp, hw⟩, ihB⟩ := ih (fun x hx => hs x (by simp [hx]))
    by_cases hb : c = 32 ∨ c = 9 ∨ c = 10 ∨ c = 13
    · have hbc : IsBlankChar c := hb
      cases ws with
      | nil =>
        simp only [stretches, List.flatMap_nil, List.nil_append] at e
        have ht := spaces_cons hbc hp.trail
        refine ⟨⟨[], c :: trail, by simp [stretches, e], ⟨by simp, by simp, by simp, ht⟩, by
          simpa [wordsFrom, hb] using hw⟩, fun cur hc => ?_⟩
        exact ⟨cur, [], c :: trail, by simp [stretches, e], hc, ⟨by simp, by simp, by simp, ht⟩, by simp, by
          simpa [wordsFrom, hb, hc.1] using hw⟩
      | cons m r =>
        obtain ⟨g, w⟩ := m
        have hP : Pieces ((c :: g, w) :: r) trail := by
          refine ⟨?_, hp.seps, ?_, hp.trail⟩
          · intro m hm
            rcases List.mem_cons.1 hm with rfl | hm
            · exact spaces_cons hbc (hp.gaps (g, w) (by simp))
            · exact hp.gaps m (by simp [hm])
          · intro m hm
            rcases List.mem_cons.1 hm with rfl | hm
            · exact hp.words (g, w) (by simp)
            · exact hp.words m (by simp [hm])
        refine ⟨⟨(c :: g, w) :: r, trail, by simp [stretches, e], hP, by simpa [wordsFrom, hb] using hw⟩, fun cur hc => ?_⟩
        refine ⟨cur, (c :: g, w) :: r, trail, by simp [stretches, e], hc, hP, ?_, by simpa [wordsFrom, hb, hc.1] using hw⟩
        intro m hm
        rcases List.mem_cons.1 hm with rfl | hm
        · simp
        · exact hp.seps m (by simpa using hm)
    · have hcw : ∀ x ∈ [c], x ≠ 60 ∧ x ≠ 9 ∧ x ≠ 10 ∧ x ≠ 13 ∧ x ≠ 32 := by
        intro x hx
        simp only [List.mem_singleton] at hx
        subst hx
        have := hs x (by simp)
        simp only [not_or] at hb
        exact ⟨this, hb.2.1, hb.2.2.1, hb.2.2.2, hb.1⟩
      constructor
      · obtain ⟨w, ws, trail, e, h1, h2, h3, h4⟩ := ihB [c] ⟨by simp, hcw⟩
        refine ⟨([], w) :: ws, trail, by simpa [stretches] using e, ⟨?_, by simpa using h3, ?_, h2.trail⟩, by
          simpa [wordsFrom, hb] using h4⟩
        · intro m hm
          rcases List.mem_cons.1 hm with rfl | hm
          · simp [Spaces]
          · exact h2.gaps m hm
        · intro m hm
          rcases List.mem_cons.1 hm with rfl | hm
          · exact h1
          · exact h2.words m hm
      · intro cur hc
        obtain ⟨w, ws, trail, e, h1, h2, h3, h4⟩ := ihB (cur ++ [c]) ⟨by simp, fun x hx => by
          rcases List.mem_append.1 hx with hx | hx
          · exact hc.2 x hx
          · exact hcw x hx⟩
        exact ⟨w, ws, trail, by simpa using e, h1, h2, h3, by simpa [wordsFrom, hb] using h4⟩

theorem unwords_cons (w : Str) : ∀ (ms : List (Str × Str)), unwords (w :: ms.map Prod.snd) = w ++ joined ms := by
  intro ms
  induction ms generalizing w with
  | nil => simp [unwords, joined, List.intercalate, List.intersperse]
  | cons m ms ih =>
    have := ih m.2
    unfold unwords at this ⊢
    rw [List.map_cons]
    rw [show List.intercalate [32] (w :: m.2 :: List.map Prod.snd ms) = w ++ [32] ++ List.intercalate [32] (m.2 :: List.map Prod.snd ms) by
      simp [List.intercalate, List.intersperse]]
    rw [this]
    simp [joined]

/-- A text without `<` is the source of one text that holds its words, or of nothing. -/
theorem words_src (raw : Str) (h : ∀ c ∈ raw, c ≠ 60) :
    ∃ lead ks, raw = lead ++ Srcs.render ks ∧ Blank lead ∧ ks.Clean ∧ ks.depth = 0 ∧ ks.trees = wordTrees raw := by
  obtain ⟨⟨ws, trail, e, hp, hw⟩, -⟩ := words_pieces raw h
  cases ws with
  | nil =>
    refine ⟨raw, .nil, by simp [Srcs.render], ?_, trivial, rfl, ?_⟩
    · rw [e]; simpa [stretches] using blank_spaces hp.trail
    · simp [Srcs.trees, wordTrees, words, hw]
  | cons m ms =>
    obtain ⟨g, w⟩ := m
    refine ⟨g, .cons (.text w ms) trail .nil, ?_, blank_spaces (hp.gaps (g, w) (by simp)), ⟨⟨(hp.words (g, w) (by simp)).stretch, ?_⟩,
      blank_spaces hp.trail, trivial, by simp [Srcs.StartsText]⟩, by simp [Srcs.depth, Src.depth], ?_⟩
    · rw [e]; simp [stretches, Srcs.render, Src.render]
    · intro m hm
      exact ⟨blank_spaces (hp.gaps m (by simp [hm])), hp.seps m (by simpa using hm), (hp.words m (by simp [hm])).stretch⟩
    · have : words raw = w :: ms.map Prod.snd := by simpa [words] using hw
      simp only [Srcs.trees, Src.tree, wordTrees, this, unwords_cons]
      simp

end Flo
