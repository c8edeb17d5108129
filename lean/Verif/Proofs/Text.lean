import Verif.Proofs.Scan
import Mathlib.Data.List.Chain
import Verif.Spec.Text
/-!
# Text nodes made by the parser
-/
namespace Flo
open Spec

/-- Not two consecutive spaces. -/
def NoDbl (a b : UInt8) : Prop := ¬(a = cSp ∧ b = cSp)

/-- Normal text in inductive form. -/
structure NText (t : Str) : Prop where
  chars : ∀ c ∈ t, c ≠ cLt ∧ isFormatting c = false
  chain : t.IsChain NoDbl
  last : t.getLast? ≠ some cSp

theorem NText.nil : NText [] := ⟨by simp, by simp, by simp⟩

theorem NText.normal {t : Str} (h : NText t) : NormalText t := by
  refine ⟨fun c hc => ?_, ?_, ?_⟩
  · have := h.chars c hc
    simp [isFormatting] at this
    tauto
  · rintro a b rfl
    have := h.chain
    simp [List.isChain_append, NoDbl] at this
  · rintro a rfl
    exact h.last (by simp)

theorem takeChunk_mem {p : UInt8} {l : Str} {c : UInt8} (h : c ∈ takeChunk p l) :
    c ≠ cLt ∧ isFormatting c = false := by
  induction l generalizing p with
  | nil => simp [takeChunk] at h
  | cons a l ih =>
    simp only [takeChunk] at h
    split at h
    · rename_i hc
      simp [contP] at hc
      rcases List.mem_cons.mp h with rfl | h
      · exact ⟨hc.2, hc.1.1⟩
      · exact ih h
    · simp at h

theorem takeChunk_chain (p : UInt8) (l : Str) : (p :: takeChunk p l).IsChain NoDbl := by
  induction l generalizing p with
  | nil => simp [takeChunk]
  | cons a l ih =>
    simp only [takeChunk]
    split
    · rename_i hc
      simp [contP] at hc
      refine List.IsChain.cons_cons ?_ (ih a)
      rintro ⟨h1, h2⟩
      subst h1; subst h2
      simp at hc
    · simp

theorem takeChunk_head {p c : UInt8} {l : Str} (h1 : isSpace c = false) (h2 : c ≠ cLt) :
    takeChunk p (c :: l) = c :: takeChunk c l := by
  simp [isSpace] at h1
  simp [takeChunk, contP, h1, h2]

theorem trimLast_ntext {t : Str} {p : UInt8} (h1 : ∀ c ∈ t, c ≠ cLt ∧ isFormatting c = false)
    (h2 : (p :: t).IsChain NoDbl) : NText (trimLast t) := by
  have h2' : t.IsChain NoDbl := by
    cases t with
    | nil => simp
    | cons a t => exact (List.isChain_cons_cons.mp h2).2
  unfold trimLast
  split
  · rename_i hl
    have hne : t ≠ [] := by rintro rfl; simp at hl
    have ht : t = t.dropLast ++ [cSp] := by
      have := List.dropLast_append_getLast hne
      rw [List.getLast?_eq_some_getLast hne] at hl
      simp at hl
      rw [hl] at this; exact this.symm
    refine ⟨fun c hc => h1 c (List.mem_of_mem_dropLast hc), ?_, ?_⟩
    · rw [ht] at h2'
      exact (List.isChain_append.mp h2').1
    · intro hl2
      rw [ht] at h2'
      have := (List.isChain_append.mp h2').2.2 cSp hl2 cSp (by simp)
      exact this ⟨rfl, rfl⟩
  · exact ⟨h1, h2', ‹_›⟩

/-- Appending a non-empty normal text that does not start with a space after one space. -/
theorem NText.append {a b : Str} {c : UInt8} (ha : NText a) (hb : NText b) (hc : b.head? = some c)
    (hs : c ≠ cSp) : NText (a ++ [cSp] ++ b) := by
  have hne : b ≠ [] := by rintro rfl; simp at hc
  refine ⟨?_, ?_, ?_⟩
  · intro x hx
    simp only [List.append_assoc, List.mem_append, List.mem_singleton] at hx
    rcases hx with hx | rfl | hx
    · exact ha.chars x hx
    · decide
    · exact hb.chars x hx
  · rw [List.append_assoc, List.isChain_append]
    refine ⟨ha.chain, ?_, ?_⟩
    · rw [List.singleton_append, List.isChain_cons]
      refine ⟨?_, hb.chain⟩
      intro y hy
      rw [hc] at hy; simp at hy; subst hy
      rintro ⟨_, h⟩; exact hs h
    · intro x hx y hy
      rintro ⟨rfl, _⟩
      exact ha.last hx
  · rw [List.getLast?_append_of_ne_nil _ hne]; exact hb.last

theorem trimLast_head {c : UInt8} {t : Str} (h : c ≠ cSp) : (trimLast (c :: t)).head? = some c := by
  unfold trimLast
  split
  · rename_i hl
    cases t with
    | nil => simp at hl; exact absurd hl h
    | cons a t => simp
  · rfl

/-- The condition under which the text loop is entered. -/
def TextStart (s : Str) (idx : Nat) (isAppend : Bool) : Prop :=
  AtTok s idx ∨ (isAppend = false ∧ (idx = 0 ∨ prevAt s idx ≠ cSp))

theorem textStop_post (s tag : Str) (idx : Nat) (ch : UInt8) :
    Post NoUB (fun r => (ch = cLt → r.2 = false → r.1 = true) ∧ (r.1 = true → ch = cLt) ∧
      (r.2 = true → ch = cLt)) (textStop s tag idx ch) := by
  unfold textStop
  split
  · rename_i heq
    have heq : ch = cLt := by simpa using heq
    refine (isCommentTag_post s idx).bindP (fun cmt _ => ?_)
    split
    · exact ⟨fun _ _ => rfl, fun _ => heq, fun _ => heq⟩
    · rename_i hc
      split
      · exact (isCloseTag_post s idx tag).bindP
          (fun _ _ => ⟨fun _ h => by simp at h; simp [h] at hc, fun _ => heq, fun _ => heq⟩)
      · exact ⟨fun _ h => by simp at h; simp [h] at hc, fun _ => heq, fun _ => heq⟩
  · rename_i hc
    exact ⟨fun h => absurd h (by simpa using hc), (fun h => by simp at h), (fun h => by simp at h)⟩

theorem textLoop_post (s tag : Str) : ∀ (f idx : Nat) (raw : Str) (isAppend : Bool),
    0 < f → s.length < f + idx → TextStart s idx isAppend → NText raw → (isAppend = false → raw = []) →
    Post NoUB (fun r => NText r.1 ∧ idx ≤ r.2 ∧ (∀ c, s[idx]? = some c → c ≠ cLt → idx < r.2))
      (textLoop s tag f idx raw isAppend) := by
  intro f
  induction f with
  | zero => intro idx raw isAppend h0; omega
  | succ f ih =>
    intro idx raw isAppend _ hf hst hraw happ
    unfold textLoop
    cases hs : s[idx]? with
    | none => simp [hraw]
    | some ch =>
      have hlt := lt_of_getElem? hs
      have hf0 : 0 < f := by omega
      simp only
      refine (textStop_post s tag idx ch).bindP ?_
      rintro ⟨stop, cmt⟩ ⟨hstop1, hstop2, hstop3⟩
      dsimp only at hstop1 hstop2 hstop3 ⊢
      split
      · simp only [Post.ok]
        refine ⟨hraw, Nat.le_refl _, ?_⟩
        intro c hc hne
        rename_i hst
        exact absurd ((Option.some.inj hc) ▸ hstop2 hst) hne
      · rename_i hns
        split
        · refine (skipComment_post s idx).bindP (fun i hi => ?_)
          have hge := skipSpace_ge s i
          refine (ih (skipSpace s i) raw isAppend hf0 (by omega) (Or.inl (atTok_skipSpace s i)) hraw happ).mono ?_
          rintro ⟨r1, r2⟩ ⟨h1, h2, _⟩
          exact ⟨h1, by simp at h2 ⊢; omega, fun _ _ _ => by simp at h2 ⊢; omega⟩
        · rename_i hnc
          have hch : ch ≠ cLt := by
            intro h
            subst h
            cases cmt with
            | true => simp at hnc
            | false => exact hns (hstop1 rfl rfl)
          have hdrop : s.drop idx = ch :: s.drop (idx + 1) := by
            obtain ⟨hi, rfl⟩ := List.getElem?_eq_some_iff.mp hs
            exact List.drop_eq_getElem_cons hi
          have hcond : takeChunk (prevAt s idx) (s.drop idx) ≠ [] ∨ idx = 0 ∨ prevAt s idx ≠ cSp := by
            rcases hst with h | ⟨_, h⟩
            · left
              rw [hdrop, takeChunk_head (h ch hs) hch]; simp
            · exact Or.inr h
          rw [parseChunk_eq (by omega) hcond]
          simp only [Out.bind_ok]
          have hnt : NText (trimLast (takeChunk (prevAt s idx) (s.drop idx))) :=
            trimLast_ntext (fun c hc => takeChunk_mem hc) (takeChunk_chain _ _)
          generalize hk : takeChunk (prevAt s idx) (s.drop idx) = ck at *
          have hprog : idx < skipSpace s (idx + ck.length) := by
            by_cases hsp : isSpace ch = true
            · by_cases h0 : ck.length = 0
              · rw [h0]; exact skipSpace_gt hs hsp
              · have := skipSpace_ge s (idx + ck.length); omega
            · rw [hdrop, takeChunk_head (by simpa using hsp) hch] at hk
              have := skipSpace_ge s (idx + ck.length)
              have : 0 < ck.length := by rw [← hk]; simp
              omega
          refine (ih _ _ true hf0 (by omega) (Or.inl (atTok_skipSpace s _)) ?_ (by simp)).mono ?_
          · cases isAppend with
            | false => simp [happ rfl]; exact hnt
            | true =>
              have hat : AtTok s idx := by
                rcases hst with h | ⟨h, _⟩
                · exact h
                · cases h
              have hsp := hat ch hs
              have hne : ch ≠ cSp := by rintro rfl; simp [isSpace] at hsp
              rw [hdrop, takeChunk_head hsp hch] at hk
              simp only [if_true]
              exact NText.append hraw hnt (by rw [← hk]; exact trimLast_head hne) hne
          · rintro ⟨r1, r2⟩ ⟨h1, h2, _⟩
            exact ⟨h1, by simp at h2 ⊢; omega, fun _ _ _ => by simp at h2 ⊢; omega⟩

end Flo
