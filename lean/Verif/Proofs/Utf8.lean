import Verif.Spec.Utf8
import Verif.Proofs.RefTag
import Verif.Proofs.RefLex
import Mathlib.Data.List.TakeWhile
/-!
# Splitting UTF-8 at ASCII characters
-/
namespace Flo
open Spec

theorem Spec.Utf8Char.cont {c : Str} (h : Utf8Char c) : ∃ a r, c = a :: r ∧ (∀ x ∈ r, 0x80 ≤ x) ∧ (a < 0x80 → r = []) := by
  cases h with
  | one h => exact ⟨_, _, rfl, by simp, fun _ => rfl⟩
  | two h1 h2 h3 =>
    refine ⟨_, _, rfl, by simpa using h3.1, fun h => ?_⟩
    exact absurd (UInt8.lt_of_le_of_lt h1 h) (by decide)
  | three h1 h2 _ _ h3 h4 =>
    refine ⟨_, _, rfl, by simpa using ⟨h3.1, h4.1⟩, fun h => ?_⟩
    exact absurd (UInt8.lt_of_le_of_lt h1 h) (by decide)
  | four h1 h2 _ _ h3 h4 h5 =>
    refine ⟨_, _, rfl, by simpa using ⟨h3.1, h4.1, h5.1⟩, fun h => ?_⟩
    exact absurd (UInt8.lt_of_le_of_lt h1 h) (by decide)

theorem Spec.Utf8.append {a b : Str} (ha : Utf8 a) (hb : Utf8 b) : Utf8 (a ++ b) := by
  induction ha with
  | nil => exact hb
  | cons hc _ ih => rw [List.append_assoc]; exact .cons hc ih

theorem Spec.Utf8.ascii {x : UInt8} (h : x < 0x80) : Utf8 [x] := Utf8.cons (.one h) .nil

theorem Spec.Utf8.cut {a b : Str} {x : UInt8} (h : Utf8 (a ++ x :: b)) (hx : x < 0x80) : Utf8 a ∧ Utf8 b := by
  generalize e : a ++ x :: b = s at h
  induction h generalizing a with
  | nil => simp at e
  | @cons c s hc hs ih =>
    obtain ⟨y, r, rfl, hr, hy⟩ := Utf8Char.cont hc
    cases a with
    | nil =>
      simp only [List.nil_append, List.cons_append, List.cons.injEq] at e
      obtain ⟨rfl, rfl⟩ := e
      rw [hy hx]
      exact ⟨.nil, hs⟩
    | cons z a =>
      simp only [List.cons_append, List.cons.injEq] at e
      obtain ⟨rfl, e⟩ := e
      rcases List.append_eq_append_iff.1 e with ⟨u, rfl, h2⟩ | ⟨u, rfl, h2⟩
      · cases u with
        | nil =>
          simp only [List.append_nil] at *
          obtain ⟨_, h3⟩ := ih (a := []) h2
          exact ⟨by simpa using Utf8.cons hc .nil, h3⟩
        | cons w u =>
          simp only [List.cons_append, List.cons.injEq] at h2
          obtain ⟨rfl, _⟩ := h2
          exact absurd (UInt8.lt_of_lt_of_le hx (hr x (by simp))) (by simp)
      · obtain ⟨h3, h4⟩ := ih (a := u) h2.symm
        exact ⟨by simpa using Utf8.cons hc h3, h4⟩

theorem Spec.Utf8.tail {x : UInt8} {b : Str} (h : Utf8 (x :: b)) (hx : x < 0x80) : Utf8 b := (Utf8.cut (a := []) h hx).2

theorem Spec.Utf8.cons_ascii {x : UInt8} {b : Str} (hx : x < 0x80) (h : Utf8 b) : Utf8 (x :: b) := (Utf8.ascii hx).append h

/-- Behind a string of ASCII characters. -/
theorem Spec.Utf8.behind {a m r : Str} (hm : ∀ x ∈ m, x < 0x80) (hne : m ≠ []) (h : Utf8 (a ++ (m ++ r))) : Utf8 a ∧ Utf8 r := by
  obtain ⟨m', x, rfl⟩ : ∃ m' x, m = m' ++ [x] := ⟨m.dropLast, m.getLast hne, (List.dropLast_append_getLast hne).symm⟩
  have h1 : Utf8 ((a ++ m') ++ x :: r) := by simpa using h
  refine ⟨?_, (h1.cut (hm x (by simp))).2⟩
  cases m' with
  | nil => simpa using (h1.cut (hm x (by simp))).1
  | cons y m' => exact (Utf8.cut (b := m' ++ x :: r) (by simpa using h) (hm y (by simp))).1

theorem Spec.Utf8.whole {a r : Str} {p : UInt8 → Bool} (hp : ∀ c, p c = false → c < 0x80) (h : Utf8 (a ++ r)) :
    Utf8 (a ++ r.takeWhile p) ∧ Utf8 (r.dropWhile p) := by
  have e := List.takeWhile_append_dropWhile (p := p) (l := r)
  cases hd : r.dropWhile p with
  | nil => rw [hd, List.append_nil] at e; rw [e]; exact ⟨h, .nil⟩
  | cons x b =>
    have hx : p x = false := by
      have := List.head?_dropWhile_not p r
      rw [hd] at this; simpa using this
    rw [← e, hd, ← List.append_assoc] at h
    obtain ⟨h1, h2⟩ := h.cut (hp x hx)
    exact ⟨h1, .cons_ascii (hp x hx) h2⟩

theorem blank_ascii {c : UInt8} (h : blank c = true) : c < 0x80 := by
  simp only [blank, Bool.or_eq_true, beq_iff_eq] at h
  rcases h with ((rfl | rfl) | rfl) | rfl <;> decide

theorem Spec.Utf8.skipBlank {r : Str} (h : Utf8 r) : Utf8 (skipBlank r) := by
  induction r with
  | nil => exact h
  | cons c r ih =>
    unfold Spec.skipBlank
    rw [List.dropWhile_cons]
    split
    · rename_i hb; exact ih (h.tail (blank_ascii hb))
    · exact h

theorem past_spec {m : Str} (hm : ∀ x ∈ m, x < 0x80) (hne : m ≠ []) : ∀ (r a : Str), Utf8 (a ++ r) → Utf8 (past m r) := by
  intro r
  induction r with
  | nil => intro a _; exact .nil
  | cons c r ih =>
    intro a h
    unfold past
    split
    · rename_i hp
      obtain ⟨t, ht⟩ := List.isPrefixOf_iff_prefix.1 hp
      rw [← ht, List.drop_left]
      rw [← ht] at h
      exact (h.behind hm hne).2
    · exact ih (a ++ [c]) (by simpa using h)

theorem past_suffix (m : Str) : ∀ r : Str, past m r <:+ r := by
  intro r
  induction r with
  | nil => exact List.suffix_refl _
  | cons c r ih =>
    unfold past
    split
    · exact List.drop_suffix _ _
    · exact ih.trans (List.suffix_cons _ _)

theorem Spec.Utf8.pastComment {r a : Str} (h : Utf8 (a ++ r)) : Utf8 (pastComment r) :=
  past_spec (by decide) (by decide) _ (a ++ r.take 2) (by rwa [List.append_assoc, List.take_append_drop])

theorem pastComment_suffix (r : Str) : pastComment r <:+ r := (past_suffix _ _).trans (List.drop_suffix _ _)

/-! ## Words and texts -/

theorem Spec.Utf8.wordsFrom : ∀ (t cur : Str), Utf8 (cur ++ t) → ∀ w ∈ wordsFrom cur t, Utf8 w := by
  intro t
  induction t with
  | nil =>
    intro cur h w hw
    simp only [Spec.wordsFrom] at hw
    split at hw
    · cases hw
    · simp at hw; subst hw; simpa using h
  | cons c t ih =>
    intro cur h w hw
    simp only [Spec.wordsFrom] at hw
    split at hw
    · rename_i hc
      have hx : c < 0x80 := by rcases hc with rfl | rfl | rfl | rfl <;> decide
      obtain ⟨h1, h2⟩ := h.cut hx
      split at hw
      · exact ih [] h2 w hw
      · rcases List.mem_cons.1 hw with rfl | hw
        · exact h1
        · exact ih [] h2 w hw
    · exact ih (cur ++ [c]) (by simpa using h) w hw

theorem Spec.Utf8.unwords : ∀ (ws : List Str), (∀ w ∈ ws, Utf8 w) → Utf8 (unwords ws)
  | [], _ => .nil
  | [w], h => by
    have := h w (by simp)
    simpa [Spec.unwords, List.intercalate] using this
  | w :: v :: ws, h => by
    have ih := Utf8.unwords (v :: ws) (fun x hx => h x (List.mem_cons_of_mem _ hx))
    have : Spec.unwords (w :: v :: ws) = w ++ 32 :: Spec.unwords (v :: ws) := by
      simp [Spec.unwords, List.intercalate, List.intersperse]
    rw [this]
    exact (h w (by simp)).append (.cons_ascii (by decide) ih)

theorem Spec.Utf8.textValue {r t : Str} (h : Utf8 t) : Utf8 (textValue r t) := by
  have := Utf8.unwords (words t) (Utf8.wordsFrom t [] h)
  unfold Spec.textValue
  split
  · exact .cons_ascii (by decide) this
  · exact this

theorem Spec.Utf8.textPart : ∀ (f : Nat) (r a : Str), r.length < f → Utf8 (a ++ r) →
    Utf8 (a ++ (textPart f r).1) ∧ Utf8 (textPart f r).2 ∧ (textPart f r).2 <:+ r := by
  intro f
  induction f with
  | zero => intro r a h; omega
  | succ f ih =>
    intro r a hl h
    cases r with
    | nil => exact ⟨by simpa [Spec.textPart] using h, .nil, List.suffix_refl _⟩
    | cons c r =>
      simp only [Spec.textPart]
      split
      · rename_i hc
        subst hc
        obtain ⟨h1, h2⟩ := h.cut (by decide)
        split
        · rename_i hk
          have hl' := pastComment_len hk
          obtain ⟨g1, g2, g3⟩ := ih (Spec.pastComment (60 :: r)) [] (by simp only [List.length_cons] at *; omega) (Utf8.pastComment (a := []) (.cons_ascii (by decide) h2))
          exact ⟨h1.append (.cons_ascii (by decide) g1), g2, g3.trans (pastComment_suffix _)⟩
        · exact ⟨by simpa using h1, .cons_ascii (by decide) h2, List.suffix_refl _⟩
      · obtain ⟨g1, g2, g3⟩ := ih r (a ++ [c]) (by simp only [List.length_cons] at hl; omega) (by simpa using h)
        exact ⟨by simpa using g1, g2, g3.trans (List.suffix_cons _ _)⟩

/-! ## Tags -/

theorem Spec.AsciiEnd.suffix {r s : Str} (h : AsciiEnd s) (hr : r <:+ s) : AsciiEnd r := by
  obtain ⟨a, rfl⟩ := hr
  intro c hc
  exact h c (by rw [List.getLast?_append, hc]; rfl)

theorem Spec.Utf8.dropLast {r : Str} (h : Utf8 r) (he : AsciiEnd r) : Utf8 r.dropLast := by
  cases hl : r.getLast? with
  | none => rw [List.getLast?_eq_none_iff] at hl; subst hl; exact .nil
  | some c =>
    have hc := he c hl
    obtain ⟨a, rfl⟩ := List.getLast?_eq_some_iff.1 hl
    rw [List.dropLast_concat]
    exact (h.cut hc).1

/-- What is left: UTF-8, and the end of the input. -/
structure Rest (s r : Str) : Prop where
  utf8 : Utf8 r
  suffix : r <:+ s

/-- What holds of all strings that are read: it holds of strings in UTF-8, and of what remains of a value that is not closed. -/
structure Spec.Read (s : Str) (P : Str → Prop) : Prop where
  utf8 : ∀ x, Utf8 x → P x
  cut : ∀ q r, q = 34 ∨ q = 39 → q :: r <:+ s → Utf8 r → q ∉ r → P r.dropLast

theorem word_utf8 {s r : Str} {P : Str → Prop} (hs : Read s P) (h : Rest s r) : ∀ x, word r = some x → P x.1 ∧ Rest s x.2 := by
  intro x hx
  cases r with
  | nil => simp only [word] at hx; cases hx; exact ⟨hs.utf8 _ .nil, h⟩
  | cons q r =>
    simp only [word] at hx
    split at hx
    · rename_i hq
      have hq' : q < 0x80 := by rcases hq with rfl | rfl <;> decide
      have hr : Rest s r := ⟨h.utf8.tail hq', (List.suffix_cons _ _).trans h.suffix⟩
      split at hx
      · cases hx
      · have hw := Utf8.whole (a := []) (r := r) (p := (· != q)) (by intro c hc; simp at hc; subst hc; exact hq') hr.utf8
        split at hx
        · rename_i hd
          cases hx
          refine ⟨hs.cut q r hq h.suffix hr.utf8 ?_, .nil, List.nil_suffix⟩
          intro hm
          have := List.dropWhile_eq_nil_iff.1 hd q hm
          simp at this
        · rename_i y r' hd
          cases hx
          refine ⟨hs.utf8 _ hw.1, ?_, ?_⟩
          · rw [hd] at hw
            have hy : y = q := by
              have := List.head?_dropWhile_not (· != q) r
              rw [hd] at this; simpa using this
            subst hy
            exact hw.2.tail hq'
          · refine (List.suffix_cons y _).trans ?_
            rw [← hd]
            exact (List.dropWhile_suffix _).trans hr.suffix
    · cases hx
      have hw := Utf8.whole (a := []) (r := q :: r) (p := fun c => !(blank c || c == 61 || c == 62)) (by
        intro c hc
        simp only [Bool.not_eq_false', Bool.or_eq_true, beq_iff_eq] at hc
        rcases hc with (hc | rfl) | rfl
        · exact blank_ascii hc
        · decide
        · decide) h.utf8
      exact ⟨hs.utf8 _ hw.1, hw.2, (List.dropWhile_suffix _).trans h.suffix⟩

theorem skipBlank_rest {s r : Str} (h : Rest s r) : Rest s (skipBlank r) := ⟨h.utf8.skipBlank, (List.dropWhile_suffix _).trans h.suffix⟩

theorem Rest.tail {s r : Str} {c : UInt8} (h : Rest s (c :: r)) (hc : c < 0x80) : Rest s r :=
  ⟨h.utf8.tail hc, (List.suffix_cons _ _).trans h.suffix⟩

def Spec.AttrRead.Has (P : Str → Prop) : AttrRead → Prop
  | .pair k v => P k ∧ P v
  | .flag k => P k

theorem attributes_utf8 {s : Str} {P : Str → Prop} (hs : Read s P) : ∀ (f : Nat) (r : Str) (content : Bool), Rest s r → ∀ x, attributes f r content = some x →
    (∀ a ∈ x.1, AttrRead.Has P a) ∧ Rest s x.2.2 := by
  intro f
  induction f with
  | zero => intro r content h x hx; simp only [attributes] at hx; cases hx; exact ⟨by simp, h⟩
  | succ f ih =>
    intro r content h x hx
    have hr := skipBlank_rest h
    simp only [attributes] at hx
    split at hx
    · cases hx; exact ⟨by simp, .nil, List.nil_suffix⟩
    · rename_i c r' he
      rw [he] at hr
      split at hx
      · rename_i hc; subst hc; cases hx; exact ⟨by simp, hr.tail (by decide)⟩
      · split at hx
        · rename_i hc; subst hc; exact ih _ _ (hr.tail (by decide)) x hx
        · split at hx
          · cases hx
          · rename_i key r1 hw
            obtain ⟨hk, h1⟩ := word_utf8 hs hr _ hw
            dsimp only at hk h1
            split at hx
            · rename_i h61
              cases r1 with
              | nil => cases h61
              | cons c1 r1 =>
                simp only [List.head?_cons, Option.some.injEq] at h61
                subst h61
                have h1' := h1.tail (by decide)
                split at hx
                · cases hx
                · rename_i value r2 hw2
                  obtain ⟨hv, h2⟩ := word_utf8 hs h1' _ hw2
                  dsimp only at hv h2
                  obtain ⟨y, hy, rfl⟩ := Option.map_eq_some_iff.1 hx
                  obtain ⟨g1, g2⟩ := ih _ _ h2 y hy
                  exact ⟨by intro a ha; rcases List.mem_cons.1 ha with rfl | ha; exacts [⟨hk, hv⟩, g1 a ha], g2⟩
            · obtain ⟨y, hy, rfl⟩ := Option.map_eq_some_iff.1 hx
              obtain ⟨g1, g2⟩ := ih _ _ h1 y hy
              exact ⟨by intro a ha; rcases List.mem_cons.1 ha with rfl | ha; exacts [hk, g1 a ha], g2⟩

theorem nameByte_ascii (c : UInt8) (h : nameByte c = false) : c < 0x80 := by
  simp only [nameByte, Bool.not_eq_false', Bool.or_eq_true, beq_iff_eq] at h
  rcases h with h | rfl
  · exact blank_ascii h
  · decide

theorem startTag_utf8 {s r : Str} {P : Str → Prop} (hs : Read s P) (h : Rest s r) : ∀ x, startTag r = some x →
    P x.1 ∧ (∀ a ∈ x.2.1, AttrRead.Has P a) ∧ Rest s x.2.2.2 := by
  intro x hx
  have hw := Utf8.whole (a := []) (r := r) nameByte_ascii h.utf8
  obtain ⟨y, hy, rfl⟩ := Option.map_eq_some_iff.1 hx
  obtain ⟨g1, g2⟩ := attributes_utf8 hs _ _ _ ⟨hw.2, (List.dropWhile_suffix _).trans h.suffix⟩ y hy
  refine ⟨?_, g1, g2⟩
  refine hs.utf8 _ ?_
  show Utf8 (startName r)
  unfold startName
  split
  · rename_i hsl
    simp only [slashed, Bool.and_eq_true, beq_iff_eq] at hsl
    exact Utf8.dropLast hw.1 (by intro c hc; rw [hsl.1] at hc; cases hc; decide)
  · exact hw.1

/-! ## Tokens and trees -/

def Spec.Token.Has (P : Str → Prop) : Token → Prop
  | .text t => P t
  | .start tag as _ => P tag ∧ ∀ a ∈ as, AttrRead.Has P a
  | .close => True

theorem tokens_utf8 {stray : Str → Bool} {s : Str} {P : Str → Prop} (hs : Read s P) : ∀ (f : Nat) (r : Str) (names : List Str), Rest s r →
    ∀ t ∈ (tokens stray f r names).1, Token.Has P t := by
  intro f
  induction f with
  | zero => intro r names _ t ht; simp [tokens] at ht
  | succ f ih =>
    intro r names h t ht
    have hr := skipBlank_rest h
    simp only [tokens] at ht
    split at ht
    · simp at ht
    · rename_i c r' he
      rw [he] at hr
      have hpast : Rest s (past b!">" (c :: r')) := ⟨past_spec (by decide) (by decide) _ [] hr.utf8, (past_suffix _ _).trans hr.suffix⟩
      split at ht
      · exact ih _ _ ⟨Utf8.pastComment (a := []) hr.utf8, (pastComment_suffix _).trans hr.suffix⟩ t ht
      · split at ht
        · split at ht
          · exact ih _ _ hpast t ht
          · rcases List.mem_cons.1 ht with rfl | ht
            · trivial
            · exact ih _ _ hpast t ht
        · split at ht
          · rename_i hst
            have hc : c = 60 := by
              cases r' with
              | nil => simp [atStart] at hst
              | cons => simp [atStart] at hst; exact hst.1
            subst hc
            split at ht
            · simp at ht
            · rename_i tag attrs content left hw
              obtain ⟨g1, g2, g3⟩ := startTag_utf8 hs (hr.tail (by decide)) _ hw
              rcases List.mem_cons.1 ht with rfl | ht
              · exact ⟨g1, g2⟩
              · exact ih _ _ g3 t ht
          · have hq : Rest s (if c = 60 then r' else c :: r') := by
              split
              · rename_i hc; subst hc; exact hr.tail (by decide)
              · exact hr
            generalize (if c = 60 then r' else c :: r') = q at ht hq
            obtain ⟨g1, g2, g3⟩ := Utf8.textPart (q.length + 1) q [] (by omega) hq.utf8
            rcases List.mem_cons.1 ht with rfl | ht
            · exact hs.utf8 _ (Utf8.textValue g1)
            · exact ih _ _ ⟨g2, g3.trans hq.suffix⟩ t ht

theorem attrs_utf8 {P : Str → Prop} {as : List AttrRead} (h : ∀ a ∈ as, AttrRead.Has P a) :
    (∀ p ∈ as.filterMap AttrRead.pair?, P p.1 ∧ P p.2) ∧ ∀ b ∈ as.filterMap AttrRead.flag?, P b := by
  constructor
  · intro p hp
    obtain ⟨a, ha, e⟩ := List.mem_filterMap.1 hp
    cases a <;> simp only [AttrRead.pair?, Option.some.injEq, reduceCtorEq] at e
    subst e
    exact h _ ha
  · intro p hp
    obtain ⟨a, ha, e⟩ := List.mem_filterMap.1 hp
    cases a <;> simp only [AttrRead.flag?, Option.some.injEq, reduceCtorEq] at e
    subst e
    exact h _ ha

theorem elem_utf8 {P : Str → Prop} {tag : Str} {ps : List (Str × Str)} {bs : List Str} {ts : List Tree} :
    (∀ x ∈ (Tree.elem tag ps bs ts).strings, P x) ↔
      P tag ∧ (∀ p ∈ ps, P p.1 ∧ P p.2) ∧ (∀ b ∈ bs, P b) ∧ ∀ x ∈ stringsAll ts, P x := by
  simp only [Tree.strings, List.cons_append, List.mem_cons, List.mem_append, List.mem_map]
  constructor
  · intro h
    refine ⟨h _ (.inl rfl), fun p hp => ⟨h _ (.inr (.inl (.inl (.inl ⟨p, hp, rfl⟩)))), h _ (.inr (.inl (.inl (.inr ⟨p, hp, rfl⟩))))⟩,
      fun b hb => h _ (.inr (.inl (.inr hb))), fun x hx => h _ (.inr (.inr hx))⟩
  · rintro ⟨h1, h2, h3, h4⟩ x (rfl | ((⟨p, hp, rfl⟩ | ⟨p, hp, rfl⟩) | hb) | hx)
    · exact h1
    · exact (h2 p hp).1
    · exact (h2 p hp).2
    · exact h3 x hb
    · exact h4 x hx

theorem stringsAll_cons {P : Str → Prop} {t : Tree} {ts : List Tree} :
    (∀ x ∈ stringsAll (t :: ts), P x) ↔ (∀ x ∈ t.strings, P x) ∧ ∀ x ∈ stringsAll ts, P x := by
  simp only [stringsAll, List.mem_append]
  exact ⟨fun h => ⟨fun x hx => h x (.inl hx), fun x hx => h x (.inr hx)⟩, fun h x hx => hx.elim (h.1 x) (h.2 x)⟩

theorem treesFrom_utf8 {P : Str → Prop} : ∀ (f : Nat) (ts : List Token), (∀ t ∈ ts, Token.Has P t) →
    (∀ x ∈ stringsAll (treesFrom f ts).1, P x) ∧ ∀ t ∈ (treesFrom f ts).2, Token.Has P t := by
  intro f
  induction f with
  | zero => intro ts h; exact ⟨by simp [treesFrom, stringsAll], h⟩
  | succ f ih =>
    intro ts h
    cases ts with
    | nil => exact ⟨by simp [treesFrom, stringsAll], by simp [treesFrom]⟩
    | cons t ts =>
      have ht := h t (by simp)
      replace h := fun t' ht' => h t' (List.mem_cons_of_mem t ht')
      cases t with
      | close => exact ⟨by simp [treesFrom, stringsAll], h⟩
      | text t =>
        simp only [treesFrom]
        exact ⟨stringsAll_cons.2 ⟨by simpa [Tree.strings, Token.Has] using ht, (ih ts h).1⟩, (ih ts h).2⟩
      | start tag as content =>
        obtain ⟨ha1, ha2⟩ := attrs_utf8 ht.2
        cases content with
        | false =>
          simp only [treesFrom]
          exact ⟨stringsAll_cons.2 ⟨elem_utf8.2 ⟨ht.1, ha1, ha2, by simp [stringsAll]⟩, (ih ts h).1⟩, (ih ts h).2⟩
        | true =>
          simp only [treesFrom]
          exact ⟨stringsAll_cons.2 ⟨elem_utf8.2 ⟨ht.1, ha1, ha2, (ih ts h).1⟩, (ih _ (ih ts h).2).1⟩, (ih _ (ih ts h).2).2⟩

theorem trees_read {stray : Str → Bool} {s : Str} (h : Utf8 s) {P : Str → Prop} (hs : Read s P) (f : Nat) (names : List Str) :
    ∀ x ∈ stringsAll (treesOf (tokens stray f s names).1), P x :=
  (treesFrom_utf8 _ _ (tokens_utf8 hs f s names ⟨h, List.suffix_refl _⟩)).1

theorem trees_utf8 {stray : Str → Bool} {s : Str} (h : Utf8 s) (hs : AsciiEnd s) (f : Nat) (names : List Str) :
    ∀ x ∈ stringsAll (treesOf (tokens stray f s names).1), Utf8 x :=
  trees_read h ⟨fun _ h => h, fun _ _ _ hr hu _ => hu.dropLast ((hs.suffix hr).suffix (List.suffix_cons _ _))⟩ f names

theorem trees_cut {stray : Str → Bool} {s : Str} (h : Utf8 s) (f : Nat) (names : List Str) :
    ∀ x ∈ stringsAll (treesOf (tokens stray f s names).1), Utf8 x ∨ HalfCut s x := by
  refine trees_read h ⟨fun _ h => .inl h, fun q r hq hr hu hn => ?_⟩ f names
  cases hl : r.getLast? with
  | none => rw [List.getLast?_eq_none_iff] at hl; subst hl; exact .inl .nil
  | some c =>
    obtain ⟨a, rfl⟩ := List.getLast?_eq_some_iff.1 hl
    rw [List.dropLast_concat]
    by_cases hc : c < 0x80
    · exact .inl (hu.cut hc).1
    · obtain ⟨b, hb⟩ := hr
      simp only [List.mem_append, not_or] at hn
      exact .inr ⟨b, q, c, by rw [← hb], hq, hn.1, hc⟩

/-! ## Printing -/

theorem Spec.Utf8.flatMap {α : Type} {f : α → Str} : ∀ {l : List α}, (∀ x ∈ l, Utf8 (f x)) → Utf8 (l.flatMap f)
  | [], _ => .nil
  | a :: l, h => by
    rw [List.flatMap_cons]
    exact (h a (by simp)).append (Utf8.flatMap fun x hx => h x (List.mem_cons_of_mem _ hx))

theorem Spec.Utf8.ofAscii : ∀ {m : Str}, (∀ x ∈ m, x < 0x80) → Utf8 m
  | [], _ => .nil
  | c :: m, h => .cons_ascii (h c (by simp)) (Utf8.ofAscii fun x hx => h x (List.mem_cons_of_mem _ hx))

mutual
theorem print_utf8 (paired : Str → Bool) : ∀ t : Tree, (∀ x ∈ t.strings, Utf8 x) → Utf8 (t.print paired)
  | .text raw, h => h raw (by simp [Tree.strings])
  | .elem tag ps bs ts, h => by
    obtain ⟨h1, h2, h3, h4⟩ := elem_utf8.1 h
    simp only [Tree.print]
    have e1 : Utf8 (boolsText bs) := Utf8.flatMap fun b hb => (Utf8.ofAscii (by decide)).append (h3 b hb)
    have e2 : Utf8 (pairsText ps) := Utf8.flatMap fun p hp =>
      ((((Utf8.ofAscii (by decide)).append (h2 p hp).1).append (Utf8.ofAscii (by decide))).append (h2 p hp).2).append (Utf8.ofAscii (by decide))
    refine ((((Utf8.ofAscii (by decide)).append h1).append e1).append e2).append ?_
    split
    · exact (((((Utf8.ofAscii (by decide)).append (printAll_utf8 paired ts h4)).append (Utf8.ofAscii (by decide))).append h1).append (Utf8.ofAscii (by decide)))
    · unfold closing
      split <;> exact Utf8.ofAscii (by decide)
theorem printAll_utf8 (paired : Str → Bool) : ∀ ts : List Tree, (∀ x ∈ stringsAll ts, Utf8 x) → Utf8 (printAll paired ts)
  | [], _ => .nil
  | t :: ts, h => by
    obtain ⟨h1, h2⟩ := stringsAll_cons.1 h
    simp only [printAll]
    exact (print_utf8 paired t h1).append (printAll_utf8 paired ts h2)
end

end Flo
