import Verif.Spec.QueryLaws
import Verif.Props.Stale
/-!
# The laws of selectors (C124)
-/
namespace Flo
open Spec
namespace QLaws

theorem cond_bare (d : Dom) (n : Nat) (c : Cond) : c.bare.holds d n ↔ c.holds d n := by cases c <;> rfl
theorem cond_bare_known (d : Dom) (c : Cond) : c.bare.known d ↔ c.known d := by cases c <;> rfl

theorem conds_perm {P : Cond → Prop} (hP : ∀ c, P c.bare ↔ P c) {cs cs' : List Cond} (h : (cs.map Cond.bare).Perm (cs'.map Cond.bare)) :
    (∀ c ∈ cs, P c) → ∀ c ∈ cs', P c := fun hc c hm => by
  have : c.bare ∈ cs.map Cond.bare := h.symm.subset (List.mem_map.mpr ⟨c, hm, rfl⟩)
  obtain ⟨c', h1, h2⟩ := List.mem_map.mp this
  rw [← hP c, ← h2, hP]
  exact hc c' h1

theorem same_symm {c c' : Compound} (h : c.Same c') : c'.Same c := by
  cases h with
  | any => exact .any
  | mk h => exact .mk h.symm

theorem same_finds {pun : Nat → Nat} {d : Dom} {n : Nat} {c c' : Compound} (h : c.Same c') : c.finds pun d n → c'.finds pun d n := by
  cases h with
  | any => exact id
  | mk h => exact fun ⟨a, b, f⟩ => ⟨a, conds_perm (cond_bare d n) h b, f⟩

theorem same_known {d : Dom} {c c' : Compound} (h : c.Same c') : c.known d → c'.known d := by
  cases h with
  | any => exact id
  | mk h => exact fun ⟨a, b, f⟩ => ⟨a, conds_perm (cond_bare_known d) h b, f⟩

theorem same_size {c c' : Compound} (h : c.Same c') : c.size = c'.size := by
  cases h with
  | any => rfl
  | mk h =>
    have := h.length_eq
    rw [List.length_map, List.length_map] at this
    simp only [Compound.size, this]

theorem steps_all {P : Compound → Prop} (hP : ∀ {c c'}, Compound.Same c c' → P c → P c') {r r' : List (Comb × Compound)} (h : StepsWider r r') :
    (∀ c ∈ r.map (·.2), P c) → ∀ c ∈ r'.map (·.2), P c := by
  induction h with
  | nil => exact id
  | cons _ hc _ ih =>
    intro ha c hm
    rw [List.map_cons, List.mem_cons] at hm
    rcases hm with rfl | hm
    · exact hP hc (ha _ (.head _))
    · exact ih (fun c hc => ha c (.tail _ hc)) c hm

theorem part_known {d : Dom} {p p' : Part} (h : p.Wider p') (hk : p.known d) : p'.known d := by
  intro c hc
  rw [Part.compounds, List.mem_cons] at hc
  rcases hc with rfl | hc
  · exact same_known h.1 (hk _ (.head _))
  · exact steps_all same_known h.2 (fun c hc => hk c (.tail _ hc)) c hc

theorem part_small {p p' : Part} (h : p.Wider p') (hk : p.Small) : p'.Small := by
  intro c hc
  rw [Part.compounds, List.mem_cons] at hc
  rcases hc with rfl | hc
  · rw [← same_size h.1]; exact hk _ (.head _)
  · exact steps_all (P := fun c => c.size ≤ 8) (fun h x => by rw [← same_size h]; exact x) h.2 (fun c hc => hk c (.tail _ hc)) c hc

theorem wider_rel {d : Dom} {k k' : CombKind} (h : k.Wider k') {v n : Nat} (hr : k.rel d v n) : k'.rel d v n := by
  cases h with
  | same => exact hr
  | child => exact .single hr
  | adjacent =>
    obtain ⟨p, l₁, l₂, e⟩ := hr
    exact ⟨p, l₁, n :: l₂, e, .head _⟩

theorem steps_selects {H : Compound → Nat → Prop} (hH : ∀ {c c'}, Compound.Same c c' → ∀ n, H c n → H c' n) {d : Dom} {r r' : List (Comb × Compound)}
    (h : StepsWider r r') : ∀ {S S' : Nat → Prop}, (∀ n, S n → S' n) → ∀ n, restSelects H d r S n → restSelects H d r' S' n := by
  induction h with
  | nil => exact fun hS => hS
  | cons hk hc _ ih =>
    intro S S' hS n hn
    rw [restSelects] at hn ⊢
    exact ih (fun m ⟨h1, v, h2, h3⟩ => ⟨hH hc m h1, v, hS v h2, wider_rel hk h3⟩) n hn

theorem part_finds {pun : Nat → Nat} {d : Dom} {p p' : Part} (h : p.Wider p') (n : Nat) : p.finds pun d n → p'.finds pun d n :=
  steps_selects (H := fun c n => c.finds pun d n) (fun hc n => same_finds hc) h.2 (fun m ⟨h1, h2⟩ => ⟨h1, same_finds h.1 h2⟩) n

/-- A query that is answered uses known names only. -/
theorem answered_known {d : Dom} (h : Reachable d) {pun : Nat → Nat} {q : Query} (hw : ∀ p ∈ q.parts, p.WF) (hs : ∀ p ∈ q.parts, p.Small)
    {L : List Nat} (hq : querySelectorAll pun q.text d = .ok (.go L)) : ∀ p ∈ q.parts, p.known d := by
  intro p hp
  by_contra hc
  rw [(C34_errors d h pun q hw).1 hs ⟨p, hp, hc⟩] at hq
  cases hq

theorem one {P : Part → Prop} {p : Part} (h : P p) : ∀ x ∈ (p.query).parts, P x := by
  intro x hx
  have : x ∈ [p] := hx
  rw [List.mem_singleton] at this
  rw [this]; exact h

theorem finds_query {pun : Nat → Nat} {d : Dom} {p : Part} {n : Nat} : (p.query).finds pun d n ↔ p.finds pun d n := by
  constructor
  · rintro ⟨x, hx, hn⟩
    have : x ∈ [p] := hx
    rw [List.mem_singleton] at this
    rw [← this]; exact hn
  · intro hn; exact ⟨p, .head _, hn⟩

theorem rest_last {H : Compound → Nat → Prop} {d : Dom} {k : Comb} {c : Compound} : ∀ (r : List (Comb × Compound)) (S : Nat → Prop) (n : Nat),
    restSelects H d (r ++ [(k, c)]) S n ↔ H c n ∧ ∃ v, restSelects H d r S v ∧ k.kind.rel d v n
  | [], _, _ => Iff.rfl
  | _ :: r, _, n => rest_last r _ n

theorem rel_from_live {d : Dom} (h : Reachable d) {k : CombKind} {v n : Nat} (hr : k.rel d v n) (hn : Live d n) : Live d v := by
  have hd := (reach_domI h).1
  cases k with
  | child => exact live_parent hd hr.1 hn
  | descendant =>
    have hr' : Relation.TransGen (ElemChild d) v n := hr
    clear hr
    induction hr' with
    | single h1 => exact live_parent hd h1.1 hn
    | tail _ h2 ih => exact ih (live_parent hd h2.1 hn)
  | adjacent =>
    obtain ⟨p, l₁, l₂, e⟩ := hr
    exact live_sibling hd (p := p) (by rw [e]; simp) (by rw [e]; simp) hn
  | sibling =>
    obtain ⟨p, l₁, l₂, e, hm⟩ := hr
    exact live_sibling hd (p := p) (by rw [e]; simp) (by rw [e]; simp [hm]) hn

end QLaws

/-- Blanks and the order of conditions do not matter, and a wider combinator selects at least as much: if a query is answered, the
query with the same or wider combinators, other blanks and the conditions in another order is answered too, and contains every node
of the document that is in the first answer. -/
theorem C124_wider (d : Dom) (h : Reachable d) (pun : Nat → Nat) (p p' : Part) (hw : p.WF) (hw' : p'.WF) (hs : p.Small) (hp : p.Wider p')
    (L : List Nat) (hL : querySelectorAll pun p.query.text d = .ok (.go L)) :
    ∃ L', querySelectorAll pun p'.query.text d = .ok (.go L') ∧ ∀ n, Live d n → n ∈ L → n ∈ L' := by
  have hk := QLaws.answered_known h (QLaws.one hw) (QLaws.one hs) hL p (.head _)
  obtain ⟨L₀, e, _, m⟩ := C32_exact_partial d h pun p.query (QLaws.one hw) (QLaws.one hk) (QLaws.one hs)
  rw [hL] at e
  cases e
  obtain ⟨L', e', _, m'⟩ := C32_exact_partial d h pun p'.query (QLaws.one hw') (QLaws.one (QLaws.part_known hp hk)) (QLaws.one (QLaws.part_small hp hs))
  refine ⟨L', e', fun n hn hm => (m' n hn).mpr (QLaws.finds_query.mpr ?_)⟩
  exact QLaws.part_finds hp n (QLaws.finds_query.mp ((m n hn).mp hm))

/-- Queries that differ only in blanks and the order of conditions are both answered with the same nodes of the document, or both
refused. -/
theorem C124_same (d : Dom) (h : Reachable d) (pun : Nat → Nat) (p p' : Part) (hw : p.WF) (hw' : p'.WF) (hs : p.Small) (hp : p.Same p') :
    (∃ L L', querySelectorAll pun p.query.text d = .ok (.go L) ∧ querySelectorAll pun p'.query.text d = .ok (.go L') ∧
      ∀ n, Live d n → (n ∈ L ↔ n ∈ L')) ∨
    (querySelectorAll pun p.query.text d = .ok (.fail .notSeenBefore) ∧ querySelectorAll pun p'.query.text d = .ok (.fail .notSeenBefore)) := by
  have hs' := QLaws.part_small hp.1 hs
  by_cases hk : p.known d
  · obtain ⟨L, e, _, m⟩ := C32_exact_partial d h pun p.query (QLaws.one hw) (QLaws.one hk) (QLaws.one hs)
    obtain ⟨L', e', _, m'⟩ := C32_exact_partial d h pun p'.query (QLaws.one hw') (QLaws.one (QLaws.part_known hp.1 hk)) (QLaws.one hs')
    refine .inl ⟨L, L', e, e', fun n hn => ?_⟩
    rw [m n hn, m' n hn, QLaws.finds_query, QLaws.finds_query]
    exact ⟨QLaws.part_finds hp.1 n, QLaws.part_finds hp.2 n⟩
  · refine .inr ⟨(C34_errors d h pun p.query (QLaws.one hw)).1 (QLaws.one hs) ⟨p, .head _, hk⟩,
      (C34_errors d h pun p'.query (QLaws.one hw')).1 (QLaws.one hs') ⟨p', .head _, fun hk' => hk (QLaws.part_known hp.2 hk')⟩⟩

/-- A compound selector selects the intersection of what its parts select; for every node, in the document or not, and whatever is
read from texts. -/
theorem C124_intersection (d : Dom) (h : Reachable d) (pun : Nat → Nat) (t : Option Str) (cs₁ cs₂ : List Cond) (fin : Option Final)
    (hw : (Compound.mk t (cs₁ ++ cs₂) fin).WF true) (hs : (Compound.mk t (cs₁ ++ cs₂) fin).size ≤ 8) (h₁ : t ≠ none ∨ cs₁ ≠ [])
    (h₂ : cs₂ ≠ [] ∨ fin ≠ none) (L : List Nat)
    (hL : querySelectorAll pun (Compound.mk t (cs₁ ++ cs₂) fin).query.text d = .ok (.go L)) :
    ∃ L₁ L₂, querySelectorAll pun (Compound.mk t cs₁ none).query.text d = .ok (.go L₁) ∧
      querySelectorAll pun (Compound.mk none cs₂ fin).query.text d = .ok (.go L₂) ∧ ∀ n, n ∈ L ↔ n ∈ L₁ ∧ n ∈ L₂ := by
  have hb : Blanks [] := fun c hc => by cases hc
  have tx : ∀ c : Compound, c.query.text = [] ++ (c.text ++ []) := fun c => rfl
  have hk : (Compound.mk t (cs₁ ++ cs₂) fin).known d :=
    QLaws.answered_known h (q := (Compound.mk t (cs₁ ++ cs₂) fin).query) (QLaws.one (p := ⟨[], _, [], []⟩) ⟨hb, hb, hw, trivial⟩)
      (QLaws.one (p := ⟨[], _, [], []⟩) (fun c hc => by
        have : c ∈ [Compound.mk t (cs₁ ++ cs₂) fin] := hc
        rw [List.mem_singleton] at this; rw [this]; exact hs)) hL _ (.head _) _ (.head _)
  have w₁ : (Compound.mk t cs₁ none).WF true := ⟨hw.1, fun c hc => hw.2.1 c (List.mem_append_left _ hc), by simp, by
    rcases h₁ with h₁ | h₁
    · exact .inl h₁
    · exact .inr (.inl h₁)⟩
  have w₂ : (Compound.mk none cs₂ fin).WF true := ⟨by simp, fun c hc => hw.2.1 c (List.mem_append_right _ hc), hw.2.2.1, .inr h₂⟩
  have k₁ : (Compound.mk t cs₁ none).known d := ⟨hk.1, fun c hc => hk.2.1 c (List.mem_append_left _ hc), by simp⟩
  have k₂ : (Compound.mk none cs₂ fin).known d := ⟨by simp, fun c hc => hk.2.1 c (List.mem_append_right _ hc), hk.2.2⟩
  have s₁ : (Compound.mk t cs₁ none).size ≤ 8 := by simp only [Compound.size, List.length_append] at hs ⊢; simp; omega
  have s₂ : (Compound.mk none cs₂ fin).size ≤ 8 := by simp only [Compound.size, List.length_append] at hs ⊢; simp; omega
  obtain ⟨L₀, e, _, m⟩ := C31_exact_partial d h pun _ [] [] hb hb hw hk hs
  rw [← tx, hL] at e
  cases e
  obtain ⟨L₁, e₁, _, m₁⟩ := C31_exact_partial d h pun _ [] [] hb hb w₁ k₁ s₁
  obtain ⟨L₂, e₂, _, m₂⟩ := C31_exact_partial d h pun _ [] [] hb hb w₂ k₂ s₂
  refine ⟨L₁, L₂, by rw [tx]; exact e₁, by rw [tx]; exact e₂, fun n => ?_⟩
  rw [m, m₁, m₂]
  constructor
  · rintro ⟨hn, a, b, f⟩
    exact ⟨⟨hn, a, fun c hc => b c (List.mem_append_left _ hc), by simp⟩, hn, by simp, fun c hc => b c (List.mem_append_right _ hc), f⟩
  · rintro ⟨⟨hn, a, b, _⟩, _, _, b', f⟩
    refine ⟨hn, a, fun c hc => ?_, f⟩
    rw [List.mem_append] at hc
    rcases hc with hc | hc
    · exact b c hc
    · exact b' c hc

/-- A chain of selectors is evaluated step by step: a node of the document is in the answer iff the last selector alone answers it and
the last combinator leads to it from a node of the document that the chain without the last step answers. -/
theorem C124_chain (d : Dom) (h : Reachable d) (pun : Nat → Nat) (lead trail : Str) (first : Compound) (r : List (Comb × Compound)) (k : Comb)
    (c : Compound) (hw : Part.WF ⟨lead, first, r ++ [(k, c)], trail⟩) (hw₁ : Part.WF ⟨lead, first, r, trail⟩)
    (hs : Part.Small ⟨lead, first, r ++ [(k, c)], trail⟩) (L : List Nat)
    (hL : querySelectorAll pun (Part.query ⟨lead, first, r ++ [(k, c)], trail⟩).text d = .ok (.go L)) :
    ∃ L₁ L₂, querySelectorAll pun (Part.query ⟨lead, first, r, trail⟩).text d = .ok (.go L₁) ∧
      querySelectorAll pun c.query.text d = .ok (.go L₂) ∧
      ∀ n, Live d n → (n ∈ L ↔ n ∈ L₂ ∧ ∃ v ∈ L₁, Live d v ∧ k.kind.rel d v n) := by
  have hb : Blanks [] := fun c hc => by cases hc
  have hk := QLaws.answered_known h (QLaws.one hw) (QLaws.one hs) hL _ (.head _)
  have hin : c ∈ Part.compounds ⟨lead, first, r ++ [(k, c)], trail⟩ := by simp [Part.compounds]
  have hsub : ∀ x, x ∈ Part.compounds ⟨lead, first, r, trail⟩ → x ∈ Part.compounds ⟨lead, first, r ++ [(k, c)], trail⟩ := by
    intro x hx
    simp only [Part.compounds, List.map_append, List.mem_cons, List.mem_append] at hx ⊢
    rcases hx with hx | hx
    · exact .inl hx
    · exact .inr (.inl hx)
  have hcw : c.WF true := by
    have : ∀ r, restWF (r ++ [(k, c)]) → c.WF true := by
      intro r
      induction r with
      | nil => intro h; exact h.2.1
      | cons x r ih => obtain ⟨a, b⟩ := x; intro h; exact ih h.2.2.2
    exact this r hw.2.2.2
  obtain ⟨L₀, e, _, m⟩ := C32_exact_partial d h pun _ (QLaws.one hw) (QLaws.one hk) (QLaws.one hs)
  rw [hL] at e
  cases e
  obtain ⟨L₁, e₁, _, m₁⟩ := C32_exact_partial d h pun (Part.query ⟨lead, first, r, trail⟩) (QLaws.one hw₁)
    (QLaws.one (fun x hx => hk x (hsub x hx))) (QLaws.one (fun x hx => hs x (hsub x hx)))
  obtain ⟨L₂, e₂, _, m₂⟩ := C31_exact_partial d h pun c [] [] hb hb hcw (hk c hin) (hs c hin)
  refine ⟨L₁, L₂, e₁, e₂, fun n hn => ?_⟩
  rw [m n hn, QLaws.finds_query, m₂]
  refine (QLaws.rest_last r _ n).trans ?_
  constructor
  · rintro ⟨f, v, hv, hr⟩
    have hl := QLaws.rel_from_live h hr hn
    have := live_ne_zero (reach_domI h).1 hn
    exact ⟨⟨⟨by omega, this.2⟩, f⟩, v, (m₁ v hl).mpr (QLaws.finds_query.mpr hv), hl, hr⟩
  · rintro ⟨⟨_, f⟩, v, hv, hl, hr⟩
    exact ⟨f, v, QLaws.finds_query.mp ((m₁ v hl).mp hv), hr⟩

/-! ## Concrete queries -/

private def cs : List Cond := [.flag [] b!"a" [], .eq [] b!"k" [] [] b!"v" []]

/-- `p[a][k=v] > b` and ` p[ k = v ][a ]   b` -/
example : Part.Wider ⟨[], .mk (some b!"p") cs none, [(⟨.child, b!" ", b!" "⟩, .mk (some b!"b") [] none)], []⟩
    ⟨b!" ", .mk (some b!"p") [.eq b!" " b!"k" b!" " b!" " b!"v" b!" ", .flag [] b!"a" b!" "] none,
      [(⟨.descendant, b!"  ", b!" "⟩, .mk (some b!"b") [] none)], []⟩ :=
  ⟨.mk (List.Perm.swap _ _ _), .cons .child (.mk (.refl _)) .nil⟩
example : (Part.query ⟨[], .mk (some b!"p") cs none, [(⟨.child, b!" ", b!" "⟩, .mk (some b!"b") [] none)], []⟩).text = b!"p[a][k=v] > b" := by decide
example : (Part.query ⟨b!" ", .mk (some b!"p") [.eq b!" " b!"k" b!" " b!" " b!"v" b!" ", .flag [] b!"a" b!" "] none,
      [(⟨.descendant, b!"  ", b!" "⟩, .mk (some b!"b") [] none)], []⟩).text = b!" p[ k = v ][a ]   b" := by decide
example : (Compound.mk (some b!"p") ([.flag [] b!"a" []] ++ [.eq [] b!"k" [] [] b!"v" []]) none).query.text = b!"p[a][k=v]" ∧
    (Compound.mk (some b!"p") [.flag [] b!"a" []] none).query.text = b!"p[a]" ∧
    (Compound.mk none [.eq [] b!"k" [] [] b!"v" []] none).query.text = b!"[k=v]" := by decide
/-- They are answered. -/
example : ∃ d, createDom b!"<p a k=v><b></b><i><b></b></i></p><p a></p>" = .ok (some d) ∧
    decide (querySelectorAll (fun _ => 0) b!"p[a][k=v] > b" d = .ok (.go [3]) ∧ querySelectorAll (fun _ => 0) b!" p[ k = v ][a ]   b" d = .ok (.go [3, 5]) ∧
      querySelectorAll (fun _ => 0) b!"p[a][k=v]" d = .ok (.go [2]) ∧ querySelectorAll (fun _ => 0) b!"p[a]" d = .ok (.go [2, 6]) ∧
      querySelectorAll (fun _ => 0) b!"[k=v]" d = .ok (.go [2])) = true :=
  someAnd_ex (by decide +kernel)

end Flo
