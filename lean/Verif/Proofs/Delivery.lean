import Verif.Spec.Delivery
import Verif.Proofs.Log
import Verif.Proofs.Files
/-!
# What a file gets when writes fail
-/
namespace Flo
open Spec

theorem flushLoop_short : ∀ (f : Nat) (todo sink : Str) (sched : List (Option Nat)) (sink' : Str) (rest : List (Option Nat)),
    flushLoop f todo sink sched = .ok (false, sink', rest) → ∃ p, p <+: todo ∧ p.length < todo.length ∧ sink' = sink ++ p := by
  intro f
  induction f with
  | zero => intro todo sink sched sink' rest h; cases h
  | succ f ih =>
    intro todo sink sched sink' rest h
    unfold flushLoop at h
    by_cases ht : todo.length > 0
    · rw [if_pos ht] at h
      match sched, h with
      | [], h =>
        dsimp only at h
        cases f with
        | zero => cases h
        | succ f => simp [flushLoop] at h
      | none :: sched, h => cases h; exact ⟨[], List.nil_prefix, ht, by simp⟩
      | some k :: sched, h =>
        dsimp only at h
        obtain ⟨p, ⟨t, hp⟩, hl, e⟩ := ih _ _ _ _ _ h
        refine ⟨todo.take (min k todo.length) ++ p, ⟨t, by rw [List.append_assoc, hp, List.take_append_drop]⟩, ?_, by rw [e, List.append_assoc]⟩
        rw [List.length_append, List.length_take]
        rw [List.length_drop] at hl
        omega
    · rw [if_neg ht] at h; cases h

theorem flushIgnore_cases {b b' : WBuf} (h : flushIgnore b = .ok b') : b'.cap = b.cap ∧
    ((b'.data = [] ∧ b'.sink = b.sink ++ b.data) ∨ (b'.data = b.data ∧ ∃ p, p <+: b.data ∧ p.length < b.data.length ∧ b'.sink = b.sink ++ p)) := by
  obtain ⟨done, b1, e, hF⟩ := flushBuffer_spec b
  have : b1 = b' := by
    unfold flushIgnore at h
    rw [e] at h
    cases h
    rfl
  subst this
  refine ⟨hF.cap, ?_⟩
  cases done with
  | true => exact Or.inl (hF.ok rfl)
  | false =>
    refine Or.inr ⟨(hF.fail rfl).1, ?_⟩
    unfold flushBuffer at e
    obtain ⟨⟨dn, sk, sc⟩, e1, e2⟩ := Out.bind_eq_ok.1 e
    cases e2
    exact flushLoop_short _ _ _ _ _ _ e1

/-- Appending, from a buffer with something in it. -/
theorem appendLoop_pushed : ∀ (f : Nat) (todo : Str) (b b' : WBuf), b.data.length ≤ b.cap → appendLoop f todo b = .ok b' →
    b'.cap = b.cap ∧ ∃ c, b'.sink = b.sink ++ c ∧ Pushed b.cap (b.data ++ todo) c b'.data := by
  intro f
  induction f with
  | zero => intro todo b b' _ h; cases h
  | succ f ih =>
    intro todo b b' hl h
    unfold appendLoop at h
    by_cases ht : todo.length > 0
    · rw [if_pos ht] at h
      dsimp only at h
      generalize hk : min (b.cap - b.data.length) todo.length = k at h
      by_cases hm : (todo.drop k).length > 0
      · rw [if_pos hm] at h
        obtain ⟨b1, e1, h⟩ := Out.bind_eq_ok.1 h
        rw [List.length_drop] at hm
        have hkk : k = b.cap - b.data.length := by omega
        have htake : (b.data ++ todo).take b.cap = b.data ++ todo.take k := by
          rw [List.take_append, List.take_of_length_le hl, hkk]
        have hdrop : (b.data ++ todo).drop b.cap = todo.drop k := by
          rw [List.drop_append, List.drop_eq_nil_of_le hl, hkk]; rfl
        have hbig : b.cap < (b.data ++ todo).length := by rw [List.length_append]; omega
        have hfull : (b.data ++ todo.take k).length = b.cap := by rw [← htake, List.length_take]; omega
        obtain ⟨hc, hcase⟩ := flushIgnore_cases e1
        dsimp only at hc hcase
        rcases hcase with ⟨g1, g2⟩ | ⟨g1, p, g2, g3, g4⟩
        · obtain ⟨q1, c, q2, q3⟩ := ih _ _ _ (by rw [g1]; simp) h
          refine ⟨q1.trans hc, (b.data ++ todo.take k) ++ c, by rw [q2, g2]; simp only [List.append_assoc], ?_⟩
          rw [← htake]
          refine .delivered hbig ?_
          rw [hdrop]
          rw [g1, List.nil_append, hc] at q3
          exact q3
        · obtain ⟨q1, c, q2, q3⟩ := ih _ _ _ (by rw [g1, hfull, hc]) h
          refine ⟨q1.trans hc, p ++ c, by rw [q2, g4]; simp only [List.append_assoc], .failed hbig (by rw [htake]; exact g2) (by omega) ?_⟩
          rw [g1, List.append_assoc, List.take_append_drop, hc] at q3
          exact q3
      · rw [if_neg hm] at h
        have hlen : todo.length ≤ k := by rw [List.length_drop] at hm; omega
        rw [List.drop_eq_nil_of_le hlen, List.take_of_length_le hlen] at h
        cases f with
        | zero => cases h
        | succ f =>
          simp only [appendLoop, List.length_nil, gt_iff_lt, Nat.lt_irrefl, if_false] at h
          cases h
          exact ⟨rfl, [], by simp, .fits (by rw [List.length_append]; omega)⟩
    · rw [if_neg ht] at h
      cases h
      have : todo = [] := List.length_eq_zero_iff.1 (by omega)
      subst this
      rw [List.append_nil]
      exact ⟨rfl, [], by simp, .fits hl⟩

theorem Spec.Pushed.left {cap : Nat} {P c R : Str} (h : Pushed cap P c R) : R.length ≤ cap := by
  induction h with
  | fits h => exact h
  | failed _ _ _ _ ih => exact ih
  | delivered _ _ ih => exact ih

theorem Spec.Pushed.join {cap : Nat} {P c R s c' R' : Str} (h : Pushed cap P c R) (h' : Pushed cap (R ++ s) c' R') :
    Pushed cap (P ++ s) (c ++ c') R' := by
  induction h with
  | fits h => exact h'
  | @failed P p c R h1 h2 h3 _ ih =>
    rw [List.append_assoc]
    refine .failed (by rw [List.length_append]; omega) ?_ h3 (ih h')
    rw [List.take_append_of_le_length (by omega)]
    exact h2
  | @delivered P c R h1 _ ih =>
    have e : P.take cap = (P ++ s).take cap := (List.take_append_of_le_length (by omega)).symm
    rw [List.append_assoc, e]
    refine .delivered (by rw [List.length_append]; omega) ?_
    rw [List.drop_append_of_le_length (by omega)]
    exact ih h'

theorem Spec.Pushed.split {cap : Nat} {Q c R : Str} (h : Pushed cap Q c R) : ∀ P s, Q = P ++ s →
    ∃ c1 R1 c2, Pushed cap P c1 R1 ∧ Pushed cap (R1 ++ s) c2 R ∧ c = c1 ++ c2 := by
  induction h with
  | fits h =>
    intro P s e
    subst e
    exact ⟨[], P, [], .fits (by rw [List.length_append] at h; omega), .fits h, rfl⟩
  | @failed Q p c R h1 h2 h3 h4 ih =>
    intro P s e
    by_cases hP : P.length ≤ cap
    · exact ⟨[], P, p ++ c, .fits hP, by rw [← e]; exact .failed h1 h2 h3 h4, rfl⟩
    · obtain ⟨c1, R1, c2, g1, g2, g3⟩ := ih P s e
      refine ⟨p ++ c1, R1, c2, .failed (by omega) ?_ h3 g1, g2, by rw [g3, List.append_assoc]⟩
      rw [e, List.take_append_of_le_length (by omega)] at h2
      exact h2
  | @delivered Q c R h1 h4 ih =>
    intro P s e
    by_cases hP : P.length ≤ cap
    · exact ⟨[], P, Q.take cap ++ c, .fits hP, by rw [← e]; exact .delivered h1 h4, rfl⟩
    · obtain ⟨c1, R1, c2, g1, g2, g3⟩ := ih (P.drop cap) s (by rw [e, List.drop_append_of_le_length (by omega)])
      refine ⟨P.take cap ++ c1, R1, c2, .delivered (by omega) g1, g2, ?_⟩
      rw [g3, e, List.take_append_of_le_length (by omega), List.append_assoc]

theorem runPieces_pushed : ∀ (ts : List Str) (b b' : WBuf), b.data.length ≤ b.cap → runLogs (pieceOps ts) b = .ok b' →
    b'.cap = b.cap ∧ ∃ c, b'.sink = b.sink ++ c ∧ Pushed b.cap (b.data ++ ts.flatten) c b'.data
  | [], b, b', hl, h => by
    cases h
    rw [List.flatten_nil, List.append_nil]
    exact ⟨rfl, [], by simp, .fits hl⟩
  | t :: ts, b, b', hl, h => by
    obtain ⟨b1, e1, h⟩ := Out.bind_eq_ok.1 h
    have e1 : appendLoop (t.length + b.sched.length + 2) t b = .ok b1 := by
      change appendToBuffer t ⟨false, false⟩ b = .ok b1 at e1
      unfold appendToBuffer at e1
      obtain ⟨b2, e2, e3⟩ := Out.bind_eq_ok.1 e1
      cases e3
      exact e2
    obtain ⟨g1, c1, g2, g3⟩ := appendLoop_pushed _ _ _ _ hl e1
    obtain ⟨k1, c2, k2, k3⟩ := runPieces_pushed ts b1 b' (by rw [g1]; exact g3.left) h
    refine ⟨k1.trans g1, c1 ++ c2, by rw [k2, g2, List.append_assoc], ?_⟩
    rw [List.flatten_cons, ← List.append_assoc]
    rw [g1] at k3
    exact g3.join k3

/-! ## Every such outcome is possible -/

theorem flushLoop_all (f : Nat) (todo sink : Str) (rest : List (Option Nat)) (hf : 2 ≤ f) (h0 : 0 < todo.length) :
    flushLoop f todo sink (some todo.length :: rest) = .ok (true, sink ++ todo, rest) := by
  obtain ⟨f, rfl⟩ : ∃ k, f = k + 2 := ⟨f - 2, by omega⟩
  simp [flushLoop, h0]

theorem flushLoop_part (f : Nat) (todo p sink : Str) (rest : List (Option Nat)) (hf : 2 ≤ f) (h : p <+: todo) (hl : p.length < todo.length) :
    flushLoop f todo sink (some p.length :: none :: rest) = .ok (false, sink ++ p, rest) := by
  obtain ⟨f, rfl⟩ : ∃ k, f = k + 2 := ⟨f - 2, by omega⟩
  have hm : min p.length todo.length = p.length := by omega
  have ht : todo.take p.length = p := (List.prefix_iff_eq_take.1 h).symm
  simp only [flushLoop]
  rw [if_pos (by omega), hm, if_pos (by rw [List.length_drop]; omega), ht]

theorem flush_all (b : WBuf) (rest : List (Option Nat)) (h0 : 0 < b.data.length) (hs : b.sched = some b.data.length :: rest) :
    flushIgnore b = .ok { b with data := [], sink := b.sink ++ b.data, sched := rest } := by
  unfold flushIgnore flushBuffer
  rw [hs, flushLoop_all _ _ _ _ (by simp; omega) h0]
  rfl

theorem flush_part (b : WBuf) (p : Str) (rest : List (Option Nat)) (h : p <+: b.data) (hl : p.length < b.data.length)
    (hs : b.sched = some p.length :: none :: rest) :
    flushIgnore b = .ok { b with sink := b.sink ++ p, sched := rest } := by
  unfold flushIgnore flushBuffer
  rw [hs, flushLoop_part _ _ _ _ _ (by simp; omega) h hl]
  rfl


theorem appendLoop_more {f : Nat} {todo : Str} {b b1 : WBuf} (hl : b.data.length ≤ b.cap) (hbig : b.cap < (b.data ++ todo).length)
    (h1 : flushIgnore { b with data := (b.data ++ todo).take b.cap } = .ok b1) :
    appendLoop (f + 1) todo b = appendLoop f ((b.data ++ todo).drop b.cap) b1 := by
  rw [List.length_append] at hbig
  have hk : min (b.cap - b.data.length) todo.length = b.cap - b.data.length := by omega
  have htake : (b.data ++ todo).take b.cap = b.data ++ todo.take (b.cap - b.data.length) := by
    rw [List.take_append, List.take_of_length_le hl]
  have hdrop : (b.data ++ todo).drop b.cap = todo.drop (b.cap - b.data.length) := by
    rw [List.drop_append, List.drop_eq_nil_of_le hl]; rfl
  rw [htake] at h1
  rw [hdrop]
  conv_lhs => unfold appendLoop
  rw [if_pos (by omega)]
  dsimp only
  rw [hk, if_pos (by rw [List.length_drop]; omega), h1]
  rfl

theorem appendLoop_fits {f : Nat} {todo : Str} {b : WBuf} (h : (b.data ++ todo).length ≤ b.cap) (hf : 2 ≤ f) :
    appendLoop f todo b = .ok { b with data := b.data ++ todo } := by
  obtain ⟨f, rfl⟩ : ∃ k, f = k + 2 := ⟨f - 2, by omega⟩
  rw [List.length_append] at h
  unfold appendLoop
  by_cases ht : todo.length > 0
  · have hk : min (b.cap - b.data.length) todo.length = todo.length := by omega
    rw [if_pos ht]
    dsimp only
    rw [hk, List.drop_length, List.take_length]
    simp [appendLoop]
  · rw [if_neg ht]
    have : todo = [] := List.length_eq_zero_iff.1 (by omega)
    subst this
    simp

theorem Spec.Pushed.possible {cap : Nat} {P c R : Str} (h : Pushed cap P c R) (hcap : 0 < cap) : ∀ data todo, P = data ++ todo → data.length ≤ cap →
    ∃ q, ∀ rest sink f, todo.length + q.length + 2 ≤ f →
      appendLoop f todo ⟨cap, data, sink, q ++ rest⟩ = .ok ⟨cap, R, sink ++ c, rest⟩ := by
  induction h with
  | fits h =>
    intro data todo e hl
    subst e
    refine ⟨[], fun rest sink f hf => ?_⟩
    rw [appendLoop_fits (b := ⟨cap, data, sink, [] ++ rest⟩) h (by omega)]
    simp
  | @failed P p c R h1 h2 h3 h4 ih =>
    intro data todo e hl
    subst e
    have hfull : ((data ++ todo).take cap).length = cap := by rw [List.length_take]; omega
    obtain ⟨q, hq⟩ := ih ((data ++ todo).take cap) ((data ++ todo).drop cap) (List.take_append_drop _ _).symm (by omega)
    refine ⟨some p.length :: none :: q, fun rest sink f hf => ?_⟩
    obtain ⟨f, rfl⟩ : ∃ k, f = k + 1 := ⟨f - 1, by omega⟩
    rw [List.cons_append, List.cons_append, appendLoop_more (b := ⟨cap, data, sink, _⟩) hl h1
      (flush_part ⟨cap, (data ++ todo).take cap, sink, some p.length :: none :: (q ++ rest)⟩ p (q ++ rest) h2 (by rw [hfull]; exact h3) rfl)]
    simp only [List.length_cons] at hf
    rw [hq rest (sink ++ p) f (by rw [List.length_drop, List.length_append]; omega), List.append_assoc]
  | @delivered P c R h1 h4 ih =>
    intro data todo e hl
    subst e
    have hfull : ((data ++ todo).take cap).length = cap := by rw [List.length_take]; omega
    obtain ⟨q, hq⟩ := ih [] ((data ++ todo).drop cap) rfl (by simp)
    refine ⟨some cap :: q, fun rest sink f hf => ?_⟩
    obtain ⟨f, rfl⟩ : ∃ k, f = k + 1 := ⟨f - 1, by omega⟩
    rw [List.cons_append, appendLoop_more (b := ⟨cap, data, sink, _⟩) hl h1
      (flush_all ⟨cap, (data ++ todo).take cap, sink, some cap :: (q ++ rest)⟩ (q ++ rest) (by rw [hfull]; exact hcap) (by rw [hfull]))]
    simp only [List.length_cons] at hf
    rw [hq rest _ f (by rw [List.length_drop, List.length_append]; omega), List.append_assoc]

theorem runPieces_possible {cap : Nat} (hcap : 0 < cap) : ∀ (ts : List Str) (data c R : Str), data.length ≤ cap →
    Pushed cap (data ++ ts.flatten) c R →
    ∃ q, ∀ rest sink, runLogs (pieceOps ts) ⟨cap, data, sink, q ++ rest⟩ = .ok ⟨cap, R, sink ++ c, rest⟩
  | [], data, c, R, hl, h => by
    rw [List.flatten_nil, List.append_nil] at h
    cases h with
    | fits _ => exact ⟨[], fun rest sink => by simp [pieceOps, runLogs]⟩
    | failed h1 _ _ _ => omega
    | delivered h1 _ => omega
  | t :: ts, data, c, R, hl, h => by
    rw [List.flatten_cons, ← List.append_assoc] at h
    obtain ⟨c1, R1, c2, g1, g2, g3⟩ := h.split _ _ rfl
    obtain ⟨q1, hq1⟩ := g1.possible hcap data t rfl hl
    obtain ⟨q2, hq2⟩ := runPieces_possible hcap ts R1 c2 R g1.left g2
    refine ⟨q1 ++ q2, fun rest sink => ?_⟩
    have e1 : runLog (.append t ⟨false, false⟩) ⟨cap, data, sink, q1 ++ q2 ++ rest⟩ = .ok ⟨cap, R1, sink ++ c1, q2 ++ rest⟩ := by
      show appendToBuffer t ⟨false, false⟩ _ = _
      unfold appendToBuffer
      dsimp only
      rw [List.append_assoc, hq1 (q2 ++ rest) sink _ (by rw [List.length_append]; omega)]
      rfl
    show (runLog (.append t ⟨false, false⟩) _ >>= fun b => runLogs (pieceOps ts) b) = _
    rw [e1, Out.bind_ok, hq2, g3, List.append_assoc]

/-- The last flush. -/
theorem flush_possible {cap : Nat} {R c sink : Str} (h : c <+: R) : ∃ q b', flushIgnore ⟨cap, R, sink, q⟩ = .ok b' ∧ b'.sink = sink ++ c := by
  by_cases hl : c.length < R.length
  · exact ⟨[some c.length, none], _, flush_part ⟨cap, R, sink, _⟩ c [] h hl rfl, rfl⟩
  · have e : c = R := h.eq_of_length (by have := h.length_le; omega)
    subst e
    by_cases h0 : 0 < c.length
    · exact ⟨[some c.length], _, flush_all ⟨cap, c, sink, _⟩ [] h0 rfl, rfl⟩
    · have : c = [] := List.length_eq_zero_iff.1 (by omega)
      subst this
      exact ⟨[], _, rfl, by simp⟩

end Flo
