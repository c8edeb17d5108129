import Verif.Spec.Log
import Mathlib.Data.List.Basic
import Mathlib.Tactic.Ring
/-!
# The buffered writer
-/
namespace Flo
open Spec

/-- What a flush can do: complete (everything delivered, in order), or fail after delivering a prefix; in the second
case at least one entry of the schedule, an error, has been used. -/
theorem flushLoop_spec : ∀ (f : Nat) (todo sink : Str) (sched : List (Option Nat)), todo.length + sched.length + 1 ≤ f →
    ∃ done out rest, flushLoop f todo sink sched = .ok (done, sink ++ out, rest) ∧ (∃ used, sched = used ++ rest) ∧
      (done = true → out = todo) ∧
      (done = false → out <+: todo ∧ rest.length < sched.length ∧ none ∈ sched) := by
  intro f
  induction f with
  | zero => intro todo sink sched hf; omega
  | succ f ih =>
    intro todo sink sched hf
    unfold flushLoop
    by_cases ht : todo.length > 0
    · rw [if_pos ht]
      cases sched with
      | nil =>
        obtain ⟨f, rfl⟩ : ∃ k, f = k + 1 := ⟨f - 1, by simp at hf; omega⟩
        refine ⟨true, todo, [], ?_, ⟨[], rfl⟩, fun _ => rfl, fun h => by cases h⟩
        simp [flushLoop]
      | cons r sched =>
        cases r with
        | none =>
          exact ⟨false, [], sched, by simp, ⟨[none], rfl⟩, (fun h => by cases h),
            fun _ => ⟨List.nil_prefix, by simp, by simp⟩⟩
        | some k =>
          dsimp only
          obtain ⟨done, out, rest, e, ⟨used, hu⟩, h1, h2⟩ := ih (todo.drop (min k todo.length))
            (sink ++ todo.take (min k todo.length)) sched (by simp at hf ⊢; omega)
          refine ⟨done, todo.take (min k todo.length) ++ out, rest, by rw [e, List.append_assoc],
            ⟨some k :: used, by rw [hu]; rfl⟩, ?_, ?_⟩
          · intro hd; rw [h1 hd, List.take_append_drop]
          · intro hd
            obtain ⟨q1, q2, q3⟩ := h2 hd
            refine ⟨?_, by simp; omega, List.mem_cons_of_mem _ q3⟩
            obtain ⟨t, ht⟩ := q1
            exact ⟨t, by rw [List.append_assoc, ht, List.take_append_drop]⟩
    · rw [if_neg ht]
      have : todo = [] := by
        cases todo with
        | nil => rfl
        | cons a l => simp at ht
      subst this
      exact ⟨true, [], sched, by simp, ⟨[], rfl⟩, fun _ => rfl, fun h => by cases h⟩

/-- One flush. -/
structure Flushed (b b' : WBuf) (done : Bool) : Prop where
  cap : b'.cap = b.cap
  suffix : ∃ used, b.sched = used ++ b'.sched
  ok : done = true → b'.data = [] ∧ b'.sink = b.sink ++ b.data
  fail : done = false → b'.data = b.data ∧ (∃ out, out <+: b.data ∧ b'.sink = b.sink ++ out) ∧
    b'.sched.length < b.sched.length ∧ none ∈ b.sched

theorem flushBuffer_spec (b : WBuf) : ∃ done b', flushBuffer b = .ok (done, b') ∧ Flushed b b' done := by
  obtain ⟨done, out, rest, e, hu, h1, h2⟩ := flushLoop_spec (b.data.length + b.sched.length + 1) b.data b.sink b.sched
    (by omega)
  refine ⟨done, { b with sink := b.sink ++ out, sched := rest, data := if done then [] else b.data },
    by unfold flushBuffer; rw [e]; rfl, ⟨rfl, hu, ?_, ?_⟩⟩
  · intro hd
    subst hd
    exact ⟨rfl, by show b.sink ++ out = _; rw [h1 rfl]⟩
  · intro hd
    subst hd
    obtain ⟨q1, q2, q3⟩ := h2 rfl
    exact ⟨rfl, ⟨out, q1, rfl⟩, q2, q3⟩

/-- `b'` is a later state of `b`, in which the text `s` has been added. -/
structure Later (b b' : WBuf) (s : Str) : Prop where
  cap : b'.cap = b.cap
  len : b.data.length ≤ b.cap → b'.data.length ≤ b'.cap
  suffix : ∃ used, b.sched = used ++ b'.sched
  exact : NoErrors b.sched → written b' = written b ++ s
  sub : (written b ++ s).Sublist (written b')

theorem NoErrors.suffix {l used rest : List (Option Nat)} (h : NoErrors l) (e : l = used ++ rest) : NoErrors rest := by
  intro r hr; exact h r (by rw [e]; exact List.mem_append_right _ hr)

theorem Later.refl (b : WBuf) : Later b b [] :=
  ⟨rfl, fun h => h, ⟨[], rfl⟩, fun _ => by simp, by simp⟩

theorem Later.trans {a b c : WBuf} {s t : Str} (h1 : Later a b s) (h2 : Later b c t) : Later a c (s ++ t) where
  cap := h2.cap.trans h1.cap
  len := fun h => h2.len (h1.len h)
  suffix := by
    obtain ⟨u, e⟩ := h1.suffix
    obtain ⟨v, e'⟩ := h2.suffix
    exact ⟨u ++ v, by rw [e, e', List.append_assoc]⟩
  exact := by
    intro hn
    obtain ⟨u, e⟩ := h1.suffix
    rw [h2.exact (NoErrors.suffix hn e), h1.exact hn, List.append_assoc]
  sub := by
    rw [← List.append_assoc]
    exact (h1.sub.append_right t).trans h2.sub

theorem Flushed.later {b b' : WBuf} {done : Bool} (h : Flushed b b' done) : Later b b' [] where
  cap := h.cap
  len := by
    intro hl
    cases done with
    | true => rw [(h.ok rfl).1]; simp
    | false => rw [(h.fail rfl).1, h.cap]; exact hl
  suffix := h.suffix
  exact := by
    intro hn
    cases done with
    | true => unfold written; rw [(h.ok rfl).1, (h.ok rfl).2]
    | false => exact absurd rfl (hn none (h.fail rfl).2.2.2)
  sub := by
    unfold written
    cases done with
    | true => rw [(h.ok rfl).1, (h.ok rfl).2]
    | false =>
      obtain ⟨e1, ⟨out, _, e2⟩, _⟩ := h.fail rfl
      rw [e1, e2, List.append_nil]
      exact List.Sublist.append_right (List.sublist_append_left _ _) _

/-- Is the buffer full? -/
def full (b : WBuf) : Nat := if b.data.length ≥ b.cap then 1 else 0

theorem flushIgnore_spec (b : WBuf) : ∃ done b', flushIgnore b = .ok b' ∧ Flushed b b' done := by
  obtain ⟨done, b', e, h⟩ := flushBuffer_spec b
  exact ⟨done, b', by unfold flushIgnore; rw [e]; rfl, h⟩

theorem appendLoop_spec : ∀ (f : Nat) (todo : Str) (b : WBuf), 0 < b.cap → b.data.length ≤ b.cap →
    todo.length + b.sched.length + full b + 1 ≤ f →
    ∃ b', appendLoop f todo b = .ok b' ∧ Later b b' todo := by
  intro f
  induction f with
  | zero => intro todo b _ _ hf; omega
  | succ f ih =>
    intro todo b hcap hlen hf
    unfold appendLoop
    by_cases ht : todo.length > 0
    · rw [if_pos ht]
      dsimp only
      generalize hk : min (b.cap - b.data.length) todo.length = k
      -- the state after copying
      have hL : Later b { b with data := b.data ++ todo.take k } (todo.take k) := by
        refine ⟨rfl, ?_, ⟨[], rfl⟩, ?_, ?_⟩
        · intro _; show (b.data ++ todo.take k).length ≤ b.cap
          rw [List.length_append, List.length_take]; omega
        · intro _; show b.sink ++ (b.data ++ _) = _; rw [← List.append_assoc]; rfl
        · show (b.sink ++ b.data ++ _).Sublist (b.sink ++ (b.data ++ _)); rw [List.append_assoc]
      by_cases hr : (todo.drop k).length > 0
      · rw [if_pos hr]
        obtain ⟨done, b1, e, hf1⟩ := flushIgnore_spec { b with data := b.data ++ todo.take k }
        rw [e, Out.bind_ok]
        have hL1 := hf1.later
        have hdrop : (todo.drop k).length = todo.length - k := List.length_drop
        have hm : (todo.drop k).length + b1.sched.length + full b1 + 1 ≤ f := by
          rw [hdrop]
          obtain ⟨used, hu⟩ := hf1.suffix
          have hu' : b1.sched.length ≤ b.sched.length := by
            have : b.sched = used ++ b1.sched := hu
            rw [this]; simp
          have hfl : full b1 ≤ 1 := by unfold full; split <;> omega
          cases done with
          | true =>
            have : full b1 = 0 := by
              unfold full
              rw [(hf1.ok rfl).1, hf1.cap]
              rw [if_neg]
              show ¬([] : Str).length ≥ b.cap
              simp; omega
            rw [this]
            by_cases hk0 : k = 0
            · have hfull : full b = 1 := by
                unfold full
                rw [if_pos (by omega)]
              omega
            · omega
          | false =>
            have hs := (hf1.fail rfl).2.2.1
            have hs : b1.sched.length < b.sched.length := hs
            by_cases hk0 : k = 0
            · have hfull : full b = 1 := by
                unfold full
                rw [if_pos (by omega)]
              omega
            · omega
        obtain ⟨b', e', hL2⟩ := ih (todo.drop k) b1 (by rw [hf1.cap]; exact hcap) (hL1.len (hL.len hlen)) hm
        refine ⟨b', e', ?_⟩
        have := (hL.trans hL1).trans hL2
        rw [List.append_nil, List.take_append_drop] at this
        exact this
      · rw [if_neg hr]
        have hz : todo.drop k = [] := by
          cases hd : todo.drop k with
          | nil => rfl
          | cons a l => rw [hd] at hr; simp at hr
        rw [hz]
        obtain ⟨f, rfl⟩ : ∃ g, f = g + 1 := ⟨f - 1, by omega⟩
        refine ⟨_, by unfold appendLoop; simp; rfl, ?_⟩
        have : todo.take k = todo := by
          have := List.take_append_drop k todo
          rw [hz, List.append_nil] at this; exact this
        rw [this] at hL ⊢
        exact hL
    · rw [if_neg ht]
      have : todo = [] := by
        cases todo with
        | nil => rfl
        | cons a l => simp at ht
      subst this
      exact ⟨b, rfl, Later.refl b⟩

theorem applyNewline_spec (b : WBuf) (hcap : 0 < b.cap) (hn : NoErrors b.sched) :
    ∃ b', applyNewline b = .ok b' ∧ Later b b' b!"\n" := by
  obtain ⟨b1, e1, h1, hlt⟩ : ∃ b1, (if b.data.length ≥ b.cap then flushIgnore b else .ok b) = .ok b1 ∧ Later b b1 [] ∧
      b1.data.length < b1.cap := by
    by_cases hf : b.data.length ≥ b.cap
    · rw [if_pos hf]
      obtain ⟨done, b2, e, h2⟩ := flushIgnore_spec b
      refine ⟨b2, e, h2.later, ?_⟩
      cases done with
      | true => rw [(h2.ok rfl).1, h2.cap]; exact hcap
      | false => exact absurd rfl (hn none (h2.fail rfl).2.2.2)
    · rw [if_neg hf]; exact ⟨b, rfl, Later.refl b, by omega⟩
  unfold applyNewline
  rw [e1, Out.bind_ok]
  unfold putByte
  rw [if_neg (by omega)]
  refine ⟨_, rfl, ?_⟩
  have h2 : Later b1 { b1 with data := b1.data ++ [cNl] } b!"\n" := by
    refine ⟨rfl, ?_, ⟨[], rfl⟩, ?_, ?_⟩
    · intro _; show (b1.data ++ [cNl]).length ≤ b1.cap; simp; omega
    · intro _; show b1.sink ++ (b1.data ++ _) = _; rw [← List.append_assoc]; rfl
    · show (b1.sink ++ b1.data ++ b!"\n").Sublist (b1.sink ++ (b1.data ++ b!"\n")); rw [List.append_assoc]
  have := h1.trans h2
  rwa [List.nil_append] at this

theorem applyFlags_spec (fl : LFlags) (b : WBuf) (hcap : 0 < b.cap)
    (hn : fl.newline = true → NoErrors b.sched) : ∃ b', applyFlags fl b = .ok b' ∧ Later b b' (lineEnd fl) := by
  obtain ⟨b1, e1, h1⟩ : ∃ b1, (if fl.newline then applyNewline b else .ok b) = .ok b1 ∧ Later b b1 (lineEnd fl) := by
    unfold lineEnd
    by_cases hnl : fl.newline = true
    · rw [if_pos hnl, if_pos hnl]; exact applyNewline_spec b hcap (hn hnl)
    · rw [if_neg hnl, if_neg hnl]; exact ⟨b, rfl, Later.refl b⟩
  unfold applyFlags
  rw [e1, Out.bind_ok]
  by_cases hf : fl.flush = true
  · rw [if_pos hf]
    obtain ⟨done, b2, e, h2⟩ := flushIgnore_spec b1
    have := h1.trans h2.later
    rw [List.append_nil] at this
    exact ⟨b2, e, this⟩
  · rw [if_neg hf]; exact ⟨b1, rfl, h1⟩

theorem append_spec {s : Str} {f : Nat} {fl : LFlags} {b : WBuf} (hcap : 0 < b.cap) (hlen : b.data.length ≤ b.cap)
    (hf : s.length + b.sched.length + 2 ≤ f) (hn : fl.newline = true → NoErrors b.sched) :
    ∃ b', (appendLoop f s b >>= applyFlags fl) = .ok b' ∧ Later b b' (s ++ lineEnd fl) := by
  have hfu : full b ≤ 1 := by unfold full; split <;> omega
  obtain ⟨b1, e1, h1⟩ := appendLoop_spec f s b hcap hlen (by omega)
  obtain ⟨u, hu⟩ := h1.suffix
  obtain ⟨b2, e2, h2⟩ := applyFlags_spec fl b1 (by rw [h1.cap]; exact hcap)
    (fun h => NoErrors.suffix (hn h) hu)
  exact ⟨b2, by rw [e1]; exact e2, h1.trans h2⟩

theorem runLog_spec (op : LogOp) (b : WBuf) (hcap : 0 < b.cap) (hlen : b.data.length ≤ b.cap)
    (hn : op.newline = true → NoErrors b.sched) (hsmall : ∀ s k fl, op = .minSize s k fl → s.length < 2 ^ 32) :
    ∃ b', runLog op b = .ok b' ∧ Later b b' op.text := by
  cases op with
  | append s fl => exact append_spec hcap hlen (Nat.le_refl _) hn
  | repeated ch n fl => exact append_spec hcap hlen (by simp) hn
  | flush =>
    obtain ⟨done, b', e, h⟩ := flushIgnore_spec b
    exact ⟨b', e, h.later⟩
  | minSize s k fl =>
    have hs := hsmall s k fl rfl
    obtain ⟨b1, e1, h1⟩ := append_spec (s := s) (fl := ⟨false, false⟩) hcap hlen (Nat.le_refl _) (by intro h; cases h)
    have h1 : Later b b1 s := by simpa [lineEnd] using h1
    obtain ⟨u, hu⟩ := h1.suffix
    have hn' : fl.newline = true → NoErrors b1.sched := fun h => NoErrors.suffix (hn h) hu
    have hc1 : 0 < b1.cap := by rw [h1.cap]; exact hcap
    show ∃ b', appendMinSize s k.toNat fl b = .ok b' ∧ _
    unfold appendMinSize
    have e1 : appendToBuffer s ⟨false, false⟩ b = .ok b1 := e1
    rw [e1, Out.bind_ok]
    dsimp only
    rw [Nat.mod_eq_of_lt hs]
    by_cases hw : s.length ≥ k.toNat
    · rw [if_pos hw]
      obtain ⟨b2, e2, h2⟩ := append_spec (s := []) (fl := fl) hc1 (h1.len hlen) (Nat.le_refl _) hn'
      refine ⟨b2, e2, ?_⟩
      have := h1.trans h2
      show Later b b2 (s ++ List.replicate (k.toNat - s.length) 32 ++ lineEnd fl)
      rw [Nat.sub_eq_zero_of_le hw]
      simpa using this
    · rw [if_neg hw]
      obtain ⟨b2, e2, h2⟩ := append_spec (s := List.replicate (k.toNat - s.length) cSp) (fl := fl) hc1 (h1.len hlen)
        (f := k.toNat - s.length + b1.sched.length + 2) (by simp) hn'
      refine ⟨b2, e2, ?_⟩
      have := h1.trans h2
      show Later b b2 (s ++ List.replicate (k.toNat - s.length) 32 ++ lineEnd fl)
      rw [List.append_assoc]; exact this

theorem runLogs_spec : ∀ (ops : List LogOp) (b : WBuf), 0 < b.cap → b.data.length ≤ b.cap →
    (NoErrors b.sched ∨ ∀ op ∈ ops, op.newline = false) →
    (∀ s k fl, LogOp.minSize s k fl ∈ ops → s.length < 2 ^ 32) →
    ∃ b', runLogs ops b = .ok b' ∧ Later b b' (ops.flatMap LogOp.text) := by
  intro ops
  induction ops with
  | nil => intro b _ _ _ _; exact ⟨b, rfl, Later.refl b⟩
  | cons op ops ih =>
    intro b hcap hlen hn hs
    obtain ⟨b1, e1, h1⟩ := runLog_spec op b hcap hlen (by
      intro h
      rcases hn with hn | hn
      · exact hn
      · rw [hn op List.mem_cons_self] at h; cases h) (by
      intro s k fl e; exact hs s k fl (by rw [e]; exact List.mem_cons_self))
    obtain ⟨u, hu⟩ := h1.suffix
    obtain ⟨b2, e2, h2⟩ := ih b1 (by rw [h1.cap]; exact hcap) (h1.len hlen) (by
      rcases hn with hn | hn
      · exact Or.inl (NoErrors.suffix hn hu)
      · exact Or.inr (fun op h => hn op (List.mem_cons_of_mem _ h))) (fun s k fl h => hs s k fl (List.mem_cons_of_mem _ h))
    refine ⟨b2, by unfold runLogs; rw [e1]; exact e2, ?_⟩
    have := h1.trans h2
    rwa [← List.flatMap_cons] at this

/-! ## Numbers -/

theorem digit_toNat {n : Nat} (h : n < 10) : (UInt8.ofNat (48 + n)).toNat = 48 + n := by
  rw [UInt8.toNat_ofNat']; omega

theorem decValue_append (s : Str) (c : UInt8) : decValue (s ++ [c]) = 10 * decValue s + (c.toNat - 48) := by
  unfold decValue; rw [List.foldl_append]; rfl

/-- The digits are put in front of what is there. -/
theorem digitsLoop_spec : ∀ (f n : Nat) (acc : Str), n < 10 ^ f → 0 < f →
    ∃ t, digitsLoop f n acc = .ok (t ++ acc) ∧ t ≠ [] ∧ (∀ c ∈ t, 48 ≤ c.toNat ∧ c.toNat ≤ 57) ∧ decValue t = n ∧
      (t.head? = some 48 → t = [48]) ∧ t.length ≤ f ∧ (n ≠ 0 → t.head? ≠ some 48) ∧ (n ≠ 0 → 10 ^ (t.length - 1) ≤ n) := by
  intro f
  induction f with
  | zero => intro n acc _ h; omega
  | succ f ih =>
    intro n acc hn _
    unfold digitsLoop
    dsimp only
    have hd : n % 10 < 10 := Nat.mod_lt _ (by omega)
    have hdn := digit_toNat hd
    by_cases h : n / 10 ≠ 0
    · rw [if_pos h]
      have hf : 0 < f := by
        rcases Nat.eq_zero_or_pos f with rfl | hp
        · simp at hn; omega
        · exact hp
      obtain ⟨t, e, h1, h2, h3, h4, h5, h6, h7⟩ := ih (n / 10) (UInt8.ofNat (48 + n % 10) :: acc)
        (by rw [Nat.pow_succ] at hn; omega) hf
      have hh : (t ++ [UInt8.ofNat (48 + n % 10)]).head? = t.head? := by
        cases t with
        | nil => exact absurd rfl h1
        | cons a l => rfl
      refine ⟨t ++ [UInt8.ofNat (48 + n % 10)], by rw [e]; simp, by simp, ?_, ?_, ?_, by simp; omega, ?_, ?_⟩
      · intro c hc
        rcases List.mem_append.1 hc with hc | hc
        · exact h2 c hc
        · rw [List.mem_singleton.1 hc, hdn]; omega
      · rw [decValue_append, h3, hdn]; omega
      · intro hz; rw [hh] at hz; exact absurd hz (h6 h)
      · intro _; rw [hh]; exact h6 h
      · intro _
        have h7 := h7 h
        rw [List.length_append]
        simp only [List.length_cons, List.length_nil, Nat.zero_add, Nat.add_sub_cancel]
        have hl : t.length = (t.length - 1) + 1 := by
          cases t with
          | nil => exact absurd rfl h1
          | cons a l => simp
        rw [hl, Nat.pow_succ]
        omega
    · rw [if_neg h]
      have hm : n % 10 = n := by omega
      refine ⟨[UInt8.ofNat (48 + n % 10)], rfl, by simp, ?_, ?_, ?_, by simp, ?_, ?_⟩
      · intro c hc
        rw [List.mem_singleton.1 hc, hdn]; omega
      · have := decValue_append [] (UInt8.ofNat (48 + n % 10))
        rw [List.nil_append] at this
        rw [this, hdn]
        show 10 * 0 + _ = n
        omega
      · intro hz
        simp only [List.head?_cons, Option.some.injEq] at hz
        rw [hz]
      · intro h0 hz
        simp only [List.head?_cons, Option.some.injEq] at hz
        rw [hz] at hdn
        have : (48 : UInt8).toNat = 48 := rfl
        omega
      · intro h0; simp; omega

theorem uint64Text_spec (n : UInt64) : ∃ t, uint64Text n = .ok t ∧ IsDecimal t n.toNat ∧ t.length ≤ 64 ∧
    (n.toNat ≠ 0 → 10 ^ (t.length - 1) ≤ n.toNat) := by
  obtain ⟨t, e, h1, h2, h3, h4, h5, _, h7⟩ := digitsLoop_spec 64 n.toNat [] (by
    have := n.toNat_lt
    omega) (by omega)
  exact ⟨t, by unfold uint64Text; rw [e, List.append_nil], ⟨h1, h2, h3, h4⟩, h5, h7⟩

theorem ptrdiffLoop_eq : ∀ (f n : Nat) (acc : Str), ptrdiffLoop f (-(n : Int)) acc = digitsLoop f n acc := by
  intro f
  induction f with
  | zero => intro n acc; rfl
  | succ f ih =>
    intro n acc
    unfold ptrdiffLoop digitsLoop
    dsimp only
    have e1 : (-(n : Int)).tdiv 10 = -((n / 10 : Nat) : Int) := by
      rw [Int.neg_tdiv]; rfl
    have e2 : (48 - (-(n : Int)).tmod 10).toNat = 48 + n % 10 := by
      have : (-(n : Int)).tmod 10 = -((n % 10 : Nat) : Int) := by
        rw [Int.neg_tmod]; rfl
      rw [this]; omega
    rw [e1, e2, ih]
    by_cases h : n / 10 ≠ 0
    · rw [if_pos h, if_pos (by omega)]
    · rw [if_neg h, if_neg (by omega)]

theorem ptrdiffText_spec (v : Int) (h1 : -2 ^ 63 ≤ v) (h2 : v < 2 ^ 63) :
    ∃ t, ptrdiffText v = .ok t ∧ IsDecimalInt t v ∧ t.length ≤ 64 := by
  have ht : (if v > 0 then -v else v) = -((v.natAbs : Nat) : Int) := by split <;> omega
  obtain ⟨t, e, q1, q2, q3, q4, q5, _, _⟩ := digitsLoop_spec 63 v.natAbs [] (by
    have : v.natAbs ≤ 2 ^ 63 := by omega
    omega) (by omega)
  unfold ptrdiffText
  rw [ht]
  dsimp only
  rw [ptrdiffLoop_eq, e, Out.bind_ok, List.append_nil]
  by_cases hv : v < 0
  · rw [if_pos hv]
    exact ⟨_, rfl, Or.inr ⟨hv, t, rfl, q1, q2, by rw [q3]; omega, q4⟩, by simp; omega⟩
  · rw [if_neg hv]
    exact ⟨_, rfl, Or.inl ⟨by omega, q1, q2, by rw [q3]; omega, q4⟩, by omega⟩

/-! ## Hexadecimal -/

theorem hexDigit_spec {x : Nat} (h : x < 16) : IsHex (hexDigit x) ∧ hexVal (hexDigit x) = x := by
  unfold IsHex hexVal hexDigit
  by_cases h10 : x < 10
  · rw [if_pos h10, UInt8.toNat_ofNat']
    rw [if_pos (by omega)]
    omega
  · rw [if_neg h10, UInt8.toNat_ofNat']
    rw [if_neg (by omega)]
    omega

/-- The digits of weight `16^(k+j)`, …, `16^j`, most significant first. -/
theorem hexDigits_value (u : Nat) : ∀ (k : Nat),
    hexValue ((List.range k).reverse.map (fun i => hexDigit (u / 2 ^ (4 * i) % 16))) = u % 16 ^ k := by
  suffices H : ∀ (l : List Nat) (acc : Nat), List.foldl (fun acc c => 16 * acc + hexVal c) acc
      (l.map (fun i => hexDigit (u / 2 ^ (4 * i) % 16))) = List.foldl (fun acc i => 16 * acc + u / 2 ^ (4 * i) % 16) acc l by
    intro k
    unfold hexValue
    rw [H]
    have G : ∀ k acc, List.foldl (fun acc i => 16 * acc + u / 2 ^ (4 * i) % 16) acc (List.range k).reverse
        = 16 ^ k * acc + u % 16 ^ k := by
      intro k
      induction k with
      | zero => intro acc; simp [Nat.mod_one]
      | succ k ih =>
        intro acc
        rw [List.range_succ, List.reverse_append]
        simp only [List.reverse_cons, List.reverse_nil, List.nil_append, List.singleton_append, List.foldl_cons]
        rw [ih, Nat.pow_succ, show (2 : Nat) ^ (4 * k) = 16 ^ k by rw [Nat.pow_mul]]
        have := Nat.mod_mul (x := u) (a := 16 ^ k) (b := 16)
        rw [this]
        ring
    rw [G]; omega
  intro l
  induction l with
  | nil => intro acc; rfl
  | cons i l ih =>
    intro acc
    simp only [List.map_cons, List.foldl_cons]
    rw [(hexDigit_spec (Nat.mod_lt _ (by omega))).2, ih]

end Flo
