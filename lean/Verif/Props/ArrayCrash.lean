import Verif.Model.ArrayCrash
/-!
# Arrays after a push that failed (C128)
-/
namespace Flo
namespace Spec

/-- The outcome of a function in the two models is the same: done with the same result, or left through the failure exit, or undefined. -/
def SameOutcome {α : Type} : Out α → ARes α → Prop
  | .ok r, .done r' => r = r'
  | .longjmp, .fail _ _ => True
  | .ub _, .stop => True
  | .hang, .stop => True
  | _, _ => False

end Spec
open Spec

/-- **C128**, the programs: with the failure exit's state added, they are the functions of `Arena.lean`. -/
theorem C128_program (size align : Int) (zero : Bool) (data : List UInt8) (s : Arr) (a : Arena) :
    SameOutcome (arrPush size align zero s a) (arrPushC size align zero s a) ∧ SameOutcome (rawAdd data s a) (rawAddC data s a) := by
  constructor
  · unfold arrPush arrPushC arrReserve
    by_cases hc : s.len ≥ s.cap
    · rw [if_pos hc, if_pos hc]
      unfold arrGrow arrGrowC
      cases hb : s.buf with
      | none =>
        dsimp only
        cases e : arenaAlloc (2 * size) align 1 zero false a with
        | ok r =>
          obtain ⟨p, a'⟩ := r
          cases p <;> simp [allocOr, SameOutcome, e]
        | _ => simp [allocOr, SameOutcome, e]
      | some b =>
        dsimp only
        split
        · cases e : arenaAlloc size 1 s.cap zero false a with
          | ok r => simp [allocOr, SameOutcome, hb]
          | _ => simp [allocOr, SameOutcome]
        · cases e : arenaAlloc (2 * size) align s.cap zero false a with
          | ok r =>
            obtain ⟨p, a'⟩ := r
            cases p <;> simp [allocOr, SameOutcome]
          | _ => simp [allocOr, SameOutcome]
    · rw [if_neg hc, if_neg hc]
      cases hb : s.buf <;> simp [SameOutcome, hb]
  · unfold rawAdd rawAddC rawReserve rawReserveC
    by_cases hc : s.len + (data.length : Int) > s.cap
    · rw [if_pos hc, if_pos hc]
      dsimp only
      cases hb : s.buf with
      | none =>
        dsimp only
        cases e : arenaAlloc 1 1 ((s.len + data.length) * 2) false false a with
        | ok r =>
          obtain ⟨p, a'⟩ := r
          cases p with
          | some p => simp [allocOr, SameOutcome]
          | none => by_cases hd : data = [] <;> simp [allocOr, SameOutcome, hd]
        | _ => simp [allocOr, SameOutcome]
      | some b =>
        dsimp only
        split
        · cases e : arenaAlloc 1 1 ((s.len + data.length) * 2) false false a with
          | ok r => simp [allocOr, SameOutcome, hb]
          | _ => simp [allocOr, SameOutcome]
        · cases e : arenaAlloc 1 1 ((s.len + data.length) * 2) false false a with
          | ok r =>
            obtain ⟨p, a'⟩ := r
            cases p <;> simp [allocOr, SameOutcome]
          | _ => simp [allocOr, SameOutcome]
    · rw [if_neg hc, if_neg hc]
      cases hb : s.buf with
      | some b => simp [SameOutcome, hb]
      | none => by_cases hd : data = [] <;> simp [SameOutcome, hb, hd]

theorem allocOr_fail {α : Type} {s s' : Arr} {a a' : Arena} {o : Out (Option Int × Arena)} {k : Option Int → Arena → ARes α}
    (hk : ∀ p b x y, k p b ≠ .fail x y) (h : allocOr s a o k = .fail s' a') : s' = s ∧ a' = a := by
  unfold allocOr at h
  cases o with
  | ok r => exact absurd h (hk _ _ _ _)
  | longjmp => cases h; exact ⟨rfl, rfl⟩
  | ub w => cases h
  | hang => cases h

/-- What a failing push leaves: only the capacity of an array without buffer is another. -/
theorem push_left {size align : Int} {zero : Bool} {s s' : Arr} {a a' : Arena} (h : arrPushC size align zero s a = .fail s' a') :
    a' = a ∧ ((s.buf = none ∧ s' = { s with cap := 1 }) ∨ s' = s) := by
  unfold arrPushC at h
  by_cases hc : s.len ≥ s.cap
  · rw [if_pos hc] at h
    cases hg : arrGrowC size align zero s a with
    | done r =>
      rw [hg] at h
      dsimp only at h
      split at h <;> cases h
    | stop => rw [hg] at h; cases h
    | fail t b =>
      rw [hg] at h
      cases h
      unfold arrGrowC at hg
      cases hb : s.buf with
      | none =>
        rw [hb] at hg
        obtain ⟨h1, h2⟩ := allocOr_fail (fun _ _ _ _ => by simp) hg
        refine ⟨h2, Or.inl ⟨rfl, ?_⟩⟩
        rw [h1, ← hb]
      | some b =>
        rw [hb] at hg
        dsimp only at hg
        split at hg
        · obtain ⟨h1, h2⟩ := allocOr_fail (fun _ _ _ _ => by simp) hg
          exact ⟨h2, Or.inr h1⟩
        · obtain ⟨h1, h2⟩ := allocOr_fail (fun p _ _ _ => by cases p <;> simp) hg
          exact ⟨h2, Or.inr h1⟩
  · rw [if_neg hc] at h
    dsimp only at h
    split at h <;> cases h

theorem raw_left {data : List UInt8} {s s' : Arr} {a a' : Arena} (h : rawAddC data s a = .fail s' a') :
    a' = a ∧ ((s.buf = none ∧ s' = { s with cap := data.length }) ∨ s' = s) := by
  unfold rawAddC at h
  cases hg : rawReserveC data.length s a with
  | done r =>
    rw [hg] at h
    dsimp only at h
    split at h
    · cases h
    · split at h <;> cases h
  | stop => rw [hg] at h; cases h
  | fail t b =>
    rw [hg] at h
    cases h
    unfold rawReserveC at hg
    split at hg
    · dsimp only at hg
      cases hb : s.buf with
      | none =>
        rw [hb] at hg
        obtain ⟨h1, h2⟩ := allocOr_fail (fun _ _ _ _ => by simp) hg
        refine ⟨h2, Or.inl ⟨rfl, ?_⟩⟩
        rw [h1, ← hb]
      | some b =>
        rw [hb] at hg
        dsimp only at hg
        split at hg
        · obtain ⟨h1, h2⟩ := allocOr_fail (fun _ _ _ _ => by simp) hg
          exact ⟨h2, Or.inr h1⟩
        · obtain ⟨h1, h2⟩ := allocOr_fail (fun p _ _ _ => by cases p <;> simp) hg
          exact ⟨h2, Or.inr h1⟩
    · cases hg

/-- **C128**, what is kept.  A push or an append that leaves through the failure exit has changed nothing in memory and in the arena, and neither the buffer nor the number of the
elements of the array. -/
theorem C128_kept (size align : Int) (zero : Bool) (data : List UInt8) (s s' : Arr) (a a' : Arena)
    (h : arrPushC size align zero s a = .fail s' a' ∨ rawAddC data s a = .fail s' a') : a' = a ∧ s'.buf = s.buf ∧ s'.len = s.len := by
  rcases h with h | h
  · obtain ⟨h1, ⟨_, h3⟩ | h3⟩ := push_left h <;> rw [h3] <;> exact ⟨h1, rfl, rfl⟩
  · obtain ⟨h1, ⟨_, h3⟩ | h3⟩ := raw_left h <;> rw [h3] <;> exact ⟨h1, rfl, rfl⟩

/-- **C128**, trying again, for arrays that have a buffer: the array is exactly as before, so any later call on it, in whatever arena, does what it would have done without the
failure.  Missing: arrays without buffer (`C128_violated`). -/
theorem C128_again_partial (size align : Int) (zero : Bool) (data : List UInt8) (s s' : Arr) (a a' : Arena) (b : Int) (hb : s.buf = some b)
    (h : arrPushC size align zero s a = .fail s' a' ∨ rawAddC data s a = .fail s' a') : s' = s := by
  rcases h with h | h
  · obtain ⟨_, ⟨h2, _⟩ | h3⟩ := push_left h
    · rw [hb] at h2; cases h2
    · exact h3
  · obtain ⟨_, ⟨h2, _⟩ | h3⟩ := raw_left h
    · rw [hb] at h2; cases h2
    · exact h3

/-- **C128**, failing: for every array that has no buffer yet, a push that fails leaves an array into which the next push, with any amount of memory, stores through the NULL
pointer; likewise a failing append of at least one byte, for the next append of as many bytes or less.  The failures do occur: in an arena of one byte, for example. -/
theorem C128_violated :
    (∀ size align zero a s' a', arrPushC size align zero Arr.empty a = .fail s' a' → ∀ a2, arrPush size align zero s' a2 = .ub .nullDeref) ∧
    (∀ data a s' a', rawAddC data Arr.empty a = .fail s' a' → ∀ data' a2, data' ≠ [] → data'.length ≤ data.length → rawAdd data' s' a2 = .ub .nullDeref) ∧
    (∃ s' a', arrPushC 4 2 false Arr.empty ⟨64, 65, fun _ => 0⟩ = .fail s' a') ∧ (∃ s' a', rawAddC [97, 98] Arr.empty ⟨64, 65, fun _ => 0⟩ = .fail s' a') := by
  refine ⟨fun size align zero a s' a' h a2 => ?_, fun data a s' a' h data' a2 hd hl => ?_, ?_, ?_⟩
  · obtain ⟨_, ⟨_, h3⟩ | h3⟩ := push_left h
    · subst h3
      rfl
    · subst h3
      exfalso
      unfold arrPushC at h
      rw [if_pos (by decide)] at h
      cases hg : arrGrowC size align zero Arr.empty a with
      | done r => rw [hg] at h; dsimp only at h; split at h <;> cases h
      | stop => rw [hg] at h; cases h
      | fail t b =>
        rw [hg] at h
        have hk := (allocOr_fail (fun _ _ _ _ => by simp) (show allocOr (α := Arr × Arena) _ a _ _ = .fail t b from hg)).1
        have : t = Arr.empty := by cases h; rfl
        rw [this] at hk
        exact absurd (congrArg Arr.cap hk) (by decide)
  · have hdl : data'.length ≠ 0 := by simpa using hd
    obtain ⟨_, ⟨_, h3⟩ | h3⟩ := raw_left h
    · subst h3
      unfold rawAdd rawReserve
      rw [if_neg (by show ¬ ((0 : Int) + data'.length > data.length); omega), Out.bind_ok]
      show (if data' = [] then _ else _) = _
      rw [if_neg hd]
    · subst h3
      exfalso
      unfold rawAddC at h
      cases hg : rawReserveC data.length Arr.empty a with
      | done r =>
        rw [hg] at h; dsimp only at h
        split at h
        · cases h
        · split at h <;> cases h
      | stop => rw [hg] at h; cases h
      | fail t b =>
        rw [hg] at h
        unfold rawReserveC at hg
        rw [if_pos (by show (0 : Int) + data.length > 0; omega)] at hg
        have hk := (allocOr_fail (fun _ _ _ _ => by simp) (show allocOr (α := Arr × Arena) _ a _ _ = .fail t b from hg)).1
        have : t = Arr.empty := by cases h; rfl
        rw [this] at hk
        have := congrArg Arr.cap hk
        have : (0 : Int) = data.length := this
        omega
  · exact ⟨_, _, rfl⟩
  · exact ⟨_, _, rfl⟩

/-- A failing push on an array with a buffer (C128_again_partial). -/
example : ∃ s' a', arrPushC 4 2 false ⟨some 64, 2, 2⟩ ⟨72, 73, fun _ => 0⟩ = .fail s' a' := ⟨_, _, rfl⟩

end Flo
