import Verif.Proofs.LogReturn
/-!
# What the append functions return (C80)
-/
namespace Flo
open Spec

/-- **C80** is violated: padding "ab" to five characters outputs five and returns 1; four dashes return 1; `0.000001` has eight
characters, and 4 is returned; `12.5` has nine and nine would be right, but 10 is returned. -/
theorem C80_violated :
    (∃ b', appendMinSizeR b!"ab" 5 ⟨false, false⟩ ⟨64, [], [], []⟩ = .ok (1, b') ∧ b'.data = b!"ab   ") ∧
    (∃ b', appendRepeatedR cDash 4 ⟨false, false⟩ ⟨64, [], [], []⟩ = .ok (1, b') ∧ b'.data = b!"----") ∧
    (∃ b', appendDoubleR ⟨false, some (0, 1)⟩ ⟨false, false⟩ ⟨64, [], [], []⟩ = .ok (4, b') ∧ b'.data = b!"0.000001") ∧
    (∃ b', appendDoubleR ⟨false, some (12, 500000)⟩ ⟨false, false⟩ ⟨64, [], [], []⟩ = .ok (10, b') ∧ b'.data = b!"12.500000") :=
  ⟨⟨_, rfl, by decide +kernel⟩, ⟨_, rfl, by decide +kernel⟩, ⟨_, rfl, by decide +kernel⟩, ⟨_, rfl, by decide +kernel⟩⟩

/-- **C80** (what holds) Any sequence of calls on any buffer, if no write fails, outputs the texts one after the other and
returns the values in `LogCall.returned`. -/
theorem C80_returns_partial (cs : List LogCall) (hf : ∀ c ∈ cs, c.Fits) (b : WBuf) (hcap : 0 < b.cap)
    (hlen : b.data.length ≤ b.cap) (hw : NoErrors b.sched) :
    ∃ b', runCalls cs b = .ok (cs.map LogCall.returned, b') ∧ b'.data.length ≤ b'.cap ∧
      b'.sink ++ b'.data = b.sink ++ b.data ++ cs.flatMap (fun c => c.text ++ c.ending) := by
  obtain ⟨g, ⟨ops, hs, e, hg⟩, h⟩ := runCalls_gives cs hf
  obtain ⟨b', e1, e2, e3⟩ := C43_ordered ops b hcap hlen hw hs
  refine ⟨b', ?_, e3, by rw [e2, e]⟩
  rw [h, hg, e1]; rfl

/-- **C80** (what holds) Exactly which calls return the number of characters they output. -/
theorem C80_exact_partial (c : LogCall) : c.returned = c.text.length ↔ c.Counts := by
  have hd : ∀ n : Nat, dec n ≠ [] := fun n => (dec_isDecimal n).1.1
  have hdi : ∀ v : Int, decInt v ≠ [] := by
    intro v; unfold decInt; split
    · simp
    · exact hd _
  have hpad : ∀ (s : Str) (k : Nat), padded s.length k = (cell k s).length ↔ k ≤ s.length ∨ (s = [] ∧ k = 1) := by
    intro s k
    unfold padded cell pad
    rw [List.length_append, List.length_replicate]
    by_cases hk : k ≤ s.length
    · rw [if_pos hk]; omega
    · rw [if_neg hk, ← List.length_eq_zero_iff]; omega
  cases c with
  | repeated ch n fl => simp [LogCall.returned, LogCall.text, LogCall.Counts, eq_comm]
  | stringMin s k fl => exact hpad s k.toNat
  | uint64Min n k fl =>
    refine (hpad _ k.toNat).trans ⟨fun h => h.resolve_right fun h => hd _ h.1, Or.inl⟩
  | ptrdiffMin v k fl =>
    refine (hpad _ k.toNat).trans ⟨fun h => h.resolve_right fun h => hdi _ h.1, Or.inl⟩
  | double p fl =>
    obtain ⟨s, _ | ⟨i, f⟩⟩ := p
    · simp [LogCall.returned, LogCall.Counts]
    · show (if s then 1 else 0) + (dec i.toNat).length + 1 + 1 + (dec f.toNat).length = _ ↔ zeros f = 1
      simp only [LogCall.text, doubleText, List.length_append, List.length_replicate]
      have : (if s = true then 1 else 0) = (if s = true then b!"-" else []).length := by cases s <;> rfl
      rw [this, show (b!".").length = 1 from rfl]
      omega
  | _ => simp [LogCall.returned, LogCall.Counts]

/-- The values are those the padding functions compute with: dropping them gives the functions of the other theorems. -/
theorem C80_same_output (s : Str) (n : UInt64) (v : Int) (k : Nat) (fl : LFlags) (b : WBuf) :
    (appendMinSizeR s k fl b >>= fun r => Out.ok r.2) = appendMinSize s k fl b ∧
    (appendUint64MinSizeR n k fl b >>= fun r => Out.ok r.2) = appendUint64MinSize n k fl b ∧
    (appendPtrdiffMinSizeR v k fl b >>= fun r => Out.ok r.2) = appendPtrdiffMinSize v k fl b := by
  have bind_id : ∀ o : Out WBuf, (o >>= fun b => Out.ok b) = o := by intro o; cases o <;> rfl
  have key : ∀ s : Str, (appendMinSizeR s k fl b >>= fun r => Out.ok r.2) = appendMinSize s k fl b := by
    intro s
    unfold appendMinSizeR appendMinSize appendToBufferR padR appendRepeatedR
    simp only [bind_assoc, Out.bind_ok]
    congr 1
    funext b
    split <;> simp only [bind_assoc, Out.bind_ok, bind_id]
  refine ⟨key s, ?_, ?_⟩
  · unfold appendUint64MinSizeR appendUint64MinSize appendUint64R
    simp only [bind_assoc]
    congr 1
    funext t
    rw [← key t]
    unfold appendMinSizeR
    simp only [bind_assoc]
  · unfold appendPtrdiffMinSizeR appendPtrdiffMinSize appendPtrdiffR
    simp only [bind_assoc]
    congr 1
    funext t
    rw [← key t]
    unfold appendMinSizeR
    simp only [bind_assoc]

/-- **C57** (what holds, exactly) The pointer's text. -/
theorem C57_exact_partial (u : UInt64) : ptrText u = b!"0x" ++ hexDigits 15 (u.toNat / 16) := ptr_text u

/-- **C61** (what holds, exactly) An `int` is written as the number it becomes by conversion to `uint64_t`: the right one if it is
not negative, and one that is too large by 2^64 otherwise. -/
theorem C61_exact_partial (v : Int) (h1 : -2 ^ 31 ≤ v) (h2 : v < 2 ^ 31) (fl : LFlags) (b : WBuf)
    (hcap : 0 < b.cap) (hlen : b.data.length ≤ b.cap) (hw : NoErrors b.sched) :
    ∃ t b', IsDecimal t (if 0 ≤ v then v.toNat else (v + 2 ^ 64).toNat) ∧ appendInt v fl b = .ok b' ∧
      b'.sink ++ b'.data = b.sink ++ b.data ++ (t ++ lineEnd fl) := by
  obtain ⟨t, ht, ⟨b', e, h⟩, _⟩ := C44_unsigned (UInt64.ofNat (v % 2 ^ 64).toNat) 0 fl b hcap hlen hw
  refine ⟨t, b', ?_, e, h⟩
  have : (UInt64.ofNat (v % 2 ^ 64).toNat).toNat = if 0 ≤ v then v.toNat else (v + 2 ^ 64).toNat := by
    rw [UInt64.toNat_ofNat']; split <;> omega
  rwa [this] at ht

/-- **C62** The whole text of a `double` in range: the sign, the integral part in decimal, a point and six digits, those of the
millionths; and the flags' end of line. -/
theorem C62_text (neg : Bool) (i f : UInt64) (hf : f.toNat < 10 ^ 6) (fl : LFlags) (b : WBuf)
    (hcap : 0 < b.cap) (hlen : b.data.length ≤ b.cap) (hw : NoErrors b.sched) :
    ∃ r b' t u, appendDoubleR ⟨neg, some (i, f)⟩ fl b = .ok (r, b') ∧ IsDecimal t i.toNat ∧ u.length = 6 ∧
      (∀ c ∈ u, 48 ≤ c.toNat ∧ c.toNat ≤ 57) ∧ decValue u = f.toNat ∧
      b'.sink ++ b'.data = b.sink ++ b.data ++ ((if neg then b!"-" else []) ++ t ++ b!"." ++ u ++ lineEnd fl) := by
  obtain ⟨b', e, _, h⟩ := C80_returns_partial [.double ⟨neg, some (i, f)⟩ fl]
    (by intro c hc; rw [List.mem_singleton] at hc; rw [hc]; exact hf) b hcap hlen hw
  obtain ⟨u, hu, h6, hdig, hval⟩ := C62_six_decimals f hf
  have hu' : u = List.replicate (zeros f) 48 ++ dec f.toNat := by
    unfold fractionText at hu
    rw [uint64_text] at hu
    cases hu
    rw [← zeroCounter_eq hf]
    rfl
  unfold runCalls runCalls at e
  cases hr : runCall (.double ⟨neg, some (i, f)⟩ fl) b with
  | ok r =>
    rw [hr] at e
    have e' : r.2 = b' := by injection e with e; exact congrArg Prod.snd e
    subst e'
    refine ⟨r.1, r.2, dec i.toNat, u, hr, (dec_isDecimal _).1, h6, hdig, hval, ?_⟩
    rw [h, hu']
    simp [LogCall.text, LogCall.ending, doubleText]
  | _ => rw [hr] at e; cases e

/-- A buffer of four bytes and calls of every kind. -/
def sampleCalls : List LogCall :=
  [.string b!"abc" ⟨true, false⟩, .cstr (some (b!"xyz" ++ [0, 7])) ⟨false, false⟩, .cstr none ⟨true, false⟩, .bool true ⟨false, true⟩,
   .char 65 ⟨false, false⟩, .ptr 0x7ffe10 ⟨false, false⟩, .uint64 120 ⟨false, false⟩, .ptrdiff (-5) ⟨true, false⟩,
   .repeated 61 4 ⟨false, false⟩, .stringMin b!"ab" 5 ⟨false, false⟩, .uint64Min 120 2 ⟨false, false⟩, .ptrdiffMin (-5) 3 ⟨true, true⟩,
   .color true .green, .colorReset true, .double ⟨true, some (3, 14159)⟩ ⟨true, false⟩]

/-- The hypotheses are met, and the return values are those that were computed. -/
example : (∀ c ∈ sampleCalls, c.Fits) ∧
    sampleCalls.map LogCall.returned = [3, 3, 0, 4, 1, 17, 3, 2, 1, 1, 3, 1, 5, 4, 9] ∧
    okAnd (runCalls sampleCalls ⟨4, [], [], []⟩) (fun r =>
      decide (r.1 = [3, 3, 0, 4, 1, 17, 3, 2, 1, 1, 3, 1, 5, 4, 9])) = true := by
  refine ⟨?_, by decide +kernel, by decide +kernel⟩
  simp [sampleCalls, LogCall.Fits]

end Flo
