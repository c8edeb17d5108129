import Verif.Proofs.Double
import Verif.Props.LogReturn
/-!
# Every double can be logged, and prints within a millionth (C99)
-/
namespace Flo
open Spec

/-- **C99** is violated: logging "not a number" converts it to an integer, which is undefined. -/
theorem C99_violated : ¬ ∀ (d : Dbl) (fl : LFlags) (b : WBuf), 0 < b.cap → b.data.length ≤ b.cap → NoErrors b.sched →
    ∃ r b', appendDouble d fl b = .ok (r, b') := by
  intro h
  obtain ⟨r, b', e⟩ := h .nan ⟨false, false⟩ ⟨64, [], [], []⟩ (by decide) (by decide) (by intro x hx; cases hx)
  cases e

theorem big63 {q : ℚ} (h : q ≤ 2 ^ 63) : q < 2 ^ 1024 :=
  h.trans_lt (pow_lt_pow_right₀ (by norm_num) (by norm_num))

theorem Spec.IsDouble.bits {x : ℚ} (h : IsDouble x) : Bits53 |x| := by
  obtain ⟨m, e, hm, he, _, rfl⟩ := h
  refine ⟨m.natAbs, e, by zify; exact hm, he, ?_⟩
  rw [abs_mul, abs_of_pos (show (0 : ℚ) < 2 ^ e by positivity)]
  congr 1
  rw [← Int.cast_abs, Nat.cast_natAbs]

theorem isNeg_abs (x : ℚ) : (if (Dbl.num x).isNeg then (Dbl.num x).neg else Dbl.num x) = Dbl.num |x| := by
  by_cases h : x < 0
  · simp [Dbl.isNeg, Dbl.neg, h, abs_of_neg h]
  · simp [Dbl.isNeg, h, abs_of_nonneg (not_lt.mp h)]

theorem round_of {q : ℚ} (h0 : 0 ≤ q) (h : nearest q < 2 ^ 1024) : Dbl.round q = .num (nearest q) := by
  unfold Dbl.round; rw [if_neg (not_lt.mpr h0), if_pos h]

theorem ofU64_small {n : UInt64} (h : n.toNat < 2 ^ 53) : Dbl.ofU64 n = .num n.toNat := by
  have e := nearest_nat h
  unfold Dbl.ofU64
  have hl : (n.toNat : ℚ) < 2 ^ 1024 := by
    have h1 : n.toNat ≤ 2 ^ 63 := h.le.trans (by norm_num)
    exact big63 (by exact_mod_cast h1)
  rw [round_of (Nat.cast_nonneg _) (e.symm ▸ hl), e]

theorem ofU64_million : Dbl.ofU64 1000000 = .num 1000000 := by
  rw [ofU64_small (by decide)]; rfl

theorem ofU64_limit : Dbl.ofU64 ((18446744073709551615 : UInt64) >>> 1) = .num (2 ^ 63) := by
  have e : ((((18446744073709551615 : UInt64) >>> 1).toNat : ℕ) : ℚ) = 9223372036854775807 := by
    rw [show ((18446744073709551615 : UInt64) >>> 1).toNat = 9223372036854775807 by decide]; norm_cast
  unfold Dbl.ofU64
  rw [e, round_of (by norm_num) (by rw [nearest_limit]; exact big63 le_rfl), nearest_limit]

theorem half_div : (Dbl.num (1 / 2)).div (.num 1000000) = .num half6 := by
  show Dbl.round _ = _
  have := half6_bounds.2
  rw [round_of (by norm_num)]
  · rfl
  · show half6 < _
    exact big63 (this.le.trans (by norm_num))

/-- The arithmetic in the range of the integers. -/
theorem splitDouble_in {x : ℚ} (h : IsDouble x) (hx : |x| < 2 ^ 63) :
    ∃ i f : UInt64, splitDouble (.num x) = .ok ⟨decide (x < 0), some (i, f)⟩ ∧ f.toNat < 10 ^ 6 ∧
      i.toNat = ⌊bumped |x|⌋₊ ∧ f.toNat = ⌊nearest ((bumped |x| - ⌊bumped |x|⌋₊) * 1000000)⌋₊ := by
  have hb := h.bits
  have h0 := abs_nonneg x
  have hc := half6_bounds
  norm_num at hc
  obtain ⟨hy1, hy2⟩ := bumped_between hb h0
  have hy63 : bumped |x| < 2 ^ 63 := by
    by_cases hl : |x| < 2 ^ 33
    · norm_num at hl ⊢; linarith
    · rw [(bumped_large hb (not_lt.mp hl)).1]; exact hx
  have hy0 : 0 ≤ bumped |x| := h0.trans hy1
  have hf1 := Nat.floor_le hy0
  have hf2 := Nat.lt_floor_add_one (bumped |x|)
  have hs := (bumped_bits h0).split
  obtain ⟨hs1, hs2, _⟩ := scaled hs.2 (by linarith) (by linarith)
  have hfl : ⌊bumped |x|⌋₊ < 2 ^ 64 := by
    rw [Nat.floor_lt hy0]; norm_num at hy63 ⊢; linarith
  have hffl : ⌊nearest ((bumped |x| - ⌊bumped |x|⌋₊) * 1000000)⌋₊ < 10 ^ 6 := by
    rw [Nat.floor_lt hs1]; norm_num; exact hs2
  have ei : (UInt64.ofNat ⌊bumped |x|⌋₊).toNat = ⌊bumped |x|⌋₊ := by
    rw [UInt64.toNat_ofNat', Nat.mod_eq_of_lt hfl]
  have ef : (UInt64.ofNat ⌊nearest ((bumped |x| - ⌊bumped |x|⌋₊) * 1000000)⌋₊).toNat =
      ⌊nearest ((bumped |x| - ⌊bumped |x|⌋₊) * 1000000)⌋₊ := by
    rw [UInt64.toNat_ofNat', Nat.mod_eq_of_lt (hffl.trans (by norm_num))]
  refine ⟨.ofNat ⌊bumped |x|⌋₊, .ofNat ⌊nearest ((bumped |x| - ⌊bumped |x|⌋₊) * 1000000)⌋₊, ?_,
    by rw [ef]; exact hffl, ei, ef⟩
  have big : ∀ q : ℚ, q < 2 ^ 63 → q < 2 ^ 1024 := fun q hq => big63 hq.le
  have e1 : (Dbl.num |x|).add (.num half6) = .num (bumped |x|) := by
    show Dbl.round _ = _
    rw [round_of (by linarith) (big _ hy63)]; rfl
  have e2 : (Dbl.num (bumped |x|)).ge (.num (2 ^ 63)) = false := by
    simp only [Dbl.ge, decide_eq_false_iff_not, not_le]; exact hy63
  have e3 : (Dbl.num (bumped |x|)).toU64 = .ok (.ofNat ⌊bumped |x|⌋₊) := by
    simp only [Dbl.toU64]
    rw [if_pos ⟨by linarith, hy63.trans (by norm_num)⟩]
  have e4 : Dbl.ofU64 (.ofNat ⌊bumped |x|⌋₊) = .num ⌊bumped |x|⌋₊ := by
    have en := nearest_exact hs.1
    unfold Dbl.ofU64
    rw [ei, round_of (Nat.cast_nonneg _) (by rw [en]; exact big _ (by linarith)), en]
  have e5 : (Dbl.num (bumped |x|)).sub (.num ⌊bumped |x|⌋₊) = .num (bumped |x| - ⌊bumped |x|⌋₊) := by
    have en := nearest_exact hs.2
    show Dbl.round _ = _
    rw [← sub_eq_add_neg, round_of (by linarith) (by rw [en]; exact big _ (by linarith)), en]
  have e6 : (Dbl.num (bumped |x| - ⌊bumped |x|⌋₊)).mul (.num 1000000) =
      .num (nearest ((bumped |x| - ⌊bumped |x|⌋₊) * 1000000)) := by
    show Dbl.round _ = _
    rw [round_of (by linarith) (big _ (hs2.trans (by norm_num)))]
  have e7 : (Dbl.num (nearest ((bumped |x| - ⌊bumped |x|⌋₊) * 1000000))).toU64 =
      .ok (.ofNat ⌊nearest ((bumped |x| - ⌊bumped |x|⌋₊) * 1000000)⌋₊) := by
    simp only [Dbl.toU64]
    rw [if_pos ⟨by linarith, hs2.trans (by norm_num)⟩]
  unfold splitDouble
  simp only [isNeg_abs, half_div, e1, ofU64_limit, e2, e3, Out.bind_ok, e4, e5, ofU64_million, e6, e7]
  simp [Dbl.isNeg]

/-- Beyond the range, and for the infinities. -/
theorem splitDouble_out :
    (∀ x : ℚ, IsDouble x → 2 ^ 63 ≤ |x| → splitDouble (.num x) = .ok ⟨decide (x < 0), none⟩) ∧
    (∀ s, splitDouble (.inf s) = .ok ⟨s, none⟩) := by
  constructor
  · intro x h hx
    have hb := h.bits
    have h0 := abs_nonneg x
    have hc := half6_bounds
    norm_num at hc
    have e2 : ((Dbl.num |x|).add (.num half6)).ge (.num (2 ^ 63)) = true := by
      show (Dbl.round _).ge _ = _
      unfold Dbl.round
      rw [if_neg (by linarith)]
      split
      · simp only [Dbl.ge, decide_eq_true_eq]
        exact hx.trans (bumped_between hb h0).1
      · rfl
    unfold splitDouble
    simp only [isNeg_abs, ofU64_million, half_div, ofU64_limit, e2]
    simp [Dbl.isNeg]
  · intro s
    unfold splitDouble
    simp only [ofU64_million, half_div, ofU64_limit]
    cases s <;> rfl

/-- **C99** (what holds) Every finite double of absolute value below 2^63 can be logged; the output is a minus sign if it is
negative, a decimal integral part, a point and six digits, and the number so written differs from the double by less than one
millionth (and, for numbers below 2^20, by at most about half a millionth: it is rounded). -/
theorem C99_close_partial (x : ℚ) (hd : IsDouble x) (hx : |x| < 2 ^ 63) (fl : LFlags) (b : WBuf)
    (hcap : 0 < b.cap) (hlen : b.data.length ≤ b.cap) (hw : NoErrors b.sched) :
    ∃ r b' t u i, appendDouble (.num x) fl b = .ok (r, b') ∧ IsDecimal t i ∧ u.length = 6 ∧
      (∀ c ∈ u, 48 ≤ c.toNat ∧ c.toNat ≤ 57) ∧
      b'.sink ++ b'.data = b.sink ++ b.data ++ ((if x < 0 then b!"-" else []) ++ t ++ b!"." ++ u ++ lineEnd fl) ∧
      |((i : ℚ) + (decValue u : ℚ) / 1000000) - (|x|)| < 1 / 1000000 ∧
      (|x| < 2 ^ 20 → |((i : ℚ) + (decValue u : ℚ) / 1000000) - (|x|)| < 501 / 1000000000) := by
  obtain ⟨i, f, hs, hf, ei, ef⟩ := splitDouble_in hd hx
  obtain ⟨r, b', t, u, e, ht, hu, hdig, hv, ho⟩ := C62_text (decide (x < 0)) i f hf fl b hcap hlen hw
  refine ⟨r, b', t, u, i.toNat, ?_, ht, hu, hdig, ?_, ?_⟩
  · unfold appendDouble; rw [hs]; exact e
  · rw [ho]; simp
  · rw [hv, ei, ef]
    exact printed_close hd.bits (abs_nonneg x)

/-- **C99** (what holds) Beyond that, and for the infinities, `inf` is written, with the sign. -/
theorem C99_infinite_partial (d : Dbl) (neg : Bool)
    (hd : d = .inf neg ∨ ∃ x, d = .num x ∧ IsDouble x ∧ 2 ^ 63 ≤ |x| ∧ neg = decide (x < 0)) (fl : LFlags) (b : WBuf)
    (hcap : 0 < b.cap) (hlen : b.data.length ≤ b.cap) (hw : NoErrors b.sched) :
    ∃ r b', appendDouble d fl b = .ok (r, b') ∧
      b'.sink ++ b'.data = b.sink ++ b.data ++ ((if neg then b!"-inf" else b!"inf") ++ lineEnd fl) := by
  have hs : splitDouble d = .ok ⟨neg, none⟩ := by
    rcases hd with rfl | ⟨x, rfl, h1, h2, rfl⟩
    · exact splitDouble_out.2 neg
    · exact splitDouble_out.1 x h1 h2
  obtain ⟨b', e, _, h⟩ := C80_returns_partial [.double ⟨neg, none⟩ fl]
    (by intro c hc; rw [List.mem_singleton] at hc; rw [hc]; trivial) b hcap hlen hw
  unfold runCalls runCalls at e
  cases hr : runCall (.double ⟨neg, none⟩ fl) b with
  | ok r =>
    rw [hr] at e
    have e' : r.2 = b' := by injection e with e; exact congrArg Prod.snd e
    subst e'
    refine ⟨r.1, r.2, ?_, ?_⟩
    · unfold appendDouble; rw [hs]; exact hr
    · rw [h]; cases neg <;> simp [LogCall.text, LogCall.ending, doubleText]
  | _ => rw [hr] at e; cases e

/-- **C99** (what holds) Below 2^20 the number printed is the nearest multiple of a millionth: if the double is within 0.499
millionths of `k` millionths, then `k` millionths are printed. -/
theorem C99_rounds_partial (x : ℚ) (hd : IsDouble x) (hx : |x| < 2 ^ 20) (k : ℕ)
    (hk : |(|x|) - (k : ℚ) / 1000000| < 499 / 1000000000) (fl : LFlags) (b : WBuf)
    (hcap : 0 < b.cap) (hlen : b.data.length ≤ b.cap) (hw : NoErrors b.sched) :
    ∃ r b' t u i, appendDouble (.num x) fl b = .ok (r, b') ∧ IsDecimal t i ∧ u.length = 6 ∧
      (∀ c ∈ u, 48 ≤ c.toNat ∧ c.toNat ≤ 57) ∧
      b'.sink ++ b'.data = b.sink ++ b.data ++ ((if x < 0 then b!"-" else []) ++ t ++ b!"." ++ u ++ lineEnd fl) ∧
      i * 1000000 + decValue u = k := by
  obtain ⟨r, b', t, u, i, e, ht, hu, hdig, ho, _, hc⟩ :=
    C99_close_partial x hd (hx.trans (by norm_num)) fl b hcap hlen hw
  refine ⟨r, b', t, u, i, e, ht, hu, hdig, ho, ?_⟩
  have h1 := abs_lt.mp (hc hx)
  have h2 := abs_lt.mp hk
  have h3 : ((i * 1000000 + decValue u : ℕ) : ℚ) < ((k + 1 : ℕ) : ℚ) := by push_cast; linarith [h1.2, h2.2]
  have h4 : ((k : ℕ) : ℚ) < ((i * 1000000 + decValue u + 1 : ℕ) : ℚ) := by push_cast; linarith [h1.1, h2.1]
  have h5 : i * 1000000 + decValue u < k + 1 := by exact_mod_cast h3
  have h6 : k < i * 1000000 + decValue u + 1 := by exact_mod_cast h4
  omega

/-- **C99** The rounding of the model is the one IEEE 754 prescribes: no double is nearer, and doubles are not changed. -/
theorem C99_rounding_is_nearest (q y : ℚ) (hq : 0 < q) (hy : IsDouble y) :
    |nearest q - q| ≤ |y - q| ∧ (0 ≤ y → nearest y = y) := by
  refine ⟨?_, fun h => nearest_exact (by have := hy.bits; rwa [abs_of_nonneg h] at this)⟩
  by_cases h : 0 ≤ y
  · have := hy.bits
    rw [abs_of_nonneg h] at this
    exact nearest_best hq this
  · refine (nearest_best hq hy.bits).trans ?_
    rw [not_le] at h
    rw [abs_of_neg h, abs_of_neg (show y - q < 0 by linarith), abs_le]
    constructor <;> linarith

/-- The hypotheses are met: `-0.1` (the double nearest to it) prints as `-0.100000`; 2^62 + 2^10 is in the range and 2^70 beyond
it. -/
example : IsDouble (-3602879701896397 / 2 ^ 55) ∧ |(-3602879701896397 / 2 ^ 55 : ℚ)| < 2 ^ 20 ∧
    |(|(-3602879701896397 / 2 ^ 55 : ℚ)|) - ((100000 : ℕ) : ℚ) / 1000000| < 499 / 1000000000 :=
  ⟨⟨-3602879701896397, -55, by norm_num, by norm_num, by norm_num, by norm_num⟩, by norm_num [abs_div],
    by norm_num [abs_div]⟩

example : IsDouble (2 ^ 62 + 2 ^ 10) ∧ |(2 ^ 62 + 2 ^ 10 : ℚ)| < 2 ^ 63 ∧ IsDouble (2 ^ 70) ∧ 2 ^ 63 ≤ |(2 ^ 70 : ℚ)| :=
  ⟨⟨2 ^ 52 + 1, 10, by norm_num, by norm_num, by norm_num, by norm_num⟩, by norm_num,
    ⟨1, 70, by norm_num, by norm_num, by norm_num, by norm_num⟩, by norm_num⟩

end Flo
