import Verif.Model.Double
import Verif.Spec.Double
import Mathlib.Tactic.Linarith
import Mathlib.Tactic.Positivity
import Mathlib.Tactic.NormNum
import Mathlib.Tactic.Ring
import Mathlib.Tactic.FieldSimp
import Mathlib.Algebra.Order.Floor.Semiring
import Mathlib.Algebra.Order.Field.Power
import Mathlib.Algebra.Order.Floor.Semifield
/-!
# Rounding of double-precision numbers, and the arithmetic of `flo_appendDouble`
-/
namespace Flo
open Spec

/-- A non-negative number with at most 53 significant bits. -/
def Bits53 (q : ℚ) : Prop := ∃ (m : ℕ) (e : ℤ), m < 2 ^ 53 ∧ -1074 ≤ e ∧ q = m * 2 ^ e

theorem ulp_pos (q : ℚ) : 0 < ulp q := by unfold ulp; positivity

theorem roundEven_int (n : ℤ) : roundEven n = n := by
  unfold roundEven; simp

theorem roundEven_close (q : ℚ) : |(roundEven q : ℚ) - q| ≤ 1 / 2 := by
  have h1 := Int.floor_le q
  have h2 := Int.lt_floor_add_one q
  unfold roundEven
  split
  · rw [abs_le]; constructor <;> linarith
  · split
    · push_cast; rw [abs_le]; constructor <;> linarith
    · split
      · rw [abs_le]; constructor <;> linarith
      · push_cast; rw [abs_le]; constructor <;> linarith

/-- No integer is closer. -/
theorem roundEven_best (q : ℚ) (n : ℤ) : |(roundEven q : ℚ) - q| ≤ |(n : ℚ) - q| := by
  have h := roundEven_close q
  by_cases e : n = roundEven q
  · rw [e]
  · have : (1 : ℚ) ≤ |((n - roundEven q : ℤ) : ℚ)| := by
      rw [← Int.cast_abs]
      have : 1 ≤ |n - roundEven q| := Int.one_le_abs (sub_ne_zero.mpr e)
      exact_mod_cast this
    have h2 : |((n - roundEven q : ℤ) : ℚ)| ≤ |(n : ℚ) - q| + |(roundEven q : ℚ) - q| := by
      push_cast
      rw [show (n : ℚ) - roundEven q = ((n : ℚ) - q) - ((roundEven q : ℚ) - q) by ring]
      exact abs_sub _ _
    linarith

theorem nearest_close (q : ℚ) : |nearest q - q| ≤ ulp q / 2 := by
  have hu := ulp_pos q
  have h := roundEven_close (q / ulp q)
  unfold nearest
  have e : (roundEven (q / ulp q) : ℚ) * ulp q - q = ((roundEven (q / ulp q) : ℚ) - q / ulp q) * ulp q := by
    field_simp
  rw [e, abs_mul, abs_of_pos hu]
  calc _ ≤ 1 / 2 * ulp q := by gcongr
    _ = _ := by ring

theorem roundEven_nonneg {q : ℚ} (h : 0 ≤ q) : 0 ≤ roundEven q := by
  have : 0 ≤ ⌊q⌋ := Int.floor_nonneg.mpr h
  unfold roundEven; split
  · exact this
  · split
    · omega
    · split <;> omega

theorem nearest_nonneg {q : ℚ} (h : 0 ≤ q) : 0 ≤ nearest q := by
  have hu := ulp_pos q
  have : (0 : ℚ) ≤ roundEven (q / ulp q) := by exact_mod_cast roundEven_nonneg (by positivity)
  unfold nearest; positivity

theorem log_lt {q : ℚ} {k : ℤ} (h0 : 0 < q) (h : q < 2 ^ k) : Int.log 2 q < k :=
  (Int.lt_zpow_iff_log_lt (b := 2) (by norm_num) h0).mp (by simpa using h)

theorem le_log {q : ℚ} {k : ℤ} (h0 : 0 < q) (h : 2 ^ k ≤ q) : k ≤ Int.log 2 q :=
  (Int.zpow_le_iff_le_log (b := 2) (by norm_num) h0).mp (by simpa using h)

theorem lt_pow_log (q : ℚ) : q < 2 ^ (Int.log 2 q + 1) := by
  simpa using Int.lt_zpow_succ_log_self (b := 2) (by norm_num) q

theorem pow_log_le {q : ℚ} (h0 : 0 < q) : (2 : ℚ) ^ Int.log 2 q ≤ q := by
  simpa using Int.zpow_log_le_self (b := 2) (by norm_num) h0

/-- Below `2^k` the distance is at most `2^(k-53)`. -/
theorem ulp_le {q : ℚ} {k : ℤ} (h0 : 0 < q) (h : q < 2 ^ k) (hk : -1021 ≤ k) : ulp q ≤ 2 ^ (k - 53) := by
  have := log_lt h0 h
  unfold ulp
  apply zpow_le_zpow_right₀ (by norm_num)
  omega

/-- Numbers with 53 significant bits are not changed by rounding. -/
theorem nearest_exact {q : ℚ} (h : Bits53 q) : nearest q = q := by
  obtain ⟨m, e, hm, he, rfl⟩ := h
  by_cases h0 : m = 0
  · subst h0; unfold nearest; simp [roundEven]
  · have hp : (0 : ℚ) < m * 2 ^ e := by
      have : (0 : ℚ) < m := by exact_mod_cast Nat.pos_of_ne_zero h0
      positivity
    have hlt : (m : ℚ) * 2 ^ e < 2 ^ (53 + e) := by
      rw [zpow_add₀ (by norm_num)]
      have : (m : ℚ) < 2 ^ (53 : ℤ) := by exact_mod_cast hm
      gcongr
    have hl := log_lt hp hlt
    have hE : max (Int.log 2 ((m : ℚ) * 2 ^ e) - 52) (-1074) ≤ e := by omega
    obtain ⟨j, hj⟩ := Int.eq_ofNat_of_zero_le (sub_nonneg.mpr hE)
    have hq : (m : ℚ) * 2 ^ e / ulp (m * 2 ^ e) = ((m * 2 ^ j : ℕ) : ℤ) := by
      unfold ulp
      rw [mul_div_assoc, ← zpow_sub₀ (by norm_num), hj]
      push_cast; simp
    have hu := (ulp_pos ((m : ℚ) * 2 ^ e)).ne'
    unfold nearest
    rw [hq, roundEven_int, ← hq, div_mul_cancel₀ _ hu]

/-- The result of rounding has 53 significant bits. -/
theorem nearest_bits {q : ℚ} (h : 0 ≤ q) : Bits53 (nearest q) := by
  rcases h.eq_or_lt with rfl | h0
  · refine ⟨0, 0, by norm_num, by norm_num, ?_⟩
    unfold nearest; simp [roundEven]
  have hu := ulp_pos q
  have hn := roundEven_nonneg (q := q / ulp q) (by positivity)
  obtain ⟨n, hn⟩ := Int.eq_ofNat_of_zero_le hn
  have hq : q / ulp q < 2 ^ 53 := by
    rw [div_lt_iff₀ hu]
    refine (lt_pow_log q).trans_le ?_
    unfold ulp
    rw [show (2 : ℚ) ^ 53 = 2 ^ (53 : ℤ) by norm_cast, ← zpow_add₀ (by norm_num)]
    exact zpow_le_zpow_right₀ (by norm_num) (by omega)
  have hle : n ≤ 2 ^ 53 := by
    have : ⌊q / ulp q⌋ < 2 ^ 53 := Int.floor_lt.mpr (by exact_mod_cast hq)
    have h2 : roundEven (q / ulp q) ≤ ⌊q / ulp q⌋ + 1 := by
      unfold roundEven; split
      · omega
      · split
        · omega
        · split <;> omega
    omega
  rcases hle.eq_or_lt with e | hlt
  · refine ⟨2 ^ 52, max (Int.log 2 q - 52) (-1074) + 1, by norm_num, by omega, ?_⟩
    unfold nearest
    rw [hn, e]
    unfold ulp
    rw [zpow_add₀ (by norm_num)]
    push_cast; ring
  · refine ⟨n, max (Int.log 2 q - 52) (-1074), hlt, by omega, ?_⟩
    unfold nearest
    rw [hn]; rfl

/-- No number with 53 significant bits is closer than the one chosen. -/
theorem nearest_best {q y : ℚ} (h0 : 0 < q) (hy : Bits53 y) : |nearest q - q| ≤ |y - q| := by
  have hu := ulp_pos q
  have key : ∀ n : ℤ, |nearest q - q| ≤ |(n : ℚ) * ulp q - q| := by
    intro n
    have h := roundEven_best (q / ulp q) n
    unfold nearest
    have e : ∀ a : ℚ, a * ulp q - q = (a - q / ulp q) * ulp q := by intro a; field_simp
    rw [e, e, abs_mul, abs_mul]
    gcongr
  obtain ⟨m, e, hm, he, rfl⟩ := hy
  by_cases hE : max (Int.log 2 q - 52) (-1074) ≤ e
  · obtain ⟨j, hj⟩ := Int.eq_ofNat_of_zero_le (sub_nonneg.mpr hE)
    have := key ((m * 2 ^ j : ℕ) : ℤ)
    have e2 : (((m * 2 ^ j : ℕ) : ℤ) : ℚ) * ulp q = m * 2 ^ e := by
      unfold ulp
      push_cast
      rw [mul_assoc, ← zpow_natCast, ← zpow_add₀ (by norm_num), ← hj]
      congr 2; ring
    rwa [e2] at this
  · have hEl : max (Int.log 2 q - 52) (-1074) = Int.log 2 q - 52 := by omega
    have h1 : (m : ℚ) * 2 ^ e ≤ 2 ^ Int.log 2 q := by
      calc (m : ℚ) * 2 ^ e ≤ 2 ^ (53 : ℤ) * 2 ^ e := by
            have : (m : ℚ) ≤ 2 ^ (53 : ℤ) := by exact_mod_cast hm.le
            gcongr
        _ = 2 ^ (53 + e) := by rw [zpow_add₀ (by norm_num)]
        _ ≤ _ := zpow_le_zpow_right₀ (by norm_num) (by omega)
    have h2 := pow_log_le h0
    have h3 := key (2 ^ 52)
    have e2 : (((2 ^ 52 : ℤ)) : ℚ) * ulp q = 2 ^ Int.log 2 q := by
      unfold ulp
      rw [hEl, zpow_sub₀ (by norm_num)]
      push_cast
      ring
    rw [e2] at h3
    refine h3.trans ?_
    rw [abs_of_nonpos (by linarith), abs_of_nonpos (by linarith)]
    linarith

/-- The parts of a number with 53 significant bits. -/
theorem Bits53.split {y : ℚ} (h : Bits53 y) : Bits53 ⌊y⌋₊ ∧ Bits53 (y - ⌊y⌋₊) := by
  obtain ⟨m, e, hm, he, rfl⟩ := h
  by_cases h0 : 0 ≤ e
  · obtain ⟨j, rfl⟩ := Int.eq_ofNat_of_zero_le h0
    have : ⌊(m : ℚ) * 2 ^ ((j : ℕ) : ℤ)⌋₊ = m * 2 ^ j := by
      rw [zpow_natCast]
      exact_mod_cast Nat.floor_natCast (R := ℚ) (m * 2 ^ j)
    rw [this]
    refine ⟨⟨m, j, hm, he, by push_cast; rw [zpow_natCast]⟩, ⟨0, 0, by norm_num, by norm_num, ?_⟩⟩
    push_cast; rw [zpow_natCast]; ring
  · obtain ⟨j, hj⟩ := Int.eq_ofNat_of_zero_le (show 0 ≤ -e by omega)
    have he' : e = -(j : ℤ) := by omega
    subst he'
    have e1 : (m : ℚ) * 2 ^ (-(j : ℤ)) = (m : ℚ) / ((2 ^ j : ℕ) : ℚ) := by
      rw [zpow_neg, zpow_natCast]; push_cast; rfl
    have e2 : ⌊(m : ℚ) * 2 ^ (-(j : ℤ))⌋₊ = m / 2 ^ j := by
      rw [e1, Nat.floor_div_eq_div]
    rw [e2]
    refine ⟨⟨m / 2 ^ j, 0, (Nat.div_le_self _ _).trans_lt hm, by norm_num, by simp⟩,
      ⟨m % 2 ^ j, -(j : ℤ), (Nat.mod_le _ _).trans_lt hm, he, ?_⟩⟩
    have h3 := Nat.div_add_mod m (2 ^ j)
    have h4 : ((2 ^ j : ℕ) : ℚ) * ((m / 2 ^ j : ℕ) : ℚ) + ((m % 2 ^ j : ℕ) : ℚ) = m := by exact_mod_cast h3
    have hp : (0 : ℚ) < 2 ^ j := by positivity
    rw [zpow_neg, zpow_natCast, ← h4]
    push_cast
    field_simp
    ring

/-- From `2^k` on, numbers with 53 significant bits are multiples of `2^(k-52)`. -/
theorem Bits53.multiple {y : ℚ} {k : ℤ} (h : Bits53 y) (hk : 2 ^ k ≤ y) : ∃ n : ℕ, y = n * 2 ^ (k - 52) := by
  obtain ⟨m, e, hm, he, rfl⟩ := h
  have hE : k - 52 ≤ e := by
    by_contra hc
    have : (m : ℚ) * 2 ^ e < 2 ^ k := by
      calc (m : ℚ) * 2 ^ e < 2 ^ (53 : ℤ) * 2 ^ e := by
            have : (m : ℚ) < 2 ^ (53 : ℤ) := by exact_mod_cast hm
            gcongr
        _ = 2 ^ (53 + e) := by rw [zpow_add₀ (by norm_num)]
        _ ≤ _ := zpow_le_zpow_right₀ (by norm_num) (by omega)
    linarith
  obtain ⟨j, hj⟩ := Int.eq_ofNat_of_zero_le (sub_nonneg.mpr hE)
  refine ⟨m * 2 ^ j, ?_⟩
  have : e = (k - 52) + j := by omega
  rw [this, zpow_add₀ (by norm_num), zpow_natCast]
  push_cast; ring

theorem nearest_zero : nearest 0 = 0 := by unfold nearest; simp [roundEven]

/-- The error of rounding below `2^k`. -/
theorem nearest_near {q : ℚ} {k : ℤ} (h0 : 0 ≤ q) (h : q < 2 ^ k) (hk : -1021 ≤ k) :
    |nearest q - q| ≤ 2 ^ (k - 54) := by
  rcases h0.eq_or_lt with rfl | hp
  · rw [nearest_zero]; simp; positivity
  · refine (nearest_close q).trans ?_
    have := ulp_le hp h hk
    have e : (2 : ℚ) ^ (k - 53) = 2 ^ (k - 54) * 2 := by
      rw [show k - 53 = (k - 54) + 1 by ring, zpow_add₀ (by norm_num)]; norm_num
    rw [e] at this
    linarith

theorem nearest_nat {n : ℕ} (h : n < 2 ^ 53) : nearest n = n :=
  nearest_exact ⟨n, 0, h, by norm_num, by simp⟩

/-- `(double)(-1UL >> 1)` is `2^63`. -/
theorem nearest_limit : nearest 9223372036854775807 = 2 ^ 63 := by
  have hb : Bits53 (nearest 9223372036854775807) := nearest_bits (by norm_num)
  have h := nearest_best (q := 9223372036854775807) (y := 2 ^ 63) (by norm_num)
    ⟨1, 63, by norm_num, by norm_num, by norm_num⟩
  rw [show |(2 : ℚ) ^ 63 - 9223372036854775807| = 1 by norm_num, abs_le] at h
  obtain ⟨n, hn⟩ := hb.multiple (k := 62) (by norm_num; linarith)
  rw [hn] at h ⊢
  norm_num at h ⊢
  obtain ⟨h1, h2⟩ := h
  have h3 : (n : ℚ) * 1024 ≤ ((9223372036854775808 : ℕ) : ℚ) := by push_cast; linarith
  have h4 : ((9223372036854775806 : ℕ) : ℚ) ≤ (n : ℚ) * 1024 := by push_cast; linarith
  have h5 : n * 1024 ≤ 9223372036854775808 := by exact_mod_cast h3
  have h6 : 9223372036854775806 ≤ n * 1024 := by exact_mod_cast h4
  have : n = 9007199254740992 := by omega
  subst this; norm_num

/-- `0.5 / 1000000.0` -/
def half6 : ℚ := nearest (1 / 2 / 1000000)

theorem half6_near : |half6 - 1 / 2000000| ≤ 2 ^ (-74 : ℤ) := by
  have := nearest_near (q := 1 / 2 / 1000000) (k := -20) (by norm_num) (by norm_num) (by norm_num)
  unfold half6
  norm_num at this ⊢
  exact this

theorem half6_bounds : 1 / 2000000 - 1 / 10 ^ 20 < half6 ∧ half6 < 1 / 2000000 + 1 / 10 ^ 20 := by
  have := abs_le.mp half6_near
  norm_num at this ⊢
  constructor <;> linarith [this.1, this.2]

/-- What `data` is after `data += 0.5 / prec`. -/
def bumped (x : ℚ) : ℚ := nearest (x + half6)

theorem bumped_bits {x : ℚ} (h : 0 ≤ x) : Bits53 (bumped x) :=
  nearest_bits (by have := half6_bounds.1; norm_num at this; linarith)

theorem bumped_between {x : ℚ} (h : Bits53 x) (h0 : 0 ≤ x) : x ≤ bumped x ∧ bumped x ≤ x + 2 * half6 := by
  have hc : 0 < half6 := by have := half6_bounds.1; norm_num at this; linarith
  have := nearest_best (q := x + half6) (y := x) (by linarith) h
  rw [show |x - (x + half6)| = half6 by rw [show x - (x + half6) = -half6 by ring, abs_neg, abs_of_pos hc], abs_le] at this
  unfold bumped
  constructor <;> linarith [this.1, this.2]

/-- From `2^33` on, nothing is added. -/
theorem bumped_large {x : ℚ} (h : Bits53 x) (hx : 2 ^ 33 ≤ x) : bumped x = x ∧ ∃ n : ℕ, x = n * 2 ^ (-19 : ℤ) := by
  have h0 : 0 ≤ x := le_trans (by norm_num) hx
  obtain ⟨h1, h2⟩ := bumped_between h h0
  have hc := half6_bounds.2
  obtain ⟨n, hn⟩ := h.multiple (k := 33) (by exact_mod_cast hx)
  obtain ⟨n', hn'⟩ := (bumped_bits h0).multiple (k := 33) (by exact_mod_cast hx.trans h1)
  norm_num at hn hn' hc
  refine ⟨?_, n, by rw [hn]; norm_num⟩
  have e1 : (n : ℚ) ≤ n' := by linarith
  have e2 : (n' : ℚ) < n + 1 := by linarith
  have e3 : n ≤ n' := by exact_mod_cast e1
  have e4 : n' < n + 1 := by exact_mod_cast e2
  have : n' = n := by omega
  rw [hn', this, ← hn]

theorem bumped_small {x : ℚ} (h : Bits53 x) (h0 : 0 ≤ x) (hx : x < 2 ^ 33) :
    |bumped x - (x + half6)| ≤ 2 ^ (-21 : ℤ) := by
  have hc := half6_bounds
  norm_num at hc
  have : x + half6 < 2 ^ (33 : ℤ) := by
    by_cases hl : x < 2 ^ 32
    · norm_num at hl ⊢; linarith [hc.2]
    · obtain ⟨n, hn⟩ := h.multiple (k := 32) (by exact_mod_cast not_lt.mp hl)
      norm_num at hn
      have : n < 2 ^ 53 := by
        have : (n : ℚ) < ((2 ^ 53 : ℕ) : ℚ) := by norm_num only [Nat.cast_pow, Nat.cast_ofNat] at hx ⊢; linarith
        exact_mod_cast this
      have : (n : ℚ) ≤ ((2 ^ 53 - 1 : ℕ) : ℚ) := by exact_mod_cast Nat.le_sub_one_of_lt this
      have h5 : ((2 ^ 53 - 1 : ℕ) : ℚ) = 9007199254740991 := by norm_cast
      rw [h5] at this
      norm_num
      linarith [hc.2]
  exact nearest_near (by linarith [hc.1]) this (by norm_num)

theorem bumped_fine {x : ℚ} (h0 : 0 ≤ x) (hx : x < 2 ^ 20) :
    |bumped x - (x + half6)| ≤ 2 ^ (-33 : ℤ) := by
  have hc := half6_bounds
  norm_num at hc
  exact nearest_near (k := 21) (by linarith [hc.1]) (by norm_num at hx ⊢; linarith [hc.2]) (by norm_num)

/-- A fraction with 53 significant bits is at most `1 - 2^-53`. -/
theorem Bits53.fraction {g : ℚ} (h : Bits53 g) (h1 : g < 1) : g ≤ 1 - 2 ^ (-53 : ℤ) := by
  by_cases hl : g < 1 / 2
  · norm_num; linarith
  · obtain ⟨n, hn⟩ := h.multiple (k := -1) (by norm_num; linarith)
    norm_num at hn
    have : n < 2 ^ 53 := by
      have : (n : ℚ) < ((2 ^ 53 : ℕ) : ℚ) := by norm_num only [Nat.cast_pow, Nat.cast_ofNat]; linarith
      exact_mod_cast this
    have : (n : ℚ) ≤ ((2 ^ 53 - 1 : ℕ) : ℚ) := by exact_mod_cast Nat.le_sub_one_of_lt this
    have h5 : ((2 ^ 53 - 1 : ℕ) : ℚ) = 9007199254740991 := by norm_cast
    rw [h5] at this
    norm_num
    linarith

/-- What the fraction is multiplied to. -/
theorem scaled {g : ℚ} (h : Bits53 g) (h0 : 0 ≤ g) (h1 : g < 1) :
    0 ≤ nearest (g * 1000000) ∧ nearest (g * 1000000) < 1000000 ∧
      |nearest (g * 1000000) - g * 1000000| ≤ 2 ^ (-34 : ℤ) := by
  have hg := h.fraction h1
  have := nearest_near (q := g * 1000000) (k := 20) (by linarith) (by norm_num; linarith) (by norm_num)
  refine ⟨nearest_nonneg (by linarith), ?_, this⟩
  have := (abs_le.mp this).2
  norm_num at this hg ⊢
  linarith

theorem scaled_exact {k : ℕ} (hk : (k : ℚ) * 2 ^ (-19 : ℤ) < 1) :
    nearest (k * 2 ^ (-19 : ℤ) * 1000000) = k * 2 ^ (-19 : ℤ) * 1000000 := by
  refine nearest_exact ⟨k * 15625, -13, ?_, by norm_num, ?_⟩
  · have : (k : ℚ) < ((2 ^ 19 : ℕ) : ℚ) := by norm_num only [Nat.cast_pow, Nat.cast_ofNat] at hk ⊢; linarith
    have : k < 2 ^ 19 := by exact_mod_cast this
    omega
  · push_cast; norm_num; ring

/-- The number printed is within a millionth. -/
theorem printed_close {x : ℚ} (h : Bits53 x) (h0 : 0 ≤ x) :
    |(⌊bumped x⌋₊ : ℚ) + (⌊nearest ((bumped x - ⌊bumped x⌋₊) * 1000000)⌋₊ : ℚ) / 1000000 - x| < 1 / 1000000 ∧
    (x < 2 ^ 20 →
      |(⌊bumped x⌋₊ : ℚ) + (⌊nearest ((bumped x - ⌊bumped x⌋₊) * 1000000)⌋₊ : ℚ) / 1000000 - x| < 501 / 1000000000) := by
  have hc := half6_bounds
  have hy0 : 0 ≤ bumped x := h0.trans (bumped_between h h0).1
  have hf1 := Nat.floor_le hy0
  have hf2 := Nat.lt_floor_add_one (bumped x)
  obtain ⟨hs1, hs2, hs3⟩ := scaled (bumped_bits h0).split.2 (by linarith) (by linarith)
  have hp1 := Nat.floor_le hs1
  have hp2 := Nat.lt_floor_add_one (nearest ((bumped x - ⌊bumped x⌋₊) * 1000000))
  by_cases hx : x < 2 ^ 33
  · have hb := abs_le.mp (bumped_small h h0 hx)
    have hs := abs_le.mp hs3
    norm_num at hc hb hs
    refine ⟨?_, fun hx2 => ?_⟩
    · rw [abs_lt]; constructor <;> linarith [hb.1, hb.2, hs.1, hs.2, hc.1, hc.2]
    · have hb := abs_le.mp (bumped_fine h0 hx2)
      norm_num at hb
      rw [abs_lt]; constructor <;> linarith [hb.1, hb.2, hs.1, hs.2, hc.1, hc.2]
  · refine ⟨?_, fun hx2 => absurd (lt_trans hx2 (by norm_num)) hx⟩
    obtain ⟨e, n, hn⟩ := bumped_large h (not_lt.mp hx)
    rw [e] at hf1 hf2 hp1 hp2 ⊢
    have hk : x - (⌊x⌋₊ : ℚ) = ((n - ⌊x⌋₊ * 2 ^ 19 : ℕ) : ℚ) * 2 ^ (-19 : ℤ) := by
      have hle : ⌊x⌋₊ * 2 ^ 19 ≤ n := by
        have : ((⌊x⌋₊ * 2 ^ 19 : ℕ) : ℚ) ≤ n := by
          norm_num at hn; push_cast; linarith
        exact_mod_cast this
      rw [Nat.cast_sub hle]
      norm_num at hn
      norm_num
      linarith
    have he := scaled_exact (k := n - ⌊x⌋₊ * 2 ^ 19) (by rw [← hk]; linarith)
    rw [← hk] at he
    rw [he] at hp1 hp2 ⊢
    rw [abs_lt]; constructor <;> linarith

end Flo
