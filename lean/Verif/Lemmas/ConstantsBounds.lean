import Mathlib.Analysis.Complex.ExponentialBounds
import Mathlib.Analysis.Real.Pi.Bounds
import Mathlib.Analysis.SpecialFunctions.Log.Deriv
import Mathlib.NumberTheory.Real.GoldenRatio
import Mathlib.Analysis.SpecialFunctions.Pow.Real

/-
Bounds of the real numbers that the constants of (srfi 144) stand for.
-/

namespace Meevax.Constants

theorem exp_gt : (2.718281828459045235345 : ℝ) < Real.exp 1 := by
  have := (abs_le.1 Real.exp_one_near_20).1
  norm_num at this ⊢
  linarith

theorem exp_lt : Real.exp 1 < 2.718281828459045235375 := by
  have := (abs_le.1 Real.exp_one_near_20).2
  norm_num at this ⊢
  linarith

theorem sqrt_gt {x a : ℝ} (ha : 0 ≤ a) (h : a ^ 2 < x) : a < √x := (Real.lt_sqrt ha).2 h

theorem sqrt_lt {x a : ℝ} (ha : 0 < a) (h : x < a ^ 2) : √x < a := (Real.sqrt_lt' ha).2 h

theorem phi_gt : (1.61803398874989484820 : ℝ) < Real.goldenRatio := by
  have : (2.23606797749978969640 : ℝ) < √5 := sqrt_gt (by norm_num) (by norm_num)
  unfold Real.goldenRatio
  linarith

theorem phi_lt : Real.goldenRatio < 1.618033988749894848205 := by
  have : √5 < (2.23606797749978969641 : ℝ) := sqrt_lt (by norm_num) (by norm_num)
  unfold Real.goldenRatio
  linarith

/-- The series of the logarithm. -/
theorem log_series {x : ℝ} (h0 : 0 < x) (h1 : x < 1) (n : ℕ) :
    -(∑ i ∈ Finset.range n, x ^ (i + 1) / (i + 1)) - x ^ (n + 1) / (1 - x) ≤ Real.log (1 - x) ∧
    Real.log (1 - x) ≤ -(∑ i ∈ Finset.range n, x ^ (i + 1) / (i + 1)) + x ^ (n + 1) / (1 - x) := by
  have h := Real.abs_log_sub_add_sum_range_le (x := x) (by rw [abs_of_pos h0]; exact h1) n
  rw [abs_of_pos h0, abs_le] at h
  constructor <;> linarith

theorem log2_bounds : (0.693147180559945309417 : ℝ) < Real.log 2 ∧ Real.log 2 < 0.693147180559945309418 := by
  have h := log_series (x := 1 / 2) (by norm_num) (by norm_num) 72
  rw [show (1 - 1 / 2 : ℝ) = 2⁻¹ by norm_num, Real.log_inv] at h
  norm_num [Finset.sum_range_succ] at h
  exact ⟨lt_of_lt_of_le (by norm_num) h.2, lt_of_le_of_lt h.1 (by norm_num)⟩

theorem log3_bounds : (1.09861228866810969139 : ℝ) < Real.log 3 ∧ Real.log 3 < 1.09861228866810969140 := by
  have h := log_series (x := 1 / 4) (by norm_num) (by norm_num) 36
  have e : Real.log (1 - 1 / 4) = Real.log 3 - 2 * Real.log 2 := by
    rw [show (1 - 1 / 4 : ℝ) = 3 / 2 ^ 2 by norm_num, Real.log_div (by norm_num) (by norm_num), Real.log_pow]
    norm_num
  rw [e] at h
  obtain ⟨h1, h2⟩ := log2_bounds
  norm_num [Finset.sum_range_succ] at h h1 h2
  constructor <;> linarith [h.1, h.2]

theorem log10_bounds : (2.30258509299404568401 : ℝ) < Real.log 10 ∧ Real.log 10 < 2.30258509299404568403 := by
  have h := log_series (x := 1 / 5) (by norm_num) (by norm_num) 34
  have e : Real.log (1 - 1 / 5) = 3 * Real.log 2 - Real.log 10 := by
    rw [show (1 - 1 / 5 : ℝ) = 2 ^ 3 / 10 by norm_num, Real.log_div (by norm_num) (by norm_num), Real.log_pow]
    norm_num
  rw [e] at h
  obtain ⟨h1, h2⟩ := log2_bounds
  norm_num [Finset.sum_range_succ] at h h1 h2
  constructor <;> linarith [h.1, h.2]

theorem log_quarter {a : ℝ} (h : 0 < a) : Real.log (1 - (1 - a / 4)) = Real.log a - 2 * Real.log 2 := by
  rw [show (1 - (1 - a / 4) : ℝ) = a / 2 ^ 2 by ring, Real.log_div h.ne' (by norm_num), Real.log_pow]
  norm_num

theorem logpi_gt : (1.14472988584940017413 : ℝ) < Real.log Real.pi := by
  have h := log_series (x := 1 - 3.14159265358979323846 / 4) (by norm_num) (by norm_num) 33
  rw [log_quarter (by norm_num)] at h
  have hm := Real.log_lt_log (by norm_num) Real.pi_gt_d20
  obtain ⟨h1, h2⟩ := log2_bounds
  generalize Real.log 3.14159265358979323846 = l at *
  norm_num [Finset.sum_range_succ] at h h1 h2 ⊢
  linarith [h.1, h.2]

theorem logpi_lt : Real.log Real.pi < 1.14472988584940017416 := by
  have h := log_series (x := 1 - 3.14159265358979323847 / 4) (by norm_num) (by norm_num) 33
  rw [log_quarter (by norm_num)] at h
  have hm := Real.log_lt_log Real.pi_pos Real.pi_lt_d20
  obtain ⟨h1, h2⟩ := log2_bounds
  generalize Real.log 3.14159265358979323847 = l at *
  norm_num [Finset.sum_range_succ] at h h1 h2 ⊢
  linarith [h.1, h.2]

theorem log_half {a : ℝ} (h : 0 < a) : Real.log (1 - (1 - a / 2)) = Real.log a - Real.log 2 := by
  rw [show (1 - (1 - a / 2) : ℝ) = a / 2 by ring, Real.log_div h.ne' (by norm_num)]

theorem logphi_gt : (0.48121182505960344749 : ℝ) < Real.log Real.goldenRatio := by
  have h := log_series (x := 1 - 1.61803398874989484820 / 2) (by norm_num) (by norm_num) 31
  rw [log_half (by norm_num)] at h
  have hm := Real.log_lt_log (by norm_num) phi_gt
  obtain ⟨h1, h2⟩ := log2_bounds
  generalize Real.log 1.61803398874989484820 = l at *
  norm_num [Finset.sum_range_succ] at h h1 h2 ⊢
  linarith [h.1, h.2]

theorem logphi_lt : Real.log Real.goldenRatio < 0.48121182505960344751 := by
  have h := log_series (x := 1 - 1.618033988749894848205 / 2) (by norm_num) (by norm_num) 31
  rw [log_half (by norm_num)] at h
  have hm := Real.log_lt_log Real.goldenRatio_pos phi_lt
  obtain ⟨h1, h2⟩ := log2_bounds
  generalize Real.log 1.618033988749894848205 = l at *
  norm_num [Finset.sum_range_succ] at h h1 h2 ⊢
  linarith [h.1, h.2]

/-- Bounds of a root. -/
theorem root_gt {x a : ℝ} {n : ℕ} (hn : n ≠ 0) (hx : 0 ≤ x) (h : a ^ n < x) : a < x ^ (1 / (n : ℝ)) := by
  refine lt_of_pow_lt_pow_left₀ n (Real.rpow_nonneg hx _) ?_
  rwa [← Real.rpow_natCast (x ^ (1 / (n : ℝ))), ← Real.rpow_mul hx, one_div,
    inv_mul_cancel₀ (Nat.cast_ne_zero.2 hn), Real.rpow_one]

theorem root_lt {x a : ℝ} {n : ℕ} (hn : n ≠ 0) (hx : 0 ≤ x) (ha : 0 ≤ a) (h : x < a ^ n) :
    x ^ (1 / (n : ℝ)) < a := by
  refine lt_of_pow_lt_pow_left₀ n ha ?_
  rwa [← Real.rpow_natCast (x ^ (1 / (n : ℝ))), ← Real.rpow_mul hx, one_div,
    inv_mul_cancel₀ (Nat.cast_ne_zero.2 hn), Real.rpow_one]

end Meevax.Constants
