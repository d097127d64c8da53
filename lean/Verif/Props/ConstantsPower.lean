import Verif.Props.Constants

/-
C103: `fl-e-pi/4`.
-/

namespace Meevax.Constants

open Meevax.Number (Flo Num Outcome Rep)

/-- The exponential function of a number below one, by its series. -/
theorem exp_taylor {x : ℝ} (h0 : 0 ≤ x) (h1 : x ≤ 1) :
    |Real.exp x - ∑ m ∈ Finset.range 20, x ^ m / m.factorial| ≤ x ^ 20 * (21 / (2432902008176640000 * 20)) := by
  have h := Real.exp_bound (x := x) (by rw [abs_of_nonneg h0]; exact h1) (n := 20) (by norm_num)
  rw [abs_of_nonneg h0] at h
  norm_num [Nat.factorial] at h ⊢
  exact h

theorem exp_pi4_gt : (2.1932800507380154565 : ℝ) < Real.exp (Real.pi / 4) := by
  have hp := Real.pi_gt_d20
  have h := exp_taylor (x := 0.7853981633974483096150) (by norm_num) (by norm_num)
  have hm : Real.exp 0.7853981633974483096150 < Real.exp (Real.pi / 4) := Real.exp_lt_exp.2 (by
    norm_num at hp ⊢; linarith)
  refine lt_trans ?_ hm
  have := (abs_le.1 h).1
  norm_num [Finset.sum_range_succ, Nat.factorial] at this ⊢
  linarith

theorem exp_pi4_lt : Real.exp (Real.pi / 4) < 2.1932800507380154567 := by
  have hp := Real.pi_lt_d20
  have h := exp_taylor (x := 0.7853981633974483096175) (by norm_num) (by norm_num)
  have hm : Real.exp (Real.pi / 4) < Real.exp 0.7853981633974483096175 := Real.exp_lt_exp.2 (by
    norm_num at hp ⊢; linarith)
  refine lt_trans hm ?_
  have := (abs_le.1 h).2
  norm_num [Finset.sum_range_succ, Nat.factorial] at this ⊢
  linarith

theorem log_e_bounds : (1 - 6 / 10 ^ 17 : ℝ) < Real.log (6121026514868073 / 2 ^ 51) ∧
    Real.log (6121026514868073 / 2 ^ 51) < 1 := by
  have hg := exp_gt
  have hl := exp_lt
  norm_num at hg hl
  constructor
  · have h := Real.one_sub_inv_le_log_of_pos (x := (6121026514868073 / 2 ^ 51) / Real.exp 1)
      (div_pos (by norm_num) (Real.exp_pos 1))
    rw [Real.log_div (by norm_num) (Real.exp_pos 1).ne', Real.log_exp, inv_div] at h
    have h2 : Real.exp 1 / (6121026514868073 / 2 ^ 51) < 1 + 6 / 10 ^ 17 := by
      rw [div_lt_iff₀ (by norm_num)]
      norm_num
      linarith
    linarith
  · rw [Real.log_lt_iff_lt_exp (by norm_num)]
    norm_num
    linarith

/-- The power of the two flonums, and the number it stands for, are on the same side of the points half way
to the next flonums. -/
theorem pow_bounds : (2.19328005073801510 : ℝ) < (6121026514868073 / 2 ^ 51 : ℝ) ^ (7074237752028440 / 2 ^ 53 : ℝ) ∧
    (6121026514868073 / 2 ^ 51 : ℝ) ^ (7074237752028440 / 2 ^ 53 : ℝ) < 2.19328005073801540 := by
  obtain ⟨h1, h2⟩ := log_e_bounds
  rw [Real.rpow_def_of_pos (by norm_num)]
  constructor
  · have h := exp_taylor (x := 0.78539816339744820) (by norm_num) (by norm_num)
    refine lt_trans ?_ (Real.exp_lt_exp.2 (?_ : (0.78539816339744820 : ℝ) < _))
    · have := (abs_le.1 h).1
      norm_num [Finset.sum_range_succ, Nat.factorial] at this ⊢
      linarith
    · norm_num at h1 ⊢
      linarith
  · have h := exp_taylor (x := 0.785398163397448280) (by norm_num) (by norm_num)
    refine lt_trans (Real.exp_lt_exp.2 (?_ : _ < (0.785398163397448280 : ℝ))) ?_
    · norm_num at h2 ⊢
      linarith
    · have := (abs_le.1 h).2
      norm_num [Finset.sum_range_succ, Nat.factorial] at this ⊢
      linarith

/-- **C103**: `fl-e-pi/4`, if the powers of the C library are rounded to nearest. -/
theorem C103_e_pi {p : Platform} (h : Standard p) (hw : PowRounds p) : Gives (flEPi4 p) (Real.exp (Real.pi / 4)) := by
  have hg := exp_pi4_gt
  have hl := exp_pi4_lt
  obtain ⟨h1, h2⟩ := pow_bounds
  have hd : Number.Real.div (.flo p.pi) (int 4) = .value (.flo (.finite false ((7074237752028440 : ℕ) / 2 ^ 53))) := by
    rw [pi_eq h]
    refine (div_int (n := 4) (by norm_num) (by norm_num) _).trans ?_
    rw [div_close (m := 7074237752028440) (k := 53) (by norm_num) (by norm_num) (by norm_num)] <;> norm_num
  have hp := hw ((6121026514868073 : ℕ) / 2 ^ 51) ((7074237752028440 : ℕ) / 2 ^ 53)
    (rep_grid (by norm_num) (by norm_num)) (by norm_num) (by norm_num)
    (rep_grid (by norm_num) (by norm_num)) (by norm_num) (by norm_num)
  have e1 : ((((6121026514868073 : ℕ) / 2 ^ 51 : ℚ)) : ℝ) = 6121026514868073 / 2 ^ 51 := by push_cast; rfl
  have e2 : ((((7074237752028440 : ℕ) / 2 ^ 53 : ℚ)) : ℝ) = 7074237752028440 / 2 ^ 53 := by push_cast; rfl
  rw [e1, e2] at hp
  refine gives_close (m := 4938827609611434) (k := 51) (by norm_num) (by norm_num) (by norm_num)
    (lt_of_le_of_lt (by norm_num) hg) (lt_of_lt_of_le hl (by norm_num)) ?_
  have hv := approximates_eq (m := 4938827609611434) (k := 51) (by norm_num) (by norm_num) (by norm_num)
    (lt_of_le_of_lt (by norm_num) h1) (lt_of_lt_of_le h2 (by norm_num)) hp
  rw [← hv, ← e_eq h]
  show (Number.Real.div (.flo p.pi) (int 4)).bind (fun y => expt p (.flo p.e) y) = _
  rw [hd]
  rfl

end Meevax.Constants
