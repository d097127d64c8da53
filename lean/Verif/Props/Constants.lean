import Verif.Lemmas.Constants
import Verif.Lemmas.ConstantsBounds

/-
C103: the constants of (srfi 144).
-/

namespace Meevax.Constants

open Meevax.Number (Flo Num Outcome Rep Mpq roundEven castFixnum)

/-! ### What the platform gives -/

section

variable {p : Platform}

theorem e_eq (h : Standard p) : p.e = .finite false ((6121026514868073 : ℕ) / 2 ^ 51) :=
  approximates_eq (by norm_num) (by norm_num) (by norm_num)
    (lt_of_le_of_lt (by norm_num) exp_gt) (lt_of_lt_of_le exp_lt (by norm_num)) h.e

theorem pi_eq (h : Standard p) : p.pi = .finite false ((7074237752028440 : ℕ) / 2 ^ 51) :=
  approximates_eq (by norm_num) (by norm_num) (by norm_num)
    (lt_of_le_of_lt (by norm_num) Real.pi_gt_d20) (lt_of_lt_of_le Real.pi_lt_d20 (by norm_num)) h.pi

theorem phi_eq (h : Standard p) : p.phi = .finite false ((7286977268806824 : ℕ) / 2 ^ 52) :=
  approximates_eq (by norm_num) (by norm_num) (by norm_num)
    (lt_of_le_of_lt (by norm_num) phi_gt) (lt_of_lt_of_le phi_lt (by norm_num)) h.phi

/-! ### Arithmetic -/

theorem div_close {m k : ℕ} (hm : 2 ^ 52 < m) (hm' : m ≤ 2 ^ 53) (hk : k ≤ 1074) {a b : ℚ} (hb : 0 < b)
    (h1 : (2 * m - 1) / 2 ^ (k + 1) < a / b) (h2 : a / b < (2 * m + 1) / 2 ^ (k + 1)) :
    Flo.div (.finite false a) (.finite false b) = .finite false (m / 2 ^ k) := by
  show (if b = 0 then _ else roundEven (false != false) (a / b)) = _
  rw [if_neg hb.ne']
  exact roundEven_close hm hm' hk h1 h2

theorem mul_close {m k : ℕ} (hm : 2 ^ 52 < m) (hm' : m ≤ 2 ^ 53) (hk : k ≤ 1074) {a b : ℚ}
    (h1 : (2 * m - 1) / 2 ^ (k + 1) < a * b) (h2 : a * b < (2 * m + 1) / 2 ^ (k + 1)) :
    Flo.mul (.finite false a) (.finite false b) = .finite false (m / 2 ^ k) :=
  roundEven_close hm hm' hk h1 h2

theorem int_div {n : ℕ} (h0 : 0 < n) (h : n < 2 ^ 31) (b : ℚ) :
    (int n).div (.flo (.finite false b)) = .value (.flo (Flo.div (.finite false n) (.finite false b))) := by
  show Outcome.value (Number.Real.flo (Flo.div (castFixnum n) _)) = _
  rw [cast_nat h0 h]

theorem int_mul {n : ℕ} (h0 : 0 < n) (h : n < 2 ^ 31) (b : ℚ) :
    (int n).mul (.flo (.finite false b)) = .value (.flo (Flo.mul (.finite false n) (.finite false b))) := by
  show Outcome.value (Number.Real.flo (Flo.mul (castFixnum n) _)) = _
  rw [cast_nat h0 h]

theorem div_int {n : ℕ} (h0 : 0 < n) (h : n < 2 ^ 31) (b : ℚ) :
    Number.Real.div (.flo (.finite false b)) (int n) =
      .value (.flo (Flo.div (.finite false b) (.finite false n))) := by
  show Outcome.value (Number.Real.flo (Flo.div _ (castFixnum n))) = _
  rw [cast_nat h0 h]

/-! ### C103 -/

/-- **C103**: `fl-e`, `fl-1/e` and `fl-e-2`. -/
theorem C103_exponential (h : Standard p) :
    Gives (flE p) (Real.exp 1) ∧ Gives (flInvE p) (1 / Real.exp 1) ∧ Gives flE2 (Real.exp 1 ^ 2) := by
  have hp := Real.exp_pos 1
  refine ⟨⟨_, rfl, h.e⟩, ?_, ?_⟩
  · refine gives_close (m := 6627126856707896) (k := 54) (by norm_num) (by norm_num) (by norm_num) ?_ ?_ ?_
    · rw [lt_div_iff₀ hp]; norm_num; linarith [exp_lt]
    · rw [div_lt_iff₀ hp]; norm_num; linarith [exp_gt]
    · rw [flInvE, e_eq h]
      refine (int_div (n := 1) (by norm_num) (by norm_num) _).trans ?_
      rw [div_close (m := 6627126856707896) (k := 54) (by norm_num) (by norm_num) (by norm_num)] <;> norm_num
  · refine gives_close (m := 8319337573440942) (k := 50) (by norm_num) (by norm_num) (by norm_num) ?_ ?_ ?_
    · refine lt_of_le_of_lt ?_ (pow_lt_pow_left₀ exp_gt (by norm_num) (by norm_num)); norm_num
    · refine lt_of_lt_of_le (pow_lt_pow_left₀ exp_lt hp.le (by norm_num)) ?_; norm_num
    · rw [flE2, literal, roundEven_close (m := 8319337573440942) (k := 50)] <;> norm_num

/-- **C103**: `fl-pi`, `fl-1/pi`, `fl-2pi`, `fl-pi/2`, `fl-pi/4`, `fl-degree` and `fl-2/pi`. -/
theorem C103_circle (h : Standard p) :
    Gives (flPi p) Real.pi ∧ Gives (flInvPi p) (1 / Real.pi) ∧ Gives (fl2Pi p) (2 * Real.pi) ∧
    Gives (flPi2 p) (Real.pi / 2) ∧ Gives (flPi4 p) (Real.pi / 4) ∧ Gives (flDegree p) (Real.pi / 180) ∧
    Gives (fl2OverPi p) (2 / Real.pi) := by
  have hp := Real.pi_pos
  have hg := Real.pi_gt_d20
  have hl := Real.pi_lt_d20
  norm_num at hg hl
  refine ⟨⟨_, rfl, h.pi⟩, ?_, ?_, ?_, ?_, ?_, ?_⟩
  · refine gives_close (m := 5734161139222659) (k := 54) (by norm_num) (by norm_num) (by norm_num) ?_ ?_ ?_
    · rw [lt_div_iff₀ hp]; norm_num; linarith
    · rw [div_lt_iff₀ hp]; norm_num; linarith
    · rw [flInvPi, pi_eq h]
      refine (int_div (n := 1) (by norm_num) (by norm_num) _).trans ?_
      rw [div_close (m := 5734161139222659) (k := 54) (by norm_num) (by norm_num) (by norm_num)] <;> norm_num
  · refine gives_close (m := 7074237752028440) (k := 50) (by norm_num) (by norm_num) (by norm_num) ?_ ?_ ?_
    · norm_num; linarith
    · norm_num; linarith
    · rw [fl2Pi, pi_eq h]
      refine (int_mul (n := 2) (by norm_num) (by norm_num) _).trans ?_
      rw [mul_close (m := 7074237752028440) (k := 50) (by norm_num) (by norm_num) (by norm_num)] <;> norm_num
  · refine gives_close (m := 7074237752028440) (k := 52) (by norm_num) (by norm_num) (by norm_num) ?_ ?_ ?_
    · norm_num; linarith
    · norm_num; linarith
    · rw [flPi2, pi_eq h]
      refine (div_int (n := 2) (by norm_num) (by norm_num) _).trans ?_
      rw [div_close (m := 7074237752028440) (k := 52) (by norm_num) (by norm_num) (by norm_num)] <;> norm_num
  · refine gives_close (m := 7074237752028440) (k := 53) (by norm_num) (by norm_num) (by norm_num) ?_ ?_ ?_
    · norm_num; linarith
    · norm_num; linarith
    · rw [flPi4, pi_eq h]
      refine (div_int (n := 4) (by norm_num) (by norm_num) _).trans ?_
      rw [div_close (m := 7074237752028440) (k := 53) (by norm_num) (by norm_num) (by norm_num)] <;> norm_num
  · refine gives_close (m := 5030569068109113) (k := 58) (by norm_num) (by norm_num) (by norm_num) ?_ ?_ ?_
    · norm_num; linarith
    · norm_num; linarith
    · rw [flDegree, pi_eq h]
      refine (div_int (n := 180) (by norm_num) (by norm_num) _).trans ?_
      rw [div_close (m := 5030569068109113) (k := 58) (by norm_num) (by norm_num) (by norm_num)] <;> norm_num
  · refine gives_close (m := 5734161139222659) (k := 53) (by norm_num) (by norm_num) (by norm_num) ?_ ?_ ?_
    · rw [lt_div_iff₀ hp]; norm_num; linarith
    · rw [div_lt_iff₀ hp]; norm_num; linarith
    · rw [fl2OverPi, pi_eq h]
      refine (int_div (n := 2) (by norm_num) (by norm_num) _).trans ?_
      rw [div_close (m := 5734161139222659) (k := 53) (by norm_num) (by norm_num) (by norm_num)] <;> norm_num

/-! ### Roots -/

theorem trunc_eq {q : ℚ} {t : ℕ} (h1 : (t : ℚ) ≤ q) (h2 : q < t + 1) : Number.stdTrunc q = t := by
  have h0 : 0 ≤ q := le_trans (by positivity) h1
  unfold Number.stdTrunc
  rw [if_neg (not_lt.2 h0), abs_of_nonneg h0, Int.floor_eq_iff]
  exact ⟨by exact_mod_cast h1, by exact_mod_cast h2⟩

theorem sqrt_int {n t : ℕ} {q : ℚ} (h0 : 0 < n) (hn : n < 2 ^ 31) (h : p.sqrt (.finite false n) = .finite false q)
    (h1 : (t : ℚ) ≤ q) (h2 : q < t + 1) (ht : t < 100) (hne : t * t ≠ n) :
    sqrt p (int n) = .value (.flo (.finite false q)) := by
  have e : Number.stdTrunc (Number.signed false q) = t := trunc_eq h1 h2
  have hf : Number.Fits32 (t : ℤ) ∧ Number.Fits32 ((t : ℤ) * t) := by
    unfold Number.Fits32
    constructor <;> constructor <;> nlinarith
  show (match p.sqrt (castFixnum n) with
    | .finite s m => _
    | _ => _) = _
  rw [cast_nat h0 hn, h]
  simp only [e, if_pos hf]
  rw [if_neg (by exact_mod_cast hne)]

theorem rep_nat {n : ℕ} (hn : n < 2 ^ 53) : Rep (n : ℚ) :=
  ⟨n, 0, hn, by norm_num, by norm_num, by simp⟩

theorem sqrt_eq (h : Standard p) {n m k : ℕ} (h0 : 0 < n) (hn : n < 2 ^ 31) (hm : 2 ^ 52 < m)
    (hm' : m ≤ 2 ^ 53) (hk : k ≤ 1074) (h1 : (2 * m - 1) / 2 ^ (k + 1) < √(n : ℝ))
    (h2 : √(n : ℝ) < (2 * m + 1) / 2 ^ (k + 1)) : p.sqrt (.finite false n) = .finite false (m / 2 ^ k) := by
  have := h.sqrt n (rep_nat (by omega)) (by exact_mod_cast h0)
  push_cast at this
  exact approximates_eq hm hm' hk h1 h2 this

theorem root_int (h : Standard p) {n m k t : ℕ} (h0 : 0 < n) (hn : n < 2 ^ 31) (hm : 2 ^ 52 < m)
    (hm' : m ≤ 2 ^ 53) (hk : k ≤ 1074) (h1 : (2 * m - 1) / 2 ^ (k + 1) < √(n : ℝ))
    (h2 : √(n : ℝ) < (2 * m + 1) / 2 ^ (k + 1)) (ht : t < 100) (hne : t * t ≠ n)
    (h3 : (t : ℚ) ≤ m / 2 ^ k) (h4 : (m : ℚ) / 2 ^ k < t + 1) :
    sqrt p (int n) = .value (.flo (.finite false (m / 2 ^ k))) ∧ Gives (sqrt p (int n)) (√(n : ℝ)) :=
  have e := sqrt_int h0 hn (sqrt_eq h h0 hn hm hm' hk h1 h2) h3 h4 ht hne
  ⟨e, gives_close hm hm' hk h1 h2 e⟩

theorem sqrt_2 (h : Standard p) : sqrt p (int ((2 : ℕ) : ℤ)) =
      .value (.flo (.finite false ((6369051672525773 : ℕ) / 2 ^ 52))) ∧ Gives (sqrt p (int ((2 : ℕ) : ℤ))) (√((2 : ℕ) : ℝ)) := by
  refine root_int h (t := 1) (by norm_num) (by norm_num) (by norm_num) (by norm_num) (by norm_num) ?_ ?_ (by norm_num)
    (by norm_num) (by norm_num) (by norm_num)
  · exact sqrt_gt (by norm_num) (by norm_num)
  · exact sqrt_lt (by norm_num) (by norm_num)

theorem sqrt_3 (h : Standard p) : sqrt p (int ((3 : ℕ) : ℤ)) =
      .value (.flo (.finite false ((7800463371553962 : ℕ) / 2 ^ 52))) ∧ Gives (sqrt p (int ((3 : ℕ) : ℤ))) (√((3 : ℕ) : ℝ)) := by
  refine root_int h (t := 1) (by norm_num) (by norm_num) (by norm_num) (by norm_num) (by norm_num) ?_ ?_ (by norm_num)
    (by norm_num) (by norm_num) (by norm_num)
  · exact sqrt_gt (by norm_num) (by norm_num)
  · exact sqrt_lt (by norm_num) (by norm_num)

theorem sqrt_5 (h : Standard p) : sqrt p (int ((5 : ℕ) : ℤ)) =
      .value (.flo (.finite false ((5035177455121576 : ℕ) / 2 ^ 51))) ∧ Gives (sqrt p (int ((5 : ℕ) : ℤ))) (√((5 : ℕ) : ℝ)) := by
  refine root_int h (t := 2) (by norm_num) (by norm_num) (by norm_num) (by norm_num) (by norm_num) ?_ ?_ (by norm_num)
    (by norm_num) (by norm_num) (by norm_num)
  · exact sqrt_gt (by norm_num) (by norm_num)
  · exact sqrt_lt (by norm_num) (by norm_num)

theorem sqrt_10 (h : Standard p) : sqrt p (int ((10 : ℕ) : ℤ)) =
      .value (.flo (.finite false ((7120816245988179 : ℕ) / 2 ^ 51))) ∧ Gives (sqrt p (int ((10 : ℕ) : ℤ))) (√((10 : ℕ) : ℝ)) := by
  refine root_int h (t := 3) (by norm_num) (by norm_num) (by norm_num) (by norm_num) (by norm_num) ?_ ?_ (by norm_num)
    (by norm_num) (by norm_num) (by norm_num)
  · exact sqrt_gt (by norm_num) (by norm_num)
  · exact sqrt_lt (by norm_num) (by norm_num)

/-- **C103**: `fl-sqrt-2`, `fl-sqrt-3`, `fl-sqrt-5`, `fl-sqrt-10` and `fl-phi`. -/
theorem C103_roots (h : Standard p) :
    Gives (flSqrt2 p) (√2) ∧ Gives (flSqrt3 p) (√3) ∧ Gives (flSqrt5 p) (√5) ∧ Gives (flSqrt10 p) (√10) ∧
    Gives (flPhi p) Real.goldenRatio := by
  have h2 := (sqrt_2 h).2
  have h3 := (sqrt_3 h).2
  have h5 := (sqrt_5 h).2
  have h10 := (sqrt_10 h).2
  push_cast at h2 h3 h5 h10
  exact ⟨h2, h3, h5, h10, _, rfl, h.phi⟩

/-- **C103** is false of `fl-1/sqrt-2`: the quotient of one and the rounded root is the flonum below the one
that is closest. -/
theorem C103_root_fails (h : Standard p) :
    flInvSqrt2 p = .value (.flo (.finite false ((6369051672525772 : ℕ) / 2 ^ 53))) ∧
    Closest ((6369051672525773 : ℕ) / 2 ^ 53) (1 / √2) ∧ ¬ Gives (flInvSqrt2 p) (1 / √2) := by
  have hs : (0 : ℝ) < √2 := Real.sqrt_pos.2 (by norm_num)
  have hv : flInvSqrt2 p = .value (.flo (.finite false ((6369051672525772 : ℕ) / 2 ^ 53))) := by
    have h2 := (sqrt_2 h).1
    show (sqrt p (int ((2 : ℕ) : ℤ))).bind (fun x => (int 1).div x) = _
    rw [h2]
    refine (int_div (n := 1) (by norm_num) (by norm_num) _).trans ?_
    rw [div_close (m := 6369051672525772) (k := 53) (by norm_num) (by norm_num) (by norm_num)] <;> norm_num
  have hg : (1.41421356237309504880 : ℝ) < √2 := sqrt_gt (by norm_num) (by norm_num)
  have hl : √2 < (1.41421356237309504881 : ℝ) := sqrt_lt (by norm_num) (by norm_num)
  norm_num at hg hl
  have hc := close (m := 6369051672525773) (k := 53) (by norm_num) (by norm_num) (by norm_num) (x := 1 / √2)
    (by rw [lt_div_iff₀ hs]; norm_num; linarith) (by rw [div_lt_iff₀ hs]; norm_num; linarith)
  refine ⟨hv, hc.1, ?_⟩
  rintro ⟨d, hd, v, rfl, hcl⟩
  rw [hv] at hd
  have e := hc.2 v hcl
  injection hd with hd
  injection hd with hd
  injection hd with _ hd
  rw [← hd] at e
  norm_num at e

/-- **C103**: `fl-2/sqrt-pi`. -/
theorem C103_two_over_sqrt_pi (h : Standard p) : Gives (fl2OverSqrtPi p) (2 / √Real.pi) := by
  have hs : (0 : ℝ) < √Real.pi := Real.sqrt_pos.2 Real.pi_pos
  have hg : (1.77245385090551602729 : ℝ) < √Real.pi :=
    sqrt_gt (by norm_num) (lt_of_le_of_lt (by norm_num) Real.pi_gt_d20)
  have hl : √Real.pi < (1.77245385090551602731 : ℝ) :=
    sqrt_lt (by norm_num) (lt_of_lt_of_le Real.pi_lt_d20 (by norm_num))
  norm_num at hg hl
  have hr : p.sqrt p.pi = .finite false ((7982422502469482 : ℕ) / 2 ^ 52) := by
    have := h.sqrt ((7074237752028440 : ℕ) / 2 ^ 51) (rep_grid (by norm_num) (by norm_num)) (by norm_num)
    rw [pi_eq h]
    refine approximates_eq (by norm_num) (by norm_num) (by norm_num) ?_ ?_ this
    · exact sqrt_gt (by norm_num) (by norm_num)
    · exact sqrt_lt (by norm_num) (by norm_num)
  refine gives_close (m := 5081767996463981) (k := 52) (by norm_num) (by norm_num) (by norm_num) ?_ ?_ ?_
  · rw [lt_div_iff₀ hs]; norm_num; linarith
  · rw [div_lt_iff₀ hs]; norm_num; linarith
  · show (int 2).div (.flo (p.sqrt p.pi)) = _
    rw [hr]
    refine (int_div (n := 2) (by norm_num) (by norm_num) _).trans ?_
    rw [div_close (m := 5081767996463981) (k := 52) (by norm_num) (by norm_num) (by norm_num)] <;> norm_num

/-! ### Logarithms -/

/-- **C103**: the literals for `fl-log10-e`, `fl-1/log-10` and `fl-1/log-phi`. -/
theorem C103_logarithm_literals :
    Gives flLog10E (Real.log (Real.exp 1) / Real.log 10) ∧ Gives flInvLog10 (1 / Real.log 10) ∧
    Gives flInvLogPhi (1 / Real.log Real.goldenRatio) := by
  obtain ⟨h1, h2⟩ := log10_bounds
  have h3 := logphi_gt
  have h4 := logphi_lt
  norm_num at h1 h2 h3 h4
  have hp : 0 < Real.log 10 := by linarith
  have hq : 0 < Real.log Real.goldenRatio := by linarith
  have h10 : Gives flInvLog10 (1 / Real.log 10) := by
    refine gives_close (m := 7823553867474190) (k := 54) (by norm_num) (by norm_num) (by norm_num) ?_ ?_ ?_
    · rw [lt_div_iff₀ hp]; norm_num; linarith
    · rw [div_lt_iff₀ hp]; norm_num; linarith
    · rw [flInvLog10, literal, roundEven_close (m := 7823553867474190) (k := 54)] <;> norm_num
  refine ⟨by rw [Real.log_exp]; exact h10, h10, ?_⟩
  refine gives_close (m := 4679435742058786) (k := 51) (by norm_num) (by norm_num) (by norm_num) ?_ ?_ ?_
  · rw [lt_div_iff₀ hq]; norm_num; linarith
  · rw [div_lt_iff₀ hq]; norm_num; linarith
  · rw [flInvLogPhi, literal, roundEven_close (m := 4679435742058786) (k := 51)] <;> norm_num

theorem log_int (hl : LogRounds p) {n : ℕ} (h0 : 1 < n) (hn : n < 2 ^ 31) :
    Gives (log p (int n)) (Real.log n) := by
  refine ⟨p.log (castFixnum n), rfl, ?_⟩
  rw [cast_nat (by omega) hn]
  have := hl n (rep_nat (by omega)) (by exact_mod_cast h0)
  push_cast at this
  exact this

theorem log_two (hl : LogRounds p) :
    log p (int 2) = .value (.flo (.finite false ((6243314768165359 : ℕ) / 2 ^ 53))) := by
  obtain ⟨d, hd, h⟩ := log_int hl (n := 2) (by norm_num) (by norm_num)
  obtain ⟨h1, h2⟩ := log2_bounds
  have hx : Real.log ((2 : ℕ) : ℝ) = Real.log 2 := by push_cast; rfl
  rw [hx] at h
  rw [approximates_eq (m := 6243314768165359) (k := 53) (by norm_num) (by norm_num) (by norm_num)
    (lt_of_le_of_lt (by norm_num) h1) (lt_of_lt_of_le h2 (by norm_num)) h] at hd
  exact hd

theorem inv_log_two :
    Flo.div (.finite false 1) (.finite false ((6243314768165359 : ℕ) / 2 ^ 53)) =
      .finite false ((6497320848556798 : ℕ) / 2 ^ 52) :=
  div_close (by norm_num) (by norm_num) (by norm_num) (by norm_num) (by norm_num) (by norm_num)

/-- The logarithm of the flonum `e` is rounded to one. -/
theorem log_e (h : Standard p) (hl : LogRounds p) : p.log p.e = .finite false 1 := by
  have h1 := hl ((6121026514868073 : ℕ) / 2 ^ 51) (rep_grid (by norm_num) (by norm_num)) (by norm_num)
  have e : ((((6121026514868073 : ℕ) : ℚ) / 2 ^ 51 : ℚ) : ℝ) = 6121026514868073 / 2 ^ 51 := by push_cast; rfl
  rw [e] at h1
  have hp := Real.exp_pos 1
  have hv : (0 : ℝ) < 6121026514868073 / 2 ^ 51 := by norm_num
  have hlog : Real.log (6121026514868073 / 2 ^ 51) =
      1 - Real.log (Real.exp 1 / (6121026514868073 / 2 ^ 51)) := by
    rw [Real.log_div hp.ne' hv.ne', Real.log_exp]; ring
  have hu : Real.log (Real.exp 1 / (6121026514868073 / 2 ^ 51)) ≤ Real.exp 1 / (6121026514868073 / 2 ^ 51) - 1 :=
    Real.log_le_sub_one_of_pos (div_pos hp hv)
  have hpos : 0 < Real.log (Real.exp 1 / (6121026514868073 / 2 ^ 51)) := by
    refine Real.log_pos ?_
    rw [lt_div_iff₀ hv]
    refine lt_of_le_of_lt ?_ exp_gt
    norm_num
  have hb : Real.exp 1 / (6121026514868073 / 2 ^ 51) < 1 + 1 / 2 ^ 54 := by
    rw [div_lt_iff₀ hv]
    refine lt_of_lt_of_le exp_lt ?_
    norm_num
  rw [e_eq h, approximates_eq (m := 2 ^ 53) (k := 53) (by norm_num) (by norm_num) (by norm_num) ?_ ?_ h1]
  · norm_num
  · rw [hlog]
    norm_num at hu hb ⊢
    linarith
  · rw [hlog]
    norm_num at hpos ⊢
    linarith

theorem log_between {x a : ℝ} (hx : 0 < x) (ha : 0 < a) :
    Real.log x + (1 - x / a) ≤ Real.log a ∧ Real.log a ≤ Real.log x + (a / x - 1) := by
  have h1 := Real.log_le_sub_one_of_pos (div_pos hx ha)
  have h2 := Real.log_le_sub_one_of_pos (div_pos ha hx)
  rw [Real.log_div hx.ne' ha.ne'] at h1
  rw [Real.log_div ha.ne' hx.ne'] at h2
  constructor <;> linarith

/-- **C103**: `fl-log-2`, `fl-1/log-2`, `fl-log2-e`, `fl-log-3`, `fl-log-10`, `fl-log-pi` and `fl-log-phi`, if
the logarithms of the C library are rounded to nearest. -/
theorem C103_logarithms (h : Standard p) (hl : LogRounds p) :
    Gives (flLog2 p) (Real.log 2) ∧ Gives (flInvLog2 p) (1 / Real.log 2) ∧
    Gives (flLog2E p) (Real.log (Real.exp 1) / Real.log 2) ∧ Gives (flLog3 p) (Real.log 3) ∧
    Gives (flLog10 p) (Real.log 10) ∧ Gives (flLogPi p) (Real.log Real.pi) ∧
    Gives (flLogPhi p) (Real.log Real.goldenRatio) := by
  have l2 := log_int hl (n := 2) (by norm_num) (by norm_num)
  have l3 := log_int hl (n := 3) (by norm_num) (by norm_num)
  have l10 := log_int hl (n := 10) (by norm_num) (by norm_num)
  push_cast at l2 l3 l10
  obtain ⟨h1, h2⟩ := log2_bounds
  norm_num at h1 h2
  have hp : 0 < Real.log 2 := by linarith
  have inv : ∀ r : Outcome Number.Real, r = .value (.flo (.finite false ((6497320848556798 : ℕ) / 2 ^ 52))) →
      Gives r (1 / Real.log 2) := by
    intro r hr
    refine gives_close (m := 6497320848556798) (k := 52) (by norm_num) (by norm_num) (by norm_num) ?_ ?_ hr
    · rw [lt_div_iff₀ hp]; norm_num; linarith
    · rw [div_lt_iff₀ hp]; norm_num; linarith
  refine ⟨l2, inv _ ?_, ?_, l3, l10, ?_, ?_⟩
  · show (log p (int 2)).bind (fun x => (int 1).div x) = _
    rw [log_two hl]
    refine (int_div (n := 1) (by norm_num) (by norm_num) _).trans ?_
    rw [← inv_log_two]
    norm_num
  · rw [Real.log_exp]
    refine inv _ ?_
    show (log p (int 2)).bind (fun x => Number.Real.div (.flo (p.log p.e)) x) = _
    rw [log_two hl, log_e h hl, ← inv_log_two]
    rfl
  · have hx : p.log p.pi = .finite false ((5155405087351229 : ℕ) / 2 ^ 52) := by
      have ha := hl ((7074237752028440 : ℕ) / 2 ^ 51) (rep_grid (by norm_num) (by norm_num)) (by norm_num)
      have e : ((((7074237752028440 : ℕ) : ℚ) / 2 ^ 51 : ℚ) : ℝ) = 7074237752028440 / 2 ^ 51 := by push_cast; rfl
      rw [e] at ha
      have hv : (0 : ℝ) < 7074237752028440 / 2 ^ 51 := by norm_num
      obtain ⟨b1, b2⟩ := log_between Real.pi_pos hv
      have b3 : Real.pi / (7074237752028440 / 2 ^ 51) < 1 + 1 / 2 ^ 54 := by
        rw [div_lt_iff₀ hv]
        exact lt_of_lt_of_le Real.pi_lt_d20 (by norm_num)
      have b4 : 7074237752028440 / 2 ^ 51 / Real.pi < 1 + 1 / 2 ^ 56 := by
        rw [div_lt_iff₀ Real.pi_pos]
        have := Real.pi_gt_d20
        norm_num at this ⊢
        linarith
      have b5 := logpi_gt
      have b6 := logpi_lt
      rw [pi_eq h]
      refine approximates_eq (by norm_num) (by norm_num) (by norm_num) ?_ ?_ ha
      · refine lt_of_lt_of_le ?_ b1
        norm_num at b3 b5 ⊢
        linarith
      · refine lt_of_le_of_lt b2 ?_
        norm_num at b4 b6 ⊢
        linarith
    exact gives_close (m := 5155405087351229) (k := 52) (by norm_num) (by norm_num) (by norm_num)
      (lt_of_le_of_lt (by norm_num) logpi_gt) (lt_of_lt_of_le logpi_lt (by norm_num))
      (by show Outcome.value (Number.Real.flo (p.log p.pi)) = _; rw [hx])
  · have hx : p.log p.phi = .finite false ((8668741584098826 : ℕ) / 2 ^ 54) := by
      have ha := hl ((7286977268806824 : ℕ) / 2 ^ 52) (rep_grid (by norm_num) (by norm_num)) (by norm_num)
      have e : ((((7286977268806824 : ℕ) : ℚ) / 2 ^ 52 : ℚ) : ℝ) = 7286977268806824 / 2 ^ 52 := by push_cast; rfl
      rw [e] at ha
      have hv : (0 : ℝ) < 7286977268806824 / 2 ^ 52 := by norm_num
      obtain ⟨b1, b2⟩ := log_between Real.goldenRatio_pos hv
      have b3 : Real.goldenRatio / (7286977268806824 / 2 ^ 52) < 1 := by
        rw [div_lt_iff₀ hv]
        exact lt_of_lt_of_le phi_lt (by norm_num)
      have b4 : 7286977268806824 / 2 ^ 52 / Real.goldenRatio < 1 + 34 / 10 ^ 18 := by
        rw [div_lt_iff₀ Real.goldenRatio_pos]
        have := phi_gt
        norm_num at this ⊢
        linarith
      have b5 := logphi_gt
      have b6 := logphi_lt
      rw [phi_eq h]
      refine approximates_eq (by norm_num) (by norm_num) (by norm_num) ?_ ?_ ha
      · refine lt_of_lt_of_le ?_ b1
        norm_num at b3 b5 ⊢
        linarith
      · refine lt_of_le_of_lt b2 ?_
        norm_num at b4 b6 ⊢
        linarith
    exact gives_close (m := 8668741584098826) (k := 54) (by norm_num) (by norm_num) (by norm_num)
      (lt_of_le_of_lt (by norm_num) logphi_gt) (lt_of_lt_of_le logphi_lt (by norm_num))
      (by show Outcome.value (Number.Real.flo (p.log p.phi)) = _; rw [hx])

/-! ### Powers -/

/-- What a ratio between two neighbouring magnitudes is cast to. -/
theorem castRatio_grid {m k : ℕ} (hm : 2 ^ 52 < m) (hm' : m ≤ 2 ^ 53) (hk : k ≤ 1074) {q : Mpq}
    (h1 : (m : ℚ) / 2 ^ k ≤ q.val) (h2 : q.val < (m + 1) / 2 ^ k) (h3 : q.val ≤ 1) :
    Number.castRatio q = .finite false (m / 2 ^ k) := by
  have hmp : (0 : ℚ) < m / 2 ^ k := by
    have : 0 < m := by omega
    positivity
  have hpos : 0 < q.val := lt_of_lt_of_le hmp h1
  have hlt : |q.val| < 2 ^ 1024 := by
    rw [abs_of_pos hpos]
    exact lt_of_le_of_lt h3 (one_lt_pow₀ (by norm_num) (by norm_num))
  have ht := Number.truncates_grid hpos.ne' hlt
  have hv : Number.ulp q.val * ⌊|q.val| / Number.ulp q.val⌋ = (m : ℚ) / 2 ^ k := by
    refine Number.Truncates.unique ht ⟨rep_grid hm' hk, ?_, fun w hw hle => ?_⟩
    · rw [abs_of_pos hpos]; exact h1
    · rw [abs_of_pos hpos] at hle
      rcases grid_far (k := k) hm hw with rfl | hf
      · exact le_refl _
      · by_contra hc
        rw [abs_sub_comm, abs_of_pos (by linarith)] at hf
        have : ((m : ℚ) + 1) / 2 ^ k = m / 2 ^ k + 1 / 2 ^ k := by ring
        linarith
  unfold Number.castRatio Number.mpqGetD
  simp only [if_neg hpos.ne', if_neg (not_le.2 hlt), if_neg (not_lt.2 hpos.le), hv]
  rw [abs_of_pos hmp, decide_eq_false (not_lt.2 hmp.le)]

/-- The flonum that the exact `1/3` is cast to. -/
def third : ℚ := (6004799503160661 : ℕ) / 2 ^ 54

theorem third_rep : Rep third := rep_grid (by norm_num) (by norm_num)

theorem third_cast : Number.castRatio ⟨1, 3⟩ = .finite false third :=
  castRatio_grid (by norm_num) (by norm_num) (by norm_num) (by norm_num [Mpq.val]) (by norm_num [Mpq.val])
    (by norm_num [Mpq.val])

theorem quarter_cast : Number.castRatio ⟨1, 4⟩ = .finite false (1 / 4) := by
  rw [castRatio_grid (m := 2 ^ 53) (k := 55) (by norm_num) (by norm_num) (by norm_num) (by norm_num [Mpq.val])
    (by norm_num [Mpq.val]) (by norm_num [Mpq.val])]
  norm_num

theorem third_pow {x : ℝ} (h1 : 1 ≤ x) (h2 : x ≤ 4) :
    x ^ (1 / ((3 : ℕ) : ℝ)) - 6 / 10 ^ 17 ≤ x ^ ((third : ℚ) : ℝ) ∧ x ^ ((third : ℚ) : ℝ) ≤ x ^ (1 / ((3 : ℕ) : ℝ)) := by
  have e : ((third : ℚ) : ℝ) = 1 / ((3 : ℕ) : ℝ) - 1 / (3 * 2 ^ 54) := by
    unfold third; push_cast; norm_num
  have hx : 0 < x := by linarith
  constructor
  · rw [e, Real.rpow_sub hx]
    have hd : (0 : ℝ) < 1 / (3 * 2 ^ 54) := by norm_num
    have hy : x ^ (1 / ((3 : ℕ) : ℝ)) < 1.6 := root_lt (by norm_num) hx.le (by norm_num) (by norm_num; linarith)
    have hy0 : 0 < x ^ (1 / ((3 : ℕ) : ℝ)) := Real.rpow_pos_of_pos hx _
    have hl : Real.log x < 1.4 := by
      have := Real.log_le_log hx h2
      rw [show (4 : ℝ) = 2 ^ 2 by norm_num, Real.log_pow] at this
      have := log2_bounds.2
      norm_num at *
      linarith
    have hz : x ^ (1 / (3 * 2 ^ 54) : ℝ) = Real.exp (Real.log x * (1 / (3 * 2 ^ 54))) := Real.rpow_def_of_pos hx _
    have hinv : 1 - Real.log x * (1 / (3 * 2 ^ 54)) ≤ (x ^ (1 / (3 * 2 ^ 54) : ℝ))⁻¹ := by
      rw [hz, ← Real.exp_neg]
      have := Real.add_one_le_exp (-(Real.log x * (1 / (3 * 2 ^ 54))))
      linarith
    rw [div_eq_mul_inv (x ^ (1 / ((3 : ℕ) : ℝ)))]
    have hs : Real.log x * (1 / (3 * 2 ^ 54)) ≤ 26 / 10 ^ 18 := by
      norm_num at hl ⊢
      linarith
    have key : ∀ y z : ℝ, 0 < y → y < 1.6 → 1 - 26 / 10 ^ 18 ≤ z → y - 6 / 10 ^ 17 ≤ y * z := by
      intro y z h3 h4 h5
      norm_num at h4 h5 ⊢
      nlinarith
    exact key _ _ hy0 hy (by linarith)
  · exact Real.rpow_le_rpow_of_exponent_le h1 (by rw [e]; norm_num)

theorem cbrt2_gt : (1.25992104989487316476 : ℝ) < 2 ^ (1 / ((3 : ℕ) : ℝ)) :=
  root_gt (by norm_num) (by norm_num) (by norm_num)

theorem cbrt2_lt : (2 : ℝ) ^ (1 / ((3 : ℕ) : ℝ)) < 1.25992104989487316477 :=
  root_lt (by norm_num) (by norm_num) (by norm_num) (by norm_num)

theorem cbrt3_gt : (1.44224957030740838232 : ℝ) < 3 ^ (1 / ((3 : ℕ) : ℝ)) :=
  root_gt (by norm_num) (by norm_num) (by norm_num)

theorem cbrt3_lt : (3 : ℝ) ^ (1 / ((3 : ℕ) : ℝ)) < 1.44224957030740838233 :=
  root_lt (by norm_num) (by norm_num) (by norm_num) (by norm_num)

theorem cbrt_2 (hw : PowRounds p) :
    p.pow (.finite false 2) (.finite false third) = .finite false ((5674179970822795 : ℕ) / 2 ^ 52) := by
  have h := hw 2 third (by exact_mod_cast rep_nat (n := 2) (by norm_num)) (by norm_num) (by norm_num) third_rep
    (by norm_num [third]) (by norm_num [third])
  obtain ⟨h1, h2⟩ := third_pow (x := 2) (by norm_num) (by norm_num)
  have e : ((2 : ℚ) : ℝ) = 2 := by norm_num
  rw [e] at h
  refine approximates_eq (by norm_num) (by norm_num) (by norm_num) ?_ ?_ h
  · refine lt_of_lt_of_le ?_ h1
    have := cbrt2_gt
    norm_num at this ⊢
    linarith
  · refine lt_of_le_of_lt h2 (lt_of_lt_of_le cbrt2_lt (by norm_num))

theorem cbrt_3 (hw : PowRounds p) :
    p.pow (.finite false 3) (.finite false third) = .finite false ((6495314627411702 : ℕ) / 2 ^ 52) := by
  have h := hw 3 third (by exact_mod_cast rep_nat (n := 3) (by norm_num)) (by norm_num) (by norm_num) third_rep
    (by norm_num [third]) (by norm_num [third])
  obtain ⟨h1, h2⟩ := third_pow (x := 3) (by norm_num) (by norm_num)
  have e : ((3 : ℚ) : ℝ) = 3 := by norm_num
  rw [e] at h
  refine approximates_eq (by norm_num) (by norm_num) (by norm_num) ?_ ?_ h
  · refine lt_of_lt_of_le ?_ h1
    have := cbrt3_gt
    norm_num at this ⊢
    linarith
  · refine lt_of_le_of_lt h2 (lt_of_lt_of_le cbrt3_lt (by norm_num))

/-- **C103**: `fl-pi-squared`, `fl-cbrt-2`, `fl-cbrt-3` and `fl-4thrt-2`, if the powers of the C library are
rounded to nearest. -/
theorem C103_powers (h : Standard p) (hw : PowRounds p) :
    Gives (flPiSquared p) (Real.pi ^ 2) ∧ Gives (flCbrt2 p) (2 ^ (1 / 3 : ℝ)) ∧
    Gives (flCbrt3 p) (3 ^ (1 / 3 : ℝ)) ∧ Gives (fl4thrt2 p) (2 ^ (1 / 4 : ℝ)) := by
  have e3 : (1 / ((3 : ℕ) : ℝ)) = 1 / 3 := by norm_num
  have c2 : castFixnum 2 = .finite false 2 := by exact_mod_cast cast_nat (n := 2) (by norm_num) (by norm_num)
  have c3 : castFixnum 3 = .finite false 3 := by exact_mod_cast cast_nat (n := 3) (by norm_num) (by norm_num)
  refine ⟨?_, ?_, ?_, ?_⟩
  · have hp := hw ((7074237752028440 : ℕ) / 2 ^ 51) 2 (rep_grid (by norm_num) (by norm_num)) (by norm_num)
      (by norm_num) (by exact_mod_cast rep_nat (n := 2) (by norm_num)) (by norm_num) (by norm_num)
    have e : ((2 : ℚ) : ℝ) = ((2 : ℕ) : ℝ) := by norm_num
    rw [e, Real.rpow_natCast] at hp
    refine gives_close (m := 5556093337880030) (k := 49) (by norm_num) (by norm_num) (by norm_num) ?_ ?_ ?_
    · refine lt_of_le_of_lt ?_ (pow_lt_pow_left₀ Real.pi_gt_d20 (by norm_num) (by norm_num)); norm_num
    · refine lt_of_lt_of_le (pow_lt_pow_left₀ Real.pi_lt_d20 Real.pi_pos.le (by norm_num)) ?_; norm_num
    · show Outcome.value (Number.Real.flo (p.pow p.pi (castFixnum 2))) = _
      rw [c2, pi_eq h, approximates_eq (m := 5556093337880030) (k := 49) (by norm_num) (by norm_num) (by norm_num)
        ?_ ?_ hp]
      · norm_num
      · norm_num
  · have hg := cbrt2_gt
    have hl := cbrt2_lt
    rw [e3] at hg hl
    refine gives_close (m := 5674179970822795) (k := 52) (by norm_num) (by norm_num) (by norm_num)
      (lt_of_le_of_lt (by norm_num) hg) (lt_of_lt_of_le hl (by norm_num)) ?_
    show Outcome.value (Number.Real.flo (p.pow (castFixnum 2) (Number.castRatio ⟨1, 3⟩))) = _
    rw [c2, third_cast, cbrt_2 hw]
  · have hg := cbrt3_gt
    have hl := cbrt3_lt
    rw [e3] at hg hl
    refine gives_close (m := 6495314627411702) (k := 52) (by norm_num) (by norm_num) (by norm_num)
      (lt_of_le_of_lt (by norm_num) hg) (lt_of_lt_of_le hl (by norm_num)) ?_
    show Outcome.value (Number.Real.flo (p.pow (castFixnum 3) (Number.castRatio ⟨1, 3⟩))) = _
    rw [c3, third_cast, cbrt_3 hw]
  · have hp := hw 2 (1 / 4) (by exact_mod_cast rep_nat (n := 2) (by norm_num)) (by norm_num) (by norm_num)
      ⟨1, -2, by norm_num, by norm_num, by norm_num, by norm_num⟩ (by norm_num) (by norm_num)
    have e : (((1 / 4 : ℚ)) : ℝ) = 1 / 4 := by norm_num
    have e' : ((2 : ℚ) : ℝ) = 2 := by norm_num
    rw [e, e'] at hp
    refine ⟨_, ?_, hp⟩
    show Outcome.value (Number.Real.flo (p.pow (castFixnum 2) (Number.castRatio ⟨1, 4⟩))) = _
    rw [c2, quarter_cast]

end

/-- There is a platform as the theorems ask for it. -/
theorem C103_platform : ∃ p, Standard p ∧ LogRounds p ∧ PowRounds p := by
  choose c hc using closest_exists
  let val : Flo → ℝ
    | .finite _ m => ((m : ℚ) : ℝ)
    | _ => 0
  exact ⟨⟨.finite false (c (Real.exp 1)), .finite false (c Real.pi), .finite false (c Real.goldenRatio),
      fun x => .finite false (c (√(val x))), fun x => .finite false (c (Real.log (val x))),
      fun x y => .finite false (c (val x ^ val y))⟩,
    ⟨⟨_, rfl, hc _⟩, ⟨_, rfl, hc _⟩, ⟨_, rfl, hc _⟩, fun v _ _ => ⟨_, rfl, hc _⟩⟩,
    fun v _ _ => ⟨_, rfl, hc _⟩, fun v w _ _ _ _ _ _ => ⟨_, rfl, hc _⟩⟩

end Meevax.Constants
