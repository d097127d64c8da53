import Verif.Lemmas.Division
import Verif.Props.Number

/-
C31, C57: the division operators of SRFI 141 and the carry operators of SRFI 143.
-/

namespace Meevax.Number

/-- The call returns two exact integers. -/
def GivesTwo (o : Outcome (Num × Num)) (a b : Int) : Prop :=
  ∃ x y, o = .value (x, y) ∧ IsInt x a ∧ IsInt y b

theorem Gives.two {o p : Outcome Num} {a b : Int} (h1 : Gives o a) (h2 : Gives p b) :
    GivesTwo (twoValues o p) a b := by
  obtain ⟨x, rfl, hx⟩ := h1
  obtain ⟨y, rfl, hy⟩ := h2
  exact ⟨x, y, rfl, hx, hy⟩

/-! ### C31 -/

/-- The remainder with the sign of the divisor is unique. -/
theorem floor_unique {n d r : Int} (hd : d ≠ 0) (h1 : d ∣ n - r) (h2 : |r| < |d|) (h3 : 0 ≤ r * d) :
    n - d * ⌊(n : ℚ) / d⌋ = r := by
  have hdvd : d ∣ (n - d * ⌊(n : ℚ) / d⌋) - r := by
    obtain ⟨k, hk⟩ := h1
    exact ⟨k - ⌊(n : ℚ) / d⌋, by rw [mul_sub]; linarith⟩
  have : |(n - d * ⌊(n : ℚ) / d⌋) - r| < |d| := by
    rcases lt_or_gt_of_ne hd with h | h
    · have hr : r ≤ 0 := nonpos_of_mul_nonneg_left h3 h
      have := floor_div_neg (n := n) h
      rw [abs_of_neg h] at h2 ⊢
      rw [abs_of_nonpos hr] at h2
      rw [abs_lt]
      constructor <;> omega
    · have hr : 0 ≤ r := nonneg_of_mul_nonneg_left h3 h
      have := floor_div_pos (n := n) h
      rw [abs_of_pos h] at h2 ⊢
      rw [abs_of_nonneg hr] at h2
      rw [abs_lt]
      constructor <;> omega
  have := Int.eq_zero_of_abs_lt_dvd ((abs_dvd d _).2 hdvd) this
  omega

/-- **C31, partially**: `floor/`, when the division is even or the operands are short: the remainder
has the sign of the divisor. -/
theorem C31_floor_partial {x y : Num} {n d : Int} (hx : IsInt x n) (hy : IsInt y d) (hd : d ≠ 0)
    (h : d ∣ n ∨ (|n| ≤ 2 ^ 52 ∧ |d| ≤ 2 ^ 1074)) :
    ∃ q r, GivesTwo (floorDivide x y) q r ∧ n = d * q + r ∧ |r| < |d| ∧ 0 ≤ r * d := by
  obtain ⟨_, m, h1, h2, h3, h4⟩ := C26_remainder_partial hx hy hd
  refine ⟨_, m, (floorQuotient_int hx hy hd h).two h1, ?_, h3, h4⟩
  have := floor_unique hd h2 h3 h4
  omega

/-- **C31, partially**: `ceiling/`, when the division is even or the operands are short: the
remainder has the opposite sign of the divisor. -/
theorem C31_ceiling_partial {x y : Num} {n d : Int} (hx : IsInt x n) (hy : IsInt y d) (hd : d ≠ 0)
    (h : d ∣ n ∨ (|n| ≤ 2 ^ 52 ∧ |d| ≤ 2 ^ 1074)) :
    ∃ q r, GivesTwo (ceilingDivide x y) q r ∧ n = d * q + r ∧ |r| < |d| ∧ r * d ≤ 0 := by
  have h1 := ceilingQuotient_int hx hy hd h
  refine ⟨_, _, h1.two (remainder_of hx hy h1), by omega, ?_⟩
  rcases lt_or_gt_of_ne hd with hs | hs
  · have := ceil_div_neg (n := n) hs
    refine ⟨?_, mul_nonpos_of_nonneg_of_nonpos this.1 hs.le⟩
    rw [abs_of_nonneg this.1, abs_of_neg hs]
    exact this.2
  · have := ceil_div_pos (n := n) hs
    refine ⟨?_, mul_nonpos_of_nonpos_of_nonneg this.2 hs.le⟩
    rw [abs_of_nonpos this.2, abs_of_pos hs]
    omega

/-- **C31, partially**: `truncate/`, when the division is even or the quotient is less than
`2 ^ 53`: the remainder has the sign of the dividend. -/
theorem C31_truncate_partial {x y : Num} {n d : Int} (hx : IsInt x n) (hy : IsInt y d) (hd : d ≠ 0)
    (h : d ∣ n ∨ |n| < 2 ^ 53 * |d|) :
    ∃ q r, GivesTwo (truncateDivide x y) q r ∧ n = d * q + r ∧ |r| < |d| ∧ 0 ≤ r * n :=
  ⟨_, _, (quotient_int hx hy hd h).two (rem_int hx hy hd), (Int.mul_tdiv_add_tmod n d).symm,
    tmod_range n hd⟩

/-- **C31, partially**: `euclidean/`, when the division is even or the operands are short: the
remainder is not negative. -/
theorem C31_euclidean_partial {x y : Num} {n d : Int} (hx : IsInt x n) (hy : IsInt y d) (hd : d ≠ 0)
    (h : d ∣ n ∨ (|n| ≤ 2 ^ 52 ∧ |d| ≤ 2 ^ 1074)) :
    ∃ q r, GivesTwo (euclideanDivide x y) q r ∧ n = d * q + r ∧ 0 ≤ r ∧ r < |d| := by
  unfold euclideanDivide euclideanRemainder
  have hc : numLt [.small 0, y] = true ↔ 0 < d := by
    rw [numLt_two (by simp [Num.Valid]) hy.valid, hy.val]
    simp [Num.val]
  by_cases hs : 0 < d
  · have h1 : Gives (euclideanQuotient x y) ⌊(n : ℚ) / d⌋ := by
      unfold euclideanQuotient
      rw [if_pos (hc.2 hs)]
      exact floorQuotient_int hx hy hd h
    have := floor_div_pos (n := n) hs
    refine ⟨_, _, h1.two (remainder_of hx hy h1), by omega, this.1, ?_⟩
    rw [abs_of_pos hs]
    exact this.2
  · have h1 : Gives (euclideanQuotient x y) ⌈(n : ℚ) / d⌉ := by
      unfold euclideanQuotient
      rw [if_neg (fun h => hs (hc.1 h))]
      exact ceilingQuotient_int hx hy hd h
    have := ceil_div_neg (n := n) (d := d) (by omega)
    refine ⟨_, _, h1.two (remainder_of hx hy h1), by omega, this.1, ?_⟩
    rw [abs_of_neg (by omega)]
    exact this.2

/-- **C31, partially**: `round/`, when the division is even or the quotient is less than `2 ^ 52`:
the quotient is a nearest integer. -/
theorem C31_round_partial {x y : Num} {n d : Int} (hx : IsInt x n) (hy : IsInt y d) (hd : d ≠ 0)
    (h : d ∣ n ∨ |n| < 2 ^ 52 * |d|) :
    ∃ q r, GivesTwo (roundDivide x y) q r ∧ n = d * q + r ∧ 2 * |r| ≤ |d| := by
  have h1 := roundQuotient_int hx hy hd h
  refine ⟨_, _, h1.two (remainder_of hx hy h1), by omega, ?_⟩
  have hdQ : (d : ℚ) ≠ 0 := by exact_mod_cast hd
  have h2 := stdRound_near ((n : ℚ) / d)
  have h3 : (2 : ℚ) * |((n - d * stdRound ((n : ℚ) / d) : Int) : ℚ)| ≤ |(d : ℚ)| := by
    have e : ((n - d * stdRound ((n : ℚ) / d) : Int) : ℚ) =
        d * ((n : ℚ) / d - stdRound ((n : ℚ) / d)) := by
      push_cast
      field_simp
    rw [e, abs_mul]
    nlinarith [abs_nonneg (d : ℚ)]
  exact_mod_cast h3

/-- **C31, partially**: `balanced/`, when the division is even or the quotient is less than
`2 ^ 53`: the remainder is in `[-|d|/2, |d|/2)`. -/
theorem C31_balanced_partial {x y : Num} {n d : Int} (hx : IsInt x n) (hy : IsInt y d) (hd : d ≠ 0)
    (h : d ∣ n ∨ |n| < 2 ^ 53 * |d|) :
    ∃ q r, GivesTwo (balancedDivide x y) q r ∧ n = d * q + r ∧ -|d| ≤ 2 * r ∧ 2 * r < |d| := by
  obtain ⟨q, r, h1, h2, h3⟩ := balanced_int hx hy hd h
  exact ⟨q, r, h1.two h2, h3⟩

/-- **C31 is false for big quotients**: the two values of `floor/` do not give back the dividend. -/
theorem C31_floor_fails :
    GivesTwo (floorDivide (.large (2 * (2 ^ 53 + 1) + 1)) (.small 2)) (2 ^ 53) 1 ∧
    2 * (2 ^ 53 + 1) + 1 ≠ (2 : Int) * 2 ^ 53 + 1 := by
  refine ⟨Gives.two ?_ ?_, by norm_num⟩
  · unfold floorQuotient
    rw [divide_two, halve, bind_value]
    unfold floor nearest
    simp only [getD_witness]
    unfold stdFloor
    rw [show (2 ^ 53 : ℚ) = ((2 ^ 53 : Int) : ℚ) by norm_num, Int.floor_intCast]
    exact .large _
  · have := modulo_int (x := .large (2 * (2 ^ 53 + 1) + 1)) (y := .small 2) (.large _)
      (.small (by norm_num) (by norm_num)) (by norm_num)
    exact this

/-- **C31 is false for `round/` at halves**: `(round/ 5 2)` is 3 and -1, but the even quotient
is 2. -/
theorem C31_round_fails : GivesTwo (roundDivide (.small 5) (.small 2)) 3 (-1) := by
  have hx : IsInt (.small 5) 5 := .small (by norm_num) (by norm_num)
  have hy : IsInt (.small 2) 2 := .small (by norm_num) (by norm_num)
  have h1 := roundQuotient_int hx hy (by norm_num) (Or.inr (by norm_num))
  have e : stdRound (((5 : Int) : ℚ) / ((2 : Int) : ℚ)) = 3 := by
    unfold stdRound
    rw [if_neg (by norm_num), Int.floor_eq_iff]
    norm_num
  rw [e] at h1
  exact h1.two (remainder_of hx hy h1)

/-- **C31 is false for a zero divisor**: no error is raised, the execution is not defined. -/
theorem C31_zero_fails {x : Num} {n : Int} (hx : IsInt x n) :
    floorDivide x (.small 0) = .undefined ∧ ceilingDivide x (.small 0) = .undefined ∧
    truncateDivide x (.small 0) = .undefined ∧ roundDivide x (.small 0) = .undefined ∧
    euclideanDivide x (.small 0) = .undefined := by
  have h0 : div x (.small 0) = .undefined := by
    rcases hx with ⟨rfl, _⟩ | rfl <;> simp [div, Mpq.make, Mpq.canonicalize, returnRatio]
  have h1 : numLt [.small 0, .small 0] = false := by decide
  simp [floorDivide, ceilingDivide, truncateDivide, roundDivide, euclideanDivide, twoValues,
    floorQuotient, ceilingQuotient, truncateQuotient, quotient, roundQuotient, euclideanQuotient,
    divide_two, h0, h1]

example : ∃ q r, GivesTwo (balancedDivide (.large 7) (.small (-4))) q r ∧ 7 = -4 * q + r ∧
    -|-4| ≤ 2 * r ∧ 2 * r < |(-4 : Int)| :=
  C31_balanced_partial (.large _) (.small (by norm_num) (by norm_num)) (by norm_num)
    (Or.inr (by norm_num))

/-! ### C57 -/

theorem carry_int {m : Libm} (hm : m.pow 2 32 = some (2 ^ 32)) {x : Num} {s : Int} (hx : IsInt x s)
    (h : |s| < 2 ^ 85) :
    ∃ r q, GivesTwo (carry m x) r q ∧ s = r + q * 2 ^ 32 ∧ -2 ^ 31 ≤ r ∧ r < 2 ^ 31 := by
  have e : expt m (.small 2) fxWidth = .value (.exact (.large (2 ^ 32))) := by
    unfold expt fxWidth
    simp only
    have : m.pow ((2 : Int) : ℚ) ((32 : Int) : ℚ) = some (2 ^ 32) := by
      rw [← hm]
      norm_num
    rw [this]
    simp only
    rw [if_neg (by norm_num), show (2 ^ 32 : ℚ) = ((2 ^ 32 : Int) : ℚ) by norm_num, stdTrunc_int]
  obtain ⟨q, r, ⟨xq, xr, h1, hq, hr⟩, h3, h4, h5⟩ := C31_balanced_partial hx (.large (2 ^ 32))
    (by norm_num) (Or.inr (by rw [abs_of_pos (by norm_num : (0 : Int) < 2 ^ 32)]; omega))
  refine ⟨r, q, ⟨xr, xq, ?_, hr, hq⟩, by omega, ?_⟩
  · unfold carry
    rw [e, bind_value]
    simp only [Power.toExact, bind_value, h1, pure_eq]
  · rw [abs_of_pos (by norm_num : (0 : Int) < 2 ^ 32)] at h4 h5
    omega

/-- **C57, partially**: the carry operators, on 32-bit integers in whatever representation, if `pow`
of the C library computes `2 ^ 32` exactly. -/
theorem C57_carry_partial {m : Libm} (hm : m.pow 2 32 = some (2 ^ 32)) {x y z : Num} {i j k : Int}
    (hx : IsInt x i) (hy : IsInt y j) (hz : IsInt z k)
    (hi : -2 ^ 31 ≤ i ∧ i < 2 ^ 31) (hj : -2 ^ 31 ≤ j ∧ j < 2 ^ 31) (hk : -2 ^ 31 ≤ k ∧ k < 2 ^ 31) :
    (∃ r q, GivesTwo (fxAddCarry m x y z) r q ∧ i + j + k = r + q * 2 ^ 32 ∧
      -2 ^ 31 ≤ r ∧ r < 2 ^ 31) ∧
    (∃ r q, GivesTwo (fxSubCarry m x y z) r q ∧ i - j - k = r + q * 2 ^ 32 ∧
      -2 ^ 31 ≤ r ∧ r < 2 ^ 31) ∧
    (∃ r q, GivesTwo (fxMulCarry m x y z) r q ∧ i * j + k = r + q * 2 ^ 32 ∧
      -2 ^ 31 ≤ r ∧ r < 2 ^ 31) := by
  refine ⟨?_, ?_, ?_⟩
  · obtain ⟨s, e, hs⟩ := C24_sum (.cons hx (.cons hy (.cons hz .nil)))
    have := carry_int hm hs (by
      simp only [List.sum_cons, List.sum_nil]
      rw [abs_lt]
      constructor <;> omega)
    unfold fxAddCarry
    rw [e, bind_value]
    simpa [add_assoc] using this
  · obtain ⟨s, e, hs⟩ := (C24_difference hx).2 (xs := [y, z]) (by simp) (.cons hy (.cons hz .nil))
    have := carry_int hm hs (by
      simp only [List.sum_cons, List.sum_nil]
      rw [abs_lt]
      constructor <;> omega)
    unfold fxSubCarry
    rw [e, bind_value]
    simpa [sub_sub] using this
  · obtain ⟨p, e1, hp⟩ := times_two hx hy
    obtain ⟨s, e, hs⟩ := plus_two hp hz
    have hb := mul_bounds hi.1 hi.2 hj.1 hj.2
    have := carry_int hm hs (by
      rw [abs_lt]
      constructor <;> omega)
    unfold fxMulCarry
    rw [e1, bind_value, e, bind_value]
    exact this

/-- There is a `pow` as C57 asks for. -/
example : ∃ m : Libm, m.pow 2 32 = some (2 ^ 32) := ⟨⟨fun _ => none, fun _ _ => some (2 ^ 32)⟩, rfl⟩

/-- **C57 is false for right shifts**: `(fxarithmetic-shift-right 4 1)` shifts left. -/
theorem C57_shift_fails : Gives (fxShiftRight (.small 4) (.small 1)) 8 := by
  have := C29_shift_partial (x := .small 4) (k := .small 1) (.small (by norm_num) (by norm_num))
    (.small (by norm_num) (by norm_num)) (by norm_num) (by norm_num) (fun _ _ => by norm_num)
  have e : ⌊((4 : Int) : ℚ) * (2 : ℚ) ^ (1 : Int)⌋ = 8 := by
    rw [Int.floor_eq_iff]
    norm_num
  rwa [e] at this

/-- **C57, partially**: the left shift multiplies by a power of two. -/
theorem C57_shift_partial {x k : Num} {n c : Int} (hx : IsInt x n) (hk : IsInt k c)
    (h0 : 0 ≤ c) (h1 : c < 2 ^ 31) : Gives (fxShiftLeft x k) (n * 2 ^ c.toNat) := by
  have := arithmeticShift_int hx hk (by omega) h1 (fun _ _ => by omega)
  unfold shifted at this
  rwa [if_neg (by omega)] at this

end Meevax.Number
