import Verif.Props.Number

/-
C33, C62: square roots and powers of exact numbers. The C library's `sqrt` and `pow` on doubles are
parameters (`Libm`); what is required of them is stated where it is used.
-/

namespace Meevax.Number

/-! ### C33: square roots -/

/-- **C33**: `exact-integer-sqrt` gives the root and the remainder. -/
theorem C33_integer_sqrt {x : Num} {n : Int} (hx : IsInt x n) (h : 0 ≤ n) :
    ∃ y z s r, exactIntegerSqrt x = .value (y, z) ∧ IsInt y s ∧ IsInt z r ∧
      0 ≤ s ∧ 0 ≤ r ∧ n = s * s + r ∧ n < (s + 1) * (s + 1) := by
  obtain ⟨k, rfl⟩ := Int.eq_ofNat_of_zero_le h
  have e : mpzRootrem k = .value ((Nat.sqrt k : Int), (k : Int) - Nat.sqrt k * Nat.sqrt k) := by
    unfold mpzRootrem
    rw [if_neg (by omega)]
    rfl
  have h1 := Nat.sqrt_le k
  have h2 := Nat.sqrt_lt_self (n := k)
  have h3 : k < (Nat.sqrt k + 1) * (Nat.sqrt k + 1) := Nat.lt_succ_sqrt k
  have h1' : ((Nat.sqrt k : Nat) : Int) * (Nat.sqrt k : Nat) ≤ k := by exact_mod_cast h1
  have h3' : (k : Int) < ((Nat.sqrt k : Nat) + 1) * ((Nat.sqrt k : Nat) + 1) := by exact_mod_cast h3
  refine ⟨.large (Nat.sqrt k), .large ((k : Int) - Nat.sqrt k * Nat.sqrt k), Nat.sqrt k,
    (k : Int) - Nat.sqrt k * Nat.sqrt k, ?_, .large _, .large _, Int.natCast_nonneg _, by omega, by omega, h3'⟩
  rcases hx with ⟨rfl, _⟩ | rfl <;>
    (unfold exactIntegerSqrt; simp only [e]; rfl)

/-- The double square root is exact where the root is an integer of at most 26 bits (IEEE 754
requires it to be correctly rounded). -/
def Libm.SqrtExact (m : Libm) : Prop := ∀ k : Nat, k < 2 ^ 26 → m.sqrt (k * k : Nat) = some (k : ℚ)

theorem stdTrunc_natCast (k : Nat) : stdTrunc (k : ℚ) = k := by
  unfold stdTrunc
  rw [if_neg (by simp), abs_of_nonneg (by simp)]
  exact Int.floor_natCast k

theorem sqrtSmall_square {m : Libm} (hm : m.SqrtExact) {k : Nat} (h : k * k ≤ 2 ^ 31 - 1) :
    sqrtSmall m (k * k : Nat) = .value (.exact (.small k)) := by
  have hk : k < 2 ^ 16 := by
    by_contra hn
    have : 2 ^ 16 * 2 ^ 16 ≤ k * k := Nat.mul_le_mul (by omega) (by omega)
    omega
  unfold sqrtSmall
  have e : m.sqrt (((k * k : Nat) : Int) : ℚ) = some (k : ℚ) := by
    have := hm k (by omega)
    exact_mod_cast this
  have e2 : (k : Int) * k = ((k * k : Nat) : Int) := by push_cast; rfl
  rw [e]
  simp only [stdTrunc_natCast]
  rw [e2, if_pos ⟨⟨by omega, by omega⟩, ⟨by omega, by omega⟩⟩, if_pos rfl]

theorem sqrtLarge_square (m : Libm) (k : Nat) :
    sqrtLarge m (k * k : Nat) = .value (.exact (.large k)) := by
  unfold sqrtLarge mpzRootrem
  rw [if_neg (by omega), Int.toNat_natCast, Nat.sqrt_eq]
  simp

/-- **C33**: `sqrt` of a perfect square is its exact root, and of a negated perfect square the exact
root times the imaginary unit. The double square root is required to be exact on the squares of
integers below `2 ^ 26`. -/
theorem C33_sqrt {m : Libm} (hm : m.SqrtExact) {x : Num} (k : Nat) :
    (IsInt x (k * k) → ∃ y, sqrt m x = .value (.exact y) ∧ IsInt y k) ∧
    (IsInt x (-(k * k)) → x ≠ .small (-2 ^ 31) → k ≠ 0 →
      ∃ y, sqrt m x = .value (.imaginary (.exact y)) ∧ IsInt y k) := by
  have e : (k : Int) * k = ((k * k : Nat) : Int) := by push_cast; rfl
  constructor
  · rintro (⟨rfl, h1, h2⟩ | rfl)
    · refine ⟨.small k, ?_, ?_⟩
      · unfold sqrt
        simp only
        rw [e] at h1 h2 ⊢
        rw [if_neg (by omega), sqrtSmall_square hm (by omega)]
      · have : k ≤ k * k := Nat.le_mul_self k
        exact .small (by omega) (by omega)
    · refine ⟨.large k, ?_, .large _⟩
      unfold sqrt
      simp only
      rw [e, if_neg (by omega), sqrtLarge_square]
  · intro hx hne hk
    have hpos : 0 < k * k := Nat.mul_pos (by omega) (by omega)
    rcases hx with ⟨rfl, h1, h2⟩ | rfl
    · refine ⟨.small k, ?_, ?_⟩
      · unfold sqrt
        simp only
        rw [e] at h1 h2 hne ⊢
        have : (-((k * k : Nat) : Int)) ≠ -2 ^ 31 := fun h => hne (by rw [h])
        rw [if_pos (by omega), show 0 - -((k * k : Nat) : Int) = ((k * k : Nat) : Int) by omega,
          sqrtSmall_square hm (by omega)]
        rfl
      · have : k ≤ k * k := Nat.le_mul_self k
        have e' : -(2 : Int) ^ 31 ≤ -((k * k : Nat) : Int) := by rw [← e]; exact h1
        exact .small (by omega) (by
          by_contra hc
          have h3 : 2 ^ 31 ≤ k := by omega
          have : 2 ^ 31 * 2 ^ 31 ≤ k * k := Nat.mul_le_mul h3 h3
          omega)
    · refine ⟨.large k, ?_, .large _⟩
      unfold sqrt
      simp only
      rw [e, if_pos (by omega), show 0 - -((k * k : Nat) : Int) = ((k * k : Nat) : Int) by omega,
        sqrtLarge_square]
      rfl

/-- **C33, partially**: an exact root of a fixnum is a root. Missing: big integers
(`C33_exact_fails`). -/
theorem C33_exact_partial (m : Libm) {a : Int} {y : Num} (h : 0 ≤ a)
    (e : sqrt m (.small a) = .value (.exact y)) : ∃ s, IsInt y s ∧ s * s = a := by
  unfold sqrt at e
  simp only at e
  rw [if_neg (by omega)] at e
  unfold sqrtSmall at e
  split at e
  · exact nomatch e
  · split at e
    · rename_i s _ hf
      split at e
      · rename_i heq
        cases e
        have : stdTrunc s ≤ 2 ^ 31 - 1 := hf.1.2
        exact ⟨_, .small hf.1.1 (by omega), heq⟩
      · exact nomatch e
    · exact nomatch e

/-- **C33 is false for big integers that are not squares**: `sqrt` returns an exact integer,
which is not a root. Whatever the double square root is, if it is finite. -/
theorem C33_exact_fails (m : Libm) {a : Int} (h : 0 ≤ a) (hs : ∀ s : Int, s * s ≠ a)
    (hd : (mpzGetD a).bind m.sqrt ≠ none) :
    ∃ s, sqrt m (.large a) = .value (.exact (.large s)) ∧ s * s ≠ a := by
  obtain ⟨k, rfl⟩ := Int.eq_ofNat_of_zero_le h
  obtain ⟨d, hd⟩ := Option.ne_none_iff_exists'.1 hd
  refine ⟨stdTrunc d, ?_, hs _⟩
  have hr : (k : Int) - Nat.sqrt k * Nat.sqrt k ≠ 0 := by
    have := hs (Nat.sqrt k)
    omega
  unfold sqrt
  simp only
  rw [if_neg (by omega)]
  unfold sqrtLarge mpzRootrem
  rw [if_neg (by omega), Int.toNat_natCast]
  simp only [bind_value, hr, if_false, hd, pure_eq]

/-- Such as `2 ^ 61`, which is not a square, and is a double. -/
example (m : Libm) (hm : m.sqrt (2 ^ 61) ≠ none) :
    ∃ s, sqrt m (.large (2 ^ 61)) = .value (.exact (.large s)) ∧ s * s ≠ 2 ^ 61 := by
  refine C33_exact_fails m (by norm_num) (fun s h => ?_) ?_
  · have h1 : s.natAbs * s.natAbs = 2 ^ 61 := by
      have := congrArg Int.natAbs h
      rw [Int.natAbs_mul] at this
      rw [this]
      norm_num
    have h2 : s.natAbs < 1518500250 := by
      by_contra hc
      have : 1518500250 * 1518500250 ≤ s.natAbs * s.natAbs := Nat.mul_le_mul (by omega) (by omega)
      omega
    have h3 : 1518500249 < s.natAbs := by
      by_contra hc
      have : s.natAbs * s.natAbs ≤ 1518500249 * 1518500249 := Nat.mul_le_mul (by omega) (by omega)
      omega
    omega
  · have e : mpzGetD (2 ^ 61) = some (2 ^ 61) := by
      have hv : (Mpq.ofInteger (2 ^ 61)).val = 2 ^ 61 := by
        unfold Mpq.ofInteger Mpq.val
        norm_num
      have hlog : Int.log 2 |(2 : ℚ) ^ 61| = 61 := by
        rw [abs_of_pos (by norm_num)]
        have := Int.log_zpow (R := ℚ) (b := 2) (by norm_num) 61
        exact_mod_cast this
      have hu : ulp (2 ^ 61) = 2 ^ 9 := by
        unfold ulp
        rw [hlog]
        norm_num
      unfold mpzGetD mpqGetD
      simp only [hv]
      rw [if_neg (by norm_num), if_neg, if_neg (by norm_num), hu, abs_of_pos (by norm_num)]
      · have : ⌊(2 : ℚ) ^ 61 / 2 ^ 9⌋ = 2 ^ 52 := by
          rw [Int.floor_eq_iff]
          norm_num
        rw [this]
        norm_num
      · rw [abs_of_pos (by norm_num), not_le]
        exact pow_lt_pow_right₀ (by norm_num) (by norm_num)
    rw [e]
    exact hm

/-- 16777216 is a perfect square. -/
example (m : Libm) (hm : m.SqrtExact) : ∃ y, sqrt m (.small 16777216) = .value (.exact y) ∧ IsInt y 4096 :=
  (C33_sqrt hm 4096).1 (.small (by norm_num) (by norm_num))

/-! ### C62: powers -/

/-- The call returns the exact number `v`. -/
def IsPower (o : Outcome Power) (v : ℚ) : Prop := ∃ x, o = .value (.exact x) ∧ x.Valid ∧ x.val = v

/-- `std::pow` is exact where the power is an integer of at most 53 bits. -/
def Libm.PowExact (m : Libm) : Prop :=
  ∀ (a : Int) (b : Nat), |a ^ b| ≤ 2 ^ 53 → m.pow a b = some ((a : ℚ) ^ b)

/-- **C62, partially**: `expt` of two fixnums is the exact power if that has at most 53 bits, and of
two big integers if the exponent has at most 64. Missing: larger powers of fixnums
(`C62_double_fails`), mixed representations (`C62_mixed_fails`), negative exponents
(`C62_negative_fails`). -/
theorem C62_power_partial {m : Libm} (hm : m.PowExact) (a : Int) (b : Nat) :
    (|a ^ b| ≤ 2 ^ 53 → IsPower (expt m (.small a) (.small b)) ((a : ℚ) ^ b)) ∧
    (b < 2 ^ 64 → IsPower (expt m (.large a) (.large b)) ((a : ℚ) ^ b)) := by
  constructor
  · intro h
    have e : m.pow ((a : Int) : ℚ) (((b : Nat) : Int) : ℚ) = some (((a ^ b : Int) : ℚ)) := by
      have := hm a b h
      push_cast
      exact this
    unfold expt
    simp only [e]
    split
    · rename_i hr
      refine ⟨_, rfl, ?_, ?_⟩
      · rw [stdTrunc_int]
        have h1 : -2 ^ 31 ≤ a ^ b := by exact_mod_cast hr.1
        have h2 : a ^ b ≤ 2 ^ 31 - 1 := by exact_mod_cast hr.2
        exact ⟨h1, by omega⟩
      · rw [stdTrunc_int]
        show ((a ^ b : Int) : ℚ) = _
        push_cast
        rfl
    · refine ⟨_, rfl, trivial, ?_⟩
      rw [stdTrunc_int]
      show ((a ^ b : Int) : ℚ) = _
      push_cast
      rfl
  · intro h
    refine ⟨_, rfl, trivial, ?_⟩
    rw [Int.natAbs_natCast, Nat.mod_eq_of_lt h]
    show ((a ^ b : Int) : ℚ) = _
    push_cast
    rfl

/-- A value of 53 significant bits, as every finite double is. -/
def Representable (x : ℚ) : Prop := ∃ (k e : Int), |k| < 2 ^ 53 ∧ x = k * (2 : ℚ) ^ e

/-- **C62 is false for large powers of fixnums**: an odd power above `2 ^ 53`, such as `(expt 3 40)`,
is not a double, so it is never returned. -/
theorem C62_double_fails {m : Libm} (hm : ∀ a b r, m.pow a b = some r → Representable r) {a : Int}
    {n : Nat} (hodd : Odd (a ^ n)) (hbig : 2 ^ 53 ≤ |a ^ n|) :
    ¬ IsPower (expt m (.small a) (.small n)) ((a : ℚ) ^ n) := by
  rintro ⟨x, hx, _, hv⟩
  have key : ∃ r, Representable r ∧ (stdTrunc r : ℚ) = (a : ℚ) ^ n := by
    unfold expt at hx
    simp only at hx
    split at hx
    · exact nomatch hx
    · rename_i r hr
      split at hx <;> cases hx <;> exact ⟨r, hm _ _ _ hr, hv⟩
  obtain ⟨r, ⟨k, e, hk, hr⟩, ht⟩ := key
  have ht : stdTrunc r = a ^ n := by exact_mod_cast ht
  have habs : |stdTrunc r| = ⌊|r|⌋ := by
    unfold stdTrunc
    have : 0 ≤ ⌊|r|⌋ := Int.floor_nonneg.2 (abs_nonneg r)
    split
    · rw [abs_neg, abs_of_nonneg this]
    · rw [abs_of_nonneg this]
  rcases le_or_gt e 0 with he | he
  · have h1 : |r| < 2 ^ 53 := by
      rw [hr, abs_mul, abs_of_pos (zpow_pos (by norm_num : (0 : ℚ) < 2) e)]
      have h2 : (2 : ℚ) ^ e ≤ 1 := zpow_le_one_of_nonpos₀ (by norm_num) he
      have h3 : |(k : ℚ)| < 2 ^ 53 := by exact_mod_cast hk
      calc |(k : ℚ)| * 2 ^ e ≤ |(k : ℚ)| * 1 := mul_le_mul_of_nonneg_left h2 (abs_nonneg _)
        _ = |(k : ℚ)| := mul_one _
        _ < 2 ^ 53 := h3
    have h2 : ⌊|r|⌋ < 2 ^ 53 := by
      rw [Int.floor_lt]
      exact_mod_cast h1
    rw [← habs, ht] at h2
    omega
  · obtain ⟨j, rfl⟩ : ∃ j : Nat, e = (j : Int) + 1 := ⟨(e - 1).toNat, by omega⟩
    have h1 : r = ((k * 2 ^ (j + 1) : Int) : ℚ) := by
      rw [hr]
      push_cast
      norm_cast
    rw [h1, stdTrunc_int] at ht
    rw [← ht, pow_succ, ← mul_assoc] at hodd
    obtain ⟨c, hc⟩ := hodd
    omega

/-- `(expt 3 40)` is such a power. -/
example : Odd ((3 : Int) ^ 40) ∧ 2 ^ 53 ≤ |(3 : Int) ^ 40| :=
  ⟨by decide, by norm_num⟩

/-- **C62 is false for mixed representations**: `(expt 2 (quotient 7 2))`, whose exponent is a big
integer, is not exact. -/
theorem C62_mixed_fails (m : Libm) (a b : Int) :
    (∃ d, expt m (.small a) (.large b) = .value (.inexact d)) ∧
    (∃ d, expt m (.large a) (.small b) = .value (.inexact d)) :=
  ⟨⟨_, rfl⟩, ⟨_, rfl⟩⟩

/-- **C62 is false for negative exponents**: `(expt 2 -1)` is 0 of fixnums, and 2 of big integers. -/
theorem C62_negative_fails {m : Libm} (hm : m.pow (2 : Int) (-1 : Int) = some (1 / 2)) :
    expt m (.small 2) (.small (-1)) = .value (.exact (.small 0)) ∧
    expt m (.large 2) (.large (-1)) = .value (.exact (.large 2)) := by
  constructor
  · unfold expt
    simp only [hm]
    rw [if_pos (by norm_num)]
    have : stdTrunc (1 / 2 : ℚ) = 0 := by
      unfold stdTrunc
      rw [if_neg (by norm_num), abs_of_pos (by norm_num), Int.floor_eq_iff]
      norm_num
    rw [this]
  · rfl

/-- `(expt 2 40)` of fixnums. -/
example (m : Libm) (hm : m.PowExact) : IsPower (expt m (.small 2) (.small 40)) (((2 : Int) : ℚ) ^ 40) :=
  (C62_power_partial hm 2 40).1 (by norm_num)

end Meevax.Number
