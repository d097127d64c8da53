import Verif.Props.InexactArith
import Mathlib.Data.Nat.Prime.Basic

/-
C75: integer division, numerator and denominator of inexact numbers.
-/

namespace Meevax.Number

/-! ### C75: `remainder` -/

/-- The remainder of two representable magnitudes is representable. -/
theorem Rep.mod {m n : ℚ} (hm : Rep m) (hn : Rep n) (h0 : n ≠ 0) : Rep (m - n * ⌊m / n⌋) := by
  have hn0 : 0 < n := lt_of_le_of_ne hn.nonneg (Ne.symm h0)
  have hm0 := hm.nonneg
  have hf0 : 0 ≤ ⌊m / n⌋ := Int.floor_nonneg.2 (div_nonneg hm0 hn0.le)
  have hle : n * ⌊m / n⌋ ≤ m := by
    have := Int.floor_le (m / n)
    rw [le_div_iff₀ hn0] at this
    linarith
  have hlt : m < n * ⌊m / n⌋ + n := by
    have := Int.lt_floor_add_one (m / n)
    rw [div_lt_iff₀ hn0] at this
    linarith
  generalize ⌊m / n⌋ = k at *
  have hk0 : (0 : ℚ) ≤ k := by exact_mod_cast hf0
  obtain ⟨a, e, ha, he1, he2, rfl⟩ := hm
  obtain ⟨b, f, hb, hf1, hf2, rfl⟩ := hn
  rcases le_total e f with hef | hef
  · -- a multiple of 2^e, not above a 2^e
    obtain ⟨j, rfl⟩ := Int.le.dest hef
    have hp := two_zpow_pos e
    have hpow : (2 : ℚ) ^ (e + (j : ℤ)) = 2 ^ e * 2 ^ j := by
      rw [zpow_add₀ (by norm_num), zpow_natCast]
    have hval : (a : ℚ) * 2 ^ e - b * 2 ^ (e + (j : ℤ)) * k =
        ((a - b * 2 ^ j * k : ℤ) : ℚ) * 2 ^ e := by
      rw [hpow]
      push_cast
      ring
    rw [hval]
    have hc0 : (0 : ℚ) ≤ ((a - b * 2 ^ j * k : ℤ) : ℚ) := by
      have : 0 ≤ ((a - b * 2 ^ j * k : ℤ) : ℚ) * 2 ^ e := by rw [← hval]; linarith
      exact nonneg_of_mul_nonneg_left this hp
    have hc1 : 0 ≤ (a - b * 2 ^ j * k : ℤ) := by exact_mod_cast hc0
    obtain ⟨c, hc⟩ := Int.eq_ofNat_of_zero_le hc1
    refine ⟨c, e, ?_, he1, he2, by rw [hc]; simp⟩
    have hpos : (0 : ℤ) ≤ b * 2 ^ j * k := by positivity
    have hca : (c : ℤ) ≤ a := by rw [← hc]; omega
    omega
  · -- a multiple of 2^f, below b 2^f
    obtain ⟨j, rfl⟩ := Int.le.dest hef
    have hp := two_zpow_pos f
    have hpow : (2 : ℚ) ^ (f + (j : ℤ)) = 2 ^ f * 2 ^ j := by
      rw [zpow_add₀ (by norm_num), zpow_natCast]
    have hval : (a : ℚ) * 2 ^ (f + (j : ℤ)) - b * 2 ^ f * k =
        ((a * 2 ^ j - b * k : ℤ) : ℚ) * 2 ^ f := by
      rw [hpow]
      push_cast
      ring
    rw [hval]
    have hc0 : (0 : ℚ) ≤ ((a * 2 ^ j - b * k : ℤ) : ℚ) := by
      have : 0 ≤ ((a * 2 ^ j - b * k : ℤ) : ℚ) * 2 ^ f := by rw [← hval]; linarith
      exact nonneg_of_mul_nonneg_left this hp
    have hc1 : 0 ≤ (a * 2 ^ j - b * k : ℤ) := by exact_mod_cast hc0
    obtain ⟨c, hc⟩ := Int.eq_ofNat_of_zero_le hc1
    refine ⟨c, f, ?_, hf1, hf2, by rw [hc]; simp⟩
    have h1 : ((a * 2 ^ j - b * k : ℤ) : ℚ) * 2 ^ f < b * 2 ^ f := by rw [← hval]; linarith
    have h2 : ((a * 2 ^ j - b * k : ℤ) : ℚ) < b := lt_of_mul_lt_mul_right h1 hp.le
    rw [hc] at h2
    have h3 : c < b := by exact_mod_cast h2
    omega

theorem fmod_is {d e : Flo} {v w : ℚ} (hd : d.Is v) (he : e.Is w) (hdv : d.Valid) (hev : e.Valid)
    (hw : w ≠ 0) : ∃ r, ∃ k : Int, (d.fmod e).Valid ∧ (d.fmod e).Is r ∧ v = w * k + r ∧
      |r| < |w| ∧ 0 ≤ r * v := by
  obtain ⟨s, m, rfl, hv⟩ := hd
  obtain ⟨t, n, rfl, hw'⟩ := he
  have hn : n ≠ 0 := by
    rintro rfl
    exact hw (by rw [← hw']; simp)
  have hn0 : 0 < n := lt_of_le_of_ne (Rep.nonneg hev) (Ne.symm hn)
  have hm0 : 0 ≤ m := Rep.nonneg hdv
  have hr := Rep.mod hdv hev hn
  have hr0 := hr.nonneg
  have hlt : m - n * ⌊m / n⌋ < n := by
    have := Int.lt_floor_add_one (m / n)
    rw [div_lt_iff₀ hn0] at this
    linarith
  have e1 : (Flo.finite s m).fmod (.finite t n) = .finite s (m - n * ⌊m / n⌋) := by
    simp only [Flo.fmod, if_neg hn]
  rw [e1]
  have hwabs : |w| = n := by
    rw [← hw']
    cases t <;> simp [abs_of_pos hn0]
  rw [hwabs]
  refine ⟨_, if s = t then ⌊m / n⌋ else -⌊m / n⌋, hr, ⟨s, _, rfl, rfl⟩, ?_, ?_, ?_⟩
  · rw [← hv, ← hw']
    cases s <;> cases t <;> simp <;> ring
  · generalize m - n * ⌊m / n⌋ = r at *
    cases s <;> simp [abs_of_nonneg hr0, hlt]
  · generalize m - n * ⌊m / n⌋ = r at *
    rw [← hv]
    cases s
    · simpa using mul_nonneg hr0 hm0
    · simpa using mul_nonneg hr0 hm0

theorem rem_plainly {x y : Real} {v w : ℚ} (hx : x.Plainly v) (hy : y.Plainly w)
    (hi : x.isInexact = true ∨ y.isInexact = true) :
    ∃ d e : Flo, d.Is v ∧ d.Valid ∧ e.Is w ∧ e.Valid ∧ x.rem y = .value (.flo (d.fmod e)) := by
  rcases hx with ⟨i, rfl, h1, h2, rfl⟩ | ⟨d, rfl, h1, h2⟩
  · obtain ⟨c1, c2⟩ := castFixnum_spec h1 h2
    rcases hy with ⟨j, rfl, h4, h5, h6⟩ | ⟨e, rfl, h4, h5⟩
    · simp [Real.isInexact, Real.isExact] at hi
    · exact ⟨_, e, c1, c2, h5, h4, rfl⟩
  · rcases hy with ⟨j, rfl, h4, h5, rfl⟩ | ⟨e, rfl, h4, h5⟩
    · obtain ⟨c1, c2⟩ := castFixnum_spec h4 h5
      exact ⟨d, _, h2, h1, c1, c2, rfl⟩
    · exact ⟨d, e, h2, h1, h5, h4, rfl⟩

/-- **C75**, partly: `remainder` of two finite numbers, one of them inexact and the other inexact or a
fixnum, is exactly the remainder with the sign of the dividend. What is missing: exact operands beyond
the fixnums; `C75_remainder_fails`. -/
theorem C75_remainder_partial {x y : Real} {v w : ℚ} (hx : x.Plainly v) (hy : y.Plainly w)
    (hi : x.isInexact = true ∨ y.isInexact = true) (hw : w ≠ 0) :
    ∃ d r, ∃ k : Int, x.remainder y = .value (.flo d) ∧ d.Valid ∧ d.Is r ∧ v = w * k + r ∧
      |r| < |w| ∧ 0 ≤ r * v := by
  obtain ⟨d, e, h1, h2, h3, h4, h5⟩ := rem_plainly hx hy hi
  obtain ⟨r, k, h⟩ := fmod_is h1 h3 h2 h4 hw
  exact ⟨_, r, k, h5, h⟩

/-- **C75** fails: `(remainder 100000000000 7.0)` is -2.0, not 5.0: with an exact operand that is not a
fixnum the multiple nearest to the dividend is taken off. -/
theorem C75_remainder_fails :
    ∃ d, Real.remainder (.exact (.large 100000000000)) (.flo (.finite false 7)) = .value (.flo d) ∧
      d.Is (-2) := by
  have hv : (Num.large 100000000000).Valid := trivial
  have hval : (Num.large 100000000000).val = 100000000000 := by norm_num [Num.val]
  have hr : Rep |(Num.large 100000000000).val| := by
    have := Rep.int (z := 100000000000) (by norm_num)
    rw [hval]
    exact_mod_cast this
  obtain ⟨d, e, hd, his⟩ := C72_inexact hv hr
  have ec : castLarge 100000000000 = d := by
    simpa [Real.inexact, Num.cast] using e
  obtain ⟨s, m, rfl, hm⟩ := his
  have hm0 : 0 ≤ m := Rep.nonneg hd
  rw [hval] at hm
  have hs : s = false := by
    cases s
    · rfl
    · simp only [if_true] at hm
      linarith
  subst hs
  simp only [Bool.false_eq_true, if_false] at hm
  refine ⟨_, by rw [Real.remainder, Real.rem, ec], ?_⟩
  have hf : ⌊(100000000000 : ℚ) / 7⌋ = 14285714285 := by
    rw [Int.floor_eq_iff]
    norm_num
  have hne : nearestEven (100000000000 / 7) = 14285714286 := by
    rw [nearestEven, hf, if_neg (by norm_num)]
    norm_num
  rw [hm]
  simp only [Flo.remainder, if_neg (show (7 : ℚ) ≠ 0 by norm_num), hne]
  refine ⟨_, _, rfl, ?_⟩
  norm_num

/-! ### C75: `modulo` -/

/-- **C75**, partly: `modulo` of two integers, one of them inexact and the other inexact or a fixnum,
with a divisor of magnitude at most `2 ^ 52`, is exactly the remainder with the sign of the divisor. -/
theorem C75_modulo_partial {x y : Real} {v w : Int} (hx : x.Plainly v) (hy : y.Plainly w)
    (hi : x.isInexact = true ∨ y.isInexact = true) (hw : w ≠ 0) (hb : |w| ≤ 2 ^ 52) :
    ∃ d, ∃ r k : Int, x.modulo y = .value (.flo d) ∧ d.Valid ∧ d.Is r ∧ v = w * k + r ∧
      |r| < |w| ∧ 0 ≤ r * w := by
  have hwq : (w : ℚ) ≠ 0 := by exact_mod_cast hw
  obtain ⟨d1, r1, k1, e1, hv1, hd1, hk1, hl1, _⟩ := C75_remainder_partial hx hy hi hwq
  -- the remainder is an integer
  obtain ⟨i1, rfl⟩ : ∃ i : Int, r1 = i := ⟨v - w * k1, by push_cast; linarith⟩
  have hl1' : |i1| < |w| := by exact_mod_cast hl1
  have hk1' : v = w * k1 + i1 := by exact_mod_cast hk1
  -- the sum is exact
  have hyhas : y.Has w := by
    rcases hy with ⟨i, rfl, h1, h2, h3⟩ | ⟨d, rfl, _, h2⟩
    · have hiw : w = i := by exact_mod_cast h3
      subst hiw
      exact Or.inl ⟨_, rfl, ⟨h1, h2⟩, rfl, Rep.int (by omega)⟩
    · exact Or.inr ⟨d, rfl, h2⟩
  have hsum : |i1 + w| < 2 ^ 53 := by
    have := abs_add_le i1 w
    omega
  have hrep : Rep |((i1 + w : Int) : ℚ)| := Rep.int hsum
  have hrep' : Rep |(i1 : ℚ) + w| := by exact_mod_cast hrep
  obtain ⟨d2, e2, hd2⟩ := (C74_exact_result (x := .flo d1) (Or.inr ⟨d1, rfl, hd1⟩) hyhas
    (Or.inl rfl)).1 hrep'
  have hv2 : d2.Valid := by
    obtain ⟨s, m, rfl, hm⟩ := hd2
    change Rep m
    rcases (C74_closest_partial (x := .flo d1) (Or.inr ⟨d1, rfl, hd1⟩) hyhas (Or.inl rfl)).1 with
      ⟨d, e, h⟩
    rw [e2] at e
    cases e
    rw [Flo.Rounds, if_neg hrep'.not_over] at h
    obtain ⟨s', m', e, _, _, h⟩ := h
    cases e
    exact h.1
  obtain ⟨d3, r3, k3, e3, hv3, hd3, hk3, hl3, hs3⟩ :=
    C75_remainder_partial (x := .flo d2) (Or.inr ⟨d2, rfl, hv2, hd2⟩) hy (Or.inl rfl) hwq
  obtain ⟨i3, rfl⟩ : ∃ i : Int, r3 = i := ⟨i1 + w - w * k3, by push_cast; linarith⟩
  have hl3' : |i3| < |w| := by exact_mod_cast hl3
  have hk3' : i1 + w = w * k3 + i3 := by exact_mod_cast hk3
  have hs3' : 0 ≤ i3 * (i1 + w) := by exact_mod_cast hs3
  refine ⟨d3, i3, k1 + k3 - 1, ?_, hv3, hd3, by rw [hk1']; linarith, hl3', ?_⟩
  · simp only [Real.remainder] at e1 e3
    simp only [Real.modulo, e1, e2, bind_value]
    exact e3
  · -- the sum has the sign of the divisor
    rcases lt_or_gt_of_ne hw with h | h
    · have h1 : i1 + w < 0 := by
        have := (abs_lt.1 hl1').2
        rw [abs_of_neg h] at this
        omega
      have h2 : i3 ≤ 0 := by
        by_contra hc
        nlinarith
      nlinarith
    · have h1 : 0 < i1 + w := by
        have := (abs_lt.1 hl1').1
        rw [abs_of_pos h] at this
        omega
      have h2 : 0 ≤ i3 := by
        by_contra hc
        nlinarith
      nlinarith

/-- A tie goes to the even neighbour. -/
theorem roundEven_2_53 : roundEven false (1 + 9007199254740992) = .finite false 9007199254740992 := by
  have hlog : Int.log 2 |(1 + 9007199254740992 : ℚ)| = 53 := by
    rw [show |(1 + 9007199254740992 : ℚ)| = ((9007199254740993 : ℕ) : ℚ) by norm_num, Int.log_natCast]
    have : Nat.log 2 9007199254740993 = 53 := by
      rw [Nat.log_eq_iff (Or.inl (by norm_num))]
      norm_num
    rw [this]
    rfl
  have hu : ulp (1 + 9007199254740992 : ℚ) = 2 := by
    rw [ulp, hlog, max_eq_left (by norm_num)]
    norm_num
  have hf : ⌊|(1 + 9007199254740992 : ℚ)| / 2⌋ = 4503599627370496 := by
    rw [Int.floor_eq_iff]
    norm_num
  rw [roundEven, if_neg (by norm_num), hu, hf]
  dsimp only
  rw [if_pos (Or.inr ⟨by norm_num, by norm_num⟩),
    if_neg (not_le.2 (lt_trans (by norm_num) (two_pow_lt (show 54 < 1024 by norm_num))))]
  norm_num

/-- **C75** fails: `(modulo 1.0 9007199254740992.0)` is 0, not 1: the sum of the remainder and the divisor is
rounded. -/
theorem C75_modulo_fails :
    Real.modulo (.flo (.finite false 1)) (.flo (.finite false 9007199254740992)) =
      .value (.flo (.finite false 0)) ∧ (Flo.finite false 9007199254740992).Valid := by
  have h1 : (Flo.finite false 1).fmod (.finite false 9007199254740992) = .finite false 1 := by
    rw [Flo.fmod, if_neg (by norm_num), show ⌊(1 : ℚ) / 9007199254740992⌋ = 0 by
      rw [Int.floor_eq_iff]; norm_num]
    norm_num
  have h2 : (Flo.finite false 9007199254740992).fmod (.finite false 9007199254740992) = .finite false 0 := by
    rw [Flo.fmod, if_neg (by norm_num), div_self (by norm_num), Int.floor_one]
    norm_num
  refine ⟨?_, ⟨1, 53, by norm_num, by norm_num, by norm_num, by norm_num⟩⟩
  have h3 : Flo.add (.finite false 1) (.finite false 9007199254740992) = .finite false 9007199254740992 :=
    roundEven_2_53
  simp only [Real.modulo, Real.rem, h1, bind_value, Real.add, Real.lift, h3, h2]

/-! ### C75: `quotient` -/

/-- Just below a positive integer there is a representable number. -/
theorem Rep.below {n : ℕ} (h0 : 0 < n) (h1 : n < 2 ^ 53) :
    ∃ m : ℚ, Rep m ∧ m < n ∧ n - m ≤ n / 2 ^ 52 := by
  have hk := Nat.log2_self_le (n := n) (by omega)
  have hku : n < 2 ^ (n.log2 + 1) := Nat.lt_log2_self
  have hk52 : n.log2 ≤ 52 := by
    have : 2 ^ n.log2 < 2 ^ 53 := lt_of_le_of_lt hk h1
    have := (Nat.pow_lt_pow_iff_right (by norm_num : 1 < 2)).1 this
    omega
  generalize n.log2 = k at *
  obtain ⟨j, hj⟩ := Nat.exists_eq_add_of_le hk52
  have hp : (0 : ℚ) < 2 ^ j := by positivity
  have hj' : (2 : ℚ) ^ (-(j : ℤ)) = 1 / 2 ^ j := by rw [zpow_neg, zpow_natCast, one_div]
  refine ⟨n - 1 / 2 ^ j, ⟨n * 2 ^ j - 1, -j, ?_, by omega, by omega, ?_⟩, ?_, ?_⟩
  · have : n * 2 ^ j < 2 ^ (k + 1) * 2 ^ j := Nat.mul_lt_mul_of_pos_right hku (by positivity)
    rw [← pow_add, show k + 1 + j = 53 by omega] at this
    omega
  · have h1 : 1 ≤ n * 2 ^ j := Nat.mul_pos h0 (by positivity)
    rw [Nat.cast_sub h1, hj']
    push_cast
    field_simp
  · have : 0 < 1 / (2 : ℚ) ^ j := by positivity
    linarith
  · have hkq : (2 : ℚ) ^ k ≤ n := by exact_mod_cast hk
    have h52 : (2 : ℚ) ^ 52 = 2 ^ k * 2 ^ j := by rw [← pow_add, ← hj]
    rw [sub_sub_cancel, h52, div_le_div_iff₀ hp (by positivity)]
    nlinarith

/-- Rounding the quotient of two integers does not carry it to the next integer. -/
theorem Nearest.floor {v w : ℕ} {p : ℚ} (hv : v + 1 < 2 ^ 53) (hw : 0 < w)
    (h : Nearest (v / w) p) : ⌊p⌋ = ((v / w : ℕ) : Int) := by
  have hwq : (0 : ℚ) < w := by exact_mod_cast hw
  have hq1 : ((v / w : ℕ) : ℚ) * w ≤ v := by exact_mod_cast Nat.div_mul_le_self v w
  have hnat : v + 1 ≤ (v / w + 1) * w := by
    have h1 := Nat.div_add_mod v w
    have h2 := Nat.mod_lt v hw
    rw [Nat.add_mul, Nat.one_mul, Nat.mul_comm]
    omega
  have hn1 : v / w ≤ v := Nat.div_le_self v w
  have hrep : Rep ((v / w : ℕ) : ℚ) := by
    have := Rep.int (z := ((v / w : ℕ) : Int)) (by
      rw [abs_of_nonneg (Int.natCast_nonneg _)]
      generalize v / w = q at hn1
      omega)
    rwa [Int.cast_natCast, abs_of_nonneg (Nat.cast_nonneg _)] at this
  obtain ⟨m, hm, hmlt, hmle⟩ := Rep.below (n := v / w + 1) (Nat.succ_pos _)
    (by generalize v / w = q at hn1; omega)
  generalize v / w = q at *
  have hx1 : (q : ℚ) ≤ v / w := (le_div_iff₀ hwq).2 hq1
  have hnq : (v : ℚ) + 1 ≤ (q + 1) * w := by exact_mod_cast hnat
  have hx2 : (v : ℚ) / w < q + 1 := by
    rw [div_lt_iff₀ hwq]
    linarith
  have hvq : (v : ℚ) + 1 < 2 ^ 53 := by exact_mod_cast hv
  have hxw : (v : ℚ) = v / w * w := by field_simp
  generalize (v : ℚ) / w = x at *
  rw [Int.floor_eq_iff]
  push_cast at hmlt hmle ⊢
  constructor
  · have h1 := h.2.1 _ hrep
    rw [abs_of_nonneg (by linarith : 0 ≤ x - q)] at h1
    have := (abs_le.1 h1).2
    linarith
  · by_contra hc
    rw [not_lt] at hc
    have h1 := h.2.1 _ hm
    rw [abs_of_nonpos (by linarith : x - p ≤ 0)] at h1
    rcases lt_or_ge x m with hxm | hxm
    · rw [abs_of_neg (by linarith : x - m < 0)] at h1
      linarith
    · rw [abs_of_nonneg (by linarith : 0 ≤ x - m)] at h1
      have h2 : ((q : ℚ) + 1) * (1 - 1 / 2 ^ 53) ≤ x := by
        have : ((q : ℚ) + 1) / 2 ^ 52 = 2 * ((q + 1) * (1 / 2 ^ 53)) := by ring
        rw [this] at hmle
        linarith
      have h3 : ((q : ℚ) + 1) * (1 - 1 / 2 ^ 53) * w ≤ x * w :=
        mul_le_mul_of_nonneg_right h2 hwq.le
      have h4 : ((v : ℚ) + 1) * (1 - 1 / 2 ^ 53) ≤ (q + 1) * w * (1 - 1 / 2 ^ 53) :=
        mul_le_mul_of_nonneg_right hnq (by norm_num)
      have h5 : ((v : ℚ) + 1) * (1 / 2 ^ 53) < 2 ^ 53 * (1 / 2 ^ 53) :=
        mul_lt_mul_of_pos_right hvq (by norm_num)
      rw [← hxw] at h3
      norm_num at h3 h4 h5
      linarith

/-- **C75**, partly: `quotient` of two integers, one of them inexact, each exact one representable,
with a dividend of magnitude below `2 ^ 53 - 1`, is the inexact integer quotient. -/
theorem C75_quotient_partial {x y : Real} {v w : Int} (hx : x.Has v) (hy : y.Has w)
    (hi : x.isInexact = true ∨ y.isInexact = true) (hw : w ≠ 0) (hb : |v| + 1 < 2 ^ 53) :
    ∃ d, ∃ q : Int, x.quotient y = .value (.flo d) ∧ d.Is q ∧ |q| * |w| ≤ |v| ∧
      |v| < (|q| + 1) * |w| ∧ 0 ≤ q * (v * w) := by
  have hwq : (w : ℚ) ≠ 0 := by exact_mod_cast hw
  obtain ⟨d, e, h⟩ := (C74_closest_partial hx hy hi).2.2.2 hwq
  have hvn : |v| = (v.natAbs : Int) := Int.abs_eq_natAbs v
  have hwn : |w| = (w.natAbs : Int) := Int.abs_eq_natAbs w
  have hw0 : 0 < w.natAbs := Int.natAbs_pos.2 hw
  have habs : |(v : ℚ) / w| = (v.natAbs : ℚ) / w.natAbs := by
    rw [abs_div]
    congr 1
    · rw [← Int.cast_abs, hvn, Int.cast_natCast]
    · rw [← Int.cast_abs, hwn, Int.cast_natCast]
  have hno : ¬ (2 : ℚ) ^ 1024 - 2 ^ 970 ≤ |(v : ℚ) / w| := by
    have hr : Rep |(v : ℚ)| := Rep.int (by omega)
    intro hc
    refine hr.not_over (hc.trans ?_)
    rw [abs_div]
    refine div_le_self (abs_nonneg _) ?_
    have : 1 ≤ |w| := Int.one_le_abs hw
    exact_mod_cast this
  rw [Flo.Rounds, if_neg hno] at h
  obtain ⟨s, p, rfl, hneg, hpos, hnear⟩ := h
  rw [habs] at hnear
  have hfl := Nearest.floor (by omega) hw0 hnear
  have hp0 := hnear.1.nonneg
  have hfp : (0 : ℚ) ≤ ((v.natAbs / w.natAbs : ℕ) : ℚ) := Nat.cast_nonneg _
  have htr : |(stdTrunc (signed s p) : ℚ)| = ((v.natAbs / w.natAbs : ℕ) : ℚ) := by
    have h1 : |signed s p| = p := by cases s <;> simp [signed, abs_of_nonneg hp0]
    rw [← Int.cast_abs, stdTrunc, h1, hfl]
    split
    · rw [abs_neg, abs_of_nonneg (by positivity), Int.cast_natCast]
    · rw [abs_of_nonneg (by positivity), Int.cast_natCast]
  refine ⟨.finite s ((v.natAbs / w.natAbs : ℕ) : ℚ),
    (if s then -((v.natAbs / w.natAbs : ℕ) : Int) else ((v.natAbs / w.natAbs : ℕ) : Int)), ?_,
    ⟨s, _, rfl, ?_⟩, ?_, ?_, ?_⟩
  · simp only [Real.quotient, e, bind_value, Real.truncate, Real.nearest, Flo.nearest, htr]
  · cases s
    · simp only [Bool.false_eq_true, if_false, Int.cast_natCast]
    · simp only [if_true, Int.cast_neg, Int.cast_natCast]
  · have h1 : ((v.natAbs / w.natAbs : ℕ) : Int) * (w.natAbs : Int) ≤ (v.natAbs : Int) := by
      exact_mod_cast Nat.div_mul_le_self v.natAbs w.natAbs
    rw [hvn, hwn]
    cases s
    · simpa only [Bool.false_eq_true, if_false, Nat.abs_cast] using h1
    · simpa only [if_true, abs_neg, Nat.abs_cast] using h1
  · have h1 : (v.natAbs : Int) < (((v.natAbs / w.natAbs : ℕ) : Int) + 1) * (w.natAbs : Int) := by
      exact_mod_cast Nat.lt_mul_of_div_lt (Nat.lt_succ_self (v.natAbs / w.natAbs)) hw0
    rw [hvn, hwn]
    cases s
    · simpa only [Bool.false_eq_true, if_false, Nat.abs_cast] using h1
    · simpa only [if_true, abs_neg, Nat.abs_cast] using h1
  · have hw2 : (0 : ℚ) < (w : ℚ) * w := mul_self_pos.2 hwq
    have hdiv : (v : ℚ) * w = (v / w) * (w * w) := by field_simp
    have hq0 : (0 : Int) ≤ ((v.natAbs / w.natAbs : ℕ) : Int) := by positivity
    cases s
    · have : ¬ (v : ℚ) / w < 0 := fun hc => by cases hneg hc
      have h1 : (0 : ℚ) ≤ (v : ℚ) * w := by
        rw [hdiv]
        exact mul_nonneg (not_lt.1 this) hw2.le
      have h2 : 0 ≤ v * w := by exact_mod_cast h1
      simpa only [Bool.false_eq_true, if_false] using mul_nonneg hq0 h2
    · have : ¬ 0 < (v : ℚ) / w := fun hc => by cases hpos hc
      have h1 : (v : ℚ) * w ≤ 0 := by
        rw [hdiv]
        exact mul_nonpos_of_nonpos_of_nonneg (not_lt.1 this) hw2.le
      have h2 : v * w ≤ 0 := by exact_mod_cast h1
      simp only [if_true]
      nlinarith

/-- **C75** fails: `(quotient 11258999068426244.0 2251799813685249.0)` is 5, although five times the divisor is
more than the dividend: what is truncated is the rounded ratio. -/
theorem C75_quotient_fails :
    Real.quotient (.flo (.finite false 11258999068426244)) (.flo (.finite false 2251799813685249)) =
      .value (.flo (.finite false 5)) ∧
    (Flo.finite false 11258999068426244).Valid ∧ (Flo.finite false 2251799813685249).Valid ∧
    (11258999068426244 : ℚ) < 5 * 2251799813685249 := by
  have hlog : Int.log 2 |(11258999068426244 / 2251799813685249 : ℚ)| = 2 := by
    refine le_antisymm ?_ ?_
    · refine Int.lt_add_one_iff.1 ((Int.lt_zpow_iff_log_lt (by norm_num) (by norm_num)).1 ?_)
      norm_num
    · refine (Int.zpow_le_iff_le_log (by norm_num) (by norm_num)).1 ?_
      norm_num
  have hu : ulp (11258999068426244 / 2251799813685249 : ℚ) = 1 / 2 ^ 50 := by
    rw [ulp, hlog, max_eq_left (by norm_num)]
    norm_num
  have hf : ⌊|(11258999068426244 / 2251799813685249 : ℚ)| / (1 / 2 ^ 50)⌋ = 5629499534213119 := by
    rw [Int.floor_eq_iff]
    norm_num
  have hr : roundEven false (11258999068426244 / 2251799813685249) = .finite false 5 := by
    rw [roundEven, if_neg (by norm_num), hu, hf]
    dsimp only
    have hm : ¬ (|(11258999068426244 / 2251799813685249 : ℚ)| / (1 / 2 ^ 50) - ((5629499534213119 : ℤ) : ℚ) < 1 / 2 ∨
        |(11258999068426244 / 2251799813685249 : ℚ)| / (1 / 2 ^ 50) - ((5629499534213119 : ℤ) : ℚ) = 1 / 2 ∧
          (5629499534213119 : ℤ) % 2 = 0) := by norm_num
    rw [if_neg hm, if_neg (not_le.2 (lt_trans (by norm_num) (two_pow_lt (show 54 < 1024 by norm_num))))]
    norm_num
  refine ⟨?_, ⟨2814749767106561, 2, by norm_num, by norm_num, by norm_num, by norm_num⟩,
    ⟨2251799813685249, 0, by norm_num, by norm_num, by norm_num, by norm_num⟩, by norm_num⟩
  have h3 : Flo.div (.finite false 11258999068426244) (.finite false 2251799813685249) = .finite false 5 := by
    rw [Flo.div, if_neg (by norm_num)]
    exact hr
  simp only [Real.quotient, Real.div, Real.lift, h3, bind_value, Real.truncate, Real.nearest]
  have h4 : stdTrunc 5 = 5 := by norm_num [stdTrunc]
  simp [Flo.nearest, signed, h4]
/-! ### C75: `numerator` and `denominator` -/

/-- **C75**: `numerator` and `denominator` of an exact number are those of lowest terms. -/
theorem C75_numerator_exact {n : Num} (h : n.Valid) :
    (∃ m, Real.numerator (.exact n) = .value (.exact m) ∧ m.Valid ∧ m.val = n.val.num) ∧
    (∃ m, Real.denominator (.exact n) = .value (.exact m) ∧ m.Valid ∧ m.val = n.val.den) := by
  refine ⟨⟨_, rfl, ?_⟩, ⟨_, rfl, ?_⟩⟩
  · cases n with
    | small i => exact ⟨h, by simp [numerator, Num.val]⟩
    | large z => exact ⟨trivial, by simp [numerator, Num.val]⟩
    | ratio q =>
      obtain ⟨h1, h2⟩ := h
      refine ⟨trivial, ?_⟩
      simp only [numerator, Num.val]
      rw [Rat.num_div_eq_of_coprime h1 (by rwa [Int.gcd] at h2)]
  · cases n with
    | small i => exact ⟨by constructor <;> norm_num, by simp [denominator, Num.val]⟩
    | large z => exact ⟨by constructor <;> norm_num, by simp [denominator, Num.val]⟩
    | ratio q =>
      obtain ⟨h1, h2⟩ := h
      refine ⟨trivial, ?_⟩
      simp only [denominator, Num.val]
      have := Rat.den_div_eq_of_coprime h1 (by rwa [Int.gcd] at h2)
      have h3 : (((q.num : ℚ) / q.den).den : ℚ) = q.den :=
        (Int.cast_natCast (R := ℚ) _).symm.trans (congrArg (Int.cast (R := ℚ)) this)
      exact h3.symm

/-- Numerator and denominator of a representable number. -/
theorem Rep.parts {v : ℚ} (h : Rep |v|) :
    Rep |(v.num : ℚ)| ∧ ∃ k : ℕ, k ≤ 1074 ∧ v.den = 2 ^ k := by
  obtain ⟨m, e, hm, he1, he2, hv⟩ := h
  rcases le_total 0 e with h0 | h0
  · obtain ⟨j, rfl⟩ := Int.eq_ofNat_of_zero_le h0
    obtain ⟨z, rfl⟩ : ∃ z : Int, v = z := by
      rcases abs_choice v with h | h
      · exact ⟨m * 2 ^ j, by rw [← h, hv]; push_cast; rw [zpow_natCast]⟩
      · refine ⟨-(m * 2 ^ j), ?_⟩
        push_cast
        rw [← zpow_natCast, ← hv, h, neg_neg]
    refine ⟨?_, 0, by norm_num, by simp⟩
    rw [Rat.num_intCast]
    exact ⟨m, _, hm, he1, he2, hv⟩
  · obtain ⟨j, hj⟩ := Int.eq_ofNat_of_zero_le (show 0 ≤ -e by omega)
    have he : e = -(j : Int) := by omega
    subst he
    have hpow : (2 : ℚ) ^ (-(j : ℤ)) = 1 / 2 ^ j := by rw [zpow_neg, zpow_natCast, one_div]
    rw [hpow] at hv
    obtain ⟨z, hz, hzm⟩ : ∃ z : Int, v = Rat.divInt z (2 ^ j : ℕ) ∧ |z| = m := by
      rcases abs_choice v with h | h
      · refine ⟨m, ?_, by simp⟩
        rw [Rat.divInt_eq_div, ← h, hv]
        push_cast
        ring
      · refine ⟨-m, ?_, by simp⟩
        rw [Rat.divInt_eq_div]
        rw [h] at hv
        push_cast
        linarith [show (-(m : ℚ)) / 2 ^ j = -(m * (1 / 2 ^ j)) by ring]
    have hd : (v.den : Int) ∣ ((2 ^ j : ℕ) : Int) := by rw [hz]; exact Rat.den_dvd _ _
    have hd' : v.den ∣ 2 ^ j := by exact_mod_cast hd
    obtain ⟨k, hk, hden⟩ := (Nat.dvd_prime_pow Nat.prime_two).1 hd'
    refine ⟨Rep.int ?_, k, by omega, hden⟩
    -- |num| ≤ |z| = m
    have hnum : |(v.num : ℚ)| = |v| * v.den := by
      have h1 : v = v.num / v.den := (Rat.num_div_den v).symm
      have hdp : (0 : ℚ) < v.den := by exact_mod_cast v.den_pos
      have h2 : |v| = |(v.num : ℚ)| / v.den := by
        conv_lhs => rw [h1]
        rw [abs_div, abs_of_pos hdp]
      rw [h2]
      field_simp
    have hle : |(v.num : ℚ)| ≤ m := by
      rw [hnum, hv, hden]
      have : (2 : ℚ) ^ k ≤ 2 ^ j := pow_le_pow_right₀ (by norm_num) hk
      have hp : (0 : ℚ) < 2 ^ j := by positivity
      have h3 : 1 / (2 : ℚ) ^ j * 2 ^ k ≤ 1 := by
        rw [one_div, inv_mul_le_iff₀ hp, mul_one]
        exact this
      push_cast
      rw [mul_assoc]
      exact mul_le_of_le_one_right (Nat.cast_nonneg _) h3
    have hle' : |v.num| ≤ (m : Int) := by exact_mod_cast hle
    omega

/-- **C75**, partly: `numerator` of a finite inexact number, and `denominator` if it is below
`2 ^ 1024`, are those of lowest terms, as inexact numbers. -/
theorem C75_numerator_partial {d : Flo} {v : ℚ} (h : d.Is v) (hd : d.Valid) :
    (∃ e, Real.numerator (.flo d) = .value (.flo e) ∧ e.Is v.num) ∧
    (v.den < 2 ^ 1024 → ∃ e, Real.denominator (.flo d) = .value (.flo e) ∧ e.Is v.den) := by
  obtain ⟨hnum, k, hk, hden⟩ := (h.rep hd).parts
  obtain ⟨n, en, hn1, hn2⟩ := exactFlo_spec h
  obtain ⟨⟨a, ea, ha1, ha2⟩, ⟨b, eb, hb1, hb2⟩⟩ := C75_numerator_exact hn1
  rw [hn2] at ha2 hb2
  simp only [Real.numerator, Real.denominator, Outcome.value.injEq, Real.exact.injEq] at ea eb
  constructor
  · obtain ⟨e, h1, _, h2⟩ := C72_inexact ha1 (by rw [ha2]; exact hnum)
    refine ⟨e, ?_, by rw [← ha2]; exact h2⟩
    simp only [Real.numerator, en, bind_value, pure_eq, ea, h1]
  · intro hlt
    by_cases hint : (Real.flo d).isInteger = true
    · refine ⟨.finite false 1, by simp only [Real.denominator, if_pos hint], false, 1, rfl, ?_⟩
      obtain ⟨z, rfl⟩ := (C74_predicates_partial h hd false).1.1 hint
      simp
    · have hk' : k < 1024 := by
        rw [hden] at hlt
        exact (Nat.pow_lt_pow_iff_right (by norm_num : 1 < 2)).1 hlt
      have hrep : Rep |(v.den : ℚ)| := by
        rw [abs_of_nonneg (Nat.cast_nonneg _), hden]
        rcases le_total k 52 with h | h
        · exact ⟨2 ^ k, 0, Nat.pow_lt_pow_right (by norm_num) (by omega), by norm_num, by norm_num,
            by rw [zpow_zero, mul_one]⟩
        · refine ⟨2 ^ 52, (k : Int) - 52, by norm_num, by omega, by omega, ?_⟩
          obtain ⟨j, rfl⟩ := Nat.exists_eq_add_of_le h
          rw [show ((52 + j : ℕ) : Int) - 52 = (j : Int) by push_cast; ring, zpow_natCast, pow_add]
          push_cast
          rfl
      obtain ⟨e, h1, _, h2⟩ := C72_inexact hb1 (by rw [hb2]; exact hrep)
      refine ⟨e, ?_, by rw [← hb2]; exact h2⟩
      simp only [Real.denominator, if_neg hint, en, bind_value, pure_eq, eb, h1]

/-- **C75** fails: the denominator of the least positive inexact number is an infinity. -/
theorem C75_denominator_fails :
    (Flo.finite false (2 ^ (-1074 : ℤ))).Valid ∧
    Real.denominator (.flo (.finite false (2 ^ (-1074 : ℤ)))) = .value (.flo (.inf false)) := by
  have hvalid : (Flo.finite false (2 ^ (-1074 : ℤ))).Valid :=
    ⟨1, -1074, by norm_num, by norm_num, by norm_num, by rw [Nat.cast_one, one_mul]⟩
  refine ⟨hvalid, ?_⟩
  have his : (Flo.finite false (2 ^ (-1074 : ℤ))).Is (2 ^ (-1074 : ℤ)) :=
    ⟨false, _, rfl, by simp only [Bool.false_eq_true, if_false]⟩
  have hpow : (2 : ℚ) ^ (-1074 : ℤ) = 1 / ((2 ^ 1074 : ℕ) : ℚ) := by
    rw [Nat.cast_pow, one_div, show (-1074 : ℤ) = -((1074 : ℕ) : ℤ) from rfl, zpow_neg, zpow_natCast]
    norm_cast
  have hden : ((2 : ℚ) ^ (-1074 : ℤ)).den = 2 ^ 1074 := by
    rw [hpow]
    have hpos : 0 < 2 ^ 1074 := by positivity
    generalize 2 ^ 1074 = A at *
    rw [one_div, Rat.inv_natCast_den, if_neg (by omega)]
  have hint : (Real.flo (.finite false (2 ^ (-1074 : ℤ)))).isInteger ≠ true := by
    intro hc
    obtain ⟨z, hz⟩ := (C74_predicates_partial his hvalid false).1.1 hc
    rw [hz, Rat.den_intCast] at hden
    have : 2 ^ 0 < 2 ^ 1074 := Nat.pow_lt_pow_right (by norm_num) (by norm_num)
    rw [← hden] at this
    norm_num at this
  obtain ⟨n, en, hn1, hn2⟩ := exactFlo_spec his
  obtain ⟨_, ⟨b, eb, hb1, hb2⟩⟩ := C75_numerator_exact hn1
  simp only [Real.denominator, Outcome.value.injEq, Real.exact.injEq] at eb
  rw [hn2, hden] at hb2
  have hpos : (0 : ℚ) < ((2 ^ 1074 : ℕ) : ℚ) := by positivity
  have hbig : (2 : ℚ) ^ 1024 ≤ |b.val| := by
    rw [hb2, abs_of_pos hpos, Nat.cast_pow]
    exact pow_le_pow_right₀ (by norm_num) (by norm_num)
  have hinf := (C72_inexact_partial hb1).2 hbig
  simp only [Real.denominator, if_neg hint, en, bind_value, pure_eq, eb, hinf]
  rw [hb2, decide_eq_false (not_lt.2 hpos.le)]

/-! ### The hypotheses can be met -/

theorem plainly_int {z : Int} (h : |z| < 2 ^ 53) :
    (Real.flo (.finite (decide (z < 0)) |(z : ℚ)|)).Plainly z := by
  refine Or.inr ⟨_, rfl, Rep.int h, _, _, rfl, ?_⟩
  rcases lt_or_ge z 0 with h | h
  · have : (z : ℚ) < 0 := by exact_mod_cast h
    simp [h, abs_of_neg this]
  · have : (0 : ℚ) ≤ z := by exact_mod_cast h
    simp [not_lt.2 h, abs_of_nonneg this]

/-- `(modulo -7.0 3)` is 2.0. -/
example : ∃ d, Real.modulo (.flo (.finite true 7)) (.exact (.small 3)) = .value (.flo d) ∧
    d.Is 2 := by
  have h7 : (Real.flo (.finite true 7)).Plainly ((-7 : Int) : ℚ) := by
    have := plainly_int (z := -7) (by norm_num)
    simpa using this
  obtain ⟨d, r, k, h1, _, h2, h3, h4, h5⟩ := C75_modulo_partial (w := 3) h7
    (Or.inl ⟨3, rfl, by norm_num, by norm_num, rfl⟩) (Or.inl rfl) (by norm_num) (by norm_num)
  have : r = 2 := by
    have := abs_lt.1 h4
    norm_num at this
    omega
  subst this
  exact ⟨d, h1, by exact_mod_cast h2⟩

/-- `(remainder 7.5 -2)` is 1.5. -/
example : ∃ d r, Real.remainder (.flo (.finite false (15 / 2))) (.exact (.small (-2))) =
    .value (.flo d) ∧ d.Is r ∧ |r| < 2 ∧ 0 ≤ r * (15 / 2) := by
  obtain ⟨d, r, k, h1, _, h2, h3, h4, h5⟩ := C75_remainder_partial (v := 15 / 2) (w := -2)
    (x := .flo (.finite false (15 / 2))) (y := .exact (.small (-2)))
    (Or.inr ⟨_, rfl, ⟨15, -1, by norm_num, by norm_num, by norm_num, by norm_num⟩, false, _, rfl,
      by simp⟩) (Or.inl ⟨-2, rfl, by norm_num, by norm_num, by norm_num⟩) (Or.inl rfl) (by norm_num)
  exact ⟨d, r, h1, h2, by simpa using h4, h5⟩

/-- `(quotient -7.0 2)` is -3.0. -/
example : ∃ d q, Real.quotient (.flo (.finite true 7)) (.exact (.small 2)) = .value (.flo d) ∧
    d.Is ((q : Int) : ℚ) ∧ q = -3 := by
  obtain ⟨d, q, h1, h2, h3, h4, h5⟩ := C75_quotient_partial (v := -7) (w := 2)
    (x := .flo (.finite true 7)) (y := .exact (.small 2))
    (Or.inr ⟨_, rfl, true, _, rfl, by norm_num⟩)
    (Or.inl ⟨_, rfl, by constructor <;> norm_num, by norm_num [Num.val],
      by exact_mod_cast Rep.int (z := 2) (by norm_num)⟩) (Or.inl rfl) (by norm_num) (by norm_num)
  refine ⟨d, q, h1, h2, ?_⟩
  norm_num at h3 h4 h5
  have hq : |q| = 3 := by omega
  rcases abs_eq (by norm_num : (0 : Int) ≤ 3) |>.1 hq with h | h <;> omega

/-- `(numerator 0.75)` is 3.0 and `(denominator 0.75)` is 4.0. -/
example : (∃ e, Real.numerator (.flo (.finite false (3 / 4))) = .value (.flo e) ∧
    e.Is ((3 / 4 : ℚ).num : ℚ)) := by
  exact (C75_numerator_partial (d := .finite false (3 / 4)) (v := 3 / 4)
    ⟨false, _, rfl, by simp⟩ ⟨3, -2, by norm_num, by norm_num, by norm_num, by norm_num⟩).1

end Meevax.Number
