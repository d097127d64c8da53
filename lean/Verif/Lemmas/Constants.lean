import Verif.Spec.Constants
import Verif.Lemmas.InexactOrder
import Verif.Lemmas.Nearest

/-
Magnitudes that are closest to real numbers: existence, uniqueness, and a criterion with bounds.
-/

namespace Meevax.Constants

open Meevax.Number (Flo Outcome Rep roundEven castFixnum)

/-- The magnitude `m / 2 ^ k`, and half of the distance to its neighbours. -/
theorem grid_far {m k : ℕ} (hm : 2 ^ 52 < m) {w : ℚ} (hw : Rep w) :
    w = m / 2 ^ k ∨ 1 / 2 ^ k ≤ |(m : ℚ) / 2 ^ k - w| := by
  have hp : (0 : ℚ) < 2 ^ k := by positivity
  have hz : (2 : ℚ) ^ (-(k : ℤ)) = 1 / 2 ^ k := by rw [zpow_neg, zpow_natCast, one_div]
  rcases hw.onGrid (E := -(k : ℤ)) with ⟨j, rfl⟩ | ⟨h, -⟩
  · rw [hz]
    by_cases hj : j = m
    · left; rw [hj]; push_cast; ring
    · right
      have h1 : (1 : ℚ) ≤ |(((m : ℤ) - j : ℤ) : ℚ)| := by
        rw [← Int.cast_abs]
        exact_mod_cast Int.one_le_abs (sub_ne_zero.2 (Ne.symm hj))
      have h2 : (m : ℚ) / 2 ^ k - 1 / 2 ^ k * j = ((m : ℤ) - j : ℤ) / 2 ^ k := by push_cast; ring
      rw [h2, abs_div, abs_of_pos hp]
      gcongr
  · right
    rw [hz] at h
    have h1 : (2 : ℚ) ^ 52 + 1 ≤ m := by exact_mod_cast hm
    have h2 : (2 : ℚ) ^ 52 * (1 / 2 ^ k) + 1 / 2 ^ k ≤ m / 2 ^ k := by
      have : (2 : ℚ) ^ 52 * (1 / 2 ^ k) + 1 / 2 ^ k = (2 ^ 52 + 1) / 2 ^ k := by ring
      rw [this]
      gcongr
    refine le_trans ?_ (le_abs_self _)
    linarith

theorem rep_grid {m k : ℕ} (hm : m ≤ 2 ^ 53) (hk : k ≤ 1074) : Rep ((m : ℚ) / 2 ^ k) := by
  rcases hm.lt_or_eq with hm | rfl
  · exact ⟨m, -(k : ℤ), hm, by omega, by omega, by rw [zpow_neg, zpow_natCast, div_eq_mul_inv]⟩
  · refine ⟨2 ^ 52, 1 - (k : ℤ), by norm_num, by omega, by omega, ?_⟩
    rw [zpow_sub₀ (by norm_num), zpow_natCast]
    push_cast
    ring

/-- A number that is nearer than half of the distance. -/
theorem close {m k : ℕ} (hm : 2 ^ 52 < m) (hm' : m ≤ 2 ^ 53) (hk : k ≤ 1074) {x : ℝ}
    (h1 : (2 * m - 1) / 2 ^ (k + 1) < x) (h2 : x < (2 * m + 1) / 2 ^ (k + 1)) :
    Closest (m / 2 ^ k) x ∧ ∀ v, Closest v x → v = m / 2 ^ k := by
  have hp : (0 : ℝ) < 2 ^ k := by positivity
  have e1 : (2 * m - 1 : ℝ) / 2 ^ (k + 1) = m / 2 ^ k - 1 / 2 ^ k / 2 := by rw [pow_succ]; field_simp
  have e2 : (2 * m + 1 : ℝ) / 2 ^ (k + 1) = m / 2 ^ k + 1 / 2 ^ k / 2 := by rw [pow_succ]; field_simp
  rw [e1] at h1
  rw [e2] at h2
  have hx : |x - ((m / 2 ^ k : ℚ) : ℝ)| < 1 / 2 ^ k / 2 := by
    push_cast
    rw [abs_lt]
    constructor <;> linarith
  have far : ∀ w : ℚ, Rep w → w ≠ m / 2 ^ k → |x - ((m / 2 ^ k : ℚ) : ℝ)| < |x - w| := by
    intro w hw hne
    have h3 := (grid_far (k := k) hm hw).resolve_left hne
    have h4 : (1 : ℝ) / 2 ^ k ≤ |((m / 2 ^ k : ℚ) : ℝ) - w| := by
      have := (Rat.cast_le (K := ℝ)).2 h3
      push_cast at this ⊢
      exact this
    have h5 : |((m / 2 ^ k : ℚ) : ℝ) - w| ≤ |x - ((m / 2 ^ k : ℚ) : ℝ)| + |x - w| := by
      have := abs_sub_le ((m / 2 ^ k : ℚ) : ℝ) x w
      rwa [abs_sub_comm _ x] at this
    linarith
  refine ⟨⟨rep_grid hm' hk, fun w hw => ?_⟩, fun v hv => ?_⟩
  · by_cases hne : w = m / 2 ^ k
    · rw [hne]
    · exact (far w hw hne).le
  · by_contra hne
    exact absurd (hv.2 _ (rep_grid hm' hk)) (not_le.2 (far v hv.1 hne))

/-- Rounding of a number whose nearest magnitude is known. -/
theorem roundEven_close {m k : ℕ} (hm : 2 ^ 52 < m) (hm' : m ≤ 2 ^ 53) (hk : k ≤ 1074) {q : ℚ} {z : Bool}
    (h1 : (2 * m - 1) / 2 ^ (k + 1) < q) (h2 : q < (2 * m + 1) / 2 ^ (k + 1)) :
    roundEven z q = .finite false (m / 2 ^ k) := by
  have hm1 : (2 : ℚ) ^ 52 < m := by exact_mod_cast hm
  have hm2 : (m : ℚ) ≤ 2 ^ 53 := by exact_mod_cast hm'
  have hq : 0 < q := by
    refine lt_trans (div_pos ?_ (by positivity)) h1
    linarith
  have hmax : q < 2 ^ 1024 - 2 ^ 970 := by
    refine lt_trans h2 (lt_of_le_of_lt (div_le_self ?_ (one_le_pow₀ (by norm_num))) ?_)
    · linarith
    · have : (2 * m + 1 : ℚ) < 2 ^ 55 := by linarith
      refine this.trans ?_
      have h3 : (2 : ℚ) ^ 1024 = 2 ^ 970 * 2 ^ 54 := by rw [← pow_add]
      have h4 : (2 : ℚ) ^ 55 ≤ 2 ^ 970 := pow_le_pow_right₀ (by norm_num) (by norm_num)
      rw [h3]
      clear h3
      generalize (2 : ℚ) ^ 970 = a at *
      norm_num at h4 ⊢
      linarith
  have hr := Number.roundEven_spec z q
  rw [Flo.Rounds, abs_of_pos hq, if_neg (not_le.2 hmax)] at hr
  obtain ⟨s, v, hd, -, hs, hv⟩ := hr
  rw [hd, hs hq]
  congr 1
  have h1' : ((2 * m - 1) / 2 ^ (k + 1) : ℝ) < q := by
    have := (Rat.cast_lt (K := ℝ)).2 h1
    push_cast at this
    exact this
  have h2' : (q : ℝ) < (2 * m + 1) / 2 ^ (k + 1) := by
    have := (Rat.cast_lt (K := ℝ)).2 h2
    push_cast at this
    exact this
  refine (close hm hm' hk h1' h2').2 v ⟨hv.1, fun w hw => ?_⟩
  have := (Rat.cast_le (K := ℝ)).2 (hv.2.1 w hw)
  push_cast at this
  exact this

theorem approximates_eq {m k : ℕ} (hm : 2 ^ 52 < m) (hm' : m ≤ 2 ^ 53) (hk : k ≤ 1074) {x : ℝ} {d : Flo}
    (h1 : (2 * m - 1) / 2 ^ (k + 1) < x) (h2 : x < (2 * m + 1) / 2 ^ (k + 1)) (h : Approximates d x) :
    d = .finite false (m / 2 ^ k) := by
  obtain ⟨v, rfl, hv⟩ := h
  rw [(close hm hm' hk h1 h2).2 v hv]

theorem gives_close {m k : ℕ} (hm : 2 ^ 52 < m) (hm' : m ≤ 2 ^ 53) (hk : k ≤ 1074) {x : ℝ}
    (h1 : (2 * m - 1) / 2 ^ (k + 1) < x) (h2 : x < (2 * m + 1) / 2 ^ (k + 1)) {r : Outcome Number.Real}
    (h : r = .value (.flo (.finite false (m / 2 ^ k)))) : Gives r x :=
  ⟨_, h, _, rfl, (close hm hm' hk h1 h2).1⟩

theorem cast_nat {n : ℕ} (h0 : 0 < n) (h : n < 2 ^ 31) : castFixnum n = .finite false n := by
  obtain ⟨⟨s, m, he, hm⟩, hv⟩ := Number.castFixnum_spec (i := n) (by omega) (by omega)
  rw [he] at hv ⊢
  have hn : (0 : ℚ) < n := by exact_mod_cast h0
  have h1 := Rep.nonneg hv
  have hm' : (if s then -m else m) = (n : ℚ) := by rw [hm]; push_cast; rfl
  cases s with
  | true => simp only [if_true] at hm'; linarith
  | false => simp only [Bool.false_eq_true, if_false] at hm'; rw [hm']

/-! ### There is a closest magnitude -/

theorem rep_finite : {v : ℚ | Rep v}.Finite := by
  refine ((Finset.range (2 ^ 53) ×ˢ Finset.Icc (-1074 : ℤ) 971 : Finset (ℕ × ℤ)).finite_toSet.image
    fun p : ℕ × ℤ => (p.1 : ℚ) * 2 ^ p.2).subset ?_
  rintro v ⟨m, e, h1, h2, h3, rfl⟩
  refine ⟨(m, e), ?_, rfl⟩
  rw [Finset.mem_coe, Finset.mem_product]
  exact ⟨Finset.mem_range.2 h1, Finset.mem_Icc.2 ⟨h2, h3⟩⟩

theorem closest_exists (x : ℝ) : ∃ v, Closest v x := by
  obtain ⟨v, hv, h⟩ := rep_finite.exists_minimalFor (fun v : ℚ => |x - v|) _ ⟨0, Rep.zero⟩
  exact ⟨v, hv, fun w hw => by
    rcases le_total |x - v| |x - w| with h' | h'
    · exact h'
    · exact h hw h'⟩

end Meevax.Constants
