import Verif.Model.Flonum
import Verif.Lemmas.InexactOrder
import Verif.Lemmas.Nearest

/-
Neighbours on the grid of binary64, exponents and fractions.
-/

namespace Meevax.Number

/-- A representable magnitude is a point of the grid of its own spacing. -/
theorem Rep.atUlp {m : ℚ} (hm : Rep m) (h0 : m ≠ 0) :
    ∃ E k : ℤ, ulp m = 2 ^ E ∧ E = Max.max (Int.log 2 m - 52) (-1074) ∧ m = 2 ^ E * k ∧ 0 < k ∧
      k < 2 ^ 53 ∧ (E = -1074 ∨ 2 ^ 52 ≤ k) := by
  have hpos : 0 < m := lt_of_le_of_ne hm.nonneg (Ne.symm h0)
  have habs : |m| = m := abs_of_pos hpos
  obtain ⟨E, hu, hE, hlt, hlow⟩ := ulp_grid h0
  have hEe : E = Max.max (Int.log 2 m - 52) (-1074) := by
    have : (2 : ℚ) ^ E = 2 ^ (Max.max (Int.log 2 |m| - 52) (-1074)) := by rw [← hu]; rfl
    rw [habs] at this
    exact zpow_right_injective₀ (by norm_num) (by norm_num) this
  rw [habs] at hlt hlow
  have hup := two_zpow_pos E
  have hgrid : ∃ k : ℤ, m = 2 ^ E * k := by
    rcases hm.onGrid (E := E) with h | ⟨h1, h2⟩
    · exact h
    · rcases hlow with h | h
      · omega
      · exact absurd h (not_le.2 h1)
  obtain ⟨k, hk⟩ := hgrid
  refine ⟨E, k, hu, hEe, hk, ?_, ?_, ?_⟩
  · have : (0 : ℚ) < 2 ^ E * k := hk ▸ hpos
    have : (0 : ℚ) < k := by
      rcases (mul_pos_iff.1 this) with h | h
      · exact h.2
      · exact absurd h.1 (not_lt.2 hup.le)
    exact_mod_cast this
  · have : (2 : ℚ) ^ E * k < 2 ^ E * 2 ^ 53 := by
      rw [← hk]
      linarith [mul_comm ((2 : ℚ) ^ E) (2 ^ 53)]
    have := lt_of_mul_lt_mul_left this hup.le
    exact_mod_cast this
  · rcases hlow with h | h
    · exact Or.inl h
    · right
      have : (2 : ℚ) ^ E * 2 ^ 52 ≤ 2 ^ E * k := by
        rw [← hk]
        linarith [mul_comm ((2 : ℚ) ^ E) (2 ^ 52)]
      have := le_of_mul_le_mul_left this hup
      exact_mod_cast this

theorem least_rep : Rep (1 / 2 ^ 1074) := by
  refine ⟨1, -1074, by norm_num, le_refl _, by norm_num, ?_⟩
  rw [show (-1074 : ℤ) = -((1074 : ℕ) : ℤ) from rfl, zpow_neg, zpow_natCast, Nat.cast_one, one_mul,
    one_div]

/-- No magnitude is between zero and the least one. -/
theorem Rep.least_le {w : ℚ} (hw : Rep w) (h : 0 < w) : 1 / 2 ^ 1074 ≤ w := by
  obtain ⟨m, e, _, h2, _, rfl⟩ := hw
  have hm : 0 < m := by
    rcases Nat.eq_zero_or_pos m with h' | h'
    · subst h'
      simp at h
    · exact h'
  have hm1 : (1 : ℚ) ≤ m := by exact_mod_cast hm
  have h1 : (2 : ℚ) ^ (-1074 : ℤ) ≤ 2 ^ e := zpow_le_zpow_right₀ (by norm_num) h2
  rw [show (-1074 : ℤ) = -((1074 : ℕ) : ℤ) from rfl, zpow_neg, zpow_natCast, ← one_div] at h1
  calc (1 : ℚ) / 2 ^ 1074 ≤ 2 ^ e := h1
    _ = 1 * 2 ^ e := (one_mul _).symm
    _ ≤ m * 2 ^ e := mul_le_mul_of_nonneg_right hm1 (two_zpow_pos e).le

theorem nextUp_spec (s : Bool) {m : ℚ} (hm : Rep m) :
    (nextUp s m = .inf s ∧ ∀ w, Rep w → w ≤ m) ∨
    (∃ v, nextUp s m = .finite s v ∧ Rep v ∧ m < v ∧ ∀ w, Rep w → m < w → v ≤ w) := by
  by_cases h0 : m = 0
  · right
    subst h0
    exact ⟨_, if_pos rfl, least_rep, by positivity, fun w hw h => hw.least_le h⟩
  obtain ⟨E, k, hu, _, hk, hk0, hk1, hk2⟩ := hm.atUlp h0
  have hup := two_zpow_pos E
  have hE : -1074 ≤ E := by
    have := le_max_right (Int.log 2 m - 52) (-1074)
    omega
  have hnext : m + ulp m = 2 ^ E * ((k + 1 : ℤ) : ℚ) := by
    rw [hu]
    push_cast
    rw [mul_add, mul_one, ← hk]
  have hbetween : ∀ w, Rep w → m < w → m + ulp m ≤ w := by
    intro w hw hlt
    rcases hw.onGrid (E := E) with ⟨j, rfl⟩ | ⟨h1, h2⟩
    · rw [hk] at hlt
      have : (k : ℚ) < j := lt_of_mul_lt_mul_left hlt hup.le
      have : k + 1 ≤ j := by exact_mod_cast this
      have : ((k + 1 : ℤ) : ℚ) ≤ j := by exact_mod_cast this
      rw [hnext]
      gcongr
    · rcases hk2 with h | h
      · omega
      · have h3 : ((2 : ℤ) ^ 52 : ℚ) ≤ k := by exact_mod_cast h
        have h4 : (2 : ℚ) ^ 52 * 2 ^ E ≤ m := by
          rw [hk, mul_comm]
          gcongr
          exact_mod_cast h3
        linarith
  rw [nextUp, if_neg h0]
  by_cases hov : (2 : ℚ) ^ 1024 ≤ m + ulp m
  · left
    rw [if_pos hov]
    refine ⟨rfl, fun w hw => ?_⟩
    by_contra hc
    have h1 := hbetween w hw (not_le.1 hc)
    have h2 := hw.lt
    exact absurd (hov.trans h1) (not_le.2 h2)
  · right
    rw [if_neg hov]
    refine ⟨_, rfl, ?_, by rw [hu]; linarith, hbetween⟩
    rw [hnext] at hov ⊢
    exact Rep.ofGrid (by omega) (by omega) hE (not_le.1 hov)

theorem nextDown_spec (s : Bool) {m : ℚ} (hm : Rep m) (h0 : m ≠ 0) :
    ∃ v, nextDown s m = .finite s v ∧ Rep v ∧ v < m ∧ ∀ w, Rep w → w < m → w ≤ v := by
  obtain ⟨E, k, hu, hEe, hk, hk0, hk1, hk2⟩ := hm.atUlp h0
  have hup := two_zpow_pos E
  have hE : -1074 ≤ E := by
    have := le_max_right (Int.log 2 m - 52) (-1074)
    omega
  have hmlt := hm.lt
  rw [nextDown]
  by_cases hc : m = 2 ^ Int.log 2 m ∧ -1074 < Int.log 2 m - 52
  · rw [if_pos hc]
    obtain ⟨hpow, hlog⟩ := hc
    have hEl : E = Int.log 2 m - 52 := by
      rw [hEe, max_eq_left hlog.le]
    have hm2 : m = 2 ^ (E - 1) * ((2 ^ 53 : ℤ) : ℚ) := by
      conv_lhs => rw [hpow]
      rw [show Int.log 2 m = (E - 1) + 53 by omega, zpow_add₀ (by norm_num)]
      norm_cast
    have hprev : m - ulp m / 2 = 2 ^ (E - 1) * ((2 ^ 53 - 1 : ℤ) : ℚ) := by
      have : ulp m / 2 = 2 ^ (E - 1) := by
        rw [hu, zpow_sub_one₀ (by norm_num)]
        ring
      rw [this]
      conv_lhs => rw [hm2]
      push_cast
      ring
    have hup' := two_zpow_pos (E - 1)
    refine ⟨_, rfl, ?_, by rw [hu]; linarith, ?_⟩
    · rw [hprev]
      refine Rep.ofGrid (by norm_num) (by norm_num) (by omega) ?_
      rw [← hprev]
      refine lt_trans ?_ hmlt
      rw [hu]
      linarith
    · intro w hw hlt
      rw [hprev]
      rcases hw.onGrid (E := E - 1) with ⟨j, rfl⟩ | ⟨h1, h2⟩
      · rw [hm2] at hlt
        have : (j : ℚ) < ((2 ^ 53 : ℤ) : ℚ) := lt_of_mul_lt_mul_left hlt hup'.le
        have : j ≤ 2 ^ 53 - 1 := by
          have : j < 2 ^ 53 := by exact_mod_cast this
          omega
        have : (j : ℚ) ≤ ((2 ^ 53 - 1 : ℤ) : ℚ) := by exact_mod_cast this
        gcongr
      · refine h1.le.trans ?_
        rw [mul_comm]
        have : (2 : ℚ) ^ 52 ≤ ((2 ^ 53 - 1 : ℤ) : ℚ) := by norm_num
        gcongr
  · rw [if_neg hc]
    have hprev : m - ulp m = 2 ^ E * ((k - 1 : ℤ) : ℚ) := by
      rw [hu]
      conv_lhs => rw [hk]
      push_cast
      ring
    refine ⟨_, rfl, ?_, by rw [hu]; linarith, ?_⟩
    · rw [hprev]
      refine Rep.ofGrid (by omega) (by omega) hE ?_
      rw [← hprev]
      refine lt_trans ?_ hmlt
      rw [hu]
      linarith
    · intro w hw hlt
      rw [hprev]
      rcases hw.onGrid (E := E) with ⟨j, rfl⟩ | ⟨h1, h2⟩
      · rw [hk] at hlt
        have : (j : ℚ) < k := lt_of_mul_lt_mul_left hlt hup.le
        have : j ≤ k - 1 := by
          have : j < k := by exact_mod_cast this
          omega
        have : (j : ℚ) ≤ ((k - 1 : ℤ) : ℚ) := by exact_mod_cast this
        gcongr
      · have hk3 : 2 ^ 52 ≤ k := by
          rcases hk2 with h | h
          · omega
          · exact h
        have hlog : E = Int.log 2 m - 52 := by
          rcases max_choice (Int.log 2 m - 52) (-1074) with h | h
          · rw [hEe, h]
          · rw [h] at hEe
            omega
        have hk4 : k ≠ 2 ^ 52 := by
          intro he
          refine hc ⟨?_, by omega⟩
          rw [show Int.log 2 m = E + 52 by omega, zpow_add₀ (by norm_num), hk, he]
          norm_cast
        have hk5 : (2 : ℤ) ^ 52 ≤ k - 1 := by omega
        have hk6 : (2 : ℚ) ^ 52 ≤ ((k - 1 : ℤ) : ℚ) := by exact_mod_cast hk5
        refine h1.le.trans ?_
        rw [mul_comm]
        gcongr

end Meevax.Number
