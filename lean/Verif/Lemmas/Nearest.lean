import Verif.Lemmas.InexactOrder

/-! Only one binary64 datum is nearest. -/

namespace Meevax.Number

/-- Of two different magnitudes with even significands, another magnitude lies between. -/
theorem even_gap {v w : ℚ} (hw : Rep w) (hv' : EvenSignificand v) (hw' : EvenSignificand w)
    (h : v < w) : ∃ r, Rep r ∧ v < r ∧ r < w := by
  obtain ⟨k, e, hve, hk, he, hn⟩ : ∃ (k : ℕ) (e : ℤ), v = (2 * k : ℕ) * 2 ^ e ∧ 2 * k < 2 ^ 53 ∧
      -1074 ≤ e ∧ (2 ^ 52 ≤ 2 * k ∨ e = -1074) := by
    obtain ⟨k, e, h1, h2, h3, h4⟩ := hv'
    rcases Nat.lt_or_eq_of_le h2 with h2 | h2
    · exact ⟨k, e, h1, h2, h3, h4⟩
    · refine ⟨2 ^ 51, e + 1, ?_, by norm_num, by omega, Or.inl (by norm_num)⟩
      rw [h1, h2, zpow_add₀ (by norm_num)]
      push_cast
      ring
  have hp := two_zpow_pos e
  have he' : e ≤ 971 := by
    rcases hn with hn | hn
    · by_contra hc
      have h1 : (2 : ℚ) ^ (52 : ℤ) * 2 ^ e ≤ v := by
        rw [hve]
        refine mul_le_mul_of_nonneg_right ?_ hp.le
        have : ((2 ^ 52 : ℕ) : ℚ) ≤ ((2 * k : ℕ) : ℚ) := by exact_mod_cast hn
        calc (2 : ℚ) ^ (52 : ℤ) = ((2 ^ 52 : ℕ) : ℚ) := by norm_num
          _ ≤ _ := this
      rw [← zpow_add₀ (by norm_num)] at h1
      have h2 : (2 : ℚ) ^ (1024 : ℤ) ≤ 2 ^ (52 + e) := zpow_le_zpow_right₀ (by norm_num) (by omega)
      have h3 := hw.lt
      have h4 : (2 : ℚ) ^ (1024 : ℤ) = 2 ^ 1024 := zpow_natCast 2 1024
      rw [h4] at h2
      exact absurd ((h2.trans h1).trans h.le) (not_le.2 h3)
    · omega
  have hr : Rep (v + 2 ^ e) := by
    refine ⟨2 * k + 1, e, by omega, he, he', ?_⟩
    rw [hve]
    push_cast
    ring
  refine ⟨v + 2 ^ e, hr, by linarith, ?_⟩
  by_contra hc
  push Not at hc
  -- then `w` is the next point of the grid, whose significand is odd
  have hbig : (2 : ℚ) ^ 52 * 2 ^ e ≤ v ∨ e = -1074 := by
    rcases hn with hn | hn
    · left
      rw [hve]
      refine mul_le_mul_of_nonneg_right ?_ hp.le
      exact_mod_cast hn
    · exact Or.inr hn
  have hgrid : ∃ j : ℤ, w = 2 ^ e * j := by
    rcases Rep.onGrid (E := e) hw with h1 | h1
    · exact h1
    · rcases hbig with hb | hb
      · exact absurd (h1.1.trans_le hb) (not_lt.2 h.le)
      · omega
  obtain ⟨j, hj⟩ := hgrid
  have hj1 : j = 2 * k + 1 := by
    have h1 : ((2 * k : ℤ) : ℚ) < j := by
      rw [hve, hj, mul_comm] at h
      have := lt_of_mul_lt_mul_left h hp.le
      push_cast at this ⊢
      exact this
    have h2 : (j : ℚ) ≤ ((2 * k + 1 : ℤ) : ℚ) := by
      rw [hve, hj] at hc
      have h3 : (2 : ℚ) ^ e * j ≤ 2 ^ e * (2 * k + 1) := by
        refine hc.trans (le_of_eq ?_)
        push_cast
        ring
      have := le_of_mul_le_mul_left h3 hp
      push_cast
      exact this
    have h3 : (2 * k : ℤ) < j := by exact_mod_cast h1
    have h4 : j ≤ (2 * k + 1 : ℤ) := by exact_mod_cast h2
    omega
  obtain ⟨k', e', hwe, hk', he1, -⟩ := hw'
  rcases lt_or_ge e' e with hlt | hge
  · rcases hbig with hb | hb
    · have h1 : w ≤ 2 ^ 53 * 2 ^ e' := by
        rw [hwe]
        refine mul_le_mul_of_nonneg_right ?_ (two_zpow_pos e').le
        exact_mod_cast hk'
      have h2 : (2 : ℚ) ^ (e' + 1) ≤ 2 ^ e := zpow_le_zpow_right₀ (by norm_num) (by omega)
      have h3 : (2 : ℚ) ^ 53 * 2 ^ e' = 2 ^ 52 * 2 ^ (e' + 1) := by
        rw [zpow_add₀ (by norm_num)]
        ring
      rw [h3] at h1
      have h4 := h1.trans (mul_le_mul_of_nonneg_left h2 (by positivity))
      exact absurd (h4.trans hb) (not_le.2 h)
    · omega
  · obtain ⟨n, rfl⟩ := Int.le.dest hge
    rw [hj, hj1, zpow_add₀ (by norm_num), zpow_natCast] at hwe
    have h1 : (2 : ℚ) ^ e * ((2 * k + 1 : ℤ) : ℚ) = 2 ^ e * ((2 * (k' * 2 ^ n) : ℤ) : ℚ) := by
      rw [hwe]
      push_cast
      ring
    have h2 : (2 * k + 1 : ℤ) = 2 * (k' * 2 ^ n) := by
      exact_mod_cast mul_left_cancel₀ hp.ne' h1
    omega

/-- The nearest magnitude is determined. -/
theorem Nearest.unique {x v w : ℚ} (h : Nearest x v) (h' : Nearest x w) : v = w := by
  by_contra hne
  have heq : |x - v| = |x - w| := le_antisymm (h.2.1 w h'.1) (h'.2.1 v h.1)
  have hv := h.2.2 ⟨w, h'.1, fun e => hne e.symm, heq.symm⟩
  have hw := h'.2.2 ⟨v, h.1, hne, heq⟩
  have key : ∀ {v w : ℚ}, Nearest x v → Rep w → EvenSignificand v → EvenSignificand w →
      |x - v| = |x - w| → ¬ v < w := by
    intro v w hn hr ev ew heq hlt
    obtain ⟨r, hr, h1, h2⟩ := even_gap hr ev ew hlt
    have h3 := hn.2.1 r hr
    have hm : x - v = w - x := by
      rcases abs_eq_abs.1 heq with h | h
      · linarith
      · linarith
    rw [abs_of_nonneg (by linarith)] at h3
    rcases abs_cases (x - r) with h4 | h4 <;> linarith
  rcases lt_or_gt_of_ne hne with hlt | hlt
  · exact key h h'.1 hv hw heq hlt
  · exact key h' h.1 hw hv heq.symm hlt

/-- IEEE 754 prescribes one result, up to the sign of zero. -/
theorem Flo.Rounds.unique {d e : Flo} {x : ℚ} (hx : x ≠ 0) (h : d.Rounds x) (h' : e.Rounds x) :
    d = e := by
  unfold Flo.Rounds at h h'
  split at h
  · rename_i hc
    rw [if_pos hc] at h'
    rw [h, h']
  · rename_i hc
    rw [if_neg hc] at h'
    obtain ⟨s, v, rfl, h1, h2, h3⟩ := h
    obtain ⟨s', v', rfl, h1', h2', h3'⟩ := h'
    rw [h3.unique h3']
    rcases lt_or_gt_of_ne hx with hx | hx
    · rw [h1 hx, h1' hx]
    · rw [h2 hx, h2' hx]

end Meevax.Number

namespace Meevax.Number

/-- Neighbouring magnitudes are apart by a part in `2 ^ 53`. -/
theorem Rep.gap {m w : ℚ} (hm : Rep m) (hw : Rep w) (h : w < m) : m ≤ 2 ^ 53 * (m - w) := by
  obtain ⟨k, e, hk, -, -, rfl⟩ := hm
  obtain ⟨j, f, hj, -, -, rfl⟩ := hw
  have hp := two_zpow_pos e
  have hq := two_zpow_pos f
  have hk' : (k : ℚ) ≤ 2 ^ 53 := by exact_mod_cast hk.le
  rcases le_or_gt e f with hle | hgt
  · obtain ⟨n, rfl⟩ := Int.le.dest hle
    rw [zpow_add₀ (by norm_num), zpow_natCast] at h ⊢
    have h1 : (((j * 2 ^ n : ℕ) : ℚ)) < k := by
      push_cast
      have : (2 : ℚ) ^ e * (j * 2 ^ n) < 2 ^ e * k := by linarith
      exact lt_of_mul_lt_mul_left this hp.le
    have h2 : j * 2 ^ n + 1 ≤ k := by
      have : j * 2 ^ n < k := by exact_mod_cast h1
      omega
    have h3 : (j : ℚ) * 2 ^ n + 1 ≤ k := by exact_mod_cast h2
    have h4 : 2 ^ 53 * ((k : ℚ) * 2 ^ e - j * (2 ^ e * 2 ^ n)) = 2 ^ 53 * ((k - j * 2 ^ n) * 2 ^ e) := by
      ring
    rw [h4]
    have h5 : 1 * (2 : ℚ) ^ e ≤ (k - j * 2 ^ n) * 2 ^ e :=
      mul_le_mul_of_nonneg_right (by linarith) hp.le
    calc (k : ℚ) * 2 ^ e ≤ 2 ^ 53 * 2 ^ e := mul_le_mul_of_nonneg_right hk' hp.le
      _ ≤ _ := by linarith
  · obtain ⟨n, rfl⟩ := Int.le.dest hgt.le
    have hj' : (j : ℚ) + 1 ≤ 2 ^ 53 := by exact_mod_cast hj
    have e1 : (k : ℚ) * 2 ^ (f + n) = ((k * 2 ^ n : ℕ) : ℚ) * 2 ^ f := by
      rw [zpow_add₀ (by norm_num), zpow_natCast]
      push_cast
      ring
    rw [e1] at h ⊢
    generalize k * 2 ^ n = l at *
    have h1 : j + 1 ≤ l := by
      have : (j : ℚ) < l := lt_of_mul_lt_mul_right h hq.le
      have : j < l := by exact_mod_cast this
      omega
    have h2 : (j : ℚ) + 1 ≤ l := by exact_mod_cast h1
    have h3 : (l : ℚ) ≤ 2 ^ 53 * (l - j) := by
      rcases le_or_gt (l : ℚ) (2 ^ 53) with h3 | h3
      · linarith
      · linarith
    calc (l : ℚ) * 2 ^ f ≤ 2 ^ 53 * (l - j) * 2 ^ f := mul_le_mul_of_nonneg_right h3 hq.le
      _ = _ := by ring

/-- A number less than a part in `10 ^ 17` below a magnitude rounds to it. -/
theorem Nearest.below {m d : ℚ} (hm : Rep m) (hd : d ≤ m) (h : 10 ^ 17 * (m - d) < m) : Nearest d m := by
  have key : ∀ w, Rep w → w ≠ m → |d - m| < |d - w| := by
    intro w hw hne
    rw [abs_of_nonpos (by linarith)]
    rcases lt_or_gt_of_ne hne with hlt | hlt
    · have := hm.gap hw hlt
      rw [abs_of_nonneg (by linarith)]
      linarith
    · rw [abs_of_nonpos (by linarith)]
      linarith
  refine ⟨hm, fun w hw => ?_, ?_⟩
  · by_cases hne : w = m
    · rw [hne]
    · exact (key w hw hne).le
  · rintro ⟨w, hw, hne, heq⟩
    exact absurd heq (key w hw hne).ne'

/-- A magnitude rounds to itself. -/
theorem Nearest.self {m : ℚ} (hm : Rep m) : Nearest m m := by
  refine ⟨hm, fun w _ => by simp, ?_⟩
  rintro ⟨w, _, hne, heq⟩
  rw [sub_self, abs_zero] at heq
  exact absurd (sub_eq_zero.1 (abs_eq_zero.1 heq)).symm hne

end Meevax.Number
