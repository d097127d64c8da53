import Verif.Spec.Inexact
import Verif.Lemmas.NumberDiv
import Verif.Lemmas.NumberOrder

/-
The grid of binary64, truncation and rounding to nearest.
-/

namespace Meevax.Number

theorem two_zpow_pos (e : ℤ) : (0 : ℚ) < 2 ^ e := zpow_pos (by norm_num) _

theorem Rep.nonneg {v : ℚ} (h : Rep v) : 0 ≤ v := by
  obtain ⟨m, e, _, _, _, rfl⟩ := h
  exact mul_nonneg (Nat.cast_nonneg _) (two_zpow_pos e).le

theorem Rep.lt {v : ℚ} (h : Rep v) : v < 2 ^ 1024 := by
  obtain ⟨m, e, h1, _, h3, rfl⟩ := h
  have : (m : ℚ) < 2 ^ 53 := by exact_mod_cast h1
  calc (m : ℚ) * 2 ^ e < 2 ^ 53 * 2 ^ e := by
        have := two_zpow_pos e
        gcongr
    _ ≤ 2 ^ 53 * 2 ^ (971 : ℤ) := by
        have : (2 : ℚ) ^ e ≤ 2 ^ (971 : ℤ) := zpow_le_zpow_right₀ (by norm_num) h3
        gcongr
    _ = 2 ^ 1024 := by
        rw [show (971 : ℤ) = ((971 : ℕ) : ℤ) from rfl, zpow_natCast, ← pow_add]

theorem Rep.zero : Rep 0 := ⟨0, 0, by norm_num, by norm_num, by norm_num, by norm_num⟩

/-- The spacing at `x`. -/
theorem ulp_grid {x : ℚ} (hx : x ≠ 0) :
    ∃ E : ℤ, ulp x = 2 ^ E ∧ -1074 ≤ E ∧ |x| < 2 ^ 53 * 2 ^ E ∧
      (E = -1074 ∨ 2 ^ 52 * 2 ^ E ≤ |x|) := by
  have hpos : 0 < |x| := abs_pos.2 hx
  refine ⟨Max.max (Int.log 2 |x| - 52) (-1074), rfl, le_max_right _ _, ?_, ?_⟩
  · have h1 := Int.lt_zpow_succ_log_self (b := 2) (by norm_num) |x|
    refine lt_of_lt_of_le h1 ?_
    rw [show (2 : ℚ) ^ 53 = 2 ^ (53 : ℤ) by norm_cast, ← zpow_add₀ (by norm_num)]
    refine zpow_le_zpow_right₀ (by norm_num) ?_
    have := le_max_left (Int.log 2 |x| - 52) (-1074)
    omega
  · rcases le_total (Int.log 2 |x| - 52) (-1074) with h | h
    · left
      exact max_eq_right h
    · right
      rw [max_eq_left h, show (2 : ℚ) ^ 52 = 2 ^ (52 : ℤ) by norm_cast,
        ← zpow_add₀ (by norm_num)]
      have h1 := Int.zpow_log_le_self (b := 2) (by norm_num) hpos
      rwa [show (52 : ℤ) + (Int.log 2 |x| - 52) = Int.log 2 |x| by ring]

/-- Below `2 ^ 1024` the spacing is at most `2 ^ 971`. -/
theorem ulp_top {x : ℚ} {E : ℤ} (h : |x| < 2 ^ 1024)
    (hE : E = -1074 ∨ 2 ^ 52 * (2 : ℚ) ^ E ≤ |x|) : E ≤ 971 := by
  rcases hE with rfl | hE
  · norm_num
  · by_contra hc
    have h1 : (2 : ℚ) ^ (972 : ℤ) ≤ 2 ^ E := zpow_le_zpow_right₀ (by norm_num) (by omega)
    have h2 : (2 : ℚ) ^ 1024 ≤ 2 ^ 52 * 2 ^ E := by
      calc (2 : ℚ) ^ 1024 = 2 ^ 52 * 2 ^ (972 : ℤ) := by
            rw [show (972 : ℤ) = ((972 : ℕ) : ℤ) from rfl, zpow_natCast, ← pow_add]
        _ ≤ _ := by gcongr
    exact absurd h (not_lt.2 (h2.trans hE))

/-- Every representable magnitude is on the grid at `x`, or below the grid's binade. -/
theorem Rep.onGrid {w : ℚ} {E : ℤ} (h : Rep w) : (∃ j : ℤ, w = 2 ^ E * j) ∨
    (w < 2 ^ 52 * 2 ^ E ∧ -1074 < E) := by
  obtain ⟨m, e, h1, h2, h3, rfl⟩ := h
  by_cases hc : E ≤ e
  · left
    obtain ⟨k, rfl⟩ := Int.le.dest hc
    refine ⟨m * 2 ^ k, ?_⟩
    push_cast
    rw [zpow_add₀ (by norm_num), zpow_natCast]
    ring
  · right
    refine ⟨?_, by omega⟩
    have hm : (m : ℚ) < 2 ^ 53 := by exact_mod_cast h1
    calc (m : ℚ) * 2 ^ e < 2 ^ 53 * 2 ^ e := by
          have := two_zpow_pos e
          gcongr
      _ = 2 ^ 52 * 2 ^ (e + 1) := by
          rw [zpow_add₀ (by norm_num)]
          ring
      _ ≤ 2 ^ 52 * 2 ^ E := by
          have : (2 : ℚ) ^ (e + 1) ≤ 2 ^ E := zpow_le_zpow_right₀ (by norm_num) (by omega)
          gcongr

/-- The points of the grid are representable. -/
theorem Rep.ofGrid {E k : ℤ} (h0 : 0 ≤ k) (h1 : k ≤ 2 ^ 53) (hE : -1074 ≤ E)
    (ht : (2 : ℚ) ^ E * k < 2 ^ 1024) : Rep (2 ^ E * k) := by
  obtain ⟨m, rfl⟩ := Int.eq_ofNat_of_zero_le h0
  by_cases hm : m = 0
  · subst hm
    simpa using Rep.zero
  have hm1 : 1 ≤ m := Nat.one_le_iff_ne_zero.2 hm
  rcases Nat.lt_or_ge m (2 ^ 53) with hlt | hge
  · by_cases hE2 : E ≤ 971
    · exact ⟨m, E, hlt, hE, hE2, by push_cast; ring⟩
    · -- a big spacing leaves few points
      obtain ⟨d, hd⟩ := Int.le.dest (show (971 : ℤ) ≤ E by omega)
      refine ⟨m * 2 ^ d, 971, ?_, by norm_num, le_refl _, ?_⟩
      · have e1 : (2 : ℚ) ^ E * m = (m * 2 ^ d : ℕ) * 2 ^ 971 := by
          rw [← hd, zpow_add₀ (by norm_num), zpow_natCast,
            show (971 : ℤ) = ((971 : ℕ) : ℤ) from rfl, zpow_natCast]
          push_cast
          ring
        have e2 : ((m * 2 ^ d : ℕ) : ℚ) * 2 ^ 971 < 2 ^ 53 * 2 ^ 971 := by
          rw [← e1, ← pow_add]
          simpa using ht
        have e3 : ((m * 2 ^ d : ℕ) : ℚ) < 2 ^ 53 := lt_of_mul_lt_mul_right e2 (by positivity)
        exact_mod_cast e3
      · rw [← hd, zpow_add₀ (by norm_num), zpow_natCast]
        push_cast
        ring
  · have hme : m = 2 ^ 53 := by
      have : m ≤ 2 ^ 53 := by exact_mod_cast h1
      omega
    subst hme
    have hE2 : E < 971 := by
      by_contra hc
      have h1 : (2 : ℚ) ^ (971 : ℤ) ≤ 2 ^ E := zpow_le_zpow_right₀ (by norm_num) (by omega)
      have h2 : (2 : ℚ) ^ 1024 ≤ 2 ^ E * 2 ^ 53 := by
        calc (2 : ℚ) ^ 1024 = 2 ^ (971 : ℤ) * 2 ^ 53 := by
              rw [show (971 : ℤ) = ((971 : ℕ) : ℤ) from rfl, zpow_natCast, ← pow_add]
          _ ≤ _ := by gcongr
      push_cast at ht
      exact absurd ht (not_lt.2 h2)
    refine ⟨2 ^ 52, E + 1, by norm_num, by omega, by omega, ?_⟩
    rw [zpow_add₀ (by norm_num)]
    push_cast
    ring

/-- Rounding down to the grid is truncation. -/
theorem truncates_grid {x : ℚ} (hx : x ≠ 0) (h : |x| < 2 ^ 1024) :
    Truncates |x| (ulp x * ⌊|x| / ulp x⌋) := by
  obtain ⟨E, hu, hE, hlt, hlow⟩ := ulp_grid hx
  have hup := two_zpow_pos E
  rw [hu]
  have hfl : (2 : ℚ) ^ E * ⌊|x| / 2 ^ E⌋ ≤ |x| := by
    calc (2 : ℚ) ^ E * ⌊|x| / 2 ^ E⌋ ≤ 2 ^ E * (|x| / 2 ^ E) := by
          gcongr
          exact Int.floor_le _
      _ = |x| := by field_simp
  refine ⟨Rep.ofGrid (Int.floor_nonneg.2 (by positivity)) ?_ hE (lt_of_le_of_lt hfl h), hfl, ?_⟩
  · have : |x| / 2 ^ E < 2 ^ 53 := by
      rw [div_lt_iff₀ hup]
      exact hlt
    have : ⌊|x| / 2 ^ E⌋ < 2 ^ 53 := Int.floor_lt.2 (by push_cast; exact this)
    omega
  · intro w hw hwx
    rcases hw.onGrid (E := E) with ⟨j, rfl⟩ | ⟨hsm, hne⟩
    · have : (j : ℚ) ≤ |x| / 2 ^ E := by
        rw [le_div_iff₀ hup]
        linarith [mul_comm ((2 : ℚ) ^ E) j]
      have : j ≤ ⌊|x| / 2 ^ E⌋ := Int.le_floor.2 this
      have : (j : ℚ) ≤ ⌊|x| / 2 ^ E⌋ := by exact_mod_cast this
      gcongr
    · rcases hlow with h1 | h1
      · omega
      · have : ((2 ^ 52 : ℤ) : ℚ) ≤ |x| / 2 ^ E := by
          rw [le_div_iff₀ hup]
          push_cast
          exact h1
        have : (2 ^ 52 : ℤ) ≤ ⌊|x| / 2 ^ E⌋ := Int.le_floor.2 this
        have : ((2 ^ 52 : ℤ) : ℚ) ≤ ⌊|x| / 2 ^ E⌋ := by exact_mod_cast this
        push_cast at this
        nlinarith

theorem Truncates.unique {x v w : ℚ} (h : Truncates x v) (h' : Truncates x w) : v = w :=
  le_antisymm (h'.2.2 v h.1 h.2.1) (h.2.2 w h'.1 h'.2.1)

theorem Truncates.self {v : ℚ} (h : Rep v) : Truncates v v := ⟨h, le_refl _, fun _ _ hw => hw⟩

theorem Truncates.mono {x y v w : ℚ} (h : Truncates x v) (h' : Truncates y w) (hxy : x ≤ y) :
    v ≤ w := h'.2.2 v h.1 (h.2.1.trans hxy)

/-- The two neighbours on the grid, and which of them is chosen. -/
theorem roundEven_spec (z : Bool) (x : ℚ) : (roundEven z x).Rounds x := by
  by_cases hx : x = 0
  · subst hx
    have e : ¬ ((2 : ℚ) ^ 1024 - 2 ^ 970 ≤ |0|) := by
      have : (2 : ℚ) ^ 970 < 2 ^ 1024 := two_pow_lt (by norm_num)
      rw [abs_zero, not_le]
      exact sub_pos.2 this
    rw [Flo.Rounds, if_neg e]
    refine ⟨z, 0, by simp [roundEven], by simp, by simp, ?_⟩
    refine ⟨Rep.zero, fun w _ => by simp, ?_⟩
    rintro ⟨w, _, hne, heq⟩
    simp at heq
    exact absurd heq hne
  obtain ⟨E, hu, hE, hlt, hlow⟩ := ulp_grid hx
  have hup := two_zpow_pos E
  rw [roundEven, if_neg hx, hu]
  have hx0 : 0 < |x| := abs_pos.2 hx
  have hxe : |x| = 2 ^ E * (|x| / 2 ^ E) := by field_simp
  have hfl := Int.floor_le (|x| / 2 ^ E)
  have hfu := Int.lt_floor_add_one (|x| / 2 ^ E)
  have hq0 : 0 < |x| / 2 ^ E := by positivity
  have hq1 : |x| / 2 ^ E < 2 ^ 53 := by
    rw [div_lt_iff₀ hup]
    exact hlt
  have hn0 : 0 ≤ ⌊|x| / 2 ^ E⌋ := Int.floor_nonneg.2 hq0.le
  have hn1 : ⌊|x| / 2 ^ E⌋ < 2 ^ 53 := Int.floor_lt.2 (by push_cast; exact hq1)
  have hq2 : E = -1074 ∨ (2 : ℤ) ^ 52 ≤ ⌊|x| / 2 ^ E⌋ := by
    rcases hlow with h | h
    · exact Or.inl h
    · right
      refine Int.le_floor.2 ?_
      rw [le_div_iff₀ hup]
      push_cast
      exact h
  generalize hqd : |x| / 2 ^ E = q at *
  generalize hnd : ⌊q⌋ = n at *
  simp only []
  -- the chosen point is the nearest grid point
  obtain ⟨m, hm, hmn, hnear, htie⟩ : ∃ m : ℤ,
      (if q - n < 1 / 2 ∨ (q - n = 1 / 2 ∧ n % 2 = 0) then n else n + 1) = m ∧
      (m = n ∨ m = n + 1) ∧ (∀ j : ℤ, |q - m| ≤ |q - j|) ∧
      (∀ j : ℤ, j ≠ m → |q - j| = |q - m| → m % 2 = 0) := by
    refine ⟨_, rfl, ?_, ?_, ?_⟩
    · split <;> simp
    · intro j
      have hj : (j : ℚ) ≤ n ∨ (n : ℚ) + 1 ≤ j := by
        rcases lt_or_ge n j with h | h
        · right
          exact_mod_cast h
        · left
          exact_mod_cast h
      split
      · rename_i hc
        have hc' : q - n ≤ 1 / 2 := by
          rcases hc with h | h
          · exact h.le
          · exact h.1.le
        rw [abs_of_nonneg (by linarith)]
        rcases hj with h | h
        · rw [abs_of_nonneg (by linarith)]
          linarith
        · rw [abs_of_nonpos (by linarith)]
          linarith
      · rename_i hc
        push Not at hc
        have hc' := hc.1
        push_cast
        rw [abs_of_nonpos (by linarith)]
        rcases hj with h | h
        · rw [abs_of_nonneg (by linarith)]
          linarith
        · rw [abs_of_nonpos (by linarith)]
          linarith
    · intro j hne heq
      have hj : (j : ℚ) ≤ n ∨ (n : ℚ) + 1 ≤ j := by
        rcases lt_or_ge n j with h | h
        · right
          exact_mod_cast h
        · left
          exact_mod_cast h
      by_cases hc : q - n < 1 / 2 ∨ (q - n = 1 / 2 ∧ n % 2 = 0)
      · rw [if_pos hc] at hne heq ⊢
        rw [abs_of_nonneg (show 0 ≤ q - n by linarith)] at heq
        have hc' : q - n ≤ 1 / 2 := by
          rcases hc with h | h
          · exact h.le
          · exact h.1.le
        rcases hj with h | h
        · rw [abs_of_nonneg (by linarith)] at heq
          have : (j : ℚ) = n := by linarith
          exact absurd (by exact_mod_cast this) hne
        · rw [abs_of_nonpos (by linarith)] at heq
          rcases hc with h' | h'
          · linarith
          · exact h'.2
      · rw [if_neg hc] at hne heq ⊢
        push Not at hc
        push_cast at heq
        rw [abs_of_nonpos (show q - (n + 1) ≤ 0 by linarith)] at heq
        have h1 := hc.1
        rcases hj with h | h
        · rw [abs_of_nonneg (by linarith)] at heq
          have h2 : q - n = 1 / 2 := by linarith
          have := hc.2 h2
          omega
        · rw [abs_of_nonpos (by linarith)] at heq
          have : (j : ℚ) = n + 1 := by linarith
          exact absurd (by exact_mod_cast this) hne
  rw [hm]
  -- overflow
  have hover : (2 : ℚ) ^ 1024 ≤ 2 ^ E * m ↔ 2 ^ 1024 - 2 ^ 970 ≤ |x| := by
    rcases lt_or_ge |x| (2 ^ 1024) with hb | hb
    · have htop := ulp_top hb hlow
      rcases lt_or_ge E 971 with hEl | hEg
      · -- the grid is finer: neither side holds
        have hEle : (2 : ℚ) ^ E ≤ 2 ^ (970 : ℤ) := zpow_le_zpow_right₀ (by norm_num) (by omega)
        rw [show (970 : ℤ) = ((970 : ℕ) : ℤ) from rfl, zpow_natCast] at hEle
        have hm53 : (m : ℚ) ≤ 2 ^ 53 := by
          have : m ≤ 2 ^ 53 := by omega
          exact_mod_cast this
        have p1 : (2 : ℚ) ^ 1023 = 2 ^ 970 * 2 ^ 53 := by rw [← pow_add]
        have p2 : (2 : ℚ) ^ 1024 = 2 * 2 ^ 1023 := by rw [pow_succ]; ring
        have p3 : (2 : ℚ) ^ 970 < 2 ^ 1023 := two_pow_lt (by norm_num)
        have h1 : (2 : ℚ) ^ E * m ≤ 2 ^ 1023 := by
          rw [p1]
          calc (2 : ℚ) ^ E * m ≤ 2 ^ E * 2 ^ 53 := by gcongr
            _ ≤ _ := by gcongr
        have h2 : |x| < 2 ^ 1023 := by
          rw [p1]
          calc |x| < 2 ^ 53 * 2 ^ E := hlt
            _ = 2 ^ E * 2 ^ 53 := by ring
            _ ≤ _ := by gcongr
        have p4 : (0 : ℚ) < 2 ^ 970 := by positivity
        clear p1 hb
        generalize (2 : ℚ) ^ 1024 = A at *
        generalize (2 : ℚ) ^ 1023 = B at *
        generalize (2 : ℚ) ^ 970 = C at *
        constructor
        · intro h
          linarith
        · intro h
          linarith
      · obtain rfl : E = 971 := by omega
        have e971 : (2 : ℚ) ^ (971 : ℤ) = 2 ^ 971 := by
          rw [show (971 : ℤ) = ((971 : ℕ) : ℤ) from rfl, zpow_natCast]
        rw [e971] at *
        have p1 : (2 : ℚ) ^ 1024 = 2 ^ 971 * 2 ^ 53 := by rw [← pow_add]
        have p2 : (2 : ℚ) ^ 971 = 2 * 2 ^ 970 := by rw [pow_succ]; ring
        have hmul : (2 : ℚ) ^ 1024 ≤ 2 ^ 971 * m ↔ (2 : ℤ) ^ 53 ≤ m := by
          rw [p1]
          constructor
          · intro h
            have := le_of_mul_le_mul_left h (by positivity : (0 : ℚ) < 2 ^ 971)
            exact_mod_cast this
          · intro h
            have : (2 : ℚ) ^ 53 ≤ m := by exact_mod_cast h
            gcongr
        rw [hmul]
        have hx' : |x| = 2 ^ 971 * q := hxe
        have hthr : (2 : ℚ) ^ 1024 - 2 ^ 970 ≤ |x| ↔ 2 ^ 53 - 1 / 2 ≤ q := by
          rw [hx', p1, show (2 : ℚ) ^ 971 * 2 ^ 53 - 2 ^ 970 = 2 ^ 971 * (2 ^ 53 - 1 / 2) by
            rw [p2]; ring]
          constructor
          · intro h
            exact le_of_mul_le_mul_left h (by positivity)
          · intro h
            gcongr
        rw [hthr]
        constructor
        · intro h
          have hmn' : m = n + 1 ∧ n = 2 ^ 53 - 1 := by omega
          have h1 := hnear n
          rw [hmn'.1] at h1
          push_cast at h1
          rw [abs_of_nonpos (show q - (n + 1) ≤ 0 by linarith),
            abs_of_nonneg (show 0 ≤ q - n by linarith)] at h1
          have : (n : ℚ) = 2 ^ 53 - 1 := by rw [hmn'.2]; push_cast; ring
          linarith
        · intro h
          have hn : n = 2 ^ 53 - 1 := by
            have : (2 : ℤ) ^ 53 - 1 ≤ n := by
              rw [← hnd]
              refine Int.le_floor.2 ?_
              push_cast
              linarith
            omega
          by_contra hc
          have hme : m = n := by omega
          have hnq : (n : ℚ) = 2 ^ 53 - 1 := by rw [hn]; push_cast; ring
          have h1 := hnear (n + 1)
          rw [hme] at h1
          push_cast at h1
          rw [abs_of_nonpos (show q - (n + 1) ≤ 0 by linarith),
            abs_of_nonneg (show 0 ≤ q - n by linarith)] at h1
          have h2 : |q - ((n + 1 : ℤ) : ℚ)| = |q - m| := by
            rw [hme]
            push_cast
            rw [abs_of_nonpos (show q - (n + 1) ≤ 0 by linarith),
              abs_of_nonneg (show 0 ≤ q - n by linarith)]
            linarith
          have := htie (n + 1) (by omega) h2
          omega
    · refine iff_of_true ?_ ?_
      · -- the truncation is already beyond
        have hE971 : 971 < E := by
          by_contra hc
          have h1 : (2 : ℚ) ^ E ≤ 2 ^ (971 : ℤ) := zpow_le_zpow_right₀ (by norm_num) (by omega)
          have h2 : (2 : ℚ) ^ 53 * 2 ^ E ≤ 2 ^ 1024 := by
            calc (2 : ℚ) ^ 53 * 2 ^ E ≤ 2 ^ 53 * 2 ^ (971 : ℤ) := by gcongr
              _ = 2 ^ 1024 := by
                rw [show (971 : ℤ) = ((971 : ℕ) : ℤ) from rfl, zpow_natCast, ← pow_add]
          exact absurd hlt (not_lt.2 (h2.trans hb))
        have hn52 : (2 : ℤ) ^ 52 ≤ n := by
          rcases hq2 with h | h
          · omega
          · exact h
        have hm52 : (2 : ℚ) ^ 52 ≤ m := by
          have : (2 : ℤ) ^ 52 ≤ m := by omega
          exact_mod_cast this
        have h1 : (2 : ℚ) ^ (972 : ℤ) ≤ 2 ^ E := zpow_le_zpow_right₀ (by norm_num) (by omega)
        calc (2 : ℚ) ^ 1024 = 2 ^ (972 : ℤ) * 2 ^ 52 := by
              rw [show (972 : ℤ) = ((972 : ℕ) : ℤ) from rfl, zpow_natCast, ← pow_add]
          _ ≤ (2 : ℚ) ^ E * m := by gcongr
      · have : (0 : ℚ) < 2 ^ 970 := by positivity
        exact (sub_le_self _ this.le).trans hb
  rw [Flo.Rounds]
  by_cases ho : (2 : ℚ) ^ 1024 ≤ 2 ^ E * m
  · rw [if_pos (hover.1 ho), if_pos ho]
  · rw [if_neg (fun h => ho (hover.2 h)), if_neg ho]
    refine ⟨_, _, rfl, fun h => by simp [h], fun h => by simp; linarith, ?_⟩
    have hdist : ∀ j : ℚ, |(|x|) - 2 ^ E * j| = 2 ^ E * |q - j| := by
      intro j
      rw [hxe, ← mul_sub, abs_mul, abs_of_pos hup]
    have hrep : Rep (2 ^ E * m) := Rep.ofGrid (by omega) (by omega) hE (not_le.1 ho)
    -- a point below the binade is no nearer than its least point
    have hsmall : ∀ w, Rep w → w < 2 ^ 52 * 2 ^ E → -1074 < E →
        |(|x|) - 2 ^ E * m| < |(|x|) - w| := by
      intro w hw hsm hne
      have hn52 : (2 : ℤ) ^ 52 ≤ n := by
        rcases hq2 with h | h
        · omega
        · exact h
      have hn52' : (2 : ℚ) ^ 52 ≤ n := by exact_mod_cast hn52
      have h1 : 2 ^ 52 * (2 : ℚ) ^ E ≤ 2 ^ E * n := by
        rw [mul_comm]
        gcongr
      have h2 : (2 : ℚ) ^ E * n ≤ |x| := by
        rw [hxe]
        gcongr
      calc |(|x|) - 2 ^ E * m| = 2 ^ E * |q - m| := hdist m
        _ ≤ 2 ^ E * |q - n| := by
          have := hnear n
          gcongr
        _ = |(|x|) - 2 ^ E * n| := (hdist n).symm
        _ = |x| - 2 ^ E * n := abs_of_nonneg (by linarith)
        _ < |x| - w := by linarith
        _ = _ := (abs_of_nonneg (by linarith)).symm
    refine ⟨hrep, ?_, ?_⟩
    · intro w hw
      rcases hw.onGrid (E := E) with ⟨j, rfl⟩ | ⟨hsm, hne⟩
      · rw [hdist, hdist]
        have := hnear j
        gcongr
      · exact (hsmall w hw hsm hne).le
    · rintro ⟨w, hw, hne, heq⟩
      rcases hw.onGrid (E := E) with ⟨j, rfl⟩ | ⟨hsm, hne'⟩
      · rw [hdist, hdist] at heq
        have heq' : |q - j| = |q - m| := mul_left_cancel₀ hup.ne' heq
        have hev := htie j (by rintro rfl; exact hne rfl) heq'
        obtain ⟨k, hk⟩ := Int.dvd_of_emod_eq_zero hev
        have hk0 : 0 ≤ k := by omega
        obtain ⟨k', rfl⟩ := Int.eq_ofNat_of_zero_le hk0
        refine ⟨k', E, ?_, ?_, hE, ?_⟩
        · rw [hk]
          push_cast
          ring
        · have : m ≤ 2 ^ 53 := by omega
          omega
        · rcases hq2 with h | h
          · exact Or.inr h
          · left
            have : (2 : ℤ) ^ 52 ≤ m := by omega
            omega
      · have := hsmall w hw hsm hne'
        rw [heq] at this
        exact absurd this (lt_irrefl _)

end Meevax.Number
