import Verif.Lemmas.NumberOrder

/-
Conversion to a double, rounding to an integer, integer division, gcd and lcm.
-/

namespace Meevax.Number

/-! ### Conversion to a double -/

theorem two_pow_lt {a b : Nat} (h : a < b) : (2 : ℚ) ^ a < 2 ^ b :=
  pow_lt_pow_right₀ (by norm_num) h

theorem ulp_pos (x : ℚ) : 0 < ulp x := by
  unfold ulp
  exact zpow_pos (by norm_num) _

/-- Below `2 ^ (53 - s)` the spacing is `2 ^ -(k + s)`. -/
theorem ulp_fine {x : ℚ} {s : Nat} (hs : s ≤ 1) (h : |x| < 2 ^ (53 - s : Nat)) :
    ∃ k : Nat, ulp x * 2 ^ (k + s) = 1 := by
  have hlog : Int.log 2 |x| ≤ 52 - s := by
    by_cases h0 : |x| = 0
    · rw [h0, Int.log_zero_right]
      omega
    · have hp : 0 < |x| := lt_of_le_of_ne (abs_nonneg x) (Ne.symm h0)
      have := (Int.lt_zpow_iff_log_lt (b := 2) (by norm_num) (x := ((53 - s : Nat) : Int)) hp).1
        (by exact_mod_cast h)
      omega
  obtain ⟨k, hk⟩ : ∃ k : Nat, Max.max (Int.log 2 |x| - 52) (-1074) = -((k + s : Nat) : Int) := by
    refine ⟨(-Max.max (Int.log 2 |x| - 52) (-1074) - s).toNat, ?_⟩
    have : Max.max (Int.log 2 |x| - 52) (-1074) ≤ -s := by
      apply max_le <;> omega
    omega
  refine ⟨k, ?_⟩
  unfold ulp
  rw [hk, zpow_neg, zpow_natCast]
  field_simp

/-- What the conversion to a double keeps: the magnitude becomes the greatest representable one that
is not greater. -/
theorem getD_spec {q : Mpq} {x : ℚ} (hq : (q.num : ℚ) / q.den = x) (h : |x| < 2 ^ 1024) :
    ∃ t : ℚ, mpqGetD q = some (if x < 0 then -t else t) ∧ 0 ≤ t ∧ t ≤ |x| ∧
      ∀ j : Int, ulp x * j ≤ |x| → ulp x * j ≤ t := by
  have hv : q.val = x := hq
  unfold mpqGetD
  simp only [hv]
  by_cases h0 : x = 0
  · refine ⟨0, by simp [h0], le_refl _, by simp, ?_⟩
    intro j hj
    simpa [h0] using hj
  · have hu := ulp_pos x
    refine ⟨ulp x * ⌊|x| / ulp x⌋, ?_, ?_, ?_, ?_⟩
    · rw [if_neg h0, if_neg (not_le.2 h)]
      split <;> rfl
    · have : (0 : ℚ) ≤ ⌊|x| / ulp x⌋ := by
        have : 0 ≤ ⌊|x| / ulp x⌋ := Int.floor_nonneg.2 (by positivity)
        exact_mod_cast this
      positivity
    · have := Int.floor_le (|x| / ulp x)
      calc ulp x * ⌊|x| / ulp x⌋ ≤ ulp x * (|x| / ulp x) := by gcongr
        _ = |x| := by field_simp
    · intro j hj
      have : (j : ℚ) ≤ |x| / ulp x := by
        rw [le_div_iff₀ hu]
        linarith [mul_comm (ulp x) (j : ℚ)]
      have : j ≤ ⌊|x| / ulp x⌋ := Int.le_floor.2 this
      have : (j : ℚ) ≤ ⌊|x| / ulp x⌋ := by exact_mod_cast this
      gcongr

/-- Below `2 ^ 53` integers are representable. -/
theorem getD_int {q : Mpq} {x : ℚ} (hq : (q.num : ℚ) / q.den = x) (h : |x| < 2 ^ 53) :
    ∃ t : ℚ, mpqGetD q = some (if x < 0 then -t else t) ∧ 0 ≤ t ∧ t ≤ |x| ∧ ⌊t⌋ = ⌊|x|⌋ := by
  obtain ⟨t, h1, h2, h3, h4⟩ := getD_spec hq (h.trans (two_pow_lt (by omega)))
  refine ⟨t, h1, h2, h3, le_antisymm (Int.floor_le_floor h3) ?_⟩
  obtain ⟨k, hk⟩ := ulp_fine (s := 0) (by omega) (by simpa using h)
  rw [Int.le_floor]
  have := h4 (2 ^ (k + 0) * ⌊|x|⌋) (by
    push_cast
    rw [← mul_assoc, hk, one_mul]
    exact Int.floor_le _)
  push_cast at this
  rwa [← mul_assoc, hk, one_mul] at this

/-- Below `2 ^ 52` half-integers are representable. -/
theorem getD_half {q : Mpq} {x : ℚ} (hq : (q.num : ℚ) / q.den = x) (h : |x| < 2 ^ 52) :
    ∃ t : ℚ, mpqGetD q = some (if x < 0 then -t else t) ∧ 0 ≤ t ∧ t ≤ |x| ∧
      ⌊t + 1 / 2⌋ = ⌊|x| + 1 / 2⌋ := by
  obtain ⟨t, h1, h2, h3, h4⟩ := getD_spec hq (h.trans (two_pow_lt (by omega)))
  refine ⟨t, h1, h2, h3, le_antisymm (Int.floor_le_floor (by linarith)) ?_⟩
  obtain ⟨k, hk⟩ := ulp_fine (s := 1) (by omega) (by simpa using h)
  rw [Int.le_floor]
  have hfl := Int.floor_le (|x| + 1 / 2)
  generalize ⌊|x| + 1 / 2⌋ = m at hfl ⊢
  have hk' : ulp x * 2 ^ k = 1 / 2 := by
    rw [pow_succ] at hk
    linarith
  have e : ulp x * ((2 ^ k * (2 * m - 1) : Int) : ℚ) = m - 1 / 2 := by
    push_cast
    rw [← mul_assoc, hk']
    ring
  have := h4 (2 ^ k * (2 * m - 1)) (by rw [e]; linarith)
  rw [e] at this
  linarith

/-- A short numerator keeps a non-integer away from the integers. -/
theorem getD_short {q : Mpq} {x : ℚ} (hq : (q.num : ℚ) / q.den = x) (hc : q.Canonical)
    (hn : |q.num| ≤ 2 ^ 52) (hd : q.den ≤ 2 ^ 1074) :
    ∃ t : ℚ, mpqGetD q = some (if x < 0 then -t else t) ∧ 0 ≤ t ∧ t ≤ |x| ∧ ⌊t⌋ = ⌊|x|⌋ ∧
      ⌈t⌉ = ⌈|x|⌉ := by
  have hdpos := hc.den_posQ
  have hd1 : (1 : ℚ) ≤ q.den := by
    have := hc.1
    exact_mod_cast this
  have hnQ : |(q.num : ℚ)| ≤ 2 ^ 52 := by exact_mod_cast hn
  have habs : |x| = |(q.num : ℚ)| / q.den := by rw [← hq, abs_div, abs_of_pos hdpos]
  have hxle : |x| ≤ 2 ^ 52 := by
    rw [habs, div_le_iff₀ hdpos]
    nlinarith
  have hlt : |x| < 2 ^ 53 := lt_of_le_of_lt hxle (by norm_num)
  obtain ⟨t, h1, h2, h3, h4⟩ := getD_spec hq (hlt.trans (two_pow_lt (by omega)))
  obtain ⟨t', h1', h2', h3', h4'⟩ := getD_int hq hlt
  have htt : t = t' := by
    rw [h1] at h1'
    have := Option.some.inj h1'
    split at this
    · exact neg_inj.1 this
    · exact this
  subst htt
  refine ⟨t, h1, h2, h3, h4', ?_⟩
  by_cases hint : (⌊|x|⌋ : ℚ) = |x|
  · have h5 : |x| ≤ t := by
      rw [← hint, ← h4']
      exact Int.floor_le t
    rw [le_antisymm h3 h5]
  · have hfl := Int.floor_le |x|
    have hltf : (⌊|x|⌋ : ℚ) < |x| := lt_of_le_of_ne hfl hint
    obtain ⟨k, hk⟩ := ulp_fine (s := 0) (by omega) (by simpa using hlt)
    -- the gap is at least `1 / den`
    have hgap : (⌊|x|⌋ : ℚ) + 1 / q.den ≤ |x| := by
      rw [habs] at hltf ⊢
      generalize ⌊|(q.num : ℚ)| / q.den⌋ = m at hltf ⊢
      rw [lt_div_iff₀ hdpos] at hltf
      have h6 : m * q.den + 1 ≤ |q.num| := by
        have : m * q.den < |q.num| := by exact_mod_cast hltf
        omega
      have h7 : (m : ℚ) * q.den + 1 ≤ |(q.num : ℚ)| := by exact_mod_cast h6
      rw [le_div_iff₀ hdpos]
      have : (m + 1 / (q.den : ℚ)) * q.den = m * q.den + 1 := by field_simp
      linarith
    have hx0 : 0 < |x| := lt_of_lt_of_le (by
      have : 0 < 1 / (q.den : ℚ) := by positivity
      have h8 : (0 : ℚ) ≤ ⌊|x|⌋ := by
        have : 0 ≤ ⌊|x|⌋ := Int.floor_nonneg.2 (abs_nonneg x)
        exact_mod_cast this
      linarith) hgap
    have hulp : ulp x ≤ 1 / q.den := by
      rw [le_div_iff₀ hdpos]
      unfold ulp
      rcases max_choice (Int.log 2 |x| - 52) (-1074) with hm | hm
      · rw [hm, zpow_sub₀ (by norm_num)]
        have h9 := Int.zpow_log_le_self (b := 2) (by norm_num) hx0
        rw [habs, le_div_iff₀ hdpos, ← habs] at h9
        push_cast at h9
        have : (2 : ℚ) ^ Int.log 2 |x| * q.den ≤ 2 ^ 52 := h9.trans hnQ
        rw [div_mul_eq_mul_div, div_le_one (by positivity)]
        exact_mod_cast this
      · rw [hm]
        have : (q.den : ℚ) ≤ 2 ^ 1074 := by
          have := (Int.cast_le (R := ℚ)).2 hd
          rwa [Int.cast_pow, Int.cast_ofNat] at this
        have e : (2 : ℚ) ^ (-1074 : Int) = 1 / 2 ^ 1074 := by
          rw [zpow_neg, one_div]
          rfl
        rw [e, div_mul_eq_mul_div, one_mul, div_le_one (by positivity)]
        exact this
    have hgrid := h4 (2 ^ (k + 0) * ⌊|x|⌋ + 1) (by
      push_cast
      rw [mul_add, ← mul_assoc, hk, one_mul, mul_one]
      linarith)
    push_cast at hgrid
    rw [mul_add, ← mul_assoc, hk, one_mul, mul_one] at hgrid
    have hu := ulp_pos x
    have hc1 : ⌈|x|⌉ = ⌊|x|⌋ + 1 := by
      rw [Int.ceil_eq_iff]
      constructor
      · push_cast; linarith
      · push_cast; exact (Int.lt_floor_add_one _).le
    have hc2 : ⌈t⌉ = ⌊|x|⌋ + 1 := by
      rw [Int.ceil_eq_iff]
      constructor
      · push_cast; linarith
      · push_cast; exact h3.trans (Int.lt_floor_add_one _).le
    rw [hc1, hc2]

/-! ### Rounding -/

theorem stdTrunc_int (z : Int) : stdTrunc z = z := by
  unfold stdTrunc
  split
  · rename_i h
    rw [abs_of_neg h, ← Int.cast_neg, Int.floor_intCast, neg_neg]
  · rename_i h
    rw [abs_of_nonneg (not_lt.1 h), Int.floor_intCast]

theorem stdRound_int (z : Int) : stdRound z = z := by
  have key : ∀ z : Int, ⌊(z : ℚ) + 1 / 2⌋ = z := by
    intro z
    rw [Int.floor_eq_iff]
    constructor <;> linarith
  unfold stdRound
  split
  · rename_i h
    rw [abs_of_neg h, ← Int.cast_neg, key]
    simp
  · rename_i h
    rw [abs_of_nonneg (not_lt.1 h), key]

theorem nearest_int {f : Double → Int} {x : Num} {z : Int} (h : IsInt x z) :
    Gives (nearest f x) z := by
  rcases h with ⟨rfl, h1, h2⟩ | rfl
  · exact .canonicalize z
  · exact .large z

theorem neg_t {t : ℚ} (ht : 0 ≤ t) :
    (-t < 0 ∧ |-t| = t) ∨ (¬ -t < 0 ∧ t = 0) := by
  rcases ht.lt_or_eq with h1 | h1
  · exact Or.inl ⟨by linarith, by rw [abs_neg, abs_of_nonneg ht]⟩
  · exact Or.inr ⟨by linarith, h1.symm⟩

theorem truncate_ratio {q : Mpq} {x : ℚ} (hq : (q.num : ℚ) / q.den = x) (h : |x| < 2 ^ 53) :
    Gives (truncate (.ratio q)) (stdTrunc x) := by
  obtain ⟨t, h1, h2, h3, h4⟩ := getD_int hq h
  unfold truncate nearest
  simp only [h1]
  refine ⟨_, rfl, Or.inr ?_⟩
  congr 1
  by_cases hx : x < 0
  · rw [if_pos hx]
    unfold stdTrunc
    rw [if_pos hx]
    rcases neg_t h2 with ⟨h5, h6⟩ | ⟨h5, h6⟩
    · rw [if_pos h5, h6, h4]
    · rw [if_neg h5, ← h4, h6]
      simp
  · rw [if_neg hx]
    unfold stdTrunc
    rw [if_neg hx, if_neg (not_lt.2 h2), abs_of_nonneg h2, h4]

theorem round_ratio {q : Mpq} {x : ℚ} (hq : (q.num : ℚ) / q.den = x) (h : |x| < 2 ^ 52) :
    Gives (round (.ratio q)) (stdRound x) := by
  obtain ⟨t, h1, h2, h3, h4⟩ := getD_half hq h
  unfold round nearest
  simp only [h1]
  refine ⟨_, rfl, Or.inr ?_⟩
  congr 1
  by_cases hx : x < 0
  · rw [if_pos hx]
    unfold stdRound
    rw [if_pos hx]
    rcases neg_t h2 with ⟨h5, h6⟩ | ⟨h5, h6⟩
    · rw [if_pos h5, h6, h4]
    · rw [if_neg h5, ← h4, h6]
      norm_num
  · rw [if_neg hx]
    unfold stdRound
    rw [if_neg hx, if_neg (not_lt.2 h2), abs_of_nonneg h2, h4]

theorem floor_ratio {q : Mpq} {x : ℚ} (hq : (q.num : ℚ) / q.den = x) (hc : q.Canonical)
    (hn : |q.num| ≤ 2 ^ 52) (hd : q.den ≤ 2 ^ 1074) : Gives (floor (.ratio q)) ⌊x⌋ := by
  obtain ⟨t, h1, h2, h3, h4, h5⟩ := getD_short hq hc hn hd
  unfold floor nearest
  simp only [h1]
  refine ⟨_, rfl, Or.inr ?_⟩
  congr 1
  unfold stdFloor
  by_cases hx : x < 0
  · rw [if_pos hx, Int.floor_neg, h5, abs_of_neg hx, ← Int.floor_neg, neg_neg]
  · rw [if_neg hx, h4, abs_of_nonneg (not_lt.1 hx)]

theorem ceiling_ratio {q : Mpq} {x : ℚ} (hq : (q.num : ℚ) / q.den = x) (hc : q.Canonical)
    (hn : |q.num| ≤ 2 ^ 52) (hd : q.den ≤ 2 ^ 1074) : Gives (ceiling (.ratio q)) ⌈x⌉ := by
  obtain ⟨t, h1, h2, h3, h4, h5⟩ := getD_short hq hc hn hd
  unfold ceiling nearest
  simp only [h1]
  refine ⟨_, rfl, Or.inr ?_⟩
  congr 1
  unfold stdCeil
  by_cases hx : x < 0
  · rw [if_pos hx, Int.ceil_neg, h4, abs_of_neg hx, ← Int.ceil_neg, neg_neg]
  · rw [if_neg hx, h5, abs_of_nonneg (not_lt.1 hx)]

/-- Below `2 ^ 53`, `floor` is off by less than one. -/
theorem floor_near {q : Mpq} {x : ℚ} (hq : (q.num : ℚ) / q.den = x) (h : |x| < 2 ^ 53) :
    ∃ z : Int, Gives (floor (.ratio q)) z ∧ |x - z| < 1 := by
  obtain ⟨t, h1, h2, h3, h4⟩ := getD_int hq h
  unfold floor nearest
  simp only [h1]
  refine ⟨_, ⟨_, rfl, Or.inr rfl⟩, ?_⟩
  unfold stdFloor
  have hf1 := Int.floor_le |x|
  have hf2 := Int.lt_floor_add_one |x|
  by_cases hx : x < 0
  · rw [if_pos hx, Int.floor_neg]
    have hx' : |x| = -x := abs_of_neg hx
    have hc1 := Int.le_ceil t
    have hc2 := Int.ceil_lt_add_one t
    have hc3 : (⌊|x|⌋ : ℚ) ≤ ⌈t⌉ := by
      rw [← h4]
      exact (Int.floor_le t).trans hc1
    push_cast
    rw [abs_lt]
    constructor <;> linarith
  · rw [if_neg hx, h4]
    rw [abs_of_nonneg (not_lt.1 hx)] at hf1 hf2 ⊢
    rw [abs_lt]
    constructor <;> linarith

/-- Below `2 ^ 53`, `ceiling` is off by less than one. -/
theorem ceiling_near {q : Mpq} {x : ℚ} (hq : (q.num : ℚ) / q.den = x) (h : |x| < 2 ^ 53) :
    ∃ z : Int, Gives (ceiling (.ratio q)) z ∧ |x - z| < 1 := by
  obtain ⟨t, h1, h2, h3, h4⟩ := getD_int hq h
  unfold ceiling nearest
  simp only [h1]
  refine ⟨_, ⟨_, rfl, Or.inr rfl⟩, ?_⟩
  unfold stdCeil
  have hf1 := Int.floor_le |x|
  have hf2 := Int.lt_floor_add_one |x|
  by_cases hx : x < 0
  · rw [if_pos hx, Int.ceil_neg, h4]
    have hx' : |x| = -x := abs_of_neg hx
    push_cast
    rw [abs_lt]
    constructor <;> linarith
  · rw [if_neg hx]
    have hc1 := Int.le_ceil t
    have hc2 := Int.ceil_lt_add_one t
    have hc3 : (⌊|x|⌋ : ℚ) ≤ ⌈t⌉ := by
      rw [← h4]
      exact (Int.floor_le t).trans hc1
    rw [abs_of_nonneg (not_lt.1 hx)] at *
    rw [abs_lt]
    constructor <;> linarith

/-! ### The quotient of two integers -/

/-- Dividing integers gives an integer object, or a ratio whose terms are no longer than the
operands. -/
theorem div_int {x y : Num} {a b : Int} (hx : IsInt x a) (hy : IsInt y b) (hb : b ≠ 0) :
    ∃ r, div x y = .value r ∧
      ((∃ z, IsInt r z ∧ a = z * b) ∨
       ∃ q, r = .ratio q ∧ q.Canonical ∧ (q.num : ℚ) / q.den = (a : ℚ) / b ∧
         |q.num| ≤ |a| ∧ q.den ≤ |b|) := by
  have hbQ : (b : ℚ) ≠ 0 := by exact_mod_cast hb
  obtain ⟨r, h1, h2, h3⟩ := div_val hx.valid hy.valid (by rw [hy.val]; exact hbQ)
  refine ⟨r, h1, ?_⟩
  rw [hx.val, hy.val] at h3
  rcases valid_cases h2 with ⟨z, hz, hzv⟩ | ⟨q, rfl, hq⟩
  · refine Or.inl ⟨z, hz, ?_⟩
    rw [hzv] at h3
    field_simp at h3
    exact_mod_cast h3.symm
  · refine Or.inr ⟨q, rfl, hq, h3, ?_⟩
    have h3' : (q.num : ℚ) / q.den = (a : ℚ) / b := h3
    rw [div_eq_div_iff hq.den_neQ hbQ] at h3'
    have h4 : q.num * b = a * q.den := by exact_mod_cast h3'
    have hdb : q.den ∣ b :=
      Int.dvd_of_dvd_mul_right_of_gcd_one ⟨a, by rw [h4]; ring⟩ (by rw [Int.gcd_comm]; exact hq.2)
    have hna : q.num ∣ a := Int.dvd_of_dvd_mul_left_of_gcd_one ⟨b, h4.symm⟩ hq.2
    constructor
    · by_cases ha : a = 0
      · subst ha
        have : q.num = 0 := by
          rcases mul_eq_zero.1 (h4.trans (zero_mul _)) with h | h
          · exact h
          · exact absurd h hb
        simp [this]
      · exact Int.le_of_dvd (abs_pos.2 ha) ((abs_dvd_abs _ _).2 hna)
    · have := Int.le_of_dvd (abs_pos.2 hb) ((abs_dvd_abs _ _).2 hdb)
      rwa [abs_of_pos hq.1] at this

theorem stdTrunc_neg (x : ℚ) : stdTrunc (-x) = -stdTrunc x := by
  unfold stdTrunc
  rcases lt_trichotomy x 0 with h | h | h
  · rw [if_neg (by linarith), if_pos h, abs_neg, neg_neg]
  · simp [h]
  · rw [if_pos (by linarith), if_neg (by linarith), abs_neg]

theorem stdTrunc_nat (m n : Nat) : stdTrunc ((m : ℚ) / n) = ((m / n : Nat) : Int) := by
  have h0 : (0 : ℚ) ≤ (m : ℚ) / n := by positivity
  unfold stdTrunc
  rw [if_neg (not_lt.2 h0), abs_of_nonneg h0]
  have := Rat.floor_intCast_div_natCast (m : Int) n
  push_cast at this ⊢
  exact this

/-- Truncating division of integers in terms of rationals. -/
theorem stdTrunc_div (a b : Int) : stdTrunc ((a : ℚ) / b) = Int.tdiv a b := by
  have hcast : ∀ m n : Nat, Int.tdiv (m : Int) (n : Int) = ((m / n : Nat) : Int) := fun _ _ => rfl
  obtain ⟨m, rfl | rfl⟩ := Int.eq_nat_or_neg a <;> obtain ⟨n, rfl | rfl⟩ := Int.eq_nat_or_neg b
  · rw [hcast, ← stdTrunc_nat]; push_cast; rfl
  · rw [Int.tdiv_neg, hcast, ← stdTrunc_nat, ← stdTrunc_neg, ← div_neg]; push_cast; rfl
  · rw [Int.neg_tdiv, hcast, ← stdTrunc_nat, ← stdTrunc_neg, ← neg_div]; push_cast; rfl
  · rw [Int.tdiv_neg, Int.neg_tdiv, neg_neg, hcast, ← stdTrunc_nat]
    push_cast
    rw [neg_div_neg_eq]

/-! ### quotient, remainder, modulo -/

/-- The division either comes out even or its quotient is below `2 ^ 53`. -/
def QuotientInRange (a b : Int) : Prop := b ∣ a ∨ |a| < 2 ^ 53 * |b|

theorem inRange_ratio {a b : Int} (hb : b ≠ 0) (h : |a| < 2 ^ 53 * |b|) :
    |(a : ℚ) / b| < 2 ^ 53 := by
  have hb' : (0 : ℚ) < |(b : ℚ)| := abs_pos.2 (by exact_mod_cast hb)
  rw [abs_div, div_lt_iff₀ hb']
  exact_mod_cast h

/-- An even division gives a ratio object only for a fixnum as the dividend. -/
theorem ratio_small {x y : Num} {a b : Int} {q : Mpq} (hx : IsInt x a) (hy : IsInt y b)
    (hb : b ≠ 0) (h : b ∣ a) (hd : div x y = .value (.ratio q)) : |a| ≤ 2 ^ 31 := by
  rcases hx with ⟨rfl, h1, h2⟩ | rfl
  · exact abs_le.2 ⟨by omega, by omega⟩
  · -- a big dividend gives a ratio only when the division is not even
    exfalso
    have key : ∀ r : Mpq, Mpq.make a b = .value r → r.den = 1 := by
      intro r hr
      obtain ⟨r', h1, h2, h3⟩ := Mpq.canonicalize_spec (q := ⟨a, b⟩) hb
      rw [Mpq.make, h1] at hr
      obtain rfl : r' = r := Outcome.value.inj hr
      obtain ⟨k, rfl⟩ := h
      have hbQ : (b : ℚ) ≠ 0 := by exact_mod_cast hb
      have h4 : (r'.num : ℚ) / r'.den = k := by
        rw [h3]
        push_cast
        field_simp
      rw [div_eq_iff h2.den_neQ] at h4
      have h5 : r'.num = k * r'.den := by exact_mod_cast h4
      have h6 := h2.2
      rw [h5, Int.gcd_mul_left_left] at h6
      have := h2.1
      omega
    have hmake : returnRatio (Mpq.make a b) = .value (.ratio q) := by
      rcases hy with ⟨rfl, _, _⟩ | rfl <;> exact hd
    obtain ⟨r', h1, h2, h3⟩ := Mpq.canonicalize_spec (q := ⟨a, b⟩) hb
    have hr : Mpq.make a b = .value r' := h1
    have hden := key r' hr
    rw [returnRatio, hr] at hmake
    simp [canonicalizeRatio, hden] at hmake

theorem quotient_int {x y : Num} {a b : Int} (hx : IsInt x a) (hy : IsInt y b) (hb : b ≠ 0)
    (h : QuotientInRange a b) : Gives (quotient x y) (Int.tdiv a b) := by
  obtain ⟨r, h1, h2⟩ := div_int hx hy hb
  unfold quotient
  rw [h1, bind_value]
  rcases h2 with ⟨z, hz, rfl⟩ | ⟨q, rfl, hq, hv, _⟩
  · rw [Int.mul_tdiv_cancel _ hb]
    exact nearest_int hz
  · have hlt : |a| < 2 ^ 53 * |b| := by
      rcases h with h | h
      · have h3 := ratio_small hx hy hb h h1
        have h4 : 1 ≤ |b| := Int.one_le_abs hb
        omega
      · exact h
    have := truncate_ratio hv (inRange_ratio hb hlt)
    rwa [stdTrunc_div] at this

theorem rem_int {x y : Num} {a b : Int} (hx : IsInt x a) (hy : IsInt y b) (hb : b ≠ 0) :
    Gives (rem x y) (Int.tmod a b) := by
  rcases hx with ⟨rfl, h1, h2⟩ | rfl <;> rcases hy with ⟨rfl, h3, h4⟩ | rfl
  · have hfit : Fits64 (Int.tdiv a b) := by
      have : |Int.tdiv a b| ≤ |a| := by
        have := Int.natAbs_tdiv_le_natAbs a b
        rw [Int.abs_eq_natAbs, Int.abs_eq_natAbs]
        omega
      have : |a| ≤ 2 ^ 31 := abs_le.2 ⟨by omega, by omega⟩
      have := abs_le.1 (show |Int.tdiv a b| ≤ 2 ^ 31 by omega)
      constructor <;> omega
    simp only [rem, widenRem, if_neg hb, if_pos hfit, bind_value, pure_eq]
    exact .canonicalize _
  all_goals
    simp only [rem, mpzTdivR, if_neg hb, bind_value, pure_eq]
    exact .large _

/-- Adding the divisor and taking the remainder again rounds down. -/
theorem tmod_add_tmod {a b : Int} (hb : b ≠ 0) :
    Int.tmod (Int.tmod a b + b) b = Int.fmod a b := by
  have hr : Int.tmod a b = a - b * Int.tdiv a b := by
    have := Int.tmod_add_mul_tdiv a b
    omega
  have hlt : (Int.tmod a b).natAbs < b.natAbs := by
    rw [Int.natAbs_tmod]
    exact Nat.mod_lt _ (Int.natAbs_pos.2 hb)
  rcases lt_or_gt_of_ne hb with h | h
  · obtain ⟨c, rfl⟩ : ∃ c, b = -c := ⟨-b, by omega⟩
    have h0 : 0 ≤ c - Int.tmod a (-c) := by omega
    have e1 : Int.tmod a (-c) + -c = -(c - Int.tmod a (-c)) := by ring
    have e2 : Int.fmod a (-c) = -Int.fmod (-a) c := by
      rw [← Int.neg_fmod_neg, neg_neg]
    rw [e1, Int.tmod_neg, Int.neg_tmod, Int.tmod_eq_emod_of_nonneg h0, e2,
      Int.fmod_eq_emod_of_nonneg _ (by omega), hr,
      show c - (a - -c * a.tdiv (-c)) = -a + c * (1 - a.tdiv (-c)) by ring,
      Int.add_mul_emod_self_left]
  · have h0 : 0 ≤ Int.tmod a b + b := by omega
    rw [Int.tmod_eq_emod_of_nonneg h0, Int.fmod_eq_emod_of_nonneg _ h.le, hr]
    rw [show a - b * a.tdiv b + b = a + b * (1 - a.tdiv b) by ring, Int.add_mul_emod_self_left]

theorem modulo_int {x y : Num} {a b : Int} (hx : IsInt x a) (hy : IsInt y b) (hb : b ≠ 0) :
    Gives (modulo x y) (Int.fmod a b) := by
  unfold modulo
  refine (rem_int hx hy hb).bind fun r hr => ?_
  refine (add_int hr hy).bind fun s hs => ?_
  have := rem_int hs hy hb
  rwa [tmod_add_tmod hb] at this

/-! ### abs, gcd, lcm -/

theorem abs_int {x : Num} {a : Int} (hx : IsInt x a) : Gives (abs x) |a| := by
  rcases hx with ⟨rfl, h1, h2⟩ | rfl
  · have := abs_le.2 (⟨by omega, by omega⟩ : -2 ^ 31 ≤ a ∧ a ≤ 2 ^ 31)
    have h0 := abs_nonneg a
    simp only [abs, widen_fits (i := |a|) (by omega) (by omega), bind_value, pure_eq]
    exact .canonicalize _
  · exact .large _

theorem abs_val {x : Num} (hx : x.Valid) : Yields (abs x) |x.val| := by
  rcases valid_cases hx with ⟨z, hz, hv⟩ | ⟨q, rfl, hq⟩
  · have := (abs_int hz).yields
    rwa [Int.cast_abs, ← hz.val] at this
  · simp only [abs]
    have hc := cmp_neg hq (Mpq.ofInteger_canonical 0)
    rw [ofInteger_div, Int.cast_zero] at hc
    split
    · rename_i h
      have h' := hc.1 h
      have := returnSub_spec (Mpq.ofInteger_canonical 0) hq
      rw [ofInteger_div, Int.cast_zero, zero_sub] at this
      rwa [show (Num.ratio q).val = (q.num : ℚ) / q.den from rfl, abs_of_neg h']
    · rename_i h
      have h' := not_lt.1 (mt hc.2 h)
      obtain ⟨h1, h2⟩ := canonicalizeRatio_spec hq
      refine ⟨_, rfl, h1, ?_⟩
      rw [h2, show (Num.ratio q).val = (q.num : ℚ) / q.den from rfl, abs_of_nonneg h']

theorem gcd_tmod (a b : Int) : Int.gcd b (Int.tmod a b) = Int.gcd a b := by
  rw [Int.gcd, Int.natAbs_tmod, Int.gcd, Nat.gcd_comm, ← Nat.gcd_rec, Nat.gcd_comm]

theorem gcdFuel_int : ∀ (fuel : Nat) {x y : Num} {a b : Int}, IsInt x a → IsInt y b →
    b.natAbs < fuel → Gives (gcdFuel fuel x y) (Int.gcd a b)
  | 0, _, _, _, _, _, _, h => absurd h (Nat.not_lt_zero _)
  | fuel + 1, x, y, a, b, hx, hy, h => by
    unfold gcdFuel
    split
    · rename_i h0
      rw [hy.isZero] at h0
      subst h0
      have := abs_int hx
      rwa [Int.gcd_zero_right, ← Int.abs_eq_natAbs]
    · rename_i h0
      rw [hy.isZero] at h0
      refine (rem_int hx hy h0).bind fun r hr => ?_
      rw [← gcd_tmod]
      apply gcdFuel_int fuel hy hr
      rw [Int.natAbs_tmod]
      have := Nat.mod_lt a.natAbs (Int.natAbs_pos.2 h0)
      omega

theorem magnitude_int {x : Num} {a : Int} (h : IsInt x a) : magnitude x = a.natAbs := by
  rcases h with ⟨rfl, _, _⟩ | rfl <;> rfl

theorem gcd2_int {x y : Num} {a b : Int} (hx : IsInt x a) (hy : IsInt y b) :
    Gives (gcd2 x y) (Int.gcd a b) :=
  gcdFuel_int _ hx hy (by rw [magnitude_int hy]; omega)

theorem lcm2_int {x y : Num} {a b : Int} (hx : IsInt x a) (hy : IsInt y b)
    (h : ¬ (a = 0 ∧ b = 0)) : Gives (lcm2 x y) (Int.lcm a b) := by
  have hg : Int.gcd a b ≠ 0 := by
    rw [Ne, Int.gcd_eq_zero_iff]
    exact h
  have hg' : (Int.gcd a b : Int) ≠ 0 := by exact_mod_cast hg
  unfold lcm2
  refine (mul_int hx hy).bind fun p hp => ?_
  refine (gcd2_int hx hy).bind fun g hgv => ?_
  have hdvd : (Int.gcd a b : Int) ∣ a * b := (Int.gcd_dvd_left a b).mul_right b
  refine (quotient_int hp hgv hg' (Or.inl hdvd)).bind fun r hr => ?_
  have := abs_int hr
  rw [Int.abs_eq_natAbs, Int.natAbs_tdiv, Int.natAbs_mul] at this
  exact this

end Meevax.Number
