import Verif.Model.Division
import Verif.Lemmas.NumberDiv

namespace Meevax.Number

theorem small_zero : IsInt (.small 0) 0 := .small (by norm_num) (by norm_num)

theorem plus_two {x y : Num} {a b : Int} (hx : IsInt x a) (hy : IsInt y b) :
    Gives (plus [x, y]) (a + b) := by
  have := foldLeft_int (fun _ _ _ _ => add_int) [x, y] [a, b] _ 0 small_zero (.cons hx (.cons hy .nil))
  simpa [plus] using this

theorem times_two {x y : Num} {a b : Int} (hx : IsInt x a) (hy : IsInt y b) :
    Gives (times [x, y]) (a * b) := by
  have := foldLeft_int (fun _ _ _ _ => mul_int) [x, y] [a, b] (.small 1) 1
    (.small (by norm_num) (by norm_num)) (.cons hx (.cons hy .nil))
  simpa [times] using this

theorem minus_two {x y : Num} {a b : Int} (hx : IsInt x a) (hy : IsInt y b) :
    Gives (minus [x, y]) (a - b) := by
  have := foldLeft_int (fun _ _ _ _ => sub_int) [y] [b] x a hx (.cons hy .nil)
  simpa [minus] using this

theorem minus_one {x : Num} {a : Int} (hx : IsInt x a) : Gives (minus [x]) (-a) := by
  have := sub_int small_zero hx
  rwa [zero_sub] at this

theorem divide_two (x y : Num) : divide [x, y] = div x y := by
  simp only [divide, foldLeft]
  cases div x y <;> rfl

theorem numLt_two {x y : Num} (hx : x.Valid) (hy : y.Valid) : numLt [x, y] = true ↔ x.val < y.val := by
  simp only [numLt, noAdjacent, Bool.and_true, Bool.not_eq_true', ← Bool.not_eq_true,
    greaterThanOrEquals_iff hx hy, not_le]

theorem numLe_two {x y : Num} (hx : x.Valid) (hy : y.Valid) : numLe [x, y] = true ↔ x.val ≤ y.val := by
  simp only [numLe, noAdjacent, Bool.and_true, Bool.not_eq_true', ← Bool.not_eq_true,
    greaterThan_iff hx hy, not_lt]

/-- The division comes out even, or its operands are short. -/
def DivisionShort (n d : Int) : Prop := d ∣ n ∨ (|n| ≤ 2 ^ 52 ∧ |d| ≤ 2 ^ 1074)

/-- What `div` of integers gives is an integer, or a ratio of short terms. -/
theorem div_short {x y : Num} {n d : Int} (hx : IsInt x n) (hy : IsInt y d) (hd : d ≠ 0)
    (h : DivisionShort n d) :
    ∃ r, div x y = .value r ∧
      ((∃ z : Int, IsInt r z ∧ (n : ℚ) / d = z) ∨
       ∃ q, r = .ratio q ∧ q.Canonical ∧ (q.num : ℚ) / q.den = (n : ℚ) / d ∧
         |q.num| ≤ 2 ^ 52 ∧ q.den ≤ 2 ^ 1074) := by
  have hdQ : (d : ℚ) ≠ 0 := by exact_mod_cast hd
  obtain ⟨r, h1, h2⟩ := div_int hx hy hd
  refine ⟨r, h1, ?_⟩
  rcases h2 with ⟨z, hz, rfl⟩ | ⟨q, rfl, hc, hv, hn, hdd⟩
  · left
    refine ⟨z, hz, ?_⟩
    push_cast
    field_simp
  · right
    refine ⟨q, rfl, hc, hv, ?_⟩
    rcases h with h | ⟨h3, h4⟩
    · have h5 := ratio_small hx hy hd h h1
      refine ⟨hn.trans (h5.trans (by norm_num)), ?_⟩
      obtain ⟨k, rfl⟩ := h
      have : q.den = 1 := by
        have h6 : (q.num : ℚ) = k * q.den := by
          rw [div_eq_iff hc.den_neQ] at hv
          rw [hv]
          push_cast
          field_simp
        have h7 : q.num = k * q.den := by exact_mod_cast h6
        have h8 := hc.2
        rw [h7, Int.gcd_mul_left_left] at h8
        have := hc.1
        omega
      rw [this]
      exact one_le_pow₀ (by norm_num)
    · exact ⟨hn.trans h3, hdd.trans h4⟩

theorem floorQuotient_int {x y : Num} {n d : Int} (hx : IsInt x n) (hy : IsInt y d) (hd : d ≠ 0)
    (h : DivisionShort n d) : Gives (floorQuotient x y) ⌊(n : ℚ) / d⌋ := by
  obtain ⟨r, h1, h2⟩ := div_short hx hy hd h
  unfold floorQuotient
  rw [divide_two, h1, bind_value]
  rcases h2 with ⟨z, hz, e⟩ | ⟨q, rfl, hc, hv, h3, h4⟩
  · rw [e, Int.floor_intCast]
    exact nearest_int hz
  · exact floor_ratio hv hc h3 h4

theorem ceilingQuotient_int {x y : Num} {n d : Int} (hx : IsInt x n) (hy : IsInt y d) (hd : d ≠ 0)
    (h : DivisionShort n d) : Gives (ceilingQuotient x y) ⌈(n : ℚ) / d⌉ := by
  obtain ⟨r, h1, h2⟩ := div_short hx hy hd h
  unfold ceilingQuotient
  rw [divide_two, h1, bind_value]
  rcases h2 with ⟨z, hz, e⟩ | ⟨q, rfl, hc, hv, h3, h4⟩
  · rw [e, Int.ceil_intCast]
    exact nearest_int hz
  · exact ceiling_ratio hv hc h3 h4

/-- The remainder that belongs to a quotient. -/
theorem remainder_of {q : Outcome Num} {x y : Num} {n d z : Int} (hx : IsInt x n) (hy : IsInt y d)
    (hq : Gives q z) : Gives (do minus [x, ← times [y, ← q]]) (n - d * z) :=
  hq.bind fun _ hr => (times_two hy hr).bind fun _ hs => minus_two hx hs

/-- Floor and ceiling of the quotient, in terms of integers. -/
theorem floor_div_pos {n d : Int} (hd : 0 < d) :
    0 ≤ n - d * ⌊(n : ℚ) / d⌋ ∧ n - d * ⌊(n : ℚ) / d⌋ < d := by
  have hdQ : (0 : ℚ) < d := by exact_mod_cast hd
  have h1 := Int.floor_le ((n : ℚ) / d)
  have h2 := Int.lt_floor_add_one ((n : ℚ) / d)
  rw [le_div_iff₀ hdQ] at h1
  rw [div_lt_iff₀ hdQ] at h2
  have h3 : ⌊(n : ℚ) / d⌋ * d ≤ n := by exact_mod_cast h1
  have h4 : n < (⌊(n : ℚ) / d⌋ + 1) * d := by exact_mod_cast h2
  constructor <;> nlinarith

theorem floor_div_neg {n d : Int} (hd : d < 0) :
    d < n - d * ⌊(n : ℚ) / d⌋ ∧ n - d * ⌊(n : ℚ) / d⌋ ≤ 0 := by
  have := floor_div_pos (n := -n) (d := -d) (by omega)
  rw [show ((-n : Int) : ℚ) / ((-d : Int) : ℚ) = (n : ℚ) / d by push_cast; rw [neg_div_neg_eq]] at this
  constructor <;> nlinarith [this.1, this.2]

theorem ceil_div_pos {n d : Int} (hd : 0 < d) :
    -d < n - d * ⌈(n : ℚ) / d⌉ ∧ n - d * ⌈(n : ℚ) / d⌉ ≤ 0 := by
  have := floor_div_pos (n := -n) (d := d) hd
  rw [show ((-n : Int) : ℚ) / (d : ℚ) = -((n : ℚ) / d) by push_cast; rw [neg_div], Int.floor_neg] at this
  constructor <;> nlinarith [this.1, this.2]

theorem ceil_div_neg {n d : Int} (hd : d < 0) :
    0 ≤ n - d * ⌈(n : ℚ) / d⌉ ∧ n - d * ⌈(n : ℚ) / d⌉ < -d := by
  have := ceil_div_pos (n := -n) (d := -d) (by omega)
  rw [show ((-n : Int) : ℚ) / ((-d : Int) : ℚ) = (n : ℚ) / d by push_cast; rw [neg_div_neg_eq]] at this
  constructor <;> nlinarith [this.1, this.2]

/-! ### Rounding to the nearest -/

theorem stdRound_near (x : ℚ) : |x - stdRound x| ≤ 1 / 2 := by
  have key : ∀ y : ℚ, |y - (⌊y + 1 / 2⌋ : Int)| ≤ 1 / 2 := by
    intro y
    have h1 := Int.floor_le (y + 1 / 2)
    have h2 := Int.lt_floor_add_one (y + 1 / 2)
    rw [abs_le]
    constructor <;> linarith
  unfold stdRound
  split
  · rename_i h
    have := key (-x)
    rw [abs_of_neg h]
    push_cast
    rw [← abs_neg]
    rw [show -(x - -((⌊-x + 1 / 2⌋ : Int) : ℚ)) = -x - (⌊-x + 1 / 2⌋ : Int) by ring]
    exact this
  · rename_i h
    rw [abs_of_nonneg (not_lt.1 h)]
    exact key x

theorem roundQuotient_int {x y : Num} {n d : Int} (hx : IsInt x n) (hy : IsInt y d) (hd : d ≠ 0)
    (h : d ∣ n ∨ |n| < 2 ^ 52 * |d|) : Gives (roundQuotient x y) (stdRound ((n : ℚ) / d)) := by
  have hd1 : 1 ≤ |d| := Int.one_le_abs hd
  obtain ⟨r, h1, h2⟩ := div_int hx hy hd
  unfold roundQuotient
  rw [divide_two, h1, bind_value]
  rcases h2 with ⟨z, hz, rfl⟩ | ⟨q, rfl, hc, hv, _⟩
  · have hdQ : (d : ℚ) ≠ 0 := by exact_mod_cast hd
    rw [show ((z * d : Int) : ℚ) / d = z by push_cast; field_simp, stdRound_int]
    exact nearest_int hz
  · have hlt : |n| < 2 ^ 52 * |d| := by
      rcases h with h | h
      · have := ratio_small hx hy hd h h1
        omega
      · exact h
    refine round_ratio hv ?_
    have hb' : (0 : ℚ) < |(d : ℚ)| := abs_pos.2 (by exact_mod_cast hd)
    rw [abs_div, div_lt_iff₀ hb']
    exact_mod_cast hlt

/-! ### Balanced division -/

theorem near_remainder {n d z : Int} (hd : d ≠ 0) (h : |(n : ℚ) / d - z| < 1) : |n - d * z| < |d| := by
  have hb' : (0 : ℚ) < |(d : ℚ)| := abs_pos.2 (by exact_mod_cast hd)
  have hdQ : (d : ℚ) ≠ 0 := by exact_mod_cast hd
  have : |((n - d * z : Int) : ℚ)| < |(d : ℚ)| := by
    have e : ((n - d * z : Int) : ℚ) = d * ((n : ℚ) / d - z) := by
      push_cast
      field_simp
    rw [e, abs_mul]
    nlinarith
  exact_mod_cast this

theorem nearQuotient_int {x y : Num} {n d : Int} (hx : IsInt x n) (hy : IsInt y d) (hd : d ≠ 0)
    (h : QuotientInRange n d) :
    (∃ z, Gives (floorQuotient x y) z ∧ |n - d * z| < |d|) ∧
    (∃ z, Gives (ceilingQuotient x y) z ∧ |n - d * z| < |d|) := by
  have hd1 : 1 ≤ |d| := Int.one_le_abs hd
  obtain ⟨r, h1, h2⟩ := div_int hx hy hd
  unfold floorQuotient ceilingQuotient
  rw [divide_two, h1, bind_value, bind_value]
  rcases h2 with ⟨z, hz, rfl⟩ | ⟨q, rfl, hc, hv, _⟩
  · have e : |z * d - d * z| < |d| := by
      rw [mul_comm, sub_self, abs_zero]
      omega
    exact ⟨⟨z, nearest_int hz, e⟩, ⟨z, nearest_int hz, e⟩⟩
  · have hlt : |n| < 2 ^ 53 * |d| := by
      rcases h with h | h
      · have := ratio_small hx hy hd h h1
        omega
      · exact h
    obtain ⟨z, g, e⟩ := floor_near hv (inRange_ratio hd hlt)
    obtain ⟨z', g', e'⟩ := ceiling_near hv (inRange_ratio hd hlt)
    exact ⟨⟨z, g, near_remainder hd e⟩, ⟨z', g', near_remainder hd e'⟩⟩

theorem euclideanRemainder_near {x y : Num} {n d : Int} (hx : IsInt x n) (hy : IsInt y d) (hd : d ≠ 0)
    (h : QuotientInRange n d) :
    ∃ r, Gives (euclideanRemainder x y) r ∧ d ∣ n - r ∧ |r| < |d| := by
  obtain ⟨⟨z, h1, h2⟩, ⟨w, h3, h4⟩⟩ := nearQuotient_int hx hy hd h
  unfold euclideanRemainder euclideanQuotient
  split
  · exact ⟨_, remainder_of hx hy h1, ⟨z, by ring⟩, h2⟩
  · exact ⟨_, remainder_of hx hy h3, ⟨w, by ring⟩, h4⟩

theorem balancedRemainder_int {x y : Num} {n d : Int} (hx : IsInt x n) (hy : IsInt y d) (hd : d ≠ 0)
    (h : QuotientInRange n d) :
    ∃ r, Gives (balancedRemainder x y) r ∧ d ∣ n - r ∧ -|d| ≤ 2 * r ∧ 2 * r < |d| := by
  obtain ⟨r, ⟨xr, e1, hr⟩, hdvd, hlt⟩ := euclideanRemainder_near hx hy hd h
  obtain ⟨xd, e2, hvd, hdv⟩ := div_val hy.valid (y := .small 2) (by simp [Num.Valid]) (by simp [Num.val])
  obtain ⟨xh, e3, hvh, hhv⟩ := abs_val hvd
  obtain ⟨xm, e4, hvm, hmv⟩ := sub_val (x := .small 0) (by simp [Num.Valid]) hvh
  obtain ⟨xa, e5, ha⟩ := abs_int hy
  have hhalf : xh.val = |(d : ℚ)| / 2 := by
    rw [hhv, hdv, hy.val]
    simp [Num.val, abs_div]
  have hmhalf : xm.val = -(|(d : ℚ)| / 2) := by
    rw [hmv, hhalf]
    simp [Num.val]
  unfold balancedRemainder
  rw [divide_two, e1, e2, bind_value, bind_value, e3, bind_value]
  simp only [minus, e4, e5, bind_value, pure_eq]
  rw [abs_lt] at hlt
  split
  · rename_i hc
    rw [numLt_two hr.valid hvm, hr.val, hmhalf] at hc
    refine ⟨_, plus_two hr ha, ?_, ?_⟩
    · obtain ⟨k, hk⟩ := hdvd
      rcases abs_choice d with h' | h' <;> rw [h']
      · exact ⟨k - 1, by linarith⟩
      · exact ⟨k + 1, by linarith⟩
    · have : 2 * r < -|d| := by
        have : (r : ℚ) * 2 < -|(d : ℚ)| := by linarith
        have : r * 2 < -|d| := by exact_mod_cast this
        linarith
      omega
  · rename_i hc
    rw [numLt_two hr.valid hvm, hr.val, hmhalf, not_lt] at hc
    have hc1 : -|d| ≤ 2 * r := by
      have : -|(d : ℚ)| ≤ (r : ℚ) * 2 := by linarith
      have : -|d| ≤ r * 2 := by exact_mod_cast this
      linarith
    split
    · rename_i hc2
      rw [numLe_two hvh hr.valid, hr.val, hhalf] at hc2
      have hc3 : |d| ≤ 2 * r := by
        have : |(d : ℚ)| ≤ (r : ℚ) * 2 := by linarith
        have : |d| ≤ r * 2 := by exact_mod_cast this
        linarith
      refine ⟨r - |d|, minus_two hr ha, ?_, by omega⟩
      obtain ⟨k, hk⟩ := hdvd
      rcases abs_choice d with h' | h' <;> rw [h']
      · exact ⟨k + 1, by linarith⟩
      · exact ⟨k - 1, by linarith⟩
    · rename_i hc2
      rw [numLe_two hvh hr.valid, hr.val, hhalf, not_le] at hc2
      have hc3 : 2 * r < |d| := by
        have : (r : ℚ) * 2 < |(d : ℚ)| := by linarith
        have : r * 2 < |d| := by exact_mod_cast this
        linarith
      exact ⟨r, ⟨xr, rfl, hr⟩, hdvd, hc1, hc3⟩

theorem balanced_int {x y : Num} {n d : Int} (hx : IsInt x n) (hy : IsInt y d) (hd : d ≠ 0)
    (h : QuotientInRange n d) :
    ∃ q r, Gives (balancedQuotient x y) q ∧ Gives (balancedRemainder x y) r ∧ n = d * q + r ∧
      -|d| ≤ 2 * r ∧ 2 * r < |d| := by
  obtain ⟨r, hr, hdvd, h1, h2⟩ := balancedRemainder_int hx hy hd h
  refine ⟨Int.tdiv (n - r) d, r, ?_, hr, ?_, h1, h2⟩
  · unfold balancedQuotient
    exact hr.bind fun xr hxr => (minus_two hx hxr).bind fun xs hxs =>
      quotient_int hxs hy hd (Or.inl hdvd)
  · have := Int.mul_tdiv_cancel' hdvd
    omega

end Meevax.Number
