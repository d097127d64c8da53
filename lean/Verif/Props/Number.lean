import Verif.Lemmas.NumberBits

/-
C24-C29, C32: exact arithmetic.
-/

namespace Meevax.Number

/-! ### C24: integers -/

/-- **C24**: the sum of exact integers, in whatever representation, is the exact integer sum. -/
theorem C24_sum {xs : List Num} {zs : List Int} (h : List.Forall₂ IsInt xs zs) :
    Gives (plus xs) zs.sum := by
  have := foldLeft_int (fun _ _ _ _ => add_int) xs zs (.small 0) 0 (.small (by norm_num) (by norm_num)) h
  rwa [← List.sum_eq_foldl] at this

/-- **C24**: the product of exact integers. -/
theorem C24_product {xs : List Num} {zs : List Int} (h : List.Forall₂ IsInt xs zs) :
    Gives (times xs) zs.prod := by
  have := foldLeft_int (fun _ _ _ _ => mul_int) xs zs (.small 1) 1 (.small (by norm_num) (by norm_num)) h
  rwa [← List.prod_eq_foldl] at this

theorem foldl_sub (zs : List Int) (z : Int) : zs.foldl (· - ·) z = z - zs.sum := by
  induction zs generalizing z with
  | nil => simp
  | cons w zs ih => rw [List.foldl_cons, ih, List.sum_cons]; ring

/-- **C24**: negation, and the difference of exact integers. -/
theorem C24_difference {x : Num} {z : Int} (hx : IsInt x z) :
    Gives (minus [x]) (-z) ∧
    ∀ {xs : List Num} {zs : List Int}, xs ≠ [] → List.Forall₂ IsInt xs zs →
      Gives (minus (x :: xs)) (z - zs.sum) := by
  constructor
  · have := sub_int (IsInt.small (z := 0) (by norm_num) (by norm_num)) hx
    rwa [zero_sub] at this
  · intro xs zs hne h
    have := foldLeft_int (fun _ _ _ _ => sub_int) xs zs x z hx h
    rw [foldl_sub] at this
    cases xs with
    | nil => exact absurd rfl hne
    | cons y ys => exact this

/-- **C24**: comparison of two exact integers, in whatever representation. -/
theorem C24_comparison {x y : Num} {a b : Int} (hx : IsInt x a) (hy : IsInt y b) :
    (numEq [x, y] = true ↔ a = b) ∧ (numLt [x, y] = true ↔ a < b) ∧ (numGt [x, y] = true ↔ b < a) ∧
    (numLe [x, y] = true ↔ a ≤ b) ∧ (numGe [x, y] = true ↔ b ≤ a) := by
  have hv := hx.valid
  have hw := hy.valid
  simp only [numEq, numLt, numGt, numLe, numGe, noAdjacent, Bool.and_true, Bool.not_eq_true']
  simp only [← Bool.not_eq_true, notEquals_iff hv hw, greaterThanOrEquals_iff hv hw,
    lessThanOrEquals_iff hv hw, greaterThan_iff hv hw, lessThan_iff hv hw, hx.val, hy.val]
  norm_cast
  omega

/-- A case that needs all representations: 2147483647 + 1 leaves the immediate integers, and adding
a big integer brings a number back among them. -/
example : Gives (plus [.small 2147483647, .small 1, .large (-2147483648)]) 0 :=
  C24_sum (zs := [2147483647, 1, -2147483648])
    (.cons (.small (by norm_num) (by norm_num)) (.cons (.small (by norm_num) (by norm_num))
      (.cons (.large _) .nil)))

/-! ### C25: rationals -/

/-- **C25, partially**: sums and products of exact rationals are exact, and in lowest terms. -/
theorem C25_sum_product_partial {xs : List Num} (h : ∀ x ∈ xs, x.Valid) :
    Yields (plus xs) (xs.map Num.val).sum ∧ Yields (times xs) (xs.map Num.val).prod := by
  have h1 := foldLeft_val (fun _ _ => add_val) xs (.small 0) (by simp [Num.Valid]) h
  have h2 := foldLeft_val (fun _ _ => mul_val) xs (.small 1) (by simp [Num.Valid]) h
  rw [show (Num.small 0).val = 0 by simp [Num.val], ← List.sum_eq_foldl] at h1
  rw [show (Num.small 1).val = 1 by simp [Num.val], ← List.prod_eq_foldl] at h2
  exact ⟨h1, h2⟩

/-- **C25, partially**: differences of exact rationals are exact, and in lowest terms. -/
theorem C25_difference_partial {x : Num} (hx : x.Valid) :
    Yields (minus [x]) (-x.val) ∧
    ∀ {xs : List Num}, xs ≠ [] → (∀ x ∈ xs, x.Valid) →
      Yields (minus (x :: xs)) (x.val - (xs.map Num.val).sum) := by
  constructor
  · have := sub_val (x := .small 0) (by simp [Num.Valid]) hx
    rwa [show (Num.small 0).val = 0 by simp [Num.val], zero_sub] at this
  · intro xs hne h
    have h1 := foldLeft_val (fun _ _ => sub_val) xs x hx h
    have key : ∀ (qs : List ℚ) (q : ℚ), qs.foldl (· - ·) q = q - qs.sum := by
      intro qs
      induction qs with
      | nil => simp
      | cons w zs ih => intro q; rw [List.foldl_cons, ih, List.sum_cons]; ring
    rw [key] at h1
    cases xs with
    | nil => exact absurd rfl hne
    | cons y ys => exact h1

theorem divide_fold : ∀ (xs : List Num) (x : Num), x.Valid → (∀ y ∈ xs, y.Valid ∧ y.val ≠ 0) →
    Yields (foldLeft div x xs) (x.val / (xs.map Num.val).prod)
  | [], x, hx, _ => ⟨x, rfl, hx, by simp⟩
  | y :: ys, x, hx, h => by
    unfold foldLeft
    refine (div_val hx (h y (by simp)).1 (h y (by simp)).2).bind fun r hr hrv => ?_
    have := divide_fold ys r hr fun z hz => h z (by simp [hz])
    rwa [hrv, div_div] at this

/-- **C25, partially**: quotients of exact rationals by non-zero ones are exact, and in lowest
terms. -/
theorem C25_quotient_partial {x : Num} (hx : x.Valid) :
    (x.val ≠ 0 → Yields (divide [x]) (1 / x.val)) ∧
    ∀ {xs : List Num}, xs ≠ [] → (∀ y ∈ xs, y.Valid ∧ y.val ≠ 0) →
      Yields (divide (x :: xs)) (x.val / (xs.map Num.val).prod) := by
  constructor
  · intro h
    have := div_val (x := .small 1) (by simp [Num.Valid]) hx h
    rwa [show (Num.small 1).val = 1 by simp [Num.val]] at this
  · intro xs hne h
    cases xs with
    | nil => exact absurd rfl hne
    | cons y ys => exact divide_fold (y :: ys) x hx h

/-- No ratio object stands for an integer. -/
def Num.Normal (x : Num) : Prop := ∀ q, x = .ratio q → q.den ≠ 1

theorem canonicalizeInteger_normal (i : Int) : (canonicalizeInteger i).Normal := by
  unfold canonicalizeInteger
  split <;> exact fun q h => nomatch h

theorem returnRatio_normal {o : Outcome Mpq} {r : Num} (h : returnRatio o = .value r) : r.Normal := by
  cases o with
  | value q =>
    simp only [returnRatio, bind_value, pure_eq, Outcome.value.injEq] at h
    subst h
    unfold canonicalizeRatio
    split
    · exact fun q h => nomatch h
    · rename_i h1
      intro q' h
      cases h
      exact h1
  | raised => simp [returnRatio] at h
  | undefined => simp [returnRatio] at h

theorem widen_normal {i : Int} {r : Num}
    (h : (do pure (canonicalizeInteger (← widen i))) = Outcome.value r) : r.Normal := by
  unfold widen at h
  split at h
  · simp only [bind_value, pure_eq, Outcome.value.injEq] at h
    subst h
    exact canonicalizeInteger_normal _
  · simp at h

theorem large_normal {z : Int} {r : Num} (h : Outcome.value (Num.large z) = .value r) : r.Normal := by
  cases h
  exact fun q h => nomatch h

/-- **C25, partially**: a sum, difference or product that is an integer is an exact integer object;
so is a quotient, unless both operands are immediate integers. -/
theorem C25_integers_partial {x y r : Num} :
    (add x y = .value r → r.Normal) ∧ (sub x y = .value r → r.Normal) ∧
    (mul x y = .value r → r.Normal) ∧
    ((∀ a b, ¬ (x = .small a ∧ y = .small b)) → div x y = .value r → r.Normal) := by
  refine ⟨?_, ?_, ?_, ?_⟩
  · cases x <;> cases y <;> intro h <;>
      first | exact widen_normal h | exact large_normal h | exact returnRatio_normal h
  · cases x <;> cases y <;> intro h <;>
      first | exact widen_normal h | exact large_normal h | exact returnRatio_normal h
  · cases x <;> cases y <;> intro h <;>
      first | exact widen_normal h | exact large_normal h | exact returnRatio_normal h
  · cases x <;> cases y <;> intro hs h
    · exact absurd ⟨rfl, rfl⟩ (hs _ _)
    all_goals exact returnRatio_normal h

/-- A normal object that stands for an integer is an exact integer object. -/
theorem Num.Normal.isExactInteger {x : Num} {z : Int} (h : x.Normal) (hx : x.Valid) (hv : x.val = z) :
    isExactInteger x = true := by
  cases x with
  | small i => rfl
  | large i => rfl
  | ratio q =>
    exfalso
    obtain ⟨h1, h2⟩ := hx
    have hd : (q.den : ℚ) ≠ 0 := by exact_mod_cast h1.ne'
    simp only [Num.val] at hv
    rw [div_eq_iff hd] at hv
    have hz : q.num = z * q.den := by exact_mod_cast hv
    rw [hz, Int.gcd_mul_left_left] at h2
    exact h q rfl (by omega)

/-- **C25 is false for quotients of immediate integers**: `(/ 6 3)` is a ratio object with
denominator 1, for which `exact-integer?` is false. -/
theorem C25_quotient_fails :
    ∃ r, divide [.small 6, .small 3] = .value r ∧ r.val = 2 ∧ isExactInteger r = false ∧
      isInteger r = true := by
  refine ⟨.ratio ⟨2, 1⟩, ?_, ?_, rfl, rfl⟩
  · simp [divide, foldLeft, div, Mpq.make, Mpq.canonicalize, show Int.gcd 6 3 = 3 from rfl]
  · simp [Num.val]

/-- **C25 is false for a zero divisor**: no error is raised, the execution is not defined (the
process is killed by the arithmetic library). -/
theorem C25_zero_fails (x : Num) : divide [x, .small 0] = .undefined := by
  cases x <;> simp [divide, foldLeft, div, Mpq.make, Mpq.div, Mpq.canonicalize, returnRatio, Mpq.ofInteger]

example : Yields (divide [.small 1, .small (-6), .large 4]) (-1 / 24) := by
  have := (C25_quotient_partial (x := .small 1) (by simp [Num.Valid])).2 (xs := [.small (-6), .large 4])
    (by simp) (by simp [Num.Valid, Num.val])
  refine Eq.subst (motive := Yields _) ?_ this
  simp [Num.val]
  norm_num

/-! ### C26: integer division -/

theorem fmod_range (n : Int) {d : Int} (hd : d ≠ 0) : |Int.fmod n d| < |d| ∧ 0 ≤ Int.fmod n d * d := by
  rcases lt_or_gt_of_ne hd with h | h
  · have h1 := Int.fmod_nonneg_of_pos (-n) (show 0 < -d by omega)
    have h2 := Int.fmod_lt_of_pos (-n) (show 0 < -d by omega)
    rw [Int.neg_fmod_neg] at h1 h2
    rw [abs_of_nonpos (by omega), abs_of_neg h]
    exact ⟨h2, mul_nonneg_of_nonpos_of_nonpos (by omega) h.le⟩
  · have h1 := Int.fmod_nonneg_of_pos n h
    have h2 := Int.fmod_lt_of_pos n h
    rw [abs_of_nonneg h1, abs_of_pos h]
    exact ⟨h2, mul_nonneg h1 h.le⟩

theorem tmod_range (n : Int) {d : Int} (hd : d ≠ 0) : |Int.tmod n d| < |d| ∧ 0 ≤ Int.tmod n d * n := by
  constructor
  · have h1 := Int.natAbs_tmod n d
    have h2 := Nat.mod_lt n.natAbs (Int.natAbs_pos.2 hd)
    rw [Int.abs_eq_natAbs, Int.abs_eq_natAbs, h1]
    exact_mod_cast h2
  · rcases le_total 0 n with h | h
    · exact mul_nonneg (Int.tmod_nonneg d h) h
    · have := Int.tmod_nonneg d (show 0 ≤ -n by omega)
      rw [Int.neg_tmod] at this
      exact mul_nonneg_of_nonpos_of_nonpos (by omega) h

/-- **C26, partially**: for a non-zero divisor, `remainder` and `modulo` return the remainders with
the signs of the dividend and of the divisor, in every representation. -/
theorem C26_remainder_partial {x y : Num} {n d : Int} (hx : IsInt x n) (hy : IsInt y d) (hd : d ≠ 0) :
    (∃ r, Gives (remainder x y) r ∧ d ∣ n - r ∧ |r| < |d| ∧ 0 ≤ r * n) ∧
    (∃ m, Gives (modulo x y) m ∧ d ∣ n - m ∧ |m| < |d| ∧ 0 ≤ m * d) := by
  constructor
  · refine ⟨_, rem_int hx hy hd, ?_, tmod_range n hd⟩
    have := Int.mul_tdiv_add_tmod n d
    exact ⟨Int.tdiv n d, by linarith⟩
  · refine ⟨_, modulo_int hx hy hd, ?_, ?_, ?_⟩
    · have := Int.mul_fdiv_add_fmod n d
      exact ⟨Int.fdiv n d, by linarith⟩
    · exact (fmod_range n hd).1
    · exact (fmod_range n hd).2

/-- **C26, partially**: `quotient` and `remainder` satisfy `n = d * q + r` when the quotient is even
or less than `2 ^ 53`. -/
theorem C26_quotient_partial {x y : Num} {n d : Int} (hx : IsInt x n) (hy : IsInt y d) (hd : d ≠ 0)
    (h : d ∣ n ∨ |n| < 2 ^ 53 * |d|) :
    ∃ q r, Gives (quotient x y) q ∧ Gives (remainder x y) r ∧ n = d * q + r ∧ |r| < |d| := by
  exact ⟨_, _, quotient_int hx hy hd h, rem_int hx hy hd, (Int.mul_tdiv_add_tmod n d).symm,
    (tmod_range n hd).1⟩

example : ∃ q r, Gives (quotient (.small (-7)) (.large 2)) q ∧
    Gives (remainder (.small (-7)) (.large 2)) r ∧ -7 = 2 * q + r ∧ |r| < |2| :=
  C26_quotient_partial (.small (by norm_num) (by norm_num)) (.large _) (by norm_num)
    (Or.inr (by norm_num))

theorem halve (p : Int) : div (.large (2 * p + 1)) (.small 2) = .value (.ratio ⟨2 * p + 1, 2⟩) := by
  have hg : Int.gcd (2 * p + 1) 2 = 1 := by
    have h : ((Int.gcd (2 * p + 1) 2 : Nat) : Int) ∣ 1 := by
      have h1 : ((Int.gcd (2 * p + 1) 2 : Nat) : Int) ∣ 2 * p + 1 := Int.gcd_dvd_left ..
      have h2 : ((Int.gcd (2 * p + 1) 2 : Nat) : Int) ∣ 2 * p := (Int.gcd_dvd_right ..).mul_right p
      exact (Int.dvd_add_right h2).1 h1
    exact Nat.dvd_one.1 (by exact_mod_cast h)
  simp [div, Mpq.make, Mpq.canonicalize, returnRatio, canonicalizeRatio, hg]

/-- The conversion to a double drops a bit of this number. -/
theorem getD_witness : mpqGetD ⟨2 * (2 ^ 53 + 1) + 1, 2⟩ = some (2 ^ 53) := by
  have hlog : Int.log 2 |(9007199254740993 + 1 / 2 : ℚ)| = 53 := by
    have hp : (0 : ℚ) < |(9007199254740993 + 1 / 2 : ℚ)| := by norm_num
    apply le_antisymm
    · exact Int.lt_add_one_iff.1 ((Int.lt_zpow_iff_log_lt (b := 2) (by norm_num) (x := 54) hp).1 (by norm_num))
    · exact (Int.zpow_le_iff_le_log (b := 2) (by norm_num) (x := 53) hp).1 (by norm_num)
  have hu : ulp (9007199254740993 + 1 / 2 : ℚ) = 2 := by
    unfold ulp
    rw [hlog]
    norm_num
  have hv : (⟨2 * (2 ^ 53 + 1) + 1, 2⟩ : Mpq).val = 9007199254740993 + 1 / 2 := by
    unfold Mpq.val
    norm_num
  unfold mpqGetD
  simp only [hv, hu]
  rw [if_neg (by norm_num), if_neg, if_neg (by norm_num)]
  · congr 1
    have : ⌊|(9007199254740993 + 1 / 2 : ℚ)| / 2⌋ = 4503599627370496 := by
      rw [Int.floor_eq_iff]
      norm_num
    rw [this]
    norm_num
  · rw [not_le]
    exact lt_trans (b := 2 ^ 54) (by norm_num) (two_pow_lt (by norm_num))

/-- **C26 is false for big quotients**: `(quotient (+ (* 2 (+ (expt 2 53) 1)) 1) 2)` is `2 ^ 53`,
one less than the integer part. -/
theorem C26_quotient_fails :
    Gives (quotient (.large (2 * (2 ^ 53 + 1) + 1)) (.small 2)) (2 ^ 53) ∧
    Int.tdiv (2 * (2 ^ 53 + 1) + 1) 2 = 2 ^ 53 + 1 := by
  refine ⟨?_, by decide⟩
  unfold quotient
  rw [halve, bind_value]
  unfold truncate nearest
  simp only [getD_witness]
  rw [show (2 ^ 53 : ℚ) = ((2 ^ 53 : Int) : ℚ) by norm_num, stdTrunc_int]
  exact .large _

/-- **C26 is false for quotients of `2 ^ 1024` and more**: the execution is not defined. -/
theorem C26_huge_fails : quotient (.large (2 * 2 ^ 1024 + 1)) (.small 2) = .undefined := by
  have key : ∀ p : Int, (p : ℚ) = 2 ^ 1024 → mpqGetD ⟨2 * p + 1, 2⟩ = none := by
    intro p hp
    have h0 : (0 : ℚ) < 2 ^ 1024 := by positivity
    have hv : (⟨2 * p + 1, 2⟩ : Mpq).val = p + 1 / 2 := by
      unfold Mpq.val
      push_cast
      ring
    unfold mpqGetD
    simp only [hv]
    rw [← hp] at h0 ⊢
    clear hp
    rw [if_neg (by linarith), if_pos]
    rw [abs_of_pos (by linarith)]
    linarith
  unfold quotient
  rw [halve, bind_value]
  unfold truncate nearest
  simp only [key (2 ^ 1024) (by rw [Int.cast_pow]; rfl)]

/-- **C26 is false for a zero divisor**: no error is raised, the execution is not defined. -/
theorem C26_zero_fails {x : Num} {n : Int} (hx : IsInt x n) :
    quotient x (.small 0) = .undefined ∧ remainder x (.small 0) = .undefined ∧
      modulo x (.small 0) = .undefined := by
  rcases hx with ⟨rfl, _⟩ | rfl <;>
    simp [quotient, remainder, modulo, rem, widenRem, mpzTdivR, div, Mpq.make, Mpq.canonicalize, returnRatio]

/-! ### C27: greatest common divisor and least common multiple -/

theorem foldl_gcd (zs : List Int) (z : Int) (d : Int) :
    d ∣ zs.foldl (fun a b => (Int.gcd a b : Int)) z ↔ d ∣ z ∧ ∀ w ∈ zs, d ∣ w := by
  induction zs generalizing z with
  | nil => simp
  | cons w zs ih =>
    rw [List.foldl_cons, ih, Int.dvd_coe_gcd_iff]
    simp [and_assoc]

theorem foldl_gcd_nonneg (zs : List Int) (z : Int) (h : 0 ≤ z) :
    0 ≤ zs.foldl (fun a b => (Int.gcd a b : Int)) z := by
  induction zs generalizing z with
  | nil => exact h
  | cons w zs ih => exact ih _ (Int.natCast_nonneg _)

/-- **C27, partially**: `gcd` of two or more exact integers is their greatest common divisor. -/
theorem C27_gcd_partial {xs : List Num} {zs : List Int} (h : List.Forall₂ IsInt xs zs)
    (h1 : xs.length ≠ 1) :
    ∃ g, Gives (gcd xs) g ∧ 0 ≤ g ∧ ∀ d : Int, d ∣ g ↔ ∀ z ∈ zs, d ∣ z := by
  cases h with
  | nil => exact ⟨0, ⟨_, rfl, .small (by norm_num) (by norm_num)⟩, by simp⟩
  | @cons x z xs zs hx hxs =>
    cases hxs with
    | nil => simp at h1
    | @cons y w ys ws hy hys =>
      refine ⟨_, foldLeft_int (fun _ _ _ _ => gcd2_int) _ _ _ _ hx (.cons hy hys), ?_, fun d => ?_⟩
      · rw [List.foldl_cons]
        exact foldl_gcd_nonneg _ _ (Int.natCast_nonneg _)
      · rw [foldl_gcd]
        simp

/-- **C27 is false for a single negative argument**: `(gcd -5)` is -5, `(lcm -5)` is -5. -/
theorem C27_single_fails {x : Num} {a : Int} (hx : IsInt x a) (h : a < 0) :
    (∃ g, Gives (gcd [x]) g ∧ g < 0) ∧ (∃ m, Gives (lcm [x]) m ∧ m < 0) :=
  ⟨⟨a, ⟨x, rfl, hx⟩, h⟩, ⟨a, ⟨x, rfl, hx⟩, h⟩⟩

/-- **C27, partially**: a single argument that is not negative is its own `gcd` and `lcm`. -/
theorem C27_single_partial {x : Num} {a : Int} (hx : IsInt x a) :
    Gives (gcd [x]) a ∧ Gives (lcm [x]) a :=
  ⟨⟨x, rfl, hx⟩, ⟨x, rfl, hx⟩⟩

theorem foldLeft_lcm : ∀ (xs : List Num) (zs : List Int) (x : Num) (z : Int), IsInt x z →
    List.Forall₂ IsInt xs zs → (z :: zs).count 0 ≤ 1 →
    Gives (foldLeft lcm2 x xs) (zs.foldl (fun a b => (Int.lcm a b : Int)) z)
  | [], _, x, z, hx, .nil, _ => ⟨x, rfl, hx⟩
  | y :: ys, _, x, z, hx, .cons (b := w) (l₂ := ws) hy hys, h => by
    have hzw : ¬ (z = 0 ∧ w = 0) := by
      rintro ⟨rfl, rfl⟩
      simp at h
    unfold foldLeft
    rw [List.foldl_cons]
    refine (lcm2_int hx hy hzw).bind fun r hr => foldLeft_lcm ys ws r _ hr hys ?_
    have e : ((Int.lcm z w : Int) = 0) ↔ z = 0 ∨ w = 0 := by
      rw [Int.natCast_eq_zero, Int.lcm_eq_zero_iff]
    simp only [List.count_cons, beq_iff_eq] at h ⊢
    split_ifs at h ⊢ <;> omega

theorem foldl_lcm (zs : List Int) (z : Int) (d : Int) :
    zs.foldl (fun a b => (Int.lcm a b : Int)) z ∣ d ↔ z ∣ d ∧ ∀ w ∈ zs, w ∣ d := by
  induction zs generalizing z with
  | nil => simp
  | cons w zs ih =>
    rw [List.foldl_cons, ih, Int.coe_lcm_dvd_iff]
    simp [and_assoc]

theorem foldl_lcm_nonneg (zs : List Int) (z : Int) (h : 0 ≤ z) :
    0 ≤ zs.foldl (fun a b => (Int.lcm a b : Int)) z := by
  induction zs generalizing z with
  | nil => exact h
  | cons w zs ih => exact ih _ (Int.natCast_nonneg _)

/-- **C27, partially**: `lcm` of two or more exact integers, at most one of them zero, is their least
common multiple. -/
theorem C27_lcm_partial {xs : List Num} {zs : List Int} (h : List.Forall₂ IsInt xs zs)
    (h1 : xs.length ≠ 1) (h0 : zs.count 0 ≤ 1) :
    ∃ m, Gives (lcm xs) m ∧ 0 ≤ m ∧ ∀ d : Int, m ∣ d ↔ ∀ z ∈ zs, z ∣ d := by
  cases h with
  | nil => exact ⟨1, ⟨_, rfl, .small (by norm_num) (by norm_num)⟩, by simp⟩
  | @cons x z xs zs hx hxs =>
    cases hxs with
    | nil => simp at h1
    | @cons y w ys ws hy hys =>
      refine ⟨_, foldLeft_lcm _ _ _ _ hx (.cons hy hys) h0, ?_, fun d => ?_⟩
      · rw [List.foldl_cons]
        exact foldl_lcm_nonneg _ _ (Int.natCast_nonneg _)
      · rw [foldl_lcm]
        simp

/-- **C27 is false for two zeros**: `(lcm 0 0)` is not 0, the execution is not defined. -/
theorem C27_zeros_fails : lcm [.small 0, .small 0] = .undefined := by
  simp [lcm, foldLeft, lcm2, mul, widen, Fits64, gcd2, magnitude, gcdFuel, isZero, equals, abs,
    canonicalizeInteger, Fits32, quotient, div, Mpq.make, Mpq.canonicalize]

/-- **C27**: the product of `gcd` and `lcm` of two integers is the absolute value of their
product. -/
theorem C27_product_partial {x y : Num} {a b : Int} (hx : IsInt x a) (hy : IsInt y b)
    (h : ¬ (a = 0 ∧ b = 0)) :
    ∃ g m, Gives (gcd [x, y]) g ∧ Gives (lcm [x, y]) m ∧ g * m = |a * b| := by
  refine ⟨Int.gcd a b, Int.lcm a b, ?_, ?_, ?_⟩
  · have := foldLeft_int (fun _ _ _ _ => gcd2_int) [y] [b] x a hx (.cons hy .nil)
    exact this
  · have := foldLeft_lcm [y] [b] x a hx (.cons hy .nil) (by
      simp only [List.count_cons, List.count_nil, beq_iff_eq]
      split_ifs <;> first | omega | tauto)
    exact this
  · have := Int.gcd_mul_lcm a b
    rw [Int.abs_eq_natAbs, Int.natAbs_mul, ← this]
    push_cast
    rfl

example : ∃ m, Gives (lcm [.small 4, .large (-6), .small 0]) m ∧ 0 ≤ m ∧
    ∀ d : Int, m ∣ d ↔ ∀ z ∈ [4, -6, 0], z ∣ d :=
  C27_lcm_partial (.cons (.small (by norm_num) (by norm_num)) (.cons (.large _)
    (.cons (.small (by norm_num) (by norm_num)) .nil))) (by decide) (by decide)

/-! ### C28: bitwise operations -/

/-- **C28**: every bit of the complement is the complement of the bit. -/
theorem C28_not {x : Num} {a : Int} (hx : IsInt x a) :
    ∃ z, Gives (bitwiseNot x) z ∧ ∀ i, bit z i = !bit a i :=
  ⟨_, bitwiseNot_int hx, bit_complement a⟩

/-- **C28**: every bit of `bitwise-and` is the conjunction of the bits of the arguments, those of
`bitwise-ior` the disjunction, and those of `bitwise-xor` the exclusive disjunction. -/
theorem C28_bitwise {xs : List Num} {zs : List Int} (h : List.Forall₂ IsInt xs zs) :
    (∃ z, Gives (bitwiseAnd xs) z ∧ ∀ i, bit z i = zs.all (bit · i)) ∧
    (∃ z, Gives (bitwiseIor xs) z ∧ ∀ i, bit z i = zs.any (bit · i)) ∧
    (∃ z, Gives (bitwiseXor xs) z ∧ ∀ i, bit z i = (zs.map (bit · i)).foldl xor false) := by
  refine ⟨⟨_, bitwiseAnd_int h, fun i => ?_⟩, ⟨_, bitwiseIor_int h, fun i => ?_⟩,
    ⟨_, bitwiseXor_int h, fun i => ?_⟩⟩
  · rw [bit_foldl bit_land, bit_neg_one]
    have : ∀ (bs : List Int) (b : Bool),
        (bs.map (bit · i)).foldl and b = (b && bs.all (bit · i)) := by
      intro bs
      induction bs with
      | nil => simp
      | cons c bs ih => intro b; simp [ih, Bool.and_assoc]
    rw [this, Bool.true_and]
  · rw [bit_foldl bit_lor, bit_zero]
    have : ∀ (bs : List Int) (b : Bool),
        (bs.map (bit · i)).foldl or b = (b || bs.any (bit · i)) := by
      intro bs
      induction bs with
      | nil => simp
      | cons c bs ih => intro b; simp [ih, Bool.or_assoc]
    rw [this, Bool.false_or]
  · rw [bit_foldl bit_xor, bit_zero]

/-- The bits determine the integer, so C28 leaves no freedom. -/
theorem C28_determines {a b : Int} (h : ∀ i, bit a i = bit b i) : a = b := bit_ext h

/-- A case across the representations: a negative immediate integer and a big integer. -/
example : ∃ z, Gives (bitwiseAnd [.small (-4), .large (2 ^ 70 + 7)]) z ∧
    ∀ i, bit z i = [-4, 2 ^ 70 + 7].all (bit · i) :=
  (C28_bitwise (.cons (.small (by norm_num) (by norm_num)) (.cons (.large _) .nil))).1

/-! ### C29: shifts, counts, lengths -/

/-- **C29, partially**: a shift by a 32-bit amount gives `floor (n * 2 ^ k)`; the right shift of an
immediate integer has to be by less than 64. -/
theorem C29_shift_partial {x k : Num} {n c : Int} (hx : IsInt x n) (hk : IsInt k c)
    (hc1 : -2 ^ 31 < c) (hc2 : c < 2 ^ 31) (hd : ∀ a, x = .small a → -64 < c) :
    Gives (arithmeticShift x k) ⌊(n : ℚ) * 2 ^ c⌋ := by
  rw [← shifted_eq_floor]
  exact arithmeticShift_int hx hk hc1 hc2 hd

/-- **C29 is false for right shifts of immediate integers by 64 or more**: `(arithmetic-shift 1 -64)`
is a shift of a 64-bit integer by 64, which C++ does not define. -/
theorem C29_shift_fails (a c : Int) (h : c ≤ -64) : arithmeticShift (.small a) (.small c) = .undefined := by
  simp only [arithmeticShift, castSmall, bind_value, bitShift]
  rw [if_pos (by omega), if_neg (by omega)]

/-- **C29, partially**: `bit-count` counts the bits that differ from the sign, if they are less than
`2 ^ 31`, which they always are for an immediate integer. -/
theorem C29_count_partial {x : Num} {n : Int} (hx : IsInt x n) :
    ((marked n).ncard < 2 ^ 31 → Gives (bitCount x) (marked n).ncard) ∧
    ((∃ a, x = .small a) → (marked n).ncard < 2 ^ 31) := by
  refine ⟨bitCount_int hx, ?_⟩
  rintro ⟨a, rfl⟩
  rcases hx with ⟨h, h1, h2⟩ | h
  · exact marked_small h1 h2
  · exact nomatch h

/-- **C29, partially**: `integer-length` is the least number of bits, except of a big integer -1. -/
theorem C29_length_partial {x : Num} {n : Int} (hx : IsInt x n) (h : x ≠ .large (-1)) :
    ∃ w : Nat, Gives (bitWidth x) w ∧ IsLength n w :=
  bitWidth_int hx h

/-- **C29 is false for a big integer -1**, such as `(quotient -3 2)`: its length is given as 1, but
0 bits suffice. -/
theorem C29_length_fails :
    Gives (quotient (.small (-3)) (.small 2)) (-1) ∧
    (∀ x, quotient (.small (-3)) (.small 2) = .value x → x = .large (-1)) ∧
    Gives (bitWidth (.large (-1))) 1 ∧ IsLength (-1) 0 := by
  have h1 := quotient_int (x := .small (-3)) (y := .small 2) (.small (by norm_num) (by norm_num))
    (.small (by norm_num) (by norm_num)) (by norm_num) (Or.inr (by norm_num))
  have h2 : Int.tdiv (-3) 2 = -1 := by decide
  rw [h2] at h1
  refine ⟨h1, fun x hx => ?_, ?_, ?_⟩
  · obtain ⟨y, hy, h3⟩ := h1
    rw [hx] at hy
    cases hy
    simp only [quotient, div, Mpq.make, Mpq.canonicalize, truncate, nearest] at hx
    norm_num at hx
    split at hx
    · cases hx
      rcases h3 with ⟨h, _⟩ | h
      · exact nomatch h
      · exact h
    · exact nomatch hx
  · exact ⟨.small 1, by simp [bitWidth, mpzSizeinbase2, lnot_eq, canonicalizeInteger, Fits32],
      .small (by norm_num) (by norm_num)⟩
  · exact ⟨by norm_num, fun n _ => Nat.zero_le n⟩

/-- **C29 is false for very many ones**: `2 ^ 31` of them are counted as `-2 ^ 31`. -/
theorem C29_count_fails {n : Int} (h0 : 0 ≤ n) (h : (marked n).ncard = 2 ^ 31) :
    Gives (bitCount (.large n)) (-2 ^ 31) := by
  rw [marked_nonneg h0] at h
  unfold bitCount
  simp only
  rw [if_neg (by omega), h]
  exact ⟨_, rfl, .small (by norm_num [narrow]) (by norm_num [narrow])⟩

/-- There is such a number. -/
theorem C29_count_witness : 0 ≤ (2 : Int) ^ 2 ^ 31 - 1 ∧ (marked (2 ^ 2 ^ 31 - 1)).ncard = 2 ^ 31 := by
  have key : ∀ n : Nat, 0 ≤ (2 : Int) ^ n - 1 ∧ (marked (2 ^ n - 1)).ncard = n := by
    intro n
    have h := two_pow_pos n
    refine ⟨by omega, ?_⟩
    have e : marked (2 ^ n - 1) = ((Finset.range n : Finset Nat) : Set Nat) := by
      ext i
      have : bit ((2 : Int) ^ n - 1) i = decide (i < n) := by
        rw [show (2 : Int) ^ n - 1 = -1 - (-1) * 2 ^ n by ring, bit_complement, bit_mul_two_pow,
          bit_neg_one, Bool.and_true]
        by_cases hi : i < n
        · simp [hi]
        · simp [hi, not_lt.1 hi]
      simp only [marked, Set.mem_ofPred_eq, this, show ¬ ((2 : Int) ^ n - 1 < 0) by omega]
      simp
    rw [e, Set.ncard_coe_finset, Finset.card_range]
  exact key _

example : Gives (arithmeticShift (.small (-7)) (.small (-1))) (-4) := by
  have := C29_shift_partial (x := .small (-7)) (k := .small (-1)) (.small (by norm_num) (by norm_num))
    (.small (by norm_num) (by norm_num)) (by norm_num) (by norm_num) (fun _ _ => by norm_num)
  have e : ⌊((-7 : Int) : ℚ) * (2 : ℚ) ^ (-1 : Int)⌋ = -4 := by
    rw [Int.floor_eq_iff]
    norm_num
  rwa [e] at this

/-! ### C32: comparison -/

/-- **C32**: an n-ary comparison of exact numbers holds just if the mathematical relation holds
between all neighbours. -/
theorem C32_comparison {xs : List Num} (h : ∀ x ∈ xs, x.Valid) :
    (numEq xs = true ↔ List.IsChain (· = ·) (xs.map Num.val)) ∧
    (numLt xs = true ↔ List.IsChain (· < ·) (xs.map Num.val)) ∧
    (numLe xs = true ↔ List.IsChain (· ≤ ·) (xs.map Num.val)) ∧
    (numGt xs = true ↔ List.IsChain (· > ·) (xs.map Num.val)) ∧
    (numGe xs = true ↔ List.IsChain (· ≥ ·) (xs.map Num.val)) :=
  ⟨noAdjacent_iff (fun _ _ hx hy => notEquals_iff hx hy) xs h,
   noAdjacent_iff (fun _ _ hx hy => by rw [greaterThanOrEquals_iff hx hy, not_lt]) xs h,
   noAdjacent_iff (fun _ _ hx hy => by rw [greaterThan_iff hx hy, not_le]) xs h,
   noAdjacent_iff (fun _ _ hx hy => by rw [lessThanOrEquals_iff hx hy, gt_iff_lt, not_lt]) xs h,
   noAdjacent_iff (fun _ _ hx hy => by rw [lessThan_iff hx hy, ge_iff_le, not_le]) xs h⟩

/-- **C32**: exactly one of `<`, `=`, `>` holds of two exact numbers. -/
theorem C32_trichotomy {x y : Num} (hx : x.Valid) (hy : y.Valid) :
    (numLt [x, y] = true ∧ numEq [x, y] = false ∧ numGt [x, y] = false) ∨
    (numLt [x, y] = false ∧ numEq [x, y] = true ∧ numGt [x, y] = false) ∨
    (numLt [x, y] = false ∧ numEq [x, y] = false ∧ numGt [x, y] = true) := by
  obtain ⟨h1, h2, _, h4, _⟩ := C32_comparison (xs := [x, y]) (by simp [hx, hy])
  simp only [List.map_cons, List.map_nil, List.isChain_pair] at h1 h2 h4
  simp only [← Bool.not_eq_true, h1, h2, h4]
  rcases lt_trichotomy x.val y.val with h | h | h
  · exact Or.inl ⟨h, h.ne, not_lt.2 h.le⟩
  · exact Or.inr (Or.inl ⟨not_lt.2 h.ge, h, not_lt.2 h.le⟩)
  · exact Or.inr (Or.inr ⟨not_lt.2 h.le, h.ne', h⟩)

/-- **C32**: `max` and `min` return one of their arguments, and no argument is greater, or less. -/
theorem C32_extrema {xs : List Num} (hne : xs ≠ []) (h : ∀ x ∈ xs, x.Valid) :
    (∃ m, max xs = some m ∧ m ∈ xs ∧ ∀ x ∈ xs, x.val ≤ m.val) ∧
    (∃ m, min xs = some m ∧ m ∈ xs ∧ ∀ x ∈ xs, m.val ≤ x.val) := by
  cases xs with
  | nil => exact absurd rfl hne
  | cons x xs =>
    have hx := h x (by simp)
    have hxs : ∀ y ∈ xs, y.Valid := fun y hy => h y (by simp [hy])
    exact ⟨⟨_, rfl, maxLoop_spec xs x hx hxs⟩, ⟨_, rfl, minLoop_spec xs x hx hxs⟩⟩

example : numLt [.small 1, .ratio ⟨3, 2⟩, .large 2] = true := by
  have hc : ∀ x ∈ [Num.small 1, .ratio ⟨3, 2⟩, .large 2], x.Valid := by
    simp [Num.Valid, Mpq.Canonical]
    rfl
  rw [(C32_comparison hc).2.1]
  simp [Num.val]
  norm_num

end Meevax.Number
