import Verif.Spec.Flonum
import Verif.Lemmas.Flonum
import Verif.Lemmas.InexactText
import Verif.Props.InexactDivision

/-
C78: the flonum procedures of SRFI 144.
-/

namespace Meevax.Number

/-! ### `fladjacent` -/

theorem Flo.lt_irrefl (x : Flo) : x.lt x = false := by
  cases x with
  | finite s m => simp [Flo.lt]
  | inf s => cases s <;> rfl
  | nan => rfl

theorem up_false {x : Flo} {m : ℚ} (hx : x.Is m) (hm : Rep m) :
    (nextUp false m).Valid ∧ nextUp false m ≠ .nan ∧ x.lt (nextUp false m) = true ∧
      ∀ z : Flo, z.Valid → x.lt z = true → z.lt (nextUp false m) = false := by
  obtain ⟨s, n, rfl, hn⟩ := hx
  change signed s n = m at hn
  have h0 := hm.nonneg
  rcases nextUp_spec false hm with ⟨h, hall⟩ | ⟨v, h, hv, hlt, hbet⟩
  · rw [h]
    refine ⟨trivial, by simp, rfl, fun z hz hxz => ?_⟩
    cases z with
    | nan => rfl
    | inf t =>
      cases t
      · rfl
      · simp [Flo.lt] at hxz
    | finite t k =>
      exfalso
      simp only [Flo.lt, decide_eq_true_iff, hn] at hxz
      have := hall k hz
      have := Rep.nonneg hz
      cases t <;> simp [signed] at hxz <;> linarith
  · rw [h]
    refine ⟨hv, by simp, ?_, fun z hz hxz => ?_⟩
    · simp only [Flo.lt, decide_eq_true_iff, hn]
      exact hlt
    · cases z with
      | nan => rfl
      | inf t =>
        cases t
        · rfl
        · simp [Flo.lt] at hxz
      | finite t k =>
        simp only [Flo.lt, decide_eq_true_iff, hn, decide_eq_false_iff_not, not_lt] at hxz ⊢
        have := Rep.nonneg hz
        cases t
        · exact hbet k hz hxz
        · simp [signed] at hxz
          linarith

theorem up_true {x : Flo} {m : ℚ} (hx : x.Is (-m)) (hm : Rep m) :
    (nextUp true m).Valid ∧ nextUp true m ≠ .nan ∧ (nextUp true m).lt x = true ∧
      ∀ z : Flo, z.Valid → z.lt x = true → (nextUp true m).lt z = false := by
  obtain ⟨s, n, rfl, hn⟩ := hx
  change signed s n = -m at hn
  have h0 := hm.nonneg
  rcases nextUp_spec true hm with ⟨h, hall⟩ | ⟨v, h, hv, hlt, hbet⟩
  · rw [h]
    refine ⟨trivial, by simp, rfl, fun z hz hxz => ?_⟩
    cases z with
    | nan => rfl
    | inf t =>
      cases t
      · simp [Flo.lt] at hxz
      · rfl
    | finite t k =>
      exfalso
      simp only [Flo.lt, decide_eq_true_iff, hn] at hxz
      have := hall k hz
      have := Rep.nonneg hz
      cases t <;> simp [signed] at hxz <;> linarith
  · rw [h]
    refine ⟨hv, by simp, ?_, fun z hz hxz => ?_⟩
    · rw [Flo.lt, decide_eq_true_iff, hn, signed, if_pos rfl]
      linarith
    · cases z with
      | nan => rfl
      | inf t =>
        cases t
        · simp [Flo.lt] at hxz
        · rfl
      | finite t k =>
        simp only [Flo.lt, decide_eq_true_iff, hn, decide_eq_false_iff_not, not_lt] at hxz ⊢
        have := Rep.nonneg hz
        cases t
        · simp [signed] at hxz
          linarith
        · simp only [signed, if_true] at hxz ⊢
          have := hbet k hz (by linarith)
          linarith

theorem down_false {m : ℚ} (hm : Rep m) (hm0 : m ≠ 0) :
    (nextDown false m).Valid ∧ nextDown false m ≠ .nan ∧
      (nextDown false m).lt (.finite false m) = true ∧
      ∀ z : Flo, z.Valid → z.lt (.finite false m) = true → (nextDown false m).lt z = false := by
  obtain ⟨v, h, hv, hlt, hbet⟩ := nextDown_spec false hm hm0
  rw [h]
  refine ⟨hv, by simp, ?_, fun z hz hxz => ?_⟩
  · simp only [Flo.lt, decide_eq_true_iff]
    exact hlt
  · have hv0 := hv.nonneg
    cases z with
    | nan => rfl
    | inf t =>
      cases t
      · simp [Flo.lt] at hxz
      · rfl
    | finite t k =>
      simp only [Flo.lt, decide_eq_true_iff, decide_eq_false_iff_not, not_lt] at hxz ⊢
      have := Rep.nonneg hz
      cases t
      · exact hbet k hz hxz
      · simp [signed]
        linarith

theorem down_true {m : ℚ} (hm : Rep m) (hm0 : m ≠ 0) :
    (nextDown true m).Valid ∧ nextDown true m ≠ .nan ∧
      (Flo.finite true m).lt (nextDown true m) = true ∧
      ∀ z : Flo, z.Valid → (Flo.finite true m).lt z = true → z.lt (nextDown true m) = false := by
  obtain ⟨v, h, hv, hlt, hbet⟩ := nextDown_spec true hm hm0
  rw [h]
  refine ⟨hv, by simp, ?_, fun z hz hxz => ?_⟩
  · simp only [Flo.lt, decide_eq_true_iff, signed, if_true]
    linarith
  · have hv0 := hv.nonneg
    cases z with
    | nan => rfl
    | inf t =>
      cases t
      · rfl
      · simp [Flo.lt] at hxz
    | finite t k =>
      simp only [Flo.lt, decide_eq_true_iff, decide_eq_false_iff_not, not_lt, signed] at hxz ⊢
      have := Rep.nonneg hz
      cases t
      · simp only [Bool.false_eq_true, if_false, if_true] at hxz ⊢
        linarith
      · simp only [if_true] at hxz ⊢
        have := hbet k hz (by linarith)
        linarith

theorem greatest_rep : Rep ((2 ^ 53 - 1) * 2 ^ 971) := by
  refine ⟨2 ^ 53 - 1, 971, by norm_num, by norm_num, le_refl _, ?_⟩
  rw [show (971 : ℤ) = ((971 : ℕ) : ℤ) from rfl, zpow_natCast]
  push_cast
  norm_num

/-- Which neighbour `nextafter` takes. -/
theorem nextafter_eq {x y : Flo} (hxn : x ≠ .nan) (hyn : y ≠ .nan) :
    x.nextafter y = if x.eq y then y
    else match x with
      | .finite s m =>
        if m = 0 then nextUp (y.lt x) 0
        else if s = y.lt x then nextUp s m
        else nextDown s m
      | .inf s => .finite s ((2 ^ 53 - 1) * 2 ^ 971)
      | .nan => .nan := by
  cases x with
  | nan => exact absurd rfl hxn
  | finite s m =>
    cases y with
    | nan => exact absurd rfl hyn
    | finite t n => rfl
    | inf t => rfl
  | inf s =>
    cases y with
    | nan => exact absurd rfl hyn
    | finite t n => rfl
    | inf t => rfl

theorem nextafter_up {x y : Flo} (hx : x.Valid) (hxn : x ≠ .nan) (hyn : y ≠ .nan)
    (hne : x.eq y = false) (hlt : x.lt y = true) (hgt : y.lt x = false) :
    (x.nextafter y).Valid ∧ x.nextafter y ≠ .nan ∧ x.lt (x.nextafter y) = true ∧
      ∀ z : Flo, z.Valid → x.lt z = true → z.lt (x.nextafter y) = false := by
  rw [nextafter_eq hxn hyn, hne]
  simp only [Bool.false_eq_true, if_false]
  cases x with
  | nan => exact absurd rfl hxn
  | inf s =>
    cases s
    · cases y with
      | nan => exact absurd rfl hyn
      | finite t n => simp [Flo.lt] at hlt
      | inf t => simp [Flo.lt] at hlt
    · simp only []
      refine ⟨greatest_rep, by simp, rfl, fun z hz hxz => ?_⟩
      cases z with
      | nan => rfl
      | inf t =>
        cases t
        · rfl
        · simp [Flo.lt] at hxz
      | finite t k =>
        simp only [Flo.lt, decide_eq_false_iff_not, not_lt, signed]
        have h1 := Rep.le_max hz
        have h2 := Rep.nonneg hz
        have h3 := greatest_rep.nonneg
        generalize ((2 : ℚ) ^ 53 - 1) * 2 ^ 971 = A at *
        cases t <;> simp <;> linarith
  | finite s m =>
    simp only [hgt]
    by_cases h0 : m = 0
    · rw [if_pos h0]
      subst h0
      exact up_false ⟨s, 0, rfl, by cases s <;> simp⟩ Rep.zero
    · rw [if_neg h0]
      cases s
      · rw [if_pos rfl]
        exact up_false ⟨false, m, rfl, by simp⟩ hx
      · rw [if_neg (by simp)]
        exact down_true hx h0

theorem nextafter_down {x y : Flo} (hx : x.Valid) (hxn : x ≠ .nan) (hyn : y ≠ .nan)
    (hne : x.eq y = false) (hgt : y.lt x = true) :
    (x.nextafter y).Valid ∧ x.nextafter y ≠ .nan ∧ (x.nextafter y).lt x = true ∧
      ∀ z : Flo, z.Valid → z.lt x = true → (x.nextafter y).lt z = false := by
  rw [nextafter_eq hxn hyn, hne]
  simp only [Bool.false_eq_true, if_false]
  cases x with
  | nan => exact absurd rfl hxn
  | inf s =>
    cases s
    · simp only []
      refine ⟨greatest_rep, by simp, rfl, fun z hz hxz => ?_⟩
      cases z with
      | nan => rfl
      | inf t =>
        cases t
        · simp [Flo.lt] at hxz
        · rfl
      | finite t k =>
        simp only [Flo.lt, decide_eq_false_iff_not, not_lt, signed]
        have h1 := Rep.le_max hz
        have h2 := Rep.nonneg hz
        have h3 := greatest_rep.nonneg
        generalize ((2 : ℚ) ^ 53 - 1) * 2 ^ 971 = A at *
        cases t <;> simp <;> linarith
    · cases y with
      | nan => exact absurd rfl hyn
      | finite t n => simp [Flo.lt] at hgt
      | inf t => cases t <;> simp [Flo.lt] at hgt
  | finite s m =>
    simp only [hgt]
    by_cases h0 : m = 0
    · rw [if_pos h0]
      subst h0
      exact up_true ⟨s, 0, rfl, by cases s <;> simp⟩ Rep.zero
    · rw [if_neg h0]
      cases s
      · rw [if_neg (by simp)]
        exact down_false hx h0
      · rw [if_pos rfl]
        exact up_true ⟨true, m, rfl, by simp⟩ hx

theorem place_ne_nan {x : Flo} {a : WithBot (WithTop ℚ)} (h : x.place = some a) : x ≠ .nan := by
  rintro rfl
  cases h

theorem place_of_ne_nan {x : Flo} (h : x ≠ .nan) : ∃ a, x.place = some a := by
  cases x with
  | finite s m => exact ⟨_, rfl⟩
  | inf s => cases s <;> exact ⟨_, rfl⟩
  | nan => exact absurd rfl h

/-- **C78 (`fladjacent`).** `(fladjacent x y)` is a flonum and it is the one next to `x` in the
direction of `y`, through zero, the powers of two, the subnormal numbers and the infinities. -/
theorem C78_adjacent {x y : Flo} {a b : WithBot (WithTop ℚ)} (hx : x.Valid) (hy : y.Valid)
    (hxa : x.place = some a) (hyb : y.place = some b) :
    ∃ c, (fladjacent x y).Valid ∧ (fladjacent x y).place = some c ∧ Adjacent a b c := by
  have hxn := place_ne_nan hxa
  have hyn := place_ne_nan hyb
  rw [fladjacent]
  rcases lt_trichotomy a b with h | h | h
  · have hne : x.eq y = false := by
      rw [Bool.eq_false_iff, Ne, Flo.eq_iff hxa hyb]
      exact h.ne
    have hgt : y.lt x = false := by
      rw [Bool.eq_false_iff, Ne, Flo.lt_iff hyb hxa]
      exact not_lt.2 h.le
    obtain ⟨h1, h2, h3, h4⟩ := nextafter_up hx hxn hyn hne ((Flo.lt_iff hxa hyb).2 h) hgt
    obtain ⟨c, hc⟩ := place_of_ne_nan h2
    refine ⟨c, h1, hc, fun e => absurd e h.ne, fun _ => ⟨(Flo.lt_iff hxa hc).1 h3, ?_⟩,
      fun e => absurd e (not_lt.2 h.le)⟩
    intro z hz p hp hap
    have := h4 z hz ((Flo.lt_iff hxa hp).2 hap)
    rw [Bool.eq_false_iff, Ne, Flo.lt_iff hp hc] at this
    exact not_lt.1 this
  · have heq : x.eq y = true := (Flo.eq_iff hxa hyb).2 h
    have : x.nextafter y = y := by rw [nextafter_eq hxn hyn, if_pos heq]
    rw [this]
    exact ⟨b, hy, hyb, fun _ => rfl, fun e => absurd e (by rw [h]; exact lt_irrefl _),
      fun e => absurd e (by rw [h]; exact lt_irrefl _)⟩
  · have hne : x.eq y = false := by
      rw [Bool.eq_false_iff, Ne, Flo.eq_iff hxa hyb]
      exact h.ne'
    obtain ⟨h1, h2, h3, h4⟩ := nextafter_down hx hxn hyn hne ((Flo.lt_iff hyb hxa).2 h)
    obtain ⟨c, hc⟩ := place_of_ne_nan h2
    refine ⟨c, h1, hc, fun e => absurd e h.ne', fun e => absurd e (not_lt.2 h.le),
      fun _ => ⟨(Flo.lt_iff hc hxa).1 h3, ?_⟩⟩
    intro z hz p hp hap
    have := h4 z hz ((Flo.lt_iff hp hxa).2 hap)
    rw [Bool.eq_false_iff, Ne, Flo.lt_iff hc hp] at this
    exact not_lt.1 this

/-! ### Parts of a flonum -/

/-- **C78 (`flinteger-fraction`).** The two values are flonums, the first is an integer, the second
is less than one in magnitude, neither is on the other side of zero, and they add up to the
operand. -/
theorem C78_integer_fraction {x : Flo} {v : ℚ} (hx : x.Valid) (h : x.Is v) :
    ∃ (i : ℤ) (f : ℚ), (flintegerFraction x).1.Is i ∧ (flintegerFraction x).2.Is f ∧
      (flintegerFraction x).1.Valid ∧ (flintegerFraction x).2.Valid ∧
      v = i + f ∧ |f| < 1 ∧ 0 ≤ v * i ∧ 0 ≤ v * f := by
  obtain ⟨s, m, rfl, rfl⟩ := h
  have hm : Rep m := hx
  have h0 := hm.nonneg
  have hfl := Int.floor_le m
  have hfu := Int.lt_floor_add_one m
  have hf0 : 0 ≤ ⌊m⌋ := Int.floor_nonneg.2 h0
  have hf0q : (0 : ℚ) ≤ ⌊m⌋ := by exact_mod_cast hf0
  have hr1 : Rep ((⌊m⌋ : ℤ) : ℚ) := by
    have := Rep.near (v := m) (z := ⌊m⌋) (by rwa [abs_of_nonneg h0])
      (by rw [abs_of_nonpos (by linarith)]; linarith)
    rwa [abs_of_nonneg hf0q] at this
  have hr2 : Rep (m - ⌊m⌋) := by
    have h1 : Rep 1 := ⟨1, 0, by norm_num, by norm_num, by norm_num, by norm_num⟩
    have := Rep.mod hm h1 one_ne_zero
    simpa using this
  have ht : |((stdTrunc (signed s m) : ℤ) : ℚ)| = ⌊m⌋ := by
    rw [stdTrunc]
    cases s
    · simp only [signed, Bool.false_eq_true, if_false, if_neg (not_lt.2 h0), abs_of_nonneg h0]
      rw [abs_of_nonneg hf0q]
    · simp only [signed, if_true, abs_neg, abs_of_nonneg h0]
      split
      · push_cast
        rw [abs_neg, abs_of_nonneg hf0q]
      · rw [abs_of_nonneg hf0q]
  refine ⟨if s then -⌊m⌋ else ⌊m⌋, if s then -(m - ⌊m⌋) else m - ⌊m⌋, ⟨s, ⌊m⌋, ?_, ?_⟩,
    ⟨s, _, rfl, rfl⟩, ?_, hr2, ?_, ?_, ?_, ?_⟩
  · simp only [flintegerFraction, Flo.modfWhole, Flo.nearest, ht]
  · cases s <;> simp
  · simp only [flintegerFraction, Flo.modfWhole, Flo.nearest, Flo.Valid, ht]
    exact hr1
  · cases s
    · simp only [Bool.false_eq_true, if_false]
      ring
    · simp only [if_true, Int.cast_neg]
      ring
  · have : |m - (⌊m⌋ : ℚ)| < 1 := by
      rw [abs_of_nonneg (by linarith)]
      linarith
    cases s
    · simpa using this
    · rw [if_pos rfl, abs_neg]
      exact this
  · cases s <;> simp <;> positivity
  · have : 0 ≤ m - (⌊m⌋ : ℚ) := by linarith
    cases s
    · simp only [Bool.false_eq_true, if_false]
      positivity
    · simp only [if_true]
      rw [neg_mul_neg]
      positivity

theorem log_bounds {m : ℚ} (h : 0 < m) : (2 : ℚ) ^ Int.log 2 m ≤ m ∧ m < 2 ^ (Int.log 2 m + 1) :=
  ⟨by simpa using Int.zpow_log_le_self (b := 2) (by norm_num) h,
    by simpa using Int.lt_zpow_succ_log_self (b := 2) (by norm_num) m⟩

/-- The exponents that occur. -/
theorem Rep.log_range {m : ℚ} (hm : Rep m) (h0 : m ≠ 0) : -1074 ≤ Int.log 2 m ∧ Int.log 2 m ≤ 1023 := by
  have hpos : 0 < m := lt_of_le_of_ne hm.nonneg (Ne.symm h0)
  obtain ⟨h1, h2⟩ := log_bounds hpos
  constructor
  · have h3 := hm.least_le hpos
    by_contra hc
    have h4 : (2 : ℚ) ^ (Int.log 2 m + 1) ≤ 2 ^ (-1074 : ℤ) :=
      zpow_le_zpow_right₀ (by norm_num) (by omega)
    rw [show (-1074 : ℤ) = -((1074 : ℕ) : ℤ) from rfl, zpow_neg, zpow_natCast, ← one_div] at h4
    exact absurd (h3.trans_lt (h2.trans_le h4)) (lt_irrefl _)
  · by_contra hc
    have h4 : (2 : ℚ) ^ (1024 : ℤ) ≤ 2 ^ Int.log 2 m := zpow_le_zpow_right₀ (by norm_num) (by omega)
    rw [show (1024 : ℤ) = ((1024 : ℕ) : ℤ) from rfl, zpow_natCast] at h4
    exact absurd (h4.trans h1) (not_le.2 hm.lt)

/-- **C78 (`flexponent`, `flinteger-exponent`).** Both give the exponent of the greatest power of two
that is not above the magnitude, the first as a flonum, the second as a fixnum. -/
theorem C78_exponent {x : Flo} {v : ℚ} (hx : x.Valid) (h : x.Is v) (h0 : v ≠ 0) :
    ∃ e : ℤ, (2 : ℚ) ^ e ≤ |v| ∧ |v| < 2 ^ (e + 1) ∧ (flexponent x).Is e ∧ (flexponent x).Valid ∧
      flintegerExponent x = e ∧ |e| < 2 ^ 31 := by
  obtain ⟨s, m, rfl, rfl⟩ := h
  have hm : Rep m := hx
  have hm0 : m ≠ 0 := by
    rintro rfl
    exact h0 (by cases s <;> simp)
  have hpos : 0 < m := lt_of_le_of_ne hm.nonneg (Ne.symm hm0)
  have habs : |if s = true then -m else m| = m := by
    cases s
    · simp [abs_of_pos hpos]
    · simp [abs_of_pos hpos]
  obtain ⟨h1, h2⟩ := log_bounds hpos
  obtain ⟨h3, h4⟩ := hm.log_range hm0
  rw [habs]
  refine ⟨Int.log 2 m, h1, h2, ?_, ?_, ?_, ?_⟩
  · simp only [flexponent, Flo.logb, if_neg hm0]
    refine ⟨_, _, rfl, ?_⟩
    by_cases hn : Int.log 2 m < 0
    · have : ((Int.log 2 m : ℤ) : ℚ) < 0 := by exact_mod_cast hn
      rw [if_pos (by simpa using hn), abs_of_neg this, neg_neg]
    · have : (0 : ℚ) ≤ ((Int.log 2 m : ℤ) : ℚ) := by exact_mod_cast not_lt.1 hn
      rw [if_neg (by simpa using hn), abs_of_nonneg this]
  · simp only [flexponent, Flo.logb, if_neg hm0]
    refine Rep.int ?_
    rw [abs_lt]
    constructor <;> omega
  · simp only [flintegerExponent, Flo.ilogb, if_neg hm0]
  · rw [abs_lt]
    constructor <;> omega

/-- Scaling to the binade below one keeps a magnitude representable. -/
theorem Rep.fraction {m : ℚ} (hm : Rep m) (h0 : m ≠ 0) : Rep (m / 2 ^ (Int.log 2 m + 1)) := by
  obtain ⟨E, k, _, hEe, hk, hk0, hk1, _⟩ := hm.atUlp h0
  obtain ⟨h3, h4⟩ := hm.log_range h0
  have e : m / 2 ^ (Int.log 2 m + 1) = (k.toNat : ℚ) * 2 ^ (E - (Int.log 2 m + 1)) := by
    rw [zpow_sub₀ (by norm_num)]
    have : ((k.toNat : ℤ) : ℚ) = k := by rw [Int.toNat_of_nonneg hk0.le]
    have h5 : (k.toNat : ℚ) = k := by exact_mod_cast this
    rw [h5]
    generalize (2 : ℚ) ^ (Int.log 2 m + 1) = A
    rw [hk]
    ring
  rw [e]
  refine ⟨k.toNat, _, by omega, ?_, ?_, rfl⟩
  · have := le_max_left (Int.log 2 m - 52) (-1074)
    omega
  · rcases max_choice (Int.log 2 m - 52) (-1074) with h | h <;> rw [h] at hEe <;> omega

/-- **C78 (`flnormalized-fraction-exponent`).** The first value is a flonum whose magnitude is at
least a half and less than one, and the operand is the first value times two to the power of the
second. -/
theorem C78_fraction_exponent (junk : ℤ) {x : Flo} {v : ℚ} (hx : x.Valid) (h : x.Is v) (h0 : v ≠ 0) :
    ∃ (f : ℚ) (e : ℤ), (flnormalizedFractionExponent junk x).1.Is f ∧
      (flnormalizedFractionExponent junk x).1.Valid ∧ (flnormalizedFractionExponent junk x).2 = e ∧
      |e| < 2 ^ 31 ∧ 1 / 2 ≤ |f| ∧ |f| < 1 ∧ v = f * 2 ^ e := by
  obtain ⟨s, m, rfl, rfl⟩ := h
  have hm : Rep m := hx
  have hm0 : m ≠ 0 := by
    rintro rfl
    exact h0 (by cases s <;> simp)
  have hpos : 0 < m := lt_of_le_of_ne hm.nonneg (Ne.symm hm0)
  obtain ⟨h1, h2⟩ := log_bounds hpos
  obtain ⟨h3, h4⟩ := hm.log_range hm0
  have hp := two_zpow_pos (Int.log 2 m + 1)
  have hq : 0 < m / 2 ^ (Int.log 2 m + 1) := div_pos hpos hp
  have hq1 : m / 2 ^ (Int.log 2 m + 1) < 1 := by rwa [div_lt_one hp]
  have hq2 : 1 / 2 ≤ m / 2 ^ (Int.log 2 m + 1) := by
    rw [le_div_iff₀ hp, zpow_add₀ (by norm_num), zpow_one]
    linarith
  have hq3 : m / 2 ^ (Int.log 2 m + 1) * 2 ^ (Int.log 2 m + 1) = m := div_mul_cancel₀ _ hp.ne'
  have hfr := hm.fraction hm0
  refine ⟨if s then -(m / 2 ^ (Int.log 2 m + 1)) else m / 2 ^ (Int.log 2 m + 1), Int.log 2 m + 1,
    ?_, ?_, ?_, ?_, ?_, ?_, ?_⟩
  · simp only [flnormalizedFractionExponent, Flo.frexp, if_neg hm0]
    exact ⟨s, _, rfl, rfl⟩
  · simp only [flnormalizedFractionExponent, Flo.frexp, if_neg hm0]
    exact hfr
  · simp only [flnormalizedFractionExponent, Flo.frexpExponent, if_neg hm0]
  · rw [abs_lt]
    constructor <;> omega
  · generalize m / 2 ^ (Int.log 2 m + 1) = q at *
    cases s
    · simpa [abs_of_pos hq] using hq2
    · simpa [abs_of_pos hq] using hq2
  · generalize m / 2 ^ (Int.log 2 m + 1) = q at *
    cases s
    · simpa [abs_of_pos hq] using hq1
    · simpa [abs_of_pos hq] using hq1
  · cases s
    · simp only [Bool.false_eq_true, if_false]
      exact hq3.symm
    · simp only [if_true]
      rw [neg_mul, hq3]

/-! ### `make-flonum` -/

/-- Rounding what needs no rounding. -/
theorem roundEven_rep (s : Bool) {m : ℚ} (hm : Rep m) : roundEven s (signed s m) = .finite s m := by
  obtain ⟨v, h, hv⟩ := Text.roundEven_signed (neg := s) hm.nonneg (not_le.1 hm.not_over)
  rw [h, hv.unique (Nearest.self hm)]

/-- **C78 (`make-flonum` and `flnormalized-fraction-exponent`).** Putting the fraction and the
exponent of a finite flonum together gives back the flonum itself, with its sign. -/
theorem C78_fraction_round_trip (junk : ℤ) {x : Flo} {v : ℚ} (hx : x.Valid) (h : x.Is v) :
    makeFlonum (flnormalizedFractionExponent junk x).1 (.small (flnormalizedFractionExponent junk x).2) =
      some x := by
  obtain ⟨s, m, rfl, rfl⟩ := h
  have hm : Rep m := hx
  by_cases hm0 : m = 0
  · subst hm0
    have : castInt 0 = 0 := by decide
    simp only [flnormalizedFractionExponent, Flo.frexp, Flo.frexpExponent, if_true, makeFlonum, ldexp,
      this, Flo.ldexp, zpow_zero, mul_one, roundEven_rep s hm]
  · obtain ⟨h3, h4⟩ := hm.log_range hm0
    have hc : castInt (Int.log 2 m + 1) = Int.log 2 m + 1 := by
      rw [castInt]
      omega
    simp only [flnormalizedFractionExponent, Flo.frexp, Flo.frexpExponent, if_neg hm0, makeFlonum, ldexp,
      hc, Flo.ldexp]
    have : signed s (m / 2 ^ (Int.log 2 m + 1)) * 2 ^ (Int.log 2 m + 1) = signed s m := by
      have hp := (two_zpow_pos (Int.log 2 m + 1)).ne'
      cases s
      · exact div_mul_cancel₀ _ hp
      · simp only [signed, if_true, neg_mul]
        rw [div_mul_cancel₀ _ hp]
    rw [this, roundEven_rep s hm]

/-- **C78 (`make-flonum`).** With an exact integer that fits in 32 bits, `(make-flonum x n)` is what
IEEE 754 prescribes for `x` times two to the power `n`: rounded once, to nearest, also to a subnormal
number. -/
theorem C78_make_flonum_partial {x : Flo} {v : ℚ} (h : x.Is v) {n : Num} {k : ℤ} (hn : n.val = k)
    (hi : ∀ q, n ≠ .ratio q) (h1 : -2 ^ 31 ≤ k) (h2 : k < 2 ^ 31) :
    ∃ d, makeFlonum x n = some d ∧ d.Rounds (v * 2 ^ k) := by
  obtain ⟨s, m, rfl, rfl⟩ := h
  have hc : castInt k = k := by
    rw [castInt]
    omega
  cases n with
  | ratio q => exact absurd rfl (hi q)
  | small i =>
    have hk : i = k := by
      simp only [Num.val] at hn
      exact_mod_cast hn
    subst hk
    refine ⟨_, rfl, ?_⟩
    rw [hc]
    exact roundEven_spec _ _
  | large z =>
    have hk : z = k := by
      simp only [Num.val] at hn
      exact_mod_cast hn
    subst hk
    refine ⟨_, rfl, ?_⟩
    rw [mpzGetSi, if_pos (by constructor <;> omega), hc]
    exact roundEven_spec _ _

/-- **C78 fails for exponents beyond 32 bits**, which are reduced modulo 2^32: `(make-flonum 1.0
4294967296)` is `1.0`. -/
theorem C78_make_flonum_fails :
    makeFlonum (.finite false 1) (.large (2 ^ 32)) = some (.finite false 1) ∧
    ¬ (Flo.finite false 1).Rounds (1 * 2 ^ ((2 : ℤ) ^ 32)) := by
  constructor
  · have h1 : Rep 1 := ⟨1, 0, by norm_num, by norm_num, by norm_num, by norm_num⟩
    have : castInt (mpzGetSi (2 ^ 32)) = 0 := by decide
    simp only [makeFlonum, ldexp, this, Flo.ldexp, zpow_zero, mul_one]
    rw [roundEven_rep false h1]
  · intro h
    have hK : (1024 : ℤ) ≤ (2 : ℤ) ^ 32 := by norm_num
    generalize (2 : ℤ) ^ 32 = K at *
    have h1 : (2 : ℚ) ^ (1024 : ℤ) ≤ 2 ^ K := zpow_le_zpow_right₀ (by norm_num) hK
    rw [show (1024 : ℤ) = ((1024 : ℕ) : ℤ) from rfl, zpow_natCast] at h1
    rw [Flo.Rounds, one_mul, abs_of_pos (two_zpow_pos K), if_pos] at h
    · cases h
    · have : (0 : ℚ) < 2 ^ 970 := by positivity
      generalize (2 : ℚ) ^ 1024 = A at *
      generalize (2 : ℚ) ^ 970 = B at *
      linarith

example : ∃ d, makeFlonum (.finite true (3 / 2)) (.small (-1074)) = some d ∧
    d.Rounds (-(3 / 2) * 2 ^ (-1074 : ℤ)) :=
  C78_make_flonum_partial ⟨true, 3 / 2, rfl, by norm_num⟩ (by simp [Num.val]) (by simp) (by norm_num)
    (by norm_num)

/-! ### Signs -/

/-- **C78 (`flcopysign`).** An infinity takes the sign of the second operand, too. -/
theorem C78_copysign_infinite (s t : Bool) (m : ℚ) :
    flcopysign (.inf s) (.finite t m) = some (.inf t) ∧ flcopysign (.inf s) (.inf t) = some (.inf t) :=
  ⟨rfl, rfl⟩

/-- **C78 (`flcopysign`).** The magnitude of the first operand with the sign of the second one, also
when that is an infinity or a zero; the result is a flonum. -/
theorem C78_copysign {x y : Flo} {v w : ℚ} (hx : x.Valid) (h : x.Is v) :
    (y.Is w → ∃ d, flcopysign x y = some d ∧ d.Valid ∧ (0 < w → y.Valid → d.Is |v|) ∧
      (w < 0 → y.Valid → d.Is (-|v|))) ∧
    (∃ d, flcopysign x (.finite true 0) = some d ∧ d.Is (-|v|)) ∧
    (∃ d, flcopysign x (.finite false 0) = some d ∧ d.Is |v|) ∧
    (∃ d, flcopysign x (.inf true) = some d ∧ d.Is (-|v|)) ∧
    (∃ d, flcopysign x (.inf false) = some d ∧ d.Is |v|) := by
  obtain ⟨s, m, rfl, rfl⟩ := h
  have hm : Rep m := hx
  have habs : |if s = true then -m else m| = m := by
    cases s
    · simp [abs_of_nonneg hm.nonneg]
    · simp [abs_of_nonneg hm.nonneg]
  rw [habs]
  refine ⟨?_, ⟨_, rfl, true, m, rfl, rfl⟩, ⟨_, rfl, false, m, rfl, rfl⟩, ⟨_, rfl, true, m, rfl, rfl⟩,
    ⟨_, rfl, false, m, rfl, rfl⟩⟩
  rintro ⟨t, n, rfl, rfl⟩
  refine ⟨_, rfl, hm, fun hw hy => ?_, fun hw hy => ?_⟩
  · have := Rep.nonneg hy
    cases t
    · exact ⟨false, m, rfl, rfl⟩
    · simp only [if_true] at hw
      linarith
  · have := Rep.nonneg hy
    cases t
    · simp only [Bool.false_eq_true, if_false] at hw
      linarith
    · exact ⟨true, m, rfl, rfl⟩

/-- **C78 (`flsgn`, `flsign-bit`).** -/
theorem C78_sign {x : Flo} {v : ℚ} (hx : x.Valid) (h : x.Is v) (h0 : v ≠ 0) :
    (∃ d, flsgn x = some d ∧ d.Is (if v < 0 then -1 else 1)) ∧
    flsignBit x = some (if v < 0 then 1 else 0) := by
  obtain ⟨s, m, rfl, rfl⟩ := h
  have hm : Rep m := hx
  have hm0 : m ≠ 0 := by
    rintro rfl
    exact h0 (by cases s <;> simp)
  have hpos : 0 < m := lt_of_le_of_ne hm.nonneg (Ne.symm hm0)
  cases s
  · refine ⟨⟨_, rfl, false, 1, rfl, ?_⟩, ?_⟩
    · simp [hpos.le]
    · simp [flsignBit, Flo.signbit, hpos.le]
  · refine ⟨⟨_, rfl, true, 1, rfl, ?_⟩, ?_⟩
    · simp [hpos]
    · simp [flsignBit, Flo.signbit, hpos]

/-! ### `flmax` and `flmin` -/

theorem Flo.fmax_spec {x y : Flo} {a : WithBot (WithTop ℚ)} (hx : x.place = some a) :
    ∃ b, (x.fmax y).place = some b ∧ a ≤ b ∧ (∀ c, y.place = some c → c ≤ b) ∧
      (x.fmax y = x ∨ x.fmax y = y) := by
  have hxn : x.isNan = false := by
    cases x <;> simp_all [Flo.place, Flo.isNan]
  by_cases hy : y.isNan
  · have : y = .nan := by cases y <;> simp_all [Flo.isNan]
    subst this
    have e : x.fmax .nan = x := by
      rw [Flo.fmax, hxn, show Flo.isNan .nan = true from rfl]
      rfl
    rw [e]
    exact ⟨a, hx, le_refl _, fun c hc => (by simp [Flo.place] at hc), Or.inl rfl⟩
  · obtain ⟨c, hc⟩ : ∃ c, y.place = some c := place_of_ne_nan (by rintro rfl; exact hy rfl)
    have hl := Flo.lt_iff hx hc
    by_cases hlt : x.lt y
    · have e : x.fmax y = y := by simp [Flo.fmax, hxn, hy, hlt]
      rw [e]
      exact ⟨c, hc, (hl.1 hlt).le, fun d hd => by rw [hc] at hd; cases hd; exact le_refl _, Or.inr rfl⟩
    · have e : x.fmax y = x := by simp [Flo.fmax, hxn, hy, hlt]
      rw [e]
      exact ⟨a, hx, le_refl _, fun d hd => by
        rw [hc] at hd
        cases hd
        exact not_lt.1 fun h => hlt (hl.2 h), Or.inl rfl⟩

theorem foldl_fmax (xs : List Flo) : ∀ {x : Flo} {a : WithBot (WithTop ℚ)}, x.place = some a →
    ∃ b, (xs.foldl Flo.fmax x).place = some b ∧ a ≤ b ∧
      (∀ y ∈ xs, ∀ c, y.place = some c → c ≤ b) ∧
      (xs.foldl Flo.fmax x = x ∨ xs.foldl Flo.fmax x ∈ xs) := by
  induction xs with
  | nil => exact fun {x a} hx => ⟨a, hx, le_refl _, by simp, Or.inl rfl⟩
  | cons z xs ih =>
    intro x a hx
    obtain ⟨b, hb, hab, hzb, hor⟩ := Flo.fmax_spec (y := z) hx
    obtain ⟨c, hc, hbc, hall, hmem⟩ := ih hb
    refine ⟨c, hc, hab.trans hbc, ?_, ?_⟩
    · intro y hy d hd
      rcases List.mem_cons.1 hy with rfl | hy
      · exact (hzb d hd).trans hbc
      · exact hall y hy d hd
    · simp only [List.foldl_cons]
      rcases hmem with h | h
      · rcases hor with h' | h'
        · exact Or.inl (h.trans h')
        · exact Or.inr (by rw [h, h']; simp)
      · exact Or.inr (List.mem_cons_of_mem _ h)

theorem Flo.fmin_spec {x y : Flo} {a : WithBot (WithTop ℚ)} (hx : x.place = some a) :
    ∃ b, (x.fmin y).place = some b ∧ b ≤ a ∧ (∀ c, y.place = some c → b ≤ c) ∧
      (x.fmin y = x ∨ x.fmin y = y) := by
  have hxn : x.isNan = false := by
    cases x <;> simp_all [Flo.place, Flo.isNan]
  by_cases hy : y.isNan
  · have : y = .nan := by cases y <;> simp_all [Flo.isNan]
    subst this
    have e : x.fmin .nan = x := by
      rw [Flo.fmin, hxn, show Flo.isNan .nan = true from rfl]
      rfl
    rw [e]
    exact ⟨a, hx, le_refl _, fun c hc => (by simp [Flo.place] at hc), Or.inl rfl⟩
  · obtain ⟨c, hc⟩ : ∃ c, y.place = some c := place_of_ne_nan (by rintro rfl; exact hy rfl)
    have hl := Flo.lt_iff hc hx
    by_cases hlt : y.lt x
    · have e : x.fmin y = y := by simp [Flo.fmin, hxn, hy, hlt]
      rw [e]
      exact ⟨c, hc, (hl.1 hlt).le, fun d hd => by rw [hc] at hd; cases hd; exact le_refl _, Or.inr rfl⟩
    · have e : x.fmin y = x := by simp [Flo.fmin, hxn, hy, hlt]
      rw [e]
      exact ⟨a, hx, le_refl _, fun d hd => by
        rw [hc] at hd
        cases hd
        exact not_lt.1 fun h => hlt (hl.2 h), Or.inl rfl⟩

theorem foldl_fmin (xs : List Flo) : ∀ {x : Flo} {a : WithBot (WithTop ℚ)}, x.place = some a →
    ∃ b, (xs.foldl Flo.fmin x).place = some b ∧ b ≤ a ∧
      (∀ y ∈ xs, ∀ c, y.place = some c → b ≤ c) ∧
      (xs.foldl Flo.fmin x = x ∨ xs.foldl Flo.fmin x ∈ xs) := by
  induction xs with
  | nil => exact fun {x a} hx => ⟨a, hx, le_refl _, by simp, Or.inl rfl⟩
  | cons z xs ih =>
    intro x a hx
    obtain ⟨b, hb, hab, hzb, hor⟩ := Flo.fmin_spec (y := z) hx
    obtain ⟨c, hc, hbc, hall, hmem⟩ := ih hb
    refine ⟨c, hc, hbc.trans hab, ?_, ?_⟩
    · intro y hy d hd
      rcases List.mem_cons.1 hy with rfl | hy
      · exact hbc.trans (hzb d hd)
      · exact hall y hy d hd
    · simp only [List.foldl_cons]
      rcases hmem with h | h
      · rcases hor with h' | h'
        · exact Or.inl (h.trans h')
        · exact Or.inr (by rw [h, h']; simp)
      · exact Or.inr (List.mem_cons_of_mem _ h)

/-- **C78 (`flmax`).** The result is the greatest of the operands that are not NaN: none of them is
above it, and it is one of them, unless all operands are NaN (or there are none), when it is the
negative infinity. -/
theorem C78_max (xs : List Flo) :
    ∃ b, (flmax xs).place = some b ∧ (∀ y ∈ xs, ∀ c, y.place = some c → c ≤ b) ∧
      (flmax xs ∈ xs ∨ flmax xs = .inf true ∧ ∀ y ∈ xs, y = .nan) := by
  obtain ⟨b, hb, _, hall, hmem⟩ := foldl_fmax xs (x := .inf true) rfl
  refine ⟨b, hb, hall, ?_⟩
  rcases hmem with h | h
  · by_cases hex : ∃ y ∈ xs, y ≠ .nan
    · obtain ⟨y, hy, hn⟩ := hex
      obtain ⟨c, hc⟩ := place_of_ne_nan hn
      have hcb := hall y hy c hc
      rw [h] at hb
      simp only [Flo.place, Option.some.injEq] at hb
      subst hb
      have : y = .inf true := by
        cases y with
        | nan => exact absurd rfl hn
        | inf s =>
          cases s
          · simp [Flo.place] at hc
            subst hc
            simp at hcb
          · rfl
        | finite s m =>
          simp only [Flo.place, Option.some.injEq] at hc
          subst hc
          simp at hcb
      left
      change xs.foldl _ _ ∈ xs
      rw [h, ← this]
      exact hy
    · right
      refine ⟨h, fun y hy => ?_⟩
      by_contra hn
      exact hex ⟨y, hy, hn⟩
  · exact Or.inl h

/-- **C78 (`flmin`).** -/
theorem C78_min (xs : List Flo) :
    ∃ b, (flmin xs).place = some b ∧ (∀ y ∈ xs, ∀ c, y.place = some c → b ≤ c) ∧
      (flmin xs ∈ xs ∨ flmin xs = .inf false ∧ ∀ y ∈ xs, y = .nan) := by
  obtain ⟨b, hb, _, hall, hmem⟩ := foldl_fmin xs (x := .inf false) rfl
  refine ⟨b, hb, hall, ?_⟩
  rcases hmem with h | h
  · by_cases hex : ∃ y ∈ xs, y ≠ .nan
    · obtain ⟨y, hy, hn⟩ := hex
      obtain ⟨c, hc⟩ := place_of_ne_nan hn
      have hcb := hall y hy c hc
      rw [h] at hb
      simp only [Flo.place, Option.some.injEq] at hb
      subst hb
      have : y = .inf false := by
        cases y with
        | nan => exact absurd rfl hn
        | inf s =>
          cases s
          · rfl
          · simp [Flo.place] at hc
            subst hc
            simp at hcb
        | finite s m =>
          simp only [Flo.place, Option.some.injEq] at hc
          subst hc
          simp at hcb
      left
      change xs.foldl _ _ ∈ xs
      rw [h, ← this]
      exact hy
    · right
      refine ⟨h, fun y hy => ?_⟩
      by_contra hn
      exact hex ⟨y, hy, hn⟩
  · exact Or.inl h

example : flmax [.nan, .finite false 1, .finite true 2, .nan] = .finite false 1 := by
  simp [flmax, binary64Max, Flo.fmax, Flo.isNan, Flo.lt, signed]
  norm_num

/-! ### Arithmetic -/

/-- **C78 (`fl+*`).** The product and the sum are rounded once. -/
theorem C78_fused {x y z : Flo} {v w u : ℚ} (hx : x.Is v) (hy : y.Is w) (hz : z.Is u) :
    (flFma x y z).Rounds (v * w + u) := by
  obtain ⟨s, m, rfl, rfl⟩ := hx
  obtain ⟨t, n, rfl, rfl⟩ := hy
  obtain ⟨r, k, rfl, rfl⟩ := hz
  exact roundEven_spec _ _

theorem sub_rounds {x y : Flo} {v w : ℚ} (hx : x.Is v) (hy : y.Is w) : (x.sub y).Rounds (v - w) := by
  obtain ⟨s, m, rfl, rfl⟩ := hx
  obtain ⟨t, n, rfl, rfl⟩ := hy
  have h := roundEven_spec (s && !t) (signed s m + signed (!t) n)
  have e : signed s m + signed (!t) n = (if s = true then -m else m) - (if t = true then -n else n) := by
    cases t <;> simp [signed, sub_eq_add_neg]
  rw [e] at h
  simp only [Flo.sub, Flo.neg, Flo.add]
  rw [e]
  exact h

theorem Flo.Rounds.abs {d : Flo} {x : ℚ} (h : d.Rounds x) : d.abs.Rounds |x| := by
  unfold Flo.Rounds at h ⊢
  rw [abs_abs]
  have hn : ¬ |x| < 0 := not_lt.2 (abs_nonneg x)
  split at h
  · rename_i hc
    rw [if_pos hc, h]
    simp [Flo.abs]
  · rename_i hc
    obtain ⟨s, v, rfl, _, _, h3⟩ := h
    rw [if_neg hc]
    exact ⟨false, v, rfl, fun h => absurd h hn, fun _ => rfl, h3⟩

/-- **C78 (`flabsdiff`).** The magnitude of the difference, rounded once. -/
theorem C78_absdiff {x y : Flo} {v w : ℚ} (hx : x.Is v) (hy : y.Is w) :
    (flabsdiff x y).Rounds |v - w| :=
  (sub_rounds hx hy).abs

/-- **C78 (`flposdiff`).** The difference, rounded once, when it is not negative, and else zero. -/
theorem C78_posdiff_partial {x y : Flo} {v w : ℚ} (hx : x.Is v) (hy : y.Is w) :
    (w ≤ v → (flposdiff x y).Rounds (v - w)) ∧ (v ≤ w → (flposdiff x y).Is 0) := by
  have hr := sub_rounds hx hy
  have hz : Nearest 0 0 := Nearest.self Rep.zero
  unfold flposdiff
  generalize x.sub y = d at hr
  have e : d ≠ .nan → flmax [d, .finite false 0] = if d.lt (.finite false 0) then .finite false 0 else d := by
    intro hd
    have h1 : Flo.fmax (.inf true) d = d := by
      cases d with
      | nan => exact absurd rfl hd
      | inf s => cases s <;> rfl
      | finite s m => rfl
    have h2 : d.isNan = false := by
      cases d
      · rfl
      · rfl
      · exact absurd rfl hd
    simp only [flmax, binary64Max, List.foldl_cons, List.foldl_nil, h1]
    rw [Flo.fmax, h2]
    rfl
  rw [Flo.Rounds] at hr
  split at hr
  · rename_i hc
    have hne : v - w ≠ 0 := by
      intro h0
      rw [h0, abs_zero] at hc
      exact Rep.zero.not_over hc
    subst hr
    rw [e (by simp)]
    constructor
    · intro hle
      have hd : decide (v - w < 0) = false := by
        rw [decide_eq_false_iff_not]
        linarith
      rw [hd, Flo.Rounds, if_pos hc, hd]
      rfl
    · intro hle
      have hd : decide (v - w < 0) = true := by
        rw [decide_eq_true_iff]
        exact lt_of_le_of_ne (by linarith) hne
      rw [hd]
      exact ⟨false, 0, rfl, rfl⟩
  · rename_i hc
    obtain ⟨s, k, rfl, h1, h2, h3⟩ := hr
    rw [e (by simp)]
    have hk := h3.1.nonneg
    have hlt : (Flo.finite s k).lt (.finite false 0) = decide (signed s k < 0) := rfl
    rw [hlt]
    constructor
    · intro hle
      rw [if_neg]
      · rw [Flo.Rounds, if_neg hc]
        exact ⟨s, k, rfl, h1, h2, h3⟩
      · rw [decide_eq_true_iff]
        intro hn
        cases s
        · simp only [signed, Bool.false_eq_true, if_false] at hn
          linarith
        · have h0 : v - w = 0 := by
            by_contra hne
            have := h2 (lt_of_le_of_ne (by linarith) (Ne.symm hne))
            cases this
          rw [h0, abs_zero] at h3
          rw [h3.unique hz] at hn
          simp [signed] at hn
    · intro hle
      by_cases hn : signed s k < 0
      · rw [if_pos (by simpa using hn)]
        exact ⟨false, 0, rfl, rfl⟩
      · rw [if_neg (by simpa using hn)]
        refine ⟨s, k, rfl, ?_⟩
        cases s
        · have h0 : v - w = 0 := by
            by_contra hne
            have := h1 (lt_of_le_of_ne (by linarith) hne)
            cases this
          rw [h0, abs_zero] at h3
          rw [h3.unique hz]
          rfl
        · simp only [signed, if_true] at hn ⊢
          linarith

/-- **C78 fails for NaN**: the positive difference with NaN is zero. -/
theorem C78_posdiff_nan_fails (x : Flo) :
    flposdiff .nan x = .finite false 0 ∧ flposdiff x .nan = .finite false 0 := by
  constructor
  · simp [flposdiff, Flo.sub, Flo.add, flmax, binary64Max, Flo.fmax, Flo.isNan, Flo.lt]
  · have : x.sub .nan = .nan := by cases x <;> rfl
    simp [flposdiff, this, flmax, binary64Max, Flo.fmax, Flo.isNan, Flo.lt]

/-! ### Constants and classes -/

/-- **C78 (`fl-greatest`).** -/
theorem C78_greatest : ∃ g, flGreatest.Is g ∧ flGreatest.Valid ∧
    ∀ (z : Flo) (v : ℚ), z.Valid → z.Is v → v ≤ g := by
  refine ⟨(2 ^ 53 - 1) * 2 ^ 971, ⟨false, _, rfl, rfl⟩, greatest_rep, ?_⟩
  rintro z v hz ⟨s, m, rfl, rfl⟩
  have h1 := Rep.le_max hz
  have h2 := Rep.nonneg hz
  generalize ((2 : ℚ) ^ 53 - 1) * 2 ^ 971 = g at *
  cases s
  · simpa using h1
  · simp only [if_true]
    linarith

/-- **C78 (`fl-epsilon`).** Adding it to one gives the least flonum above one. -/
theorem C78_epsilon : ∃ e, flEpsilon.Is e ∧ Rep (1 + e) ∧ ∀ v, Rep v → 1 < v → 1 + e ≤ v := by
  refine ⟨1 / 2 ^ 52, ⟨false, _, rfl, rfl⟩, ⟨2 ^ 52 + 1, -52, by norm_num, by norm_num, by norm_num, by norm_num⟩,
    fun v hv h1 => ?_⟩
  have e52 : (2 : ℚ) ^ (-52 : ℤ) = 1 / 2 ^ 52 := by norm_num
  rcases hv.onGrid (E := -52) with ⟨j, rfl⟩ | ⟨h, _⟩
  · rw [e52] at h1 ⊢
    have h2 : (2 : ℚ) ^ 52 < j := by
      norm_num at h1 ⊢
      linarith
    have h3 : (2 : ℤ) ^ 52 + 1 ≤ j := by exact_mod_cast h2
    have h4 : (2 : ℚ) ^ 52 + 1 ≤ j := by exact_mod_cast h3
    norm_num at h4 ⊢
    linarith
  · rw [e52] at h
    norm_num at h
    linarith

/-- **C78 fails for `fl-least`**, which is not the least positive flonum: it is 2^52 times as large. -/
theorem C78_least_fails : ∃ d : Flo, ∃ v w : ℚ, d.Valid ∧ d.Is v ∧ 0 < v ∧ flLeast.Is w ∧
    w = 2 ^ 52 * v := by
  refine ⟨.finite false (1 / 2 ^ 1074), _, _, least_rep, ⟨false, _, rfl, rfl⟩, ?_, ⟨false, _, rfl, rfl⟩, ?_⟩
  · simp only [Bool.false_eq_true, if_false]
    positivity
  · simp only [Bool.false_eq_true, if_false]
    rw [show (1074 : ℕ) = 1022 + 52 from rfl, pow_add]
    have h1 : (2 : ℚ) ^ 1022 ≠ 0 := by positivity
    generalize (2 : ℚ) ^ 1022 = A at *
    field_simp

theorem normalized_iff {m : ℚ} (hm : Rep m) : Normalized m ↔ 1 / 2 ^ 1022 ≤ m := by
  have e : (1 : ℚ) / 2 ^ 1022 = 2 ^ 52 * 2 ^ (-1074 : ℤ) := by
    rw [show (-1074 : ℤ) = -((1022 : ℕ) : ℤ) + -((52 : ℕ) : ℤ) from rfl, zpow_add₀ (by norm_num),
      zpow_neg, zpow_natCast, zpow_neg, zpow_natCast]
    have h1 : (2 : ℚ) ^ 1022 ≠ 0 := by positivity
    generalize (2 : ℚ) ^ 1022 = A at *
    field_simp
  rw [e]
  constructor
  · rintro ⟨k, e, hk, _, he, _, rfl⟩
    have h1 : (2 : ℚ) ^ (-1074 : ℤ) ≤ 2 ^ e := zpow_le_zpow_right₀ (by norm_num) he
    have h2 : ((2 : ℚ)) ^ 52 ≤ k := by exact_mod_cast hk
    have h3 := two_zpow_pos (-1074)
    generalize (2 : ℚ) ^ (-1074 : ℤ) = A at *
    exact mul_le_mul h2 h1 h3.le (by positivity)
  · intro h
    have hp := two_zpow_pos (-1074)
    have h0 : m ≠ 0 := by
      rintro rfl
      generalize (2 : ℚ) ^ (-1074 : ℤ) = A at *
      have : (0 : ℚ) < 2 ^ 52 * A := by positivity
      linarith
    obtain ⟨E, k, _, hE, hk, hk0, hk1, hor⟩ := hm.atUlp h0
    obtain ⟨_, hl⟩ := hm.log_range h0
    have hk52 : 2 ^ 52 ≤ k := by
      rcases hor with rfl | h'
      · rw [hk, mul_comm ((2 : ℚ) ^ (-1074 : ℤ))] at h
        have := le_of_mul_le_mul_right h hp
        exact_mod_cast this
      · exact h'
    obtain ⟨j, rfl⟩ := Int.eq_ofNat_of_zero_le hk0.le
    refine ⟨j, E, by omega, by omega, by rw [hE]; exact le_max_right _ _, ?_, ?_⟩
    · rcases max_choice (Int.log 2 m - 52) (-1074) with h | h <;> rw [h] at hE <;> omega
    · rw [hk]
      push_cast
      ring

/-- **C78 (`flnormalized?`, `fldenormalized?`).** A flonum is normalized when its magnitude has a
significand of 53 bits, and denormalized when it is neither normalized nor zero. -/
theorem C78_normalized {x : Flo} {v : ℚ} (hx : x.Valid) (h : x.Is v) :
    (flnormalized x = true ↔ Normalized |v|) ∧ (fldenormalized x = true ↔ v ≠ 0 ∧ ¬ Normalized |v|) := by
  obtain ⟨s, m, rfl, rfl⟩ := h
  have hm : Rep m := hx
  have h0 := hm.nonneg
  have habs : |if s = true then -m else m| = m := by
    cases s
    · simp [abs_of_nonneg h0]
    · simp [abs_of_nonneg h0]
  have hne : (if s = true then -m else m) ≠ 0 ↔ 0 < m := by
    rw [← habs, abs_pos, habs]
  rw [habs, hne, normalized_iff hm]
  constructor
  · simp only [flnormalized, binary64Normalized, decide_eq_true_iff]
  · simp only [fldenormalized, binary64Denormalized, decide_eq_true_iff, not_le]

/-- Neither holds of the infinities and of NaN. -/
theorem C78_normalized_special (s : Bool) :
    flnormalized (.inf s) = false ∧ fldenormalized (.inf s) = false ∧ flnormalized .nan = false ∧
      fldenormalized .nan = false := ⟨rfl, rfl, rfl, rfl⟩

/-! ### `flremquo` -/

/-- The difference of two magnitudes that are close is representable. -/
theorem Rep.sub_near {a b : ℚ} (ha : Rep a) (hb : Rep b) (h1 : b ≤ a) (h2 : a - b ≤ b) : Rep (a - b) := by
  have hlt := ha.lt
  have hb0 := hb.nonneg
  obtain ⟨m, e, hm, he1, _, rfl⟩ := ha
  obtain ⟨n, f, hn, hf1, _, rfl⟩ := hb
  rcases le_total e f with hef | hef
  · obtain ⟨j, rfl⟩ := Int.le.dest hef
    have hp := two_zpow_pos e
    have hval : (m : ℚ) * 2 ^ e - n * 2 ^ (e + (j : ℤ)) = 2 ^ e * ((m - n * 2 ^ j : ℤ) : ℚ) := by
      rw [zpow_add₀ (by norm_num), zpow_natCast]
      push_cast
      ring
    have hnn : 0 ≤ (2 : ℚ) ^ e * ((m - n * 2 ^ j : ℤ) : ℚ) := by rw [← hval]; linarith
    have hk : (0 : ℚ) ≤ ((m - n * 2 ^ j : ℤ) : ℚ) := nonneg_of_mul_nonneg_right hnn hp
    have hk0 : 0 ≤ (m - n * 2 ^ j : ℤ) := by exact_mod_cast hk
    have hpos : (0 : ℤ) ≤ n * 2 ^ j := by positivity
    have hlt' : (m : ℚ) * 2 ^ e - n * 2 ^ (e + (j : ℤ)) < 2 ^ 1024 := by
      generalize (2 : ℚ) ^ 1024 = A at *
      linarith
    rw [hval] at hlt' ⊢
    exact Rep.ofGrid hk0 (by omega) he1 hlt'
  · obtain ⟨j, rfl⟩ := Int.le.dest hef
    have hp := two_zpow_pos f
    have hval : (m : ℚ) * 2 ^ (f + (j : ℤ)) - n * 2 ^ f = 2 ^ f * ((m * 2 ^ j - n : ℤ) : ℚ) := by
      rw [zpow_add₀ (by norm_num), zpow_natCast]
      push_cast
      ring
    have hnn : 0 ≤ (2 : ℚ) ^ f * ((m * 2 ^ j - n : ℤ) : ℚ) := by rw [← hval]; linarith
    have hk : (0 : ℚ) ≤ ((m * 2 ^ j - n : ℤ) : ℚ) := nonneg_of_mul_nonneg_right hnn hp
    have hk0 : 0 ≤ (m * 2 ^ j - n : ℤ) := by exact_mod_cast hk
    have hle : (2 : ℚ) ^ f * ((m * 2 ^ j - n : ℤ) : ℚ) ≤ 2 ^ f * ((n : ℤ) : ℚ) := by
      rw [← hval]
      push_cast
      linarith
    have hk1 : ((m * 2 ^ j - n : ℤ) : ℚ) ≤ ((n : ℤ) : ℚ) := le_of_mul_le_mul_left hle hp
    have hk2 : (m * 2 ^ j - n : ℤ) ≤ n := by exact_mod_cast hk1
    have hlt' : (m : ℚ) * 2 ^ (f + (j : ℤ)) - n * 2 ^ f < 2 ^ 1024 := by
      generalize (2 : ℚ) ^ 1024 = A at *
      linarith
    rw [hval] at hlt' ⊢
    exact Rep.ofGrid hk0 (by omega) hf1 hlt'

theorem nearestEven_spec {q : ℚ} (h : 0 ≤ q) : 0 ≤ nearestEven q ∧
    |q - nearestEven q| ≤ 1 / 2 ∧ (|q - nearestEven q| = 1 / 2 → nearestEven q % 2 = 0) := by
  have h1 := Int.floor_le q
  have h2 := Int.lt_floor_add_one q
  have h3 : 0 ≤ ⌊q⌋ := Int.floor_nonneg.2 h
  unfold nearestEven
  split
  · rename_i hc
    rw [abs_of_nonneg (by linarith)]
    refine ⟨h3, ?_, fun he => ?_⟩
    · rcases hc with hc | ⟨hc, _⟩ <;> linarith
    · rcases hc with hc | ⟨_, hc⟩
      · linarith
      · exact hc
  · rename_i hc
    have hge : 1 / 2 ≤ q - ⌊q⌋ := by
      by_contra hn
      exact hc (Or.inl (not_le.1 hn))
    push_cast
    rw [abs_of_nonpos (by linarith)]
    refine ⟨by omega, by linarith, fun he => ?_⟩
    have : ⌊q⌋ % 2 ≠ 0 := fun h' => hc (Or.inr ⟨by linarith, h'⟩)
    omega

theorem nearestEven_rep {m n : ℚ} (hm : Rep m) (hn : Rep n) (h0 : n ≠ 0) :
    Rep |m - n * nearestEven (m / n)| := by
  have hn0 : 0 < n := lt_of_le_of_ne hn.nonneg (Ne.symm h0)
  have hr := Rep.mod hm hn h0
  have h1 := Int.floor_le (m / n)
  have h2 := Int.lt_floor_add_one (m / n)
  have hmn : m / n * n = m := div_mul_cancel₀ _ h0
  unfold nearestEven
  split
  · rwa [abs_of_nonneg hr.nonneg]
  · rename_i hc
    have hge : 1 / 2 ≤ m / n - ⌊m / n⌋ := by
      by_contra hn
      exact hc (Or.inl (not_le.1 hn))
    push_cast
    generalize (⌊m / n⌋ : ℚ) = k at *
    generalize m / n = q at *
    have e : n - (m - n * k) = -(m - n * (k + 1)) := by ring
    have h3 : m - n * k ≤ n := by nlinarith
    have h4 : n - (m - n * k) ≤ m - n * k := by nlinarith
    rw [abs_of_nonpos (by nlinarith), ← e]
    exact hn.sub_near hr h3 h4

/-- **C78 (`flremquo`).** There is an integer nearest to the quotient (the even one of two) such that
the first value is the exact difference, which is a flonum, and the second value has the sign of
the integer and agrees with it in the last bits. -/
theorem C78_remquo (bits : ℕ) {x y : Flo} {v w : ℚ} (hx : x.Valid) (hy : y.Valid) (h : x.Is v)
    (h' : y.Is w) (h0 : w ≠ 0) :
    ∃ n : ℤ, |v / w - n| ≤ 1 / 2 ∧ (|v / w - n| = 1 / 2 → Even n) ∧
      (flremquo bits x y).1.Is (v - n * w) ∧ (flremquo bits x y).1.Valid ∧
      (2 ^ bits : ℤ) ∣ (flremquo bits x y).2 - n ∧ |(flremquo bits x y).2| < 2 ^ bits ∧
      0 ≤ (flremquo bits x y).2 * n := by
  obtain ⟨s, m, rfl, rfl⟩ := h
  obtain ⟨t, k, rfl, rfl⟩ := h'
  have hm : Rep m := hx
  have hk : Rep k := hy
  have hk0 : k ≠ 0 := by
    rintro rfl
    exact h0 (by cases t <;> simp)
  obtain ⟨g0, g1, g2⟩ := nearestEven_spec (div_nonneg hm.nonneg hk.nonneg)
  have hrep := nearestEven_rep hm hk hk0
  have hpow : (0 : ℤ) < 2 ^ bits := by positivity
  have q0 := Int.emod_nonneg (nearestEven (m / k)) hpow.ne'
  have q1 := Int.emod_lt_of_pos (nearestEven (m / k)) hpow
  have q2 : (2 ^ bits : ℤ) ∣ nearestEven (m / k) % 2 ^ bits - nearestEven (m / k) := by
    rw [Int.emod_def]
    exact ⟨-(nearestEven (m / k) / 2 ^ bits), by ring⟩
  have hrem : (flremquo bits (.finite s m) (.finite t k)).1 =
      .finite (if m - k * nearestEven (m / k) < 0 then !s else s) |m - k * nearestEven (m / k)| := by
    simp only [flremquo, Flo.remainder, if_neg hk0]
  have hquo : (flremquo bits (.finite s m) (.finite t k)).2 =
      if s != t then -(nearestEven (m / k) % 2 ^ bits) else nearestEven (m / k) % 2 ^ bits := rfl
  rw [hrem, hquo]
  have hdiv : (if s = true then -m else m) / (if t = true then -k else k) =
      if s != t then -(m / k) else m / k := by
    cases s <;> cases t <;> simp [neg_div, div_neg]
  rw [hdiv]
  generalize nearestEven (m / k) = n at *
  generalize m / k = q at *
  have hval : ∀ (s : Bool) (r : ℚ), (Flo.finite (if r < 0 then !s else s) |r|).Is (if s then -r else r) := by
    intro s r
    refine ⟨_, _, rfl, ?_⟩
    by_cases hr : r < 0
    · rw [if_pos hr, abs_of_neg hr]
      cases s <;> simp
    · rw [if_neg hr, abs_of_nonneg (not_lt.1 hr)]
  refine ⟨if s != t then -n else n, ?_, ?_, ?_, hrep, ?_, ?_, ?_⟩
  · cases s <;> cases t <;> simp only [bne_self_eq_false, Bool.false_eq_true, if_false, if_true,
      show (false != true) = true from rfl, show (true != false) = true from rfl, Int.cast_neg]
    · exact g1
    · rw [show -q - -(n : ℚ) = -(q - n) by ring, abs_neg]; exact g1
    · rw [show -q - -(n : ℚ) = -(q - n) by ring, abs_neg]; exact g1
    · exact g1
  · cases s <;> cases t <;> simp only [bne_self_eq_false, Bool.false_eq_true, if_false, if_true,
      show (false != true) = true from rfl, show (true != false) = true from rfl, Int.cast_neg]
    · exact fun he => Int.even_iff.2 (g2 he)
    · rw [show -q - -(n : ℚ) = -(q - n) by ring, abs_neg]
      exact fun he => (Int.even_iff.2 (g2 he)).neg
    · rw [show -q - -(n : ℚ) = -(q - n) by ring, abs_neg]
      exact fun he => (Int.even_iff.2 (g2 he)).neg
    · exact fun he => Int.even_iff.2 (g2 he)
  · have := hval s (m - k * n)
    convert this using 1
    cases s <;> cases t <;> simp <;> ring
  · cases hst : s != t <;> simp only [Bool.false_eq_true, if_false, if_true]
    · exact q2
    · rw [show -(n % 2 ^ bits) - -n = -(n % 2 ^ bits - n) by ring]
      exact (dvd_neg).2 q2
  · cases hst : s != t <;> simp only [Bool.false_eq_true, if_false, if_true, abs_neg]
    · rwa [abs_of_nonneg q0]
    · rwa [abs_of_nonneg q0]
  · cases hst : s != t <;> simp only [Bool.false_eq_true, if_false, if_true, neg_mul_neg]
    · exact mul_nonneg q0 g0
    · exact mul_nonneg q0 g0

/-- Seven by minus two: the quotient is rounded to -4, which is even, and -1 is left. -/
example : ∃ n : ℤ, |(7 : ℚ) / (-2) - n| ≤ 1 / 2 ∧ (|(7 : ℚ) / (-2) - n| = 1 / 2 → Even n) ∧
    (flremquo 3 (.finite false 7) (.finite true 2)).1.Is (7 - n * (-2)) := by
  have h7 : Rep 7 := ⟨7, 0, by norm_num, by norm_num, by norm_num, by norm_num⟩
  have h2 : Rep 2 := ⟨2, 0, by norm_num, by norm_num, by norm_num, by norm_num⟩
  obtain ⟨n, a, b, c, _⟩ := C78_remquo 3 (x := .finite false 7) (y := .finite true 2) h7 h2
    ⟨false, 7, rfl, rfl⟩ ⟨true, 2, rfl, rfl⟩ (by norm_num)
  exact ⟨n, a, b, c⟩

/-! ### `flhypot` and `flcbrt` -/

/-- **C78 fails for `flhypot`**: the squares overflow although the result is a flonum.  Whatever the
square root does for finite operands, `(flhypot 2^600 0)` is infinite. -/
theorem C78_hypot_fails (sqrt : Flo → Flo) (h : sqrt (.inf false) = .inf false) :
    Rep (2 ^ 600) ∧ flhypot sqrt (.finite false (2 ^ 600)) (.finite false 0) = .inf false := by
  constructor
  · refine ⟨1, 600, by norm_num, by norm_num, by norm_num, ?_⟩
    rw [show (600 : ℤ) = ((600 : ℕ) : ℤ) from rfl, zpow_natCast]
    simp
  · have e1 : (Flo.finite false (2 ^ 600)).mul (.finite false (2 ^ 600)) = .inf false := by
      have hr := roundEven_spec (false != false) (signed false (2 ^ 600) * signed false (2 ^ 600))
      have hp : (2 : ℚ) ^ 1024 ≤ signed false (2 ^ 600) * signed false (2 ^ 600) := by
        simp only [signed, Bool.false_eq_true, if_false]
        rw [← pow_add]
        exact pow_le_pow_right₀ (by norm_num) (by norm_num)
      have hq : (0 : ℚ) < 2 ^ 1024 := by positivity
      have hq' : (0 : ℚ) < 2 ^ 970 := by positivity
      simp only [Flo.mul]
      generalize signed false (2 ^ 600) * signed false (2 ^ 600) = z at *
      rw [Flo.Rounds, abs_of_pos (hq.trans_le hp)] at hr
      generalize (2 : ℚ) ^ 1024 = A at *
      generalize (2 : ℚ) ^ 970 = B at *
      rw [if_pos (by linarith)] at hr
      rw [hr, decide_eq_false_iff_not.2]
      linarith
    have e2 : (Flo.finite false 0).mul (.finite false 0) = .finite false 0 := by
      have := roundEven_rep false Rep.zero
      simp only [Flo.mul, signed, Bool.false_eq_true, if_false, mul_zero] at this ⊢
      exact this
    rw [flhypot, e1, e2]
    exact h

/-- **C78 fails for `flcbrt`** of negative operands: a power of a negative number is NaN unless the
exponent is an integer, so `(flcbrt -8.0)` is NaN. -/
theorem C78_cbrt_fails (pow : Flo → Flo → Flo)
    (h : ∀ m t n, 0 < m → (∀ z : ℤ, (n : ℚ) ≠ z) → pow (.finite true m) (.finite t n) = .nan) :
    flcbrt pow (.finite true 8) = .nan := by
  have hv : (Num.ratio ⟨1, 3⟩).val = 1 / 3 := by simp [Num.val]
  obtain ⟨s, t, e, ht, _⟩ := (castRatio_spec ⟨1, 3⟩).1 (by
    rw [hv, abs_of_pos (by norm_num)]
    exact lt_of_lt_of_le (by norm_num : (1 : ℚ) / 3 < 1) (one_le_pow₀ (by norm_num)))
  rw [hv, abs_of_pos (by norm_num)] at ht
  rw [flcbrt, e]
  apply h _ _ _ (by norm_num)
  rintro z rfl
  have h1 : ((1 : ℚ) / 4) ≤ z := ht.2.2 (1 / 4) ⟨1, -2, by norm_num, by norm_num, by norm_num, by norm_num⟩
    (by norm_num)
  have h2 : (z : ℚ) ≤ 1 / 3 := ht.2.1
  have h3 : (0 : ℚ) < z := by linarith
  have h4 : (z : ℚ) < 1 := by linarith
  have h5 : 0 < z := by exact_mod_cast h3
  have h6 : z < 1 := by exact_mod_cast h4
  omega

/-- Operands as the theorems ask for them: a negative subnormal number, and a function that treats the
infinity and negative operands as ISO C says. -/
example : (Flo.finite true (3 * 2 ^ (-1074 : ℤ))).Valid ∧
    (Flo.finite true (3 * 2 ^ (-1074 : ℤ))).Is (-(3 * 2 ^ (-1074 : ℤ))) ∧
    -(3 * 2 ^ (-1074 : ℤ) : ℚ) ≠ 0 := by
  refine ⟨⟨3, -1074, by norm_num, le_refl _, by norm_num, by norm_num⟩, ⟨true, _, rfl, rfl⟩, ?_⟩
  have := two_zpow_pos (-1074)
  generalize (2 : ℚ) ^ (-1074 : ℤ) = A at *
  intro h
  linarith

example : ∃ f : Flo → Flo, f (.inf false) = .inf false := ⟨id, rfl⟩

example : ∃ pow : Flo → Flo → Flo, (∀ m t n, 0 < m → (∀ z : ℤ, (n : ℚ) ≠ z) →
    pow (.finite true m) (.finite t n) = .nan) ∧ pow (.finite false 1) (.finite false 1) = .finite false 1 :=
  ⟨fun x _ => if x.lt (.finite false 0) then .nan else x,
    fun m t n hm _ => by simp [Flo.lt, signed, hm], by simp [Flo.lt, signed]⟩

/-! ### Comparison -/

/-- **C78**, partly: of any two flonums, not both NaN, and if both are finite at least 2 in magnitude, just one of
`fl<?`, `fl=?`, `fl>?` and `flunordered?` holds; it is the last just if one of them is NaN. Otherwise the three are the
order of the extended number line. Of others see `C78_trichotomy_fails`. -/
theorem C78_trichotomy_partial {x y : Flo} (hx : x.Valid) (hy : y.Valid) (hn : x ≠ .nan ∨ y ≠ .nan)
    (hb : ∀ v w, x.Is v → y.Is w → 2 ≤ |v| ∧ 2 ≤ |w|) :
    ∃ l e g, Real.numLt [.flo x, .flo y] = .value l ∧ Real.numEq [.flo x, .flo y] = .value e ∧
      Real.numGt [.flo x, .flo y] = .value g ∧ [l, e, g, flUnordered (.flo x) (.flo y)].count true = 1 ∧
      (flUnordered (.flo x) (.flo y) = true ↔ x.place = none ∨ y.place = none) ∧
      ∀ a b, x.place = some a → y.place = some b → (l = true ↔ a < b) ∧ (e = true ↔ a = b) ∧ (g = true ↔ b < a) := by
  have hnan : ∀ z : Flo, z ≠ .nan → ∃ a, z.place = some a := by
    intro z hz
    cases z with
    | finite s m => exact ⟨_, rfl⟩
    | inf s => cases s <;> exact ⟨_, rfl⟩
    | nan => exact absurd rfl hz
  by_cases h1 : x = .nan
  · subst h1
    have h2 : y ≠ .nan := by simpa using hn
    have hlt : ∀ z : Flo, Flo.lt .nan z = false ∧ Flo.lt z .nan = false := by
      intro z
      cases z <;> exact ⟨rfl, rfl⟩
    have heq : inexactEquals .nan y = false := by cases y <;> first | rfl | exact absurd rfl h2
    refine ⟨false, false, false, ?_, ?_, ?_, rfl, by simp [flUnordered, Real.isNan, Flo.isNan, Flo.place], ?_⟩
    · simp [Real.numLt, Real.noAdjacent, Real.greaterThanOrEquals, Real.lessThan, (hlt y).1]
    · simp [Real.numEq, Real.noAdjacent, Real.notEquals, Real.equals, heq]
    · simp [Real.numGt, Real.noAdjacent, Real.lessThanOrEquals, Real.greaterThan, (hlt y).2]
    · intro a b ha
      cases ha
  by_cases h2 : y = .nan
  · subst h2
    have hlt : ∀ z : Flo, Flo.lt .nan z = false ∧ Flo.lt z .nan = false := by
      intro z
      cases z <;> exact ⟨rfl, rfl⟩
    have heq : inexactEquals x .nan = false := by cases x <;> first | rfl | exact absurd rfl h1
    refine ⟨false, false, false, ?_, ?_, ?_, ?_, by simp [flUnordered, Real.isNan, Flo.isNan, Flo.place], ?_⟩
    · simp [Real.numLt, Real.noAdjacent, Real.greaterThanOrEquals, Real.lessThan, (hlt x).2]
    · simp [Real.numEq, Real.noAdjacent, Real.notEquals, Real.equals, heq]
    · simp [Real.numGt, Real.noAdjacent, Real.lessThanOrEquals, Real.greaterThan, (hlt x).1]
    · simp [flUnordered, Real.isNan, Flo.isNan]
    · intro a b _ hb
      cases hb
  obtain ⟨a, ha⟩ := hnan x h1
  obtain ⟨b, hb'⟩ := hnan y h2
  have hpl : Plain (.flo x) (.flo y) := ⟨fun q h => (by cases h), fun q h => (by cases h)⟩
  have hv : ∀ z ∈ [Real.flo x, Real.flo y], z.Valid := by
    intro z hz
    simp only [List.mem_cons, List.not_mem_nil, or_false] at hz
    rcases hz with rfl | rfl
    · exact hx
    · exact hy
  have hp : [Real.flo x, Real.flo y].map Real.place = [a, b].map some := by
    simp only [List.map_cons, List.map_nil, Real.place, ha, hb']
  obtain ⟨⟨l, el, hl⟩, -, ⟨g, eg, hg⟩, -⟩ := C73_order_partial hv hp (by simpa using hpl)
  have hex : Exactly (.flo x) (.flo y) := ⟨hpl, fun d e v w h1 h2 h3 h4 => by
    cases h1
    cases h2
    exact hb v w h3 h4⟩
  obtain ⟨e, ee, he⟩ := C73_equal_partial hv hp (by simpa using hex)
  simp only [List.isChain_cons_cons, List.isChain_singleton, and_true] at hl hg he
  have hu : flUnordered (.flo x) (.flo y) = false := by
    cases x <;> cases y <;> first | rfl | exact absurd rfl h1 | exact absurd rfl h2
  refine ⟨l, e, g, el, ee, eg, ?_, ?_, ?_⟩
  · rw [hu]
    rcases lt_trichotomy a b with h | h | h
    · rw [hl.2 h, Bool.eq_false_iff.2 fun hc => h.ne (he.1 hc), Bool.eq_false_iff.2 fun hc => lt_asymm h (hg.1 hc)]
      rfl
    · rw [he.2 h, Bool.eq_false_iff.2 fun hc => (hl.1 hc).ne h, Bool.eq_false_iff.2 fun hc => (hg.1 hc).ne' h]
      rfl
    · rw [hg.2 h, Bool.eq_false_iff.2 fun hc => h.ne' (he.1 hc), Bool.eq_false_iff.2 fun hc => lt_asymm h (hl.1 hc)]
      rfl
  · rw [hu, ha, hb']
    simp
  · intro a' b' h1 h2
    rw [ha] at h1
    rw [hb'] at h2
    cases h1
    cases h2
    exact ⟨hl, he, hg⟩

/-- A witness for `C78_trichotomy_partial`: 3.0 and 5/2. -/
example : (Flo.finite false 3).Valid ∧ (Flo.finite false (5 / 2)).Valid ∧
    ∀ v w, (Flo.finite false 3).Is v → (Flo.finite false (5 / 2)).Is w → 2 ≤ |v| ∧ 2 ≤ |w| := by
  refine ⟨⟨3, 0, by norm_num, by norm_num, by norm_num, by norm_num⟩,
    ⟨5, -1, by norm_num, by norm_num, by norm_num, by norm_num⟩, ?_⟩
  rintro v w ⟨s, m, h, hv⟩ ⟨t, n, h', hw⟩
  cases h
  cases h'
  rw [← hv, ← hw]
  norm_num

/-- **C78** fails: `fl=?` holds of NaN and NaN, which are unordered, and `fl=?` and `fl<?` both hold of 0 and 2^-52. -/
theorem C78_trichotomy_fails :
    (Real.numEq [.flo .nan, .flo .nan] = .value true ∧ flUnordered (.flo .nan) (.flo .nan) = true) ∧
    (Real.numEq [.flo (tiny 0), .flo (tiny 1)] = .value true ∧ Real.numLt [.flo (tiny 0), .flo (tiny 1)] = .value true) :=
  ⟨⟨rfl, rfl⟩, C73_transitive_fails.1, C73_transitive_fails.2.2.2⟩

/-- **C78**, partly: `flinteger?` of a finite flonum tells whether it is an integer; it does not hold of exact
numbers and of NaN. Of infinities see `C78_integer_fails`. -/
theorem C78_integer_partial {x : Flo} {v : ℚ} (h : x.Is v) (hx : x.Valid) (n : Num) :
    (flInteger (.flo x) = true ↔ ∃ z : ℤ, v = z) ∧ flInteger (.exact n) = false ∧ flInteger (.flo .nan) = false := by
  refine ⟨?_, rfl, rfl⟩
  simpa only [flInteger, Real.isInexact, Real.isExact, Bool.not_false, Bool.true_and] using
    (C74_predicates_partial h hx true).1

/-- **C78** fails: `flinteger?` holds of infinities. -/
theorem C78_integer_fails (s : Bool) : flInteger (.flo (.inf s)) = true := by
  cases s <;> rfl

end Meevax.Number
