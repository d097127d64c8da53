import Verif.Spec.Complex
import Verif.Lemmas.NumberOrder
import Verif.Props.Number

/-! C65: exact complex numbers. -/

namespace Meevax.Number

theorem CYields.of_eq {o : Outcome CNum} {v w : ℂ} (h : CYields o v) (e : v = w) : CYields o w := e ▸ h

namespace CNum

theorem parts_valid {z : CNum} (h : z.Valid) : z.parts.1.Valid ∧ z.parts.2.Valid := by
  cases z with
  | real x => exact ⟨h, by simp [parts, Num.Valid]⟩
  | rect x y => exact h

theorem val_parts (z : CNum) : z.val = ⟨(z.parts.1.val : ℝ), (z.parts.2.val : ℝ)⟩ := by
  cases z with
  | real x => simp [parts, val, Num.val]
  | rect x y => rfl

theorem zero_valid : (Num.small 0).Valid := by simp [Num.Valid]

theorem zero_val : (Num.small 0).val = 0 := by simp [Num.val]

theorem equals_zero {y : Num} (h : y.Valid) : Number.equals y (.small 0) = true ↔ y.val = 0 := by
  rw [equals_iff h zero_valid, zero_val]

theorem canonicalize_spec {x y : Num} (hx : x.Valid) (hy : y.Valid) :
    CYields (.value (canonicalize x y)) ⟨(x.val : ℝ), (y.val : ℝ)⟩ := by
  unfold canonicalize
  by_cases h : Number.equals y (.small 0) = true
  · rw [if_pos h]
    refine ⟨_, rfl, hx, fun _ => ⟨x, rfl⟩, ?_⟩
    rw [equals_zero hy] at h
    simp [val, h]
  · rw [if_neg h]
    refine ⟨_, rfl, ⟨hx, hy⟩, fun h0 => ?_, rfl⟩
    rw [equals_zero hy] at h
    simp only [val] at h0
    exact absurd (by exact_mod_cast h0) h

theorem real_spec {o : Outcome Num} {q : ℚ} (h : Yields o q) :
    CYields (do pure (.real (← o))) ⟨(q : ℝ), 0⟩ := by
  obtain ⟨x, rfl, hx, rfl⟩ := h
  exact ⟨.real x, rfl, hx, fun _ => ⟨x, rfl⟩, rfl⟩

theorem add_val {z w : CNum} (hz : z.Valid) (hw : w.Valid) : CYields (add z w) (z.val + w.val) := by
  have key : CYields (do
      let x ← Number.add z.parts.1 w.parts.1
      let y ← Number.add z.parts.2 w.parts.2
      pure (canonicalize x y)) (z.val + w.val) := by
    obtain ⟨x, h₁, hx, hxv⟩ := Number.add_val (parts_valid hz).1 (parts_valid hw).1
    obtain ⟨y, h₂, hy, hyv⟩ := Number.add_val (parts_valid hz).2 (parts_valid hw).2
    rw [h₁, bind_value, h₂, bind_value]
    have := canonicalize_spec hx hy
    rw [hxv, hyv] at this
    rw [val_parts z, val_parts w]
    refine this.of_eq ?_
    apply Complex.ext <;> simp
  cases z with
  | rect a b => exact key
  | real a =>
    cases w with
    | rect c d => exact key
    | real c =>
      have := real_spec (Number.add_val hz hw)
      refine this.of_eq ?_
      apply Complex.ext <;> simp [val]

theorem sub_val {z w : CNum} (hz : z.Valid) (hw : w.Valid) : CYields (sub z w) (z.val - w.val) := by
  have key : CYields (do
      let x ← Number.sub z.parts.1 w.parts.1
      let y ← Number.sub z.parts.2 w.parts.2
      pure (canonicalize x y)) (z.val - w.val) := by
    obtain ⟨x, h₁, hx, hxv⟩ := Number.sub_val (parts_valid hz).1 (parts_valid hw).1
    obtain ⟨y, h₂, hy, hyv⟩ := Number.sub_val (parts_valid hz).2 (parts_valid hw).2
    rw [h₁, bind_value, h₂, bind_value]
    have := canonicalize_spec hx hy
    rw [hxv, hyv] at this
    rw [val_parts z, val_parts w]
    refine this.of_eq ?_
    apply Complex.ext <;> simp
  cases z with
  | rect a b => exact key
  | real a =>
    cases w with
    | rect c d => exact key
    | real c =>
      have := real_spec (Number.sub_val hz hw)
      refine this.of_eq ?_
      apply Complex.ext <;> simp [val]

theorem mul_val {z w : CNum} (hz : z.Valid) (hw : w.Valid) : CYields (mul z w) (z.val * w.val) := by
  have key : CYields (do
      let x ← Number.sub (← Number.mul z.parts.1 w.parts.1) (← Number.mul z.parts.2 w.parts.2)
      let y ← Number.add (← Number.mul z.parts.2 w.parts.1) (← Number.mul z.parts.1 w.parts.2)
      pure (canonicalize x y)) (z.val * w.val) := by
    obtain ⟨p, h₁, hp, hpv⟩ := Number.mul_val (parts_valid hz).1 (parts_valid hw).1
    obtain ⟨q, h₂, hq, hqv⟩ := Number.mul_val (parts_valid hz).2 (parts_valid hw).2
    obtain ⟨r, h₃, hr, hrv⟩ := Number.mul_val (parts_valid hz).2 (parts_valid hw).1
    obtain ⟨s, h₄, hs, hsv⟩ := Number.mul_val (parts_valid hz).1 (parts_valid hw).2
    obtain ⟨x, h₅, hx, hxv⟩ := Number.sub_val hp hq
    obtain ⟨y, h₆, hy, hyv⟩ := Number.add_val hr hs
    rw [h₁, bind_value, h₂, bind_value, h₅, bind_value, h₃, bind_value, h₄, bind_value, h₆, bind_value]
    have := canonicalize_spec hx hy
    rw [hxv, hyv, hpv, hqv, hrv, hsv] at this
    rw [val_parts z, val_parts w]
    refine this.of_eq ?_
    apply Complex.ext <;> simp; ring
  cases z with
  | rect a b => exact key
  | real a =>
    cases w with
    | rect c d => exact key
    | real c =>
      have := real_spec (Number.mul_val hz hw)
      refine this.of_eq ?_
      apply Complex.ext <;> simp [val]

theorem div_val {z w : CNum} (hz : z.Valid) (hw : w.Valid) (h0 : w.val ≠ 0) :
    CYields (div z w) (z.val / w.val) := by
  have key : CYields (do
      let x ← Number.add (← Number.mul z.parts.1 w.parts.1) (← Number.mul z.parts.2 w.parts.2)
      let y ← Number.sub (← Number.mul z.parts.2 w.parts.1) (← Number.mul z.parts.1 w.parts.2)
      let n ← Number.add (← Number.mul w.parts.1 w.parts.1) (← Number.mul w.parts.2 w.parts.2)
      pure (canonicalize (← Number.div x n) (← Number.div y n))) (z.val / w.val) := by
    obtain ⟨p, h₁, hp, hpv⟩ := Number.mul_val (parts_valid hz).1 (parts_valid hw).1
    obtain ⟨q, h₂, hq, hqv⟩ := Number.mul_val (parts_valid hz).2 (parts_valid hw).2
    obtain ⟨r, h₃, hr, hrv⟩ := Number.mul_val (parts_valid hz).2 (parts_valid hw).1
    obtain ⟨s, h₄, hs, hsv⟩ := Number.mul_val (parts_valid hz).1 (parts_valid hw).2
    obtain ⟨x, h₅, hx, hxv⟩ := Number.add_val hp hq
    obtain ⟨y, h₆, hy, hyv⟩ := Number.sub_val hr hs
    obtain ⟨t, h₇, ht, htv⟩ := Number.mul_val (parts_valid hw).1 (parts_valid hw).1
    obtain ⟨u, h₈, hu, huv⟩ := Number.mul_val (parts_valid hw).2 (parts_valid hw).2
    obtain ⟨n, h₉, hn, hnv⟩ := Number.add_val ht hu
    have hn0 : n.val ≠ 0 := by
      intro h
      rw [hnv, htv, huv] at h
      apply h0
      have h₁ : w.parts.1.val = 0 := by nlinarith [sq_nonneg w.parts.1.val, sq_nonneg w.parts.2.val]
      have h₂ : w.parts.2.val = 0 := by nlinarith [sq_nonneg w.parts.1.val, sq_nonneg w.parts.2.val]
      rw [val_parts w, h₁, h₂]
      apply Complex.ext <;> simp
    obtain ⟨x', h₁₀, hx', hxv'⟩ := Number.div_val hx hn hn0
    obtain ⟨y', h₁₁, hy', hyv'⟩ := Number.div_val hy hn hn0
    rw [h₁, bind_value, h₂, bind_value, h₅, bind_value, h₃, bind_value, h₄, bind_value, h₆, bind_value,
      h₇, bind_value, h₈, bind_value, h₉, bind_value, h₁₀, bind_value, h₁₁, bind_value]
    have := canonicalize_spec hx' hy'
    rw [hxv', hyv', hxv, hyv, hnv, hpv, hqv, hrv, hsv, htv, huv] at this
    rw [val_parts z, val_parts w]
    refine this.of_eq ?_
    apply Complex.ext
    · simp only [Complex.div_re, Complex.normSq_mk]; push_cast; ring
    · simp only [Complex.div_im, Complex.normSq_mk]; push_cast; ring
  cases z with
  | rect a b => exact key
  | real a =>
    cases w with
    | rect c d => exact key
    | real c =>
      have hc : c.val ≠ 0 := by
        intro h
        apply h0
        simp only [val, h]
        apply Complex.ext <;> simp
      have := real_spec (Number.div_val hz hw hc)
      refine this.of_eq ?_
      apply Complex.ext
      · simp only [val, Complex.div_re, Complex.normSq_mk]
        have : (c.val : ℝ) ≠ 0 := by exact_mod_cast hc
        push_cast
        simp only [mul_zero, add_zero, zero_mul, zero_div]
        field_simp
      · simp [val, Complex.div_im]

theorem foldLeft_val {f : CNum → CNum → Outcome CNum} {op : ℂ → ℂ → ℂ} {D : ℂ → Prop}
    (hf : ∀ z w, z.Valid → w.Valid → D w.val → CYields (f z w) (op z.val w.val)) :
    ∀ (xs : List CNum) (z : CNum), z.Valid → z.Proper → (∀ x ∈ xs, x.Valid ∧ D x.val) →
      CYields (foldLeft f z xs) ((xs.map CNum.val).foldl op z.val)
  | [], z, hz, hp, _ => ⟨z, rfl, hz, hp, rfl⟩
  | x :: xs, z, hz, _, h => by
    obtain ⟨r, h₁, hr, hrp, hrv⟩ := hf z x hz (h x (by simp)).1 (h x (by simp)).2
    have := foldLeft_val hf xs r hr hrp fun y hy => h y (by simp [hy])
    unfold foldLeft
    rw [h₁, bind_value, List.map_cons, List.foldl_cons, ← hrv]
    exact this

/-- The first operand need not be a proper object if there is a second one. -/
theorem foldLeft_val' {f : CNum → CNum → Outcome CNum} {op : ℂ → ℂ → ℂ} {D : ℂ → Prop}
    (hf : ∀ z w, z.Valid → w.Valid → D w.val → CYields (f z w) (op z.val w.val))
    {xs : List CNum} (hne : xs ≠ []) {z : CNum} (hz : z.Valid) (h : ∀ x ∈ xs, x.Valid ∧ D x.val) :
    CYields (foldLeft f z xs) ((xs.map CNum.val).foldl op z.val) := by
  cases xs with
  | nil => exact absurd rfl hne
  | cons x xs =>
    obtain ⟨r, h₁, hr, hrp, hrv⟩ := hf z x hz (h x (by simp)).1 (h x (by simp)).2
    have := foldLeft_val hf xs r hr hrp fun y hy => h y (by simp [hy])
    unfold foldLeft
    rw [h₁, bind_value, List.map_cons, List.foldl_cons, ← hrv]
    exact this

theorem realNum_val (i : Int) : (CNum.real (.small i)).val = i := by
  apply Complex.ext <;> simp [val, Num.val]

/-- **C65**: sums and products of exact complex numbers are exact. -/
theorem C65_sum_product {xs : List CNum} (h : ∀ x ∈ xs, x.Valid) :
    CYields (plus xs) (xs.map CNum.val).sum ∧ CYields (times xs) (xs.map CNum.val).prod := by
  have h₁ := foldLeft_val (D := fun _ => True) (fun z w hz hw _ => add_val hz hw) xs (.real (.small 0))
    (by simp [Valid, Num.Valid]) (fun _ => ⟨_, rfl⟩) (fun x hx => ⟨h x hx, trivial⟩)
  have h₂ := foldLeft_val (D := fun _ => True) (fun z w hz hw _ => mul_val hz hw) xs (.real (.small 1))
    (by simp [Valid, Num.Valid]) (fun _ => ⟨_, rfl⟩) (fun x hx => ⟨h x hx, trivial⟩)
  rw [realNum_val, Int.cast_zero, ← List.sum_eq_foldl] at h₁
  rw [realNum_val, Int.cast_one, ← List.prod_eq_foldl] at h₂
  exact ⟨h₁, h₂⟩

theorem foldl_sub (zs : List ℂ) : ∀ z : ℂ, zs.foldl (· - ·) z = z - zs.sum := by
  induction zs with
  | nil => simp
  | cons w zs ih => intro z; rw [List.foldl_cons, ih, List.sum_cons]; ring

theorem foldl_div (zs : List ℂ) : ∀ z : ℂ, zs.foldl (· / ·) z = z / zs.prod := by
  induction zs with
  | nil => simp
  | cons w zs ih => intro z; rw [List.foldl_cons, ih, List.prod_cons, div_div]

/-- **C65**: so are negations and differences. -/
theorem C65_difference {x : CNum} (hx : x.Valid) :
    CYields (minus [x]) (-x.val) ∧
    ∀ {xs : List CNum}, xs ≠ [] → (∀ x ∈ xs, x.Valid) →
      CYields (minus (x :: xs)) (x.val - (xs.map CNum.val).sum) := by
  constructor
  · have := sub_val (z := .real (.small 0)) (by simp [Valid, Num.Valid]) hx
    rwa [realNum_val, Int.cast_zero, zero_sub] at this
  · intro xs hne h
    have h₁ := foldLeft_val' (D := fun _ => True) (fun z w hz hw _ => sub_val hz hw) hne hx
      (fun x hx => ⟨h x hx, trivial⟩)
    rw [foldl_sub] at h₁
    cases xs with
    | nil => exact absurd rfl hne
    | cons y ys => exact h₁

/-- **C65**: so are inverses and quotients, if no divisor is zero. -/
theorem C65_quotient_partial {x : CNum} (hx : x.Valid) :
    (x.val ≠ 0 → CYields (divide [x]) (x.val)⁻¹) ∧
    ∀ {xs : List CNum}, xs ≠ [] → (∀ y ∈ xs, y.Valid ∧ y.val ≠ 0) →
      CYields (divide (x :: xs)) (x.val / (xs.map CNum.val).prod) := by
  constructor
  · intro h
    have := div_val (z := .real (.small 1)) (by simp [Valid, Num.Valid]) hx h
    rwa [realNum_val, Int.cast_one, one_div] at this
  · intro xs hne h
    have h₁ := foldLeft_val' (D := (· ≠ 0)) (fun z w hz hw h0 => div_val hz hw h0) hne hx h
    rw [foldl_div] at h₁
    cases xs with
    | nil => exact absurd rfl hne
    | cons y ys => exact h₁

/-- **C65**: division by an exact zero kills the process. -/
theorem C65_zero_fails (x : Num) : divide [.real x, .real (.small 0)] = .undefined := by
  have := C25_zero_fails x
  simp only [Number.divide, Number.foldLeft] at this
  simp only [divide, foldLeft, div]
  cases h : Number.div x (.small 0) with
  | value y => rw [h] at this; cases this
  | raised => rw [h] at this; cases this
  | undefined => rfl

theorem equals_iff {z w : CNum} (hz : z.Valid) (hw : w.Valid) :
    equals z w = true ↔ z.val = w.val := by
  have key : (Number.equals z.parts.1 w.parts.1 && Number.equals z.parts.2 w.parts.2) = true ↔
      z.val = w.val := by
    rw [Bool.and_eq_true, Number.equals_iff (parts_valid hz).1 (parts_valid hw).1,
      Number.equals_iff (parts_valid hz).2 (parts_valid hw).2, val_parts z, val_parts w, Complex.ext_iff]
    simp
  cases z with
  | rect a b => exact key
  | real a =>
    cases w with
    | rect c d => exact key
    | real c =>
      rw [equals, Number.equals_iff hz hw]
      simp [val]

theorem noAdjacent_iff {p : CNum → CNum → Bool} {R : CNum → CNum → Prop}
    (h : ∀ x y, x.Valid → y.Valid → (p x y = false ↔ R x y)) : ∀ xs : List CNum, (∀ x ∈ xs, x.Valid) →
    (noAdjacent p xs = true ↔ List.IsChain R xs)
  | [], _ => by simp [noAdjacent]
  | [x], _ => by simp [noAdjacent]
  | x :: y :: rest, hv => by
    rw [noAdjacent, Bool.and_eq_true, List.isChain_cons_cons,
      noAdjacent_iff h (y :: rest) (fun z hz => hv z (by simp [hz]))]
    simp only [Bool.not_eq_true', h x y (hv x (by simp)) (hv y (by simp))]

/-- **C65**: `=` tells whether all arguments are the same number. -/
theorem C65_equal {xs : List CNum} (h : ∀ x ∈ xs, x.Valid) :
    numEq xs = true ↔ ∀ x ∈ xs, ∀ y ∈ xs, x.val = y.val := by
  rw [numEq, noAdjacent_iff (R := fun x y => x.val = y.val) _ xs h]
  · constructor
    · intro hc
      have hp : List.Pairwise (fun x y : CNum => x.val = y.val) xs := by
        haveI : Trans (fun x y : CNum => x.val = y.val) (fun x y : CNum => x.val = y.val)
          (fun x y : CNum => x.val = y.val) := ⟨fun h₁ h₂ => h₁.trans h₂⟩
        exact List.isChain_iff_pairwise.1 hc
      intro x hx y hy
      by_cases hxy : x = y
      · rw [hxy]
      · haveI : Std.Symm (fun x y : CNum => x.val = y.val) := ⟨fun _ _ h => h.symm⟩
        exact hp.forall hx hy hxy
    · intro hall
      have : List.Pairwise (fun x y : CNum => x.val = y.val) xs :=
        List.pairwise_of_forall_mem_list fun x hx y hy => hall x hx y hy
      exact this.isChain
  · intro x y hx hy
    rw [Bool.not_eq_false', equals_iff hx hy]

/-- **C65**: `zero?` and `real?`. -/
theorem C65_predicates {z : CNum} (h : z.Valid) :
    (isZero z = true ↔ z.val = 0) ∧ (isReal z = true ↔ z.val.im = 0) ∧
    (isInteger z = true ↔ ∃ n : ℤ, z.val = n) := by
  refine ⟨?_, ?_, ?_⟩
  · rw [isZero, equals_iff h (by simp [Valid, Num.Valid]), realNum_val, Int.cast_zero]
  · cases z with
    | real x => simp [isReal, val]
    | rect x y =>
      rw [isReal, equals_zero h.2]
      simp [val]
  · have key : ∀ x : Num, x.Valid → (Number.isInteger x = true ↔ ∃ n : ℤ, x.val = n) := by
      intro x hx
      cases x with
      | small i => exact ⟨fun _ => ⟨i, rfl⟩, fun _ => rfl⟩
      | large i => exact ⟨fun _ => ⟨i, rfl⟩, fun _ => rfl⟩
      | ratio q =>
        obtain ⟨hd, hg⟩ := hx
        constructor
        · intro h1
          have : q.den = 1 := by simpa [Number.isInteger] using h1
          exact ⟨q.num, by simp [Num.val, this]⟩
        · rintro ⟨n, hn⟩
          simp only [Num.val] at hn
          have hd' : (q.den : ℚ) ≠ 0 := by exact_mod_cast hd.ne'
          rw [div_eq_iff hd'] at hn
          have hn' : q.num = n * q.den := by exact_mod_cast hn
          rw [hn', Int.gcd_mul_left_left] at hg
          simp only [Number.isInteger, beq_iff_eq]
          omega
    cases z with
    | real x =>
      rw [isInteger, key x h]
      constructor
      · rintro ⟨n, hn⟩
        exact ⟨n, by apply Complex.ext <;> simp [val, hn]⟩
      · rintro ⟨n, hn⟩
        refine ⟨n, ?_⟩
        have := congrArg Complex.re hn
        simp only [val, Complex.intCast_re] at this
        exact_mod_cast this
    | rect x y =>
      rw [isInteger, Bool.and_eq_true, equals_zero h.2, key x h.1]
      constructor
      · rintro ⟨h0, n, hn⟩
        exact ⟨n, by apply Complex.ext <;> simp [val, hn, h0]⟩
      · rintro ⟨n, hn⟩
        have h₁ := congrArg Complex.re hn
        have h₂ := congrArg Complex.im hn
        simp only [val, Complex.intCast_re, Complex.intCast_im] at h₁ h₂
        exact ⟨by exact_mod_cast h₂, n, by exact_mod_cast h₁⟩

/-- **C65**: the parts of a number. -/
theorem C65_parts {z : CNum} (h : z.Valid) :
    (realPart z).Valid ∧ (imagPart z).Valid ∧
    z.val = ((realPart z).val : ℂ) + ((imagPart z).val : ℂ) * Complex.I := by
  cases z with
  | real x =>
    have hx : (realPart (.real x)).Valid ∧ (realPart (.real x)).val = x.val := by
      cases x with
      | ratio q => exact canonicalizeRatio_spec h
      | small i => exact ⟨h, rfl⟩
      | large i => exact ⟨h, rfl⟩
    refine ⟨hx.1, zero_valid, ?_⟩
    rw [hx.2]
    apply Complex.ext <;> simp [val, imagPart, Num.val]
  | rect x y =>
    refine ⟨h.1, h.2, ?_⟩
    apply Complex.ext <;> simp [val, realPart, imagPart]

/-- **C65**: `make-rectangular` puts a number together from its parts. -/
theorem C65_rectangular {x y : Num} (hx : x.Valid) (hy : y.Valid) :
    (makeRectangular x y).Valid ∧ realPart (makeRectangular x y) = x ∧
    imagPart (makeRectangular x y) = y ∧
    (makeRectangular x y).val = (x.val : ℂ) + (y.val : ℂ) * Complex.I := by
  refine ⟨⟨hx, hy⟩, rfl, rfl, ?_⟩
  exact (C65_parts (z := makeRectangular x y) ⟨hx, hy⟩).2.2

theorem noAdjacent_real {p : CNum → CNum → Bool} {q : Num → Num → Bool}
    (h : ∀ x y, p (.real x) (.real y) = q x y) : ∀ xs : List Num,
    noAdjacent p (xs.map .real) = Number.noAdjacent q xs
  | [] => rfl
  | [_] => rfl
  | x :: y :: rest => by
    have := noAdjacent_real h (y :: rest)
    rw [List.map_cons] at this
    rw [List.map_cons, List.map_cons, noAdjacent, this, h]
    rfl

/-- **C65**: the order of real number objects is the order of the real numbers. -/
theorem C65_order_partial {xs : List Num} (h : ∀ x ∈ xs, x.Valid) :
    (numLt (xs.map .real) = true ↔ List.IsChain (· < ·) (xs.map fun x => (CNum.real x).val.re)) ∧
    (numLe (xs.map .real) = true ↔ List.IsChain (· ≤ ·) (xs.map fun x => (CNum.real x).val.re)) ∧
    (numGt (xs.map .real) = true ↔ List.IsChain (· > ·) (xs.map fun x => (CNum.real x).val.re)) ∧
    (numGe (xs.map .real) = true ↔ List.IsChain (· ≥ ·) (xs.map fun x => (CNum.real x).val.re)) := by
  have e : (xs.map fun x => (CNum.real x).val.re) = (xs.map Num.val).map fun q : ℚ => (q : ℝ) := by
    rw [List.map_map]
    rfl
  obtain ⟨-, h₁, h₂, h₃, h₄⟩ := C32_comparison h
  rw [e]
  simp only [List.isChain_map, gt_iff_lt, ge_iff_le, Rat.cast_lt, Rat.cast_le]
  simp only [List.isChain_map, gt_iff_lt, ge_iff_le] at h₁ h₂ h₃ h₄
  refine ⟨?_, ?_, ?_, ?_⟩
  · rw [← h₁, numLt, noAdjacent_real (q := fun x y => Number.greaterThanOrEquals x y) (fun x y => rfl)]
    rfl
  · rw [← h₂, numLe, noAdjacent_real (q := Number.greaterThan) (fun x y => rfl)]
    rfl
  · rw [← h₃, numGt, noAdjacent_real (q := fun x y => Number.lessThanOrEquals x y) (fun x y => rfl)]
    rfl
  · rw [← h₄, numGe, noAdjacent_real (q := Number.lessThan) (fun x y => rfl)]
    rfl

/-! ### Where it fails -/

/-- **C65 fails** for `rational?`: `(make-rectangular 1 0)` is an integer but not a rational. -/
theorem C65_rational_fails : ∃ z : CNum, z.Valid ∧ z.val = 1 ∧ isInteger z = true ∧ isReal z = true ∧
    isRational z = false := by
  refine ⟨makeRectangular (.small 1) (.small 0), by simp [makeRectangular, Valid, Num.Valid], ?_, rfl, rfl, rfl⟩
  apply Complex.ext <;> simp [val, makeRectangular, Num.val]

/-- **C65 fails** for the order: `(make-rectangular 1 0)` is real, but it is neither less than 2 nor
more than 2 nor equal to 2; it is `>=` 2, and it is not `<` 2. -/
theorem C65_order_fails : ∃ z w : CNum, z.Valid ∧ w.Valid ∧ z.val = 1 ∧ w.val = 2 ∧ isReal z = true ∧
    numGe [z, w] = true ∧ numLt [z, w] = false := by
  refine ⟨makeRectangular (.small 1) (.small 0), .real (.small 2), by simp [makeRectangular, Valid, Num.Valid],
    by simp [Valid, Num.Valid], ?_, ?_, rfl, rfl, rfl⟩
  · apply Complex.ext <;> simp [val, makeRectangular, Num.val]
  · apply Complex.ext <;> simp [val, Num.val]

/-- **C65 fails** for `magnitude`: the magnitude of a negative number is negative, whatever the C
library. -/
theorem C65_magnitude_fails (m : Libm) :
    magnitude m (.real (.small (-5))) = .value (.exact (.small (-5))) ∧
    ‖(CNum.real (.small (-5))).val‖ = 5 := by
  refine ⟨rfl, ?_⟩
  rw [realNum_val]
  simp

/-- **C65 fails** for `angle`: the arguments of `atan2` are in the wrong order. If `atan2` is off by at
most a third of a radian, then the angle of 1 is off by more than half a radian. -/
theorem C65_angle_fails (atan2 : ℚ → ℚ → ℝ)
    (h : ∀ y x : ℚ, |atan2 y x - Complex.arg ⟨(x : ℝ), (y : ℝ)⟩| ≤ 1 / 3) :
    let args := angleArguments (.real (.small 1))
    1 / 2 < atan2 args.1.val args.2.val ∧ Complex.arg (CNum.real (.small 1)).val = 0 := by
  have h₁ := h 1 0
  have e : (⟨((0 : ℚ) : ℝ), ((1 : ℚ) : ℝ)⟩ : ℂ) = Complex.I := by apply Complex.ext <;> simp
  rw [e, Complex.arg_I] at h₁
  have h₂ := abs_le.1 h₁
  refine ⟨?_, ?_⟩
  · have : (Num.small 1).val = 1 := by simp [Num.val]
    simp only [angleArguments, realPart, imagPart, this, zero_val]
    have := Real.two_le_pi
    linarith [h₂.1]
  · rw [realNum_val]
    simp

/-! ### Examples -/

/-- `(/ 1+2i 3-4i)` is -1/5+2/5i. -/
example : divide [.rect (.small 1) (.small 2), .rect (.small 3) (.small (-4))] =
    .value (.rect (.ratio ⟨-1, 5⟩) (.ratio ⟨2, 5⟩)) := by decide +kernel

/-- `(* 1+i 1-i)` is the integer 2. -/
example : times [.rect (.small 1) (.small 1), .rect (.small 1) (.small (-1))] = .value (.real (.small 2)) := by
  decide +kernel

example : CYields (divide [.rect (.small 1) (.small 2), .rect (.small 3) (.small (-4))])
    ((⟨1, 2⟩ : ℂ) / ⟨3, -4⟩) := by
  have := (C65_quotient_partial (x := .rect (.small 1) (.small 2)) (by simp [Valid, Num.Valid])).2
    (xs := [.rect (.small 3) (.small (-4))]) (by simp) (by
      intro y hy
      rw [List.mem_singleton] at hy
      subst hy
      refine ⟨by simp [Valid, Num.Valid], fun h => ?_⟩
      have := congrArg Complex.re h
      simp [val, Num.val] at this)
  refine this.of_eq ?_
  simp [val, Num.val]

end CNum

end Meevax.Number
