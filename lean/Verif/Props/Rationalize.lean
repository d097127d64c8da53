import Verif.Lemmas.Rationalize

/-
C70: `rationalize` of exact numbers.
-/

namespace Meevax.Number

/-- `simplest-rational` between ordered ends on one side of zero. -/
theorem simplestRational_side {fuel : Nat} {x y : Num} (hx : x.Valid) (hy : y.Valid)
    (hxy : x.val ≤ y.val) (hs : 0 ≤ x.val ∨ y.val ≤ 0) (h1 : -2 ^ 53 < x.val) (h2 : y.val < 2 ^ 53)
    (hdx : x.val.den < 2 ^ 53) (hdy : y.val.den < 2 ^ 53) (hf : x.val.den + y.val.den ≤ fuel) :
    ∃ v, Yields (simplestRational (fuel + 1) x y) v ∧ x.val ≤ v ∧ v ≤ y.val ∧
      ∀ r : ℚ, x.val ≤ r → r ≤ y.val → Simpler v r := by
  unfold simplestRational
  rw [if_neg (by rw [numLt2 hy hx]; exact not_lt.2 hxy)]
  by_cases c1 : numLt [x, y] = true
  · rw [if_neg (by simp [c1])]
    rw [numLt2 hx hy] at c1
    by_cases c2 : isPositive x = true
    · rw [if_pos c2]
      have c3 : 0 < x.val := by
        have := (lessThan_iff (small_valid (i := 0) (by norm_num) (by norm_num)) hx).1 c2
        simpa [Num.val] using this
      obtain ⟨a, b, l, r⟩ := internal_least fuel x y hx hy c3.le c1 h2 hdx hdy hf
      exact ⟨_, r, l.simplest c3.le⟩
    · rw [if_neg c2]
      have c3 : x.val ≤ 0 := by
        by_contra hc
        refine c2 ((lessThan_iff (small_valid (i := 0) (by norm_num) (by norm_num)) hx).2 ?_)
        simpa [Num.val] using hc
      by_cases c4 : isNegative x = true
      · rw [if_pos c4]
        have c5 : x.val < 0 := by
          have := (lessThan_iff hx (small_valid (i := 0) (by norm_num) (by norm_num))).1 c4
          simpa [Num.val] using this
        have c6 : y.val ≤ 0 := hs.resolve_left (not_le.2 c5)
        obtain ⟨ny, f1, g1, k1⟩ := minus1_val hy
        obtain ⟨nx, f2, g2, k2⟩ := minus1_val hx
        obtain ⟨a, b, l, r⟩ := internal_least fuel ny nx g1 g2 (by rw [k1]; linarith)
          (by rw [k1, k2]; linarith) (by rw [k2]; linarith) (by rw [k1, Rat.neg_den]; exact hdy)
          (by rw [k2, Rat.neg_den]; exact hdx) (by rw [k1, k2, Rat.neg_den, Rat.neg_den]; omega)
        obtain ⟨l1, l2, l3⟩ := l.simplest (by rw [k1]; linarith)
        rw [k1] at l1 l3
        rw [k2] at l2 l3
        simp only [f1, f2, bind_value]
        refine ⟨-((a : ℚ) / b), Yields.bindE r fun s hs es => ?_, by linarith, by linarith, ?_⟩
        · have := minus1_val hs
          rwa [es] at this
        · intro q h3 h4
          exact (l3 (-q) (by linarith) (by linarith)).neg
      · rw [if_neg c4]
        have c5 : x.val = 0 := by
          refine le_antisymm c3 (not_lt.1 fun hc => ?_)
          refine c4 ((lessThan_iff hx (small_valid (i := 0) (by norm_num) (by norm_num))).2 ?_)
          simpa [Num.val] using hc
        refine ⟨0, ⟨.small 0, rfl, by simp [Num.Valid], by simp [Num.val]⟩, c3, by linarith, ?_⟩
        intro r _ _
        refine ⟨by simp, ?_⟩
        have := r.pos
        simp only [Rat.den_zero]
        omega
  · rw [if_pos (by simp [c1])]
    rw [numLt2 hx hy] at c1
    have e : x.val = y.val := le_antisymm hxy (not_lt.1 c1)
    refine ⟨x.val, ⟨x, rfl, hx, rfl⟩, le_rfl, hxy, fun r h3 h4 => ?_⟩
    have : r = x.val := le_antisymm (by rw [e]; exact h4) h3
    rw [this]
    exact ⟨le_rfl, le_rfl⟩

/-- `simplest-rational` between ordered ends around zero. -/
theorem simplestRational_around {fuel : Nat} {x y : Num} (hx : x.Valid) (hy : y.Valid)
    (h0 : x.val < 0) (h1 : 0 < y.val) (h2 : -2 ^ 53 < x.val) (h3 : y.val < 2 ^ 53) :
    ∃ v, Yields (simplestRational (fuel + 2) x y) v ∧ x.val ≤ v ∧ v ≤ y.val := by
  unfold simplestRational
  rw [if_neg (by rw [numLt2 hy hx]; exact not_lt.2 (h0.trans h1).le),
    if_neg (by rw [Bool.not_eq_true', Bool.not_eq_false, numLt2 hx hy]; exact h0.trans h1)]
  rw [if_neg (by
    unfold isPositive
    rw [lessThan_iff (small_valid (i := 0) (by norm_num) (by norm_num)) hx]
    simpa [Num.val] using h0.le)]
  rw [if_pos (by
    unfold isNegative
    rw [lessThan_iff hx (small_valid (i := 0) (by norm_num) (by norm_num))]
    simpa [Num.val] using h0)]
  obtain ⟨ny, f1, g1, k1⟩ := minus1_val hy
  obtain ⟨nx, f2, g2, k2⟩ := minus1_val hx
  obtain ⟨v, r, r1, r2⟩ := internal_around fuel g1 g2 (by rw [k1]; linarith) (by rw [k2]; linarith)
    (by rw [k1]; linarith) (by rw [k2]; linarith)
  rw [k1] at r1
  rw [k2] at r2
  simp only [f1, f2, bind_value]
  refine ⟨-v, Yields.bindE r fun s hs es => ?_, by linarith, by linarith⟩
  have := minus1_val hs
  rwa [es] at this

/-- The ends of the interval, in order. -/
theorem rationalize_ends {x e : Num} (hx : x.Valid) (he : e.Valid) :
    ∃ lo hi : Num, lo.Valid ∧ hi.Valid ∧ lo.val = x.val - |e.val| ∧ hi.val = x.val + |e.val| ∧
      ∀ fuel, rationalize (fuel + 1) x e = simplestRational (fuel + 1) lo hi ∨
        rationalize (fuel + 1) x e = simplestRational fuel lo hi := by
  obtain ⟨lo, f1, g1, k1⟩ := minus2_val hx he
  obtain ⟨hi, f2, g2, k2⟩ := plus2_val hx he
  rcases le_or_gt 0 e.val with h | h
  · refine ⟨lo, hi, g1, g2, by rw [k1, abs_of_nonneg h], by rw [k2, abs_of_nonneg h], fun fuel => ?_⟩
    left
    simp only [rationalize, f1, f2, bind_value]
  · refine ⟨hi, lo, g2, g1, by rw [k2, abs_of_neg h]; ring, by rw [k1, abs_of_neg h]; ring, fun fuel => ?_⟩
    right
    simp only [rationalize, f1, f2, bind_value]
    rw [simplestRational, if_pos]
    rw [numLt2 g2 g1, k1, k2]
    linarith

theorem between_iff {x e r : ℚ} : |r - x| ≤ |e| ↔ x - |e| ≤ r ∧ r ≤ x + |e| := by
  rw [abs_le]
  constructor <;> rintro ⟨h1, h2⟩ <;> constructor <;> linarith

/-- **C70, partially**: `(rationalize x e)` of exact numbers is the simplest rational number that
differs from `x` by no more than `e`, in either sign of `e`, when zero is not between the two ends
and the magnitudes and denominators of the ends are below `2 ^ 53`. Missing: ends of which one is
negative and the other positive, and bigger numbers; `C70_zero_fails` and `C70_big_fails` show that
it is false there. -/
theorem C70_rationalize_partial {x e : Num} (hx : x.Valid) (he : e.Valid)
    (hs : 0 ≤ x.val - |e.val| ∨ x.val + |e.val| ≤ 0) (hb : |x.val| + |e.val| < 2 ^ 53)
    (hl : (x.val - |e.val|).den < 2 ^ 53) (hh : (x.val + |e.val|).den < 2 ^ 53) {fuel : Nat}
    (hf : (x.val - |e.val|).den + (x.val + |e.val|).den + 2 ≤ fuel) :
    ∃ v, Yields (rationalize fuel x e) v ∧ Simplest x.val e.val v := by
  obtain ⟨lo, hi, g1, g2, k1, k2, h⟩ := rationalize_ends hx he
  obtain ⟨n, rfl⟩ : ∃ n, fuel = n + 2 := ⟨fuel - 2, by omega⟩
  have ha := abs_nonneg e.val
  have hb1 := neg_abs_le x.val
  have hb2 := le_abs_self x.val
  have key : ∀ m, (x.val - |e.val|).den + (x.val + |e.val|).den ≤ m →
      ∃ v, Yields (simplestRational (m + 1) lo hi) v ∧ Simplest x.val e.val v := by
    intro m hm
    obtain ⟨v, r1, r2, r3, r4⟩ := simplestRational_side (fuel := m) g1 g2 (by rw [k1, k2]; linarith)
      (by rw [k1, k2]; exact hs) (by rw [k1]; linarith) (by rw [k2]; linarith) (by rw [k1]; exact hl)
      (by rw [k2]; exact hh) (by rw [k1, k2]; exact hm)
    rw [k1] at r2 r4
    rw [k2] at r3 r4
    refine ⟨v, r1, between_iff.2 ⟨r2, r3⟩, fun r hr => ?_⟩
    rw [between_iff] at hr
    exact r4 r hr.1 hr.2
  rcases h (n + 1) with h | h <;> rw [h]
  · exact key (n + 1) (by omega)
  · exact key n (by omega)

/-- **C70, partially**: `(rationalize x e)` of exact numbers differs from `x` by no more than `e`,
also around zero. Missing: the same as above, bigger numbers. -/
theorem C70_within_partial {x e : Num} (hx : x.Valid) (he : e.Valid)
    (hb : |x.val| + |e.val| < 2 ^ 53)
    (hl : (x.val - |e.val|).den < 2 ^ 53) (hh : (x.val + |e.val|).den < 2 ^ 53) {fuel : Nat}
    (hf : (x.val - |e.val|).den + (x.val + |e.val|).den + 2 ≤ fuel) :
    ∃ v, Yields (rationalize fuel x e) v ∧ |v - x.val| ≤ |e.val| := by
  by_cases hs : 0 ≤ x.val - |e.val| ∨ x.val + |e.val| ≤ 0
  · obtain ⟨v, h1, h2, _⟩ := C70_rationalize_partial hx he hs hb hl hh hf
    exact ⟨v, h1, h2⟩
  · obtain ⟨lo, hi, g1, g2, k1, k2, h⟩ := rationalize_ends hx he
    have hp := (x.val - |e.val|).pos
    have hq := (x.val + |e.val|).pos
    obtain ⟨n, rfl⟩ : ∃ n, fuel = n + 4 := ⟨fuel - 4, by omega⟩
    push Not at hs
    have hb1 := neg_abs_le x.val
    have hb2 := le_abs_self x.val
    have key : ∀ m, ∃ v, Yields (simplestRational (m + 2) lo hi) v ∧ |v - x.val| ≤ |e.val| := by
      intro m
      obtain ⟨v, r1, r2, r3⟩ := simplestRational_around (fuel := m) g1 g2 (by rw [k1]; exact hs.1)
        (by rw [k2]; exact hs.2) (by rw [k1]; linarith) (by rw [k2]; linarith)
      rw [k1] at r2
      rw [k2] at r3
      exact ⟨v, r1, between_iff.2 ⟨r2, r3⟩⟩
    rcases h (n + 3) with h | h <;> rw [h]
    · exact key (n + 2)
    · exact key (n + 1)

/-- There is at most one simplest rational, so `C70_rationalize_partial` determines the result. -/
theorem C70_unique {x e v w : ℚ} (hv : Simplest x e v) (hw : Simplest x e w) : v = w := by
  obtain ⟨h1, h2⟩ := hv.2 w hw.1
  obtain ⟨h3, h4⟩ := hw.2 v hv.1
  have hd : v.den = w.den := le_antisymm h2 h4
  have hn : |v.num| = |w.num| := le_antisymm h1 h3
  have key : ∀ {v w : ℚ}, Simplest x e v → Simplest x e w → v.num = -w.num → v.den = w.den →
      v = w := by
    intro v w hv hw hn hd
    have hvw : v = -w := Rat.ext (by simpa using hn) (by simpa using hd)
    have h5 := hv.1
    have h6 := hw.1
    rw [between_iff] at h5 h6
    rw [hvw] at h5
    have h7 : |0 - x| ≤ |e| := between_iff.2 ⟨by linarith, by linarith⟩
    have h8 := (hw.2 0 h7).1
    simp only [Rat.num_zero, abs_zero, abs_nonpos_iff, Rat.num_eq_zero] at h8
    rw [hvw, h8, neg_zero]
  rcases abs_eq_abs.1 hn with h | h
  · exact Rat.ext h hd
  · exact key hv hw h hd

/-- R7RS's own example: `(rationalize 3/10 1/10)` is `1/3`. -/
example : Yields (rationalize 20 (.ratio ⟨3, 10⟩) (.ratio ⟨1, 10⟩)) (1 / 3) := by
  have e1 : (Num.ratio ⟨3, 10⟩).val = 3 / 10 := by simp [Num.val]
  have e2 : |(Num.ratio ⟨1, 10⟩).val| = 1 / 10 := by simp [Num.val]
  obtain ⟨v, h1, h2⟩ := C70_rationalize_partial (x := .ratio ⟨3, 10⟩) (e := .ratio ⟨1, 10⟩) (fuel := 20)
    ⟨by norm_num, by decide⟩ ⟨by norm_num, by decide⟩ (by rw [e1, e2]; norm_num)
    (by rw [e1, e2]; norm_num) (by rw [e1, e2]; decide +kernel) (by rw [e1, e2]; decide +kernel)
    (by rw [e1, e2]; decide +kernel)
  have h3 : Simplest (Num.ratio ⟨3, 10⟩).val (Num.ratio ⟨1, 10⟩).val (1 / 3) := by
    refine ⟨?_, fun r hr => ?_⟩
    · rw [e1, e2]; norm_num
    · rw [between_iff, e1, e2] at hr
      have hd : (0 : ℚ) < r.den := by exact_mod_cast r.pos
      have e3 : r * r.den = r.num := Rat.mul_den_eq_num r
      have n1 : (r.den : ℚ) ≤ 5 * r.num := by nlinarith
      have n2 : (5 : ℚ) * r.num ≤ 2 * r.den := by nlinarith
      have n1' : (r.den : Int) ≤ 5 * r.num := by exact_mod_cast n1
      have n2' : 5 * r.num ≤ 2 * (r.den : Int) := by exact_mod_cast n2
      have hp := r.pos
      refine ⟨?_, ?_⟩
      · rw [show (1 / 3 : ℚ).num = 1 by decide +kernel, abs_one, le_abs]
        left
        omega
      · rw [show (1 / 3 : ℚ).den = 3 by decide +kernel]
        omega
  rwa [C70_unique h2 h3] at h1

/-- **C70 is false around zero**: `(rationalize 0 1)` is 1, and 0 is simpler. -/
theorem C70_zero_fails : Yields (rationalize 4 (.small 0) (.small 1)) 1 ∧ Simplest 0 1 0 ∧
    ¬ Simplest 0 1 1 := by
  have h0 : Simplest 0 1 0 := by
    refine ⟨by norm_num, fun r _ => ⟨by simp, ?_⟩⟩
    have := r.pos
    simp only [Rat.den_zero]
    omega
  refine ⟨⟨.small 1, ?_, by simp [Num.Valid], by simp [Num.val]⟩, h0, fun h => ?_⟩
  · decide +kernel
  · exact absurd (C70_unique h0 h) (by norm_num)

/-- **C70 is false for big numbers**: `(rationalize 9007199254740994 1/2)` is 9007199254740993,
which is 1 away. -/
theorem C70_big_fails : Yields (rationalize 4 (.large (2 ^ 53 + 2)) (.ratio ⟨1, 2⟩)) (2 ^ 53 + 1) ∧
    ¬ |((2 : ℚ) ^ 53 + 1) - (2 ^ 53 + 2)| ≤ |(1 / 2 : ℚ)| := by
  refine ⟨⟨.large (2 ^ 53 + 1), ?_, trivial, by norm_num [Num.val]⟩, by norm_num⟩
  decide +kernel

end Meevax.Number
