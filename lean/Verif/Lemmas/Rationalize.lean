import Verif.Model.Rationalize
import Verif.Spec.Rationalize
import Verif.Props.Number

/-
Lemmas for `rationalize`.
-/

namespace Meevax.Number

theorem Yields.bindE {o : Outcome Num} {f : Num → Outcome Num} {v w : ℚ} (h : Yields o v)
    (hf : ∀ x : Num, x.Valid → x.val = v → Yields (f x) w) : Yields (o >>= f) w := by
  obtain ⟨x, rfl, h1, h2⟩ := h
  exact hf x h1 h2

theorem minus2_val {x y : Num} (hx : x.Valid) (hy : y.Valid) :
    Yields (minus [x, y]) (x.val - y.val) := by
  have := (C25_difference_partial hx).2 (xs := [y]) (by simp) (by simpa using hy)
  simpa using this

theorem minus1_val {x : Num} (hx : x.Valid) : Yields (minus [x]) (-x.val) :=
  (C25_difference_partial hx).1

theorem plus2_val {x y : Num} (hx : x.Valid) (hy : y.Valid) :
    Yields (plus [x, y]) (x.val + y.val) := by
  have := (C25_sum_product_partial (xs := [x, y]) (by simp [hx, hy])).1
  simpa using this

theorem divide1_val {x : Num} (hx : x.Valid) (h : x.val ≠ 0) : Yields (divide [x]) (1 / x.val) :=
  (C25_quotient_partial hx).1 h

theorem numLt2 {x y : Num} (hx : x.Valid) (hy : y.Valid) : numLt [x, y] = true ↔ x.val < y.val := by
  have := (C32_comparison (xs := [x, y]) (by simp [hx, hy])).2.1
  simpa using this

theorem numEq2 {x y : Num} (hx : x.Valid) (hy : y.Valid) : numEq [x, y] = true ↔ x.val = y.val := by
  have := (C32_comparison (xs := [x, y]) (by simp [hx, hy])).1
  simpa using this

theorem small_valid {i : Int} (h1 : -2 ^ 31 ≤ i) (h2 : i < 2 ^ 31) : (Num.small i).Valid := ⟨h1, h2⟩

/-- `floor` of a number that is not negative and below `2 ^ 53`. -/
theorem floor_nonneg {x : Num} (hx : x.Valid) (h0 : 0 ≤ x.val) (h : x.val < 2 ^ 53) :
    ∃ f, floor x = .value f ∧ f.Valid ∧ f.val = (⌊x.val⌋ : Int) := by
  rcases x with a | a | q
  · refine ⟨canonicalizeInteger a, rfl, (IsInt.canonicalize a).valid, ?_⟩
    rw [(IsInt.canonicalize a).val]
    simp [Num.val]
  · exact ⟨.large a, rfl, trivial, by simp [Num.val]⟩
  · have hq : (q.num : ℚ) / q.den = (Num.ratio q).val := rfl
    obtain ⟨t, h1, h2, h3, h4⟩ := getD_int hq (by rwa [abs_of_nonneg h0])
    rw [if_neg (not_lt.2 h0)] at h1
    refine ⟨.large ⌊t⌋, ?_, trivial, ?_⟩
    · show nearest stdFloor _ = _
      simp only [nearest, h1, stdFloor]
    · rw [h4, abs_of_nonneg h0]
      rfl

/-- `floor` of a number of magnitude below `2 ^ 53` is an integer less than one away. -/
theorem floor_close {x : Num} (hx : x.Valid) (h : |x.val| < 2 ^ 53) :
    ∃ f, floor x = .value f ∧ f.Valid ∧ ∃ z : Int, f.val = z ∧ |x.val - z| < 1 := by
  rcases x with a | a | q
  · refine ⟨canonicalizeInteger a, rfl, (IsInt.canonicalize a).valid, a, (IsInt.canonicalize a).val, ?_⟩
    simp [Num.val]
  · exact ⟨.large a, rfl, trivial, a, rfl, by simp [Num.val]⟩
  · obtain ⟨z, ⟨f, h1, h2⟩, h3⟩ := floor_near (x := (Num.ratio q).val) rfl h
    exact ⟨f, h1, h2.valid, z, h2.val, h3⟩

/-- `a / b` is the simplest of the positive fractions between `x` and `y`. -/
def Least (x y : ℚ) (a b : Int) : Prop :=
  0 < b ∧ x ≤ (a : ℚ) / b ∧ (a : ℚ) / b ≤ y ∧
  ∀ p q : Int, 0 < q → x ≤ (p : ℚ) / q → (p : ℚ) / q ≤ y → a ≤ p ∧ b ≤ q

theorem least_int {x y : ℚ} {n : Int} (h0 : 0 ≤ n) (hx : x = n) (hy : x ≤ y) : Least x y n 1 := by
  refine ⟨one_pos, by simp [hx], by simpa [← hx], ?_⟩
  intro p q hq h1 _
  have hqQ : (0 : ℚ) < q := by exact_mod_cast hq
  rw [le_div_iff₀ hqQ, hx] at h1
  have h2 : n * q ≤ p := by exact_mod_cast h1
  exact ⟨by nlinarith, hq⟩

theorem least_next {x y : ℚ} {n : Int} (h0 : 0 ≤ n) (hx : (n : ℚ) < x) (hx' : x < n + 1)
    (hy : (n : ℚ) + 1 ≤ y) : Least x y (n + 1) 1 := by
  refine ⟨one_pos, by push_cast; simpa using hx'.le, by push_cast; simpa using hy, ?_⟩
  intro p q hq h1 _
  have hqQ : (0 : ℚ) < q := by exact_mod_cast hq
  have h2 := hx.trans_le h1
  rw [lt_div_iff₀ hqQ] at h2
  have h3 : n * q < p := by exact_mod_cast h2
  exact ⟨by nlinarith, hq⟩

theorem least_step {x y : ℚ} {n a b : Int} (hx : (n : ℚ) < x) (hxy : x < y) (ha : 0 < a)
    (h0 : 0 ≤ n) (h : Least (1 / (y - n)) (1 / (x - n)) a b) : Least x y (n * a + b) a := by
  obtain ⟨hb, h1, h2, h3⟩ := h
  have haQ : (0 : ℚ) < a := by exact_mod_cast ha
  have hbQ : (0 : ℚ) < b := by exact_mod_cast hb
  have hxn : 0 < x - n := by linarith
  have hyn : 0 < y - n := by linarith
  rw [div_le_div_iff₀ hyn hbQ] at h1
  rw [div_le_div_iff₀ hbQ hxn] at h2
  refine ⟨ha, ?_, ?_, ?_⟩
  · rw [le_div_iff₀ haQ]; push_cast; nlinarith
  · rw [div_le_iff₀ haQ]; push_cast; nlinarith
  · intro p q hq h4 h5
    have hqQ : (0 : ℚ) < q := by exact_mod_cast hq
    rw [le_div_iff₀ hqQ] at h4
    rw [div_le_iff₀ hqQ] at h5
    have h6 : (n : ℚ) * q < p := lt_of_lt_of_le (by nlinarith) h4
    have h7 : 0 < p - n * q := by
      have : n * q < p := by exact_mod_cast h6
      omega
    have h7Q : (0 : ℚ) < ((p - n * q : Int) : ℚ) := by exact_mod_cast h7
    obtain ⟨h8, h9⟩ := h3 q (p - n * q) h7
      (by rw [div_le_div_iff₀ hyn h7Q]; push_cast; nlinarith)
      (by rw [div_le_div_iff₀ h7Q hxn]; push_cast; nlinarith)
    exact ⟨by nlinarith, h8⟩

theorem den_sub_floor (x : ℚ) (n : Int) (hx : (n : ℚ) < x) (hx' : x < n + 1) :
    (1 / (x - n)).den < x.den ∧ 1 / (x - n) ≤ x.den := by
  have hd : (0 : ℚ) < x.den := by exact_mod_cast x.pos
  have hxn : 0 < x - n := by linarith
  have e : x = x.num / x.den := (Rat.num_div_den x).symm
  have h1 : (n : ℚ) * x.den < x.num := by
    rw [e] at hx
    rwa [lt_div_iff₀ hd] at hx
  have h2 : (x.num : ℚ) < (n + 1) * x.den := by
    rw [e] at hx'
    rwa [div_lt_iff₀ hd] at hx'
  have h1' : n * x.den < x.num := by exact_mod_cast h1
  have h2' : x.num < (n + 1) * x.den := by exact_mod_cast h2
  have e2 : 1 / (x - n) = ((x.den : Int) : ℚ) / ((x.num - n * x.den : Int) : ℚ) := by
    rw [div_eq_div_iff hxn.ne' (by
      have : 0 < x.num - n * x.den := by omega
      exact_mod_cast this.ne')]
    push_cast
    have e3 : x * x.den = x.num := Rat.mul_den_eq_num x
    linarith [mul_comm x (x.den : ℚ), mul_sub (x.den : ℚ) x n, mul_comm (x.den : ℚ) (n : ℚ)]
  have h3 : 0 < x.num - n * x.den := by omega
  have h4 : x.num - n * x.den < x.den := by nlinarith
  constructor
  · have h5 : ((1 / (x - n)).den : Int) ∣ (x.num - n * x.den) := by
      rw [e2, ← Rat.divInt_eq_div]
      exact Rat.den_dvd _ _
    have := Int.le_of_dvd h3 h5
    omega
  · rw [e2, div_le_iff₀ (by exact_mod_cast h3)]
    have : (1 : ℚ) ≤ ((x.num - n * x.den : Int) : ℚ) := by exact_mod_cast h3
    push_cast at this ⊢
    nlinarith

/-- `simplest-rational-internal` between two positive numbers. -/
theorem internal_least : ∀ (fuel : Nat) (x y : Num), x.Valid → y.Valid → 0 ≤ x.val → x.val < y.val →
    y.val < 2 ^ 53 → x.val.den < 2 ^ 53 → y.val.den < 2 ^ 53 → x.val.den + y.val.den ≤ fuel →
    ∃ a b : Int, Least x.val y.val a b ∧ Yields (simplestInternal fuel x y) ((a : ℚ) / b)
  | 0, x, y, _, _, _, _, _, _, _, hf => by
    have := x.val.pos
    omega
  | fuel + 1, x, y, hx, hy, h0, hxy, hlt, hdx, hdy, hf => by
    obtain ⟨fx, e1, v1, w1⟩ := floor_nonneg hx h0 (hxy.trans hlt)
    obtain ⟨fy, e2, v2, w2⟩ := floor_nonneg hy (h0.trans hxy.le) hlt
    have hn0 : 0 ≤ ⌊x.val⌋ := Int.floor_nonneg.2 h0
    have hle := Int.floor_le x.val
    have hlt1 := Int.lt_floor_add_one x.val
    have hyle := Int.floor_le y.val
    have hylt1 := Int.lt_floor_add_one y.val
    simp only [simplestInternal, e1, e2]
    show ∃ a b : Int, _ ∧ Yields (if (!numLt [fx, x]) = true then Outcome.value fx else _) _
    by_cases c1 : numLt [fx, x] = true
    · rw [if_neg (by simp [c1])]
      rw [numLt2 v1 hx, w1] at c1
      by_cases c2 : numEq [fx, fy] = true
      · rw [if_pos c2]
        rw [numEq2 v1 v2, w1, w2] at c2
        have c3 : ⌊y.val⌋ = ⌊x.val⌋ := by exact_mod_cast c2.symm
        have cy : ((⌊x.val⌋ : Int) : ℚ) < y.val := c1.trans hxy
        rw [c3] at hyle hylt1 w2
        generalize hn : ⌊x.val⌋ = n at *
        have hxn : 0 < x.val - n := by linarith
        have hyn : 0 < y.val - n := by linarith
        obtain ⟨dy, f1, g1, k1⟩ := minus2_val hy v2
        rw [w2] at k1
        obtain ⟨ry, f2, g2, k2⟩ := divide1_val g1 (by rw [k1]; exact hyn.ne')
        obtain ⟨dx, f3, g3, k3⟩ := minus2_val hx v1
        rw [w1] at k3
        obtain ⟨rx, f4, g4, k4⟩ := divide1_val g3 (by rw [k3]; exact hxn.ne')
        rw [k1] at k2
        rw [k3] at k4
        obtain ⟨d1, d2⟩ := den_sub_floor x.val n c1 hlt1
        obtain ⟨d3, d4⟩ := den_sub_floor y.val n cy hylt1
        have dQ : (x.val.den : ℚ) < 2 ^ 53 := by exact_mod_cast hdx
        obtain ⟨a, b, l, r⟩ := internal_least fuel ry rx g2 g4 (by rw [k2]; positivity)
          (by rw [k2, k4, one_div_lt_one_div hyn hxn]; linarith)
          (by rw [k4]; linarith) (by rw [k2]; omega) (by rw [k4]; omega) (by rw [k2, k4]; omega)
        rw [k2, k4] at l
        have hb : (0 : ℚ) < b := by exact_mod_cast l.1
        have hab : 0 < (a : ℚ) / b := lt_of_lt_of_le (by positivity) l.2.1
        have haQ : (0 : ℚ) < a := by
          by_contra hc
          have := div_nonpos_of_nonpos_of_nonneg (not_lt.1 hc) hb.le
          linarith
        have ha : 0 < a := by exact_mod_cast haQ
        refine ⟨n * a + b, a, least_step c1 hxy ha hn0 l, ?_⟩
        simp only [f1, f2, f3, f4, bind_value]
        refine Yields.bindE r fun s hs es => ?_
        refine Yields.bindE (divide1_val hs (by rw [es]; exact hab.ne')) fun t ht et => ?_
        have := plus2_val v1 ht
        rw [et, es, w1] at this
        refine Eq.subst (motive := Yields _) ?_ this
        push_cast
        field_simp
      · rw [if_neg c2]
        rw [numEq2 v1 v2, w1, w2] at c2
        have c3 : ⌊x.val⌋ ≠ ⌊y.val⌋ := fun e => c2 (by rw [e])
        have c4 : ⌊x.val⌋ ≤ ⌊y.val⌋ := Int.floor_le_floor hxy.le
        have c5 : ⌊x.val⌋ + 1 ≤ ⌊y.val⌋ := by omega
        have c6 : ((⌊x.val⌋ : Int) : ℚ) + 1 ≤ ((⌊y.val⌋ : Int) : ℚ) := by exact_mod_cast c5
        refine ⟨⌊x.val⌋ + 1, 1, least_next hn0 c1 hlt1 (c6.trans hyle), ?_⟩
        have := plus2_val (small_valid (i := 1) (by norm_num) (by norm_num)) v1
        rw [w1] at this
        refine Eq.subst (motive := Yields _) ?_ this
        simp [Num.val]
        ring
    · rw [if_pos (by simp [c1])]
      rw [numLt2 v1 hx, w1] at c1
      have hxe : x.val = (⌊x.val⌋ : Int) := le_antisymm (not_lt.1 c1) hle
      refine ⟨⌊x.val⌋, 1, least_int hn0 hxe hxy.le, fx, rfl, v1, ?_⟩
      rw [w1]
      simp

/-- `simplest-rational-internal` around zero: it ends at once, with an integer in between. -/
theorem internal_around (fuel : Nat) {x y : Num} (hx : x.Valid) (hy : y.Valid) (h0 : x.val < 0)
    (h1 : 0 < y.val) (h2 : -2 ^ 53 < x.val) (h3 : y.val < 2 ^ 53) :
    ∃ v : ℚ, Yields (simplestInternal (fuel + 1) x y) v ∧ x.val ≤ v ∧ v ≤ y.val := by
  obtain ⟨fx, e1, v1, z, w1, hz⟩ := floor_close hx (by rw [abs_of_neg h0]; linarith)
  obtain ⟨fy, e2, v2, w2⟩ := floor_nonneg hy h1.le h3
  rw [abs_lt] at hz
  have hz0 : z ≤ 0 := by
    have : (z : ℚ) < 1 := by linarith
    have : z < 1 := by exact_mod_cast this
    omega
  have hz0Q : (z : ℚ) ≤ 0 := by exact_mod_cast hz0
  simp only [simplestInternal, e1, e2]
  show ∃ v : ℚ, Yields (if (!numLt [fx, x]) = true then Outcome.value fx else _) _ ∧ _
  by_cases c1 : numLt [fx, x] = true
  · rw [if_neg (by simp [c1])]
    rw [numLt2 v1 hx, w1] at c1
    have hz1 : z ≤ -1 := by
      have : (z : ℚ) < 0 := by linarith
      have : z < 0 := by exact_mod_cast this
      omega
    have hz1Q : (z : ℚ) ≤ -1 := by exact_mod_cast hz1
    have hne : ¬ numEq [fx, fy] = true := by
      rw [numEq2 v1 v2, w1, w2]
      intro e
      have : z = ⌊y.val⌋ := by exact_mod_cast e
      have := Int.floor_nonneg.2 h1.le
      omega
    rw [if_neg hne]
    have := plus2_val (small_valid (i := 1) (by norm_num) (by norm_num)) v1
    rw [w1] at this
    have e : (Num.small 1).val = 1 := by simp [Num.val]
    rw [e] at this
    exact ⟨_, this, by linarith, by linarith⟩
  · rw [if_pos (by simp [c1])]
    rw [numLt2 v1 hx, w1] at c1
    exact ⟨z, ⟨fx, rfl, v1, w1⟩, not_lt.1 c1, by linarith⟩

/-- The simplest fraction, in lowest terms. -/
theorem Least.simplest {x y : ℚ} {a b : Int} (h : Least x y a b) (h0 : 0 ≤ x) :
    x ≤ (a : ℚ) / b ∧ (a : ℚ) / b ≤ y ∧
    ∀ r : ℚ, x ≤ r → r ≤ y → Simpler ((a : ℚ) / b) r := by
  obtain ⟨hb, h1, h2, h3⟩ := h
  have hbQ : (0 : ℚ) < b := by exact_mod_cast hb
  refine ⟨h1, h2, fun r h4 h5 => ?_⟩
  have key : ∀ s : ℚ, x ≤ s → s ≤ y → a ≤ s.num ∧ b ≤ s.den := by
    intro s h6 h7
    have e : ((s.num : Int) : ℚ) / ((s.den : Int) : ℚ) = s := by
      push_cast
      exact Rat.num_div_den s
    exact h3 s.num s.den (by exact_mod_cast s.pos) (by rwa [e]) (by rwa [e])
  obtain ⟨k1, k2⟩ := key r h4 h5
  have ha : 0 ≤ a := by
    have := h0.trans h1
    rw [le_div_iff₀ hbQ, zero_mul] at this
    exact_mod_cast this
  have hv : (((a : ℚ) / b).den : Int) ≤ b := by
    rw [← Rat.divInt_eq_div]
    exact Int.le_of_dvd hb (Rat.den_dvd a b)
  have hw : ((a : ℚ) / b).num ≤ a := by
    rcases eq_or_lt_of_le ha with h6 | h6
    · rw [← h6]; simp
    · rw [← Rat.divInt_eq_div]
      exact Int.le_of_dvd h6 (Rat.num_dvd a hb.ne')
  have hw0 : 0 ≤ ((a : ℚ) / b).num := Rat.num_nonneg.2 (h0.trans h1)
  have hr0 : 0 ≤ r.num := Rat.num_nonneg.2 (h0.trans h4)
  refine ⟨?_, by omega⟩
  rw [abs_of_nonneg hw0, abs_of_nonneg hr0]
  omega

theorem Simpler.neg {v r : ℚ} (h : Simpler v (-r)) : Simpler (-v) r := by
  simpa [Simpler] using h

end Meevax.Number
