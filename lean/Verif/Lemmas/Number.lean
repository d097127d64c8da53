import Verif.Spec.Number
import Mathlib.Tactic.FieldSimp
import Mathlib.Tactic.Ring
import Mathlib.Tactic.Linarith
import Mathlib.Tactic.NormNum
import Mathlib.Tactic.Positivity

/-
Exact arithmetic and comparison.
-/

namespace Meevax.Number

@[simp] theorem pure_eq {α : Type} (a : α) : (pure a : Outcome α) = .value a := rfl
@[simp] theorem bind_value {α β : Type} (a : α) (f : α → Outcome β) :
    (Outcome.value a >>= f) = f a := rfl
@[simp] theorem bind_undefined {α β : Type} (f : α → Outcome β) :
    (Outcome.undefined >>= f) = .undefined := rfl
@[simp] theorem bind_raised {α β : Type} (f : α → Outcome β) :
    (Outcome.raised >>= f) = .raised := rfl

theorem Gives.bind {o : Outcome Num} {f : Num → Outcome Num} {z w : Int} (h : Gives o z)
    (hf : ∀ x, IsInt x z → Gives (f x) w) : Gives (o >>= f) w := by
  obtain ⟨x, rfl, hx⟩ := h
  exact hf x hx

theorem Yields.bind {o : Outcome Num} {f : Num → Outcome Num} {z w : ℚ} (h : Yields o z)
    (hf : ∀ x, x.Valid → x.val = z → Yields (f x) w) : Yields (o >>= f) w := by
  obtain ⟨x, rfl, hx, hv⟩ := h
  exact hf x hx hv

theorem IsInt.valid {x : Num} {z : Int} (h : IsInt x z) : x.Valid := by
  rcases h with ⟨rfl, h1, h2⟩ | rfl
  · exact ⟨h1, h2⟩
  · trivial

theorem IsInt.val {x : Num} {z : Int} (h : IsInt x z) : x.val = z := by
  rcases h with ⟨rfl, h1, h2⟩ | rfl <;> rfl

theorem IsInt.large (z : Int) : IsInt (.large z) z := Or.inr rfl

theorem IsInt.small {z : Int} (h1 : -2 ^ 31 ≤ z) (h2 : z < 2 ^ 31) : IsInt (.small z) z :=
  Or.inl ⟨rfl, h1, h2⟩

theorem IsInt.canonicalize (z : Int) : IsInt (canonicalizeInteger z) z := by
  unfold canonicalizeInteger
  split
  · rename_i h
    exact .small h.1 (Int.lt_of_le_sub_one h.2)
  · exact .large z

theorem Gives.large (z : Int) : Gives (.value (.large z)) z := ⟨_, rfl, .large z⟩
theorem Gives.canonicalize (z : Int) : Gives (.value (canonicalizeInteger z)) z :=
  ⟨_, rfl, .canonicalize z⟩

theorem Gives.yields {o : Outcome Num} {z : Int} (h : Gives o z) : Yields o z := by
  obtain ⟨x, rfl, hx⟩ := h
  exact ⟨x, rfl, hx.valid, hx.val⟩

theorem widen_fits {i : Int} (h1 : -2 ^ 63 ≤ i) (h2 : i < 2 ^ 63) : widen i = .value i := by
  unfold widen
  rw [if_pos (show Fits64 i from ⟨h1, by omega⟩)]

/-! ### Rationals -/

theorem Mpq.canonicalize_spec {q : Mpq} (h : q.den ≠ 0) :
    ∃ r, Mpq.canonicalize q = .value r ∧ r.Canonical ∧
      (r.num : ℚ) / (r.den : ℚ) = (q.num : ℚ) / (q.den : ℚ) := by
  obtain ⟨n, d⟩ := q
  simp only at h
  have hg0 : (0 : Int) < (Int.gcd n d : Int) := by
    have := Int.gcd_pos_of_ne_zero_right n h
    omega
  obtain ⟨n', hn'⟩ := Int.gcd_dvd_left n d
  obtain ⟨d', hd'⟩ := Int.gcd_dvd_right n d
  have hcop : Int.gcd n' d' = 1 := by
    have := Int.gcd_mul_left (Int.gcd n d : Int) n' d'
    rw [← hn', ← hd'] at this
    simp only [Int.natAbs_natCast] at this
    have hp : 0 < Int.gcd n d := by omega
    exact Nat.eq_of_mul_eq_mul_left hp (by omega)
  generalize hgd : Int.gcd n d = g at hg0 hn' hd'
  have hd0 : d' ≠ 0 := by
    rintro rfl
    simp at hd'
    exact h hd'
  have hgq : (g : ℚ) ≠ 0 := by
    have : (0:ℚ) < g := by exact_mod_cast hg0
    exact this.ne'
  have hd0q : (d' : ℚ) ≠ 0 := by exact_mod_cast hd0
  have hdq : (d : ℚ) = g * d' := by exact_mod_cast hd'
  have hnq : (n : ℚ) = g * n' := by exact_mod_cast hn'
  have hval : (n : ℚ) / (d : ℚ) = (n' : ℚ) / (d' : ℚ) := by
    rw [hdq, hnq]
    field_simp
  unfold Mpq.canonicalize
  simp only [h, if_false, hgd]
  have hg0' : (g : Int) ≠ 0 := hg0.ne'
  have e1 : n / (g : Int) = n' := by rw [hn', Int.mul_ediv_cancel_left _ hg0']
  have e2 : d / (g : Int) = d' := by rw [hd', Int.mul_ediv_cancel_left _ hg0']
  have e3 : -n / (g : Int) = -n' := by rw [hn', ← Int.mul_neg, Int.mul_ediv_cancel_left _ hg0']
  have e4 : -d / (g : Int) = -d' := by rw [hd', ← Int.mul_neg, Int.mul_ediv_cancel_left _ hg0']
  split
  · rename_i hneg
    refine ⟨_, rfl, ⟨?_, ?_⟩, ?_⟩
    · simp only [e4]
      have : (g : Int) * d' < 0 := by omega
      have := (pos_iff_neg_of_mul_neg this).1 hg0
      omega
    · simp only [e3, e4]
      simpa [Int.gcd_neg, Int.neg_gcd] using hcop
    · simp only [e3, e4]
      push_cast
      rw [hval, neg_div_neg_eq]
  · rename_i hneg
    refine ⟨_, rfl, ⟨?_, ?_⟩, ?_⟩
    · simp only [e2]
      have h1 : 0 < (g : Int) * d' := by omega
      exact (pos_iff_pos_of_mul_pos h1).1 hg0
    · simpa only [e1, e2] using hcop
    · simp only [e1, e2]
      rw [hval]

theorem canonicalizeRatio_spec {q : Mpq} (h : q.Canonical) :
    (canonicalizeRatio q).Valid ∧ (canonicalizeRatio q).val = (q.num : ℚ) / (q.den : ℚ) := by
  unfold canonicalizeRatio
  split
  · rename_i h1
    refine ⟨trivial, ?_⟩
    simp [Num.val, h1]
  · exact ⟨h, rfl⟩

theorem returnRatio_spec {q : Mpq} (h : q.den ≠ 0) :
    Yields (returnRatio (Mpq.canonicalize q)) ((q.num : ℚ) / (q.den : ℚ)) := by
  obtain ⟨r, h1, h2, h3⟩ := Mpq.canonicalize_spec h
  obtain ⟨h4, h5⟩ := canonicalizeRatio_spec h2
  refine ⟨canonicalizeRatio r, ?_, h4, by rw [h5, h3]⟩
  simp [returnRatio, h1]

theorem Mpq.Canonical.den_ne {q : Mpq} (h : q.Canonical) : q.den ≠ 0 := h.1.ne'

theorem Mpq.Canonical.den_neQ {q : Mpq} (h : q.Canonical) : (q.den : ℚ) ≠ 0 := by
  exact_mod_cast h.1.ne'

theorem Mpq.ofInteger_canonical (n : Int) : (Mpq.ofInteger n).Canonical := by
  simp [Mpq.ofInteger, Mpq.Canonical]

theorem returnAdd_spec {a b : Mpq} (ha : a.Canonical) (hb : b.Canonical) :
    Yields (returnRatio (Mpq.add a b)) ((a.num : ℚ) / a.den + (b.num : ℚ) / b.den) := by
  have := returnRatio_spec (q := ⟨a.num * b.den + b.num * a.den, a.den * b.den⟩)
    (mul_ne_zero ha.den_ne hb.den_ne)
  refine Eq.subst (motive := Yields _) ?_ this
  have := ha.den_neQ; have := hb.den_neQ
  dsimp only
  push_cast
  field_simp

theorem returnSub_spec {a b : Mpq} (ha : a.Canonical) (hb : b.Canonical) :
    Yields (returnRatio (Mpq.sub a b)) ((a.num : ℚ) / a.den - (b.num : ℚ) / b.den) := by
  have := returnRatio_spec (q := ⟨a.num * b.den - b.num * a.den, a.den * b.den⟩)
    (mul_ne_zero ha.den_ne hb.den_ne)
  refine Eq.subst (motive := Yields _) ?_ this
  have := ha.den_neQ; have := hb.den_neQ
  dsimp only
  push_cast
  field_simp

theorem returnMul_spec {a b : Mpq} (ha : a.Canonical) (hb : b.Canonical) :
    Yields (returnRatio (Mpq.mul a b)) (((a.num : ℚ) / a.den) * ((b.num : ℚ) / b.den)) := by
  have := returnRatio_spec (q := ⟨a.num * b.num, a.den * b.den⟩)
    (mul_ne_zero ha.den_ne hb.den_ne)
  refine Eq.subst (motive := Yields _) ?_ this
  have := ha.den_neQ; have := hb.den_neQ
  dsimp only
  push_cast
  field_simp

theorem returnDiv_spec {a b : Mpq} (ha : a.Canonical) (hb : b.Canonical) (h0 : b.num ≠ 0) :
    Yields (returnRatio (Mpq.div a b)) (((a.num : ℚ) / a.den) / ((b.num : ℚ) / b.den)) := by
  have := returnRatio_spec (q := ⟨a.num * b.den, a.den * b.num⟩)
    (mul_ne_zero ha.den_ne h0)
  refine Eq.subst (motive := Yields _) ?_ this
  have := ha.den_neQ; have := hb.den_neQ
  have : (b.num : ℚ) ≠ 0 := by exact_mod_cast h0
  dsimp only
  push_cast
  field_simp

theorem returnMake_spec {n d : Int} (h0 : d ≠ 0) :
    Yields (returnRatio (Mpq.make n d)) ((n : ℚ) / d) :=
  returnRatio_spec (q := ⟨n, d⟩) h0

theorem ofInteger_div (n : Int) : ((Mpq.ofInteger n).num : ℚ) / ((Mpq.ofInteger n).den : ℚ) = n := by
  simp [Mpq.ofInteger]

/-! ### Addition, subtraction, multiplication, division -/

/-- Integers give integers. -/
theorem add_int {x y : Num} {a b : Int} (hx : IsInt x a) (hy : IsInt y b) :
    Gives (add x y) (a + b) := by
  rcases hx with ⟨rfl, h1, h2⟩ | rfl <;> rcases hy with ⟨rfl, h3, h4⟩ | rfl
  · simp only [add, widen_fits (i := a + b) (by omega) (by omega), bind_value, pure_eq]
    exact .canonicalize _
  all_goals exact .large _

theorem sub_int {x y : Num} {a b : Int} (hx : IsInt x a) (hy : IsInt y b) :
    Gives (sub x y) (a - b) := by
  rcases hx with ⟨rfl, h1, h2⟩ | rfl <;> rcases hy with ⟨rfl, h3, h4⟩ | rfl
  · simp only [sub, widen_fits (i := a - b) (by omega) (by omega), bind_value, pure_eq]
    exact .canonicalize _
  all_goals exact .large _

theorem mul_bounds {a b : Int} (h1 : -2 ^ 31 ≤ a) (h2 : a < 2 ^ 31) (h3 : -2 ^ 31 ≤ b)
    (h4 : b < 2 ^ 31) : -2 ^ 63 ≤ a * b ∧ a * b < 2 ^ 63 := by
  constructor <;> nlinarith

theorem mul_int {x y : Num} {a b : Int} (hx : IsInt x a) (hy : IsInt y b) :
    Gives (mul x y) (a * b) := by
  rcases hx with ⟨rfl, h1, h2⟩ | rfl <;> rcases hy with ⟨rfl, h3, h4⟩ | rfl
  · have := mul_bounds h1 h2 h3 h4
    simp only [mul, widen_fits (i := a * b) this.1 this.2, bind_value, pure_eq]
    exact .canonicalize _
  all_goals exact .large _

/-- A valid object is an integer object or a ratio. -/
theorem valid_cases {x : Num} (h : x.Valid) :
    (∃ z, IsInt x z ∧ x.val = z) ∨ ∃ q, x = .ratio q ∧ q.Canonical := by
  cases x with
  | small i => exact Or.inl ⟨i, .small h.1 h.2, rfl⟩
  | large z => exact Or.inl ⟨z, .large z, rfl⟩
  | ratio q => exact Or.inr ⟨q, rfl, h⟩

theorem add_val {x y : Num} (hx : x.Valid) (hy : y.Valid) : Yields (add x y) (x.val + y.val) := by
  cases x with
  | ratio p =>
    cases y with
    | ratio q => exact returnAdd_spec hx hy
    | small b =>
      have := returnAdd_spec hx (Mpq.ofInteger_canonical b)
      rwa [ofInteger_div] at this
    | large b =>
      have := returnAdd_spec hx (Mpq.ofInteger_canonical b)
      rwa [ofInteger_div] at this
  | small a =>
    cases y with
    | ratio q =>
      have := returnAdd_spec (Mpq.ofInteger_canonical a) hy
      rwa [ofInteger_div] at this
    | small b =>
      have := (add_int (.small hx.1 hx.2) (.small hy.1 hy.2)).yields
      push_cast at this
      exact this
    | large b =>
      have := (add_int (.small hx.1 hx.2) (.large b)).yields
      push_cast at this
      exact this
  | large a =>
    cases y with
    | ratio q =>
      have := returnAdd_spec (Mpq.ofInteger_canonical a) hy
      rwa [ofInteger_div] at this
    | small b =>
      have := (add_int (.large a) (.small hy.1 hy.2)).yields
      push_cast at this
      exact this
    | large b =>
      have := (add_int (.large a) (.large b)).yields
      push_cast at this
      exact this

theorem sub_val {x y : Num} (hx : x.Valid) (hy : y.Valid) : Yields (sub x y) (x.val - y.val) := by
  cases x with
  | ratio p =>
    cases y with
    | ratio q => exact returnSub_spec hx hy
    | small b =>
      have := returnSub_spec hx (Mpq.ofInteger_canonical b)
      rwa [ofInteger_div] at this
    | large b =>
      have := returnSub_spec hx (Mpq.ofInteger_canonical b)
      rwa [ofInteger_div] at this
  | small a =>
    cases y with
    | ratio q =>
      have := returnSub_spec (Mpq.ofInteger_canonical a) hy
      rwa [ofInteger_div] at this
    | small b =>
      have := (sub_int (.small hx.1 hx.2) (.small hy.1 hy.2)).yields
      push_cast at this
      exact this
    | large b =>
      have := (sub_int (.small hx.1 hx.2) (.large b)).yields
      push_cast at this
      exact this
  | large a =>
    cases y with
    | ratio q =>
      have := returnSub_spec (Mpq.ofInteger_canonical a) hy
      rwa [ofInteger_div] at this
    | small b =>
      have := (sub_int (.large a) (.small hy.1 hy.2)).yields
      push_cast at this
      exact this
    | large b =>
      have := (sub_int (.large a) (.large b)).yields
      push_cast at this
      exact this

theorem mul_val {x y : Num} (hx : x.Valid) (hy : y.Valid) : Yields (mul x y) (x.val * y.val) := by
  cases x with
  | ratio p =>
    cases y with
    | ratio q => exact returnMul_spec hx hy
    | small b =>
      have := returnMul_spec hx (Mpq.ofInteger_canonical b)
      rwa [ofInteger_div] at this
    | large b =>
      have := returnMul_spec hx (Mpq.ofInteger_canonical b)
      rwa [ofInteger_div] at this
  | small a =>
    cases y with
    | ratio q =>
      have := returnMul_spec (Mpq.ofInteger_canonical a) hy
      rwa [ofInteger_div] at this
    | small b =>
      have := (mul_int (.small hx.1 hx.2) (.small hy.1 hy.2)).yields
      push_cast at this
      exact this
    | large b =>
      have := (mul_int (.small hx.1 hx.2) (.large b)).yields
      push_cast at this
      exact this
  | large a =>
    cases y with
    | ratio q =>
      have := returnMul_spec (Mpq.ofInteger_canonical a) hy
      rwa [ofInteger_div] at this
    | small b =>
      have := (mul_int (.large a) (.small hy.1 hy.2)).yields
      push_cast at this
      exact this
    | large b =>
      have := (mul_int (.large a) (.large b)).yields
      push_cast at this
      exact this

theorem ratio_val_ne {q : Mpq} (h : (Num.ratio q).val ≠ 0) : q.num ≠ 0 := by
  intro h0
  apply h
  simp [Num.val, h0]

theorem int_ne {b : Int} (h : (b : ℚ) ≠ 0) : b ≠ 0 := by exact_mod_cast h

theorem div_val {x y : Num} (hx : x.Valid) (hy : y.Valid) (h0 : y.val ≠ 0) :
    Yields (div x y) (x.val / y.val) := by
  cases x with
  | ratio p =>
    cases y with
    | ratio q => exact returnDiv_spec hx hy (ratio_val_ne h0)
    | small b =>
      have := returnDiv_spec hx (Mpq.ofInteger_canonical b) (int_ne h0)
      rwa [ofInteger_div] at this
    | large b =>
      have := returnDiv_spec hx (Mpq.ofInteger_canonical b) (int_ne h0)
      rwa [ofInteger_div] at this
  | small a =>
    cases y with
    | ratio q =>
      have := returnDiv_spec (Mpq.ofInteger_canonical a) hy (ratio_val_ne h0)
      rwa [ofInteger_div] at this
    | small b =>
      obtain ⟨r, h1, h2, h3⟩ := Mpq.canonicalize_spec (q := ⟨a, b⟩) (int_ne h0)
      exact ⟨.ratio r, by simp [div, Mpq.make, h1], h2, h3⟩
    | large b => exact returnMake_spec (int_ne h0)
  | large a =>
    cases y with
    | ratio q =>
      have := returnDiv_spec (Mpq.ofInteger_canonical a) hy (ratio_val_ne h0)
      rwa [ofInteger_div] at this
    | small b => exact returnMake_spec (int_ne h0)
    | large b => exact returnMake_spec (int_ne h0)

end Meevax.Number
