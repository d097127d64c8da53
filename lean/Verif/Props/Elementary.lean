import Verif.Spec.Elementary
import Verif.Props.Constants
import Verif.Props.Single
import Verif.Lemmas.Flonum
import Mathlib.Analysis.SpecialFunctions.Trigonometric.Complex
import Mathlib.Analysis.SpecialFunctions.Complex.Log
import Mathlib.Analysis.SpecialFunctions.Gamma.Basic
import Mathlib.Analysis.SpecialFunctions.Gaussian.GaussianIntegral

/-
C107: elementary functions of real numbers.
-/

namespace Meevax.Elementary

open Meevax.Number (Flo Num Outcome Rep Mpq castFixnum castRatio Truncates)
open Meevax.Single (Wide)

/-! ### The argument of the C function -/

theorem rep_single {v : ℚ} (h : Single.Rep v) : Rep v := by
  obtain ⟨m, e, h1, h2, h3, rfl⟩ := h
  exact ⟨m, e, by omega, by omega, by omega, rfl⟩

theorem finite_of_is {d : Flo} {v : ℚ} (h : d.Is v) (hd : d.Valid) (hv : v ≠ 0) :
    d = .finite (decide (v < 0)) |v| := by
  obtain ⟨s, m, rfl, rfl⟩ := h
  have hm : 0 ≤ m := Rep.nonneg hd
  cases s with
  | false =>
    simp only [Bool.false_eq_true, if_false] at hv ⊢
    rw [abs_of_nonneg hm, decide_eq_false (not_lt.2 hm)]
  | true =>
    simp only [if_true] at hv ⊢
    have : 0 < m := lt_of_le_of_ne hm (by rintro rfl; simp at hv)
    rw [abs_neg, abs_of_nonneg hm, decide_eq_true (by linarith)]

theorem single_valid {d : Flo} (h : Single.Valid d) : d.Valid := by
  cases d with
  | finite s m => exact rep_single h
  | inf s => trivial
  | nan => trivial

theorem toDouble_eq {x : Wide} {v : ℚ} (h : Stands x v) (hr : Rep |v|) (h0 : v ≠ 0 ∨ Exact x) :
    toDouble x = .finite (decide (v < 0)) |v| := by
  match x, h with
  | .real (.flo d), h =>
    refine finite_of_is h.2 h.1 (h0.resolve_right ?_)
    rintro ⟨n, e⟩; cases e
  | .single d, h =>
    refine finite_of_is h.2 (single_valid h.1) (h0.resolve_right ?_)
    rintro ⟨n, e⟩; cases e
  | .real (.exact n), h =>
    obtain ⟨hn, rfl⟩ := h
    by_cases hz : n.val = 0
    · show n.cast = _
      rw [hz]
      cases n with
      | small i =>
        have : i = 0 := by simpa [Num.val] using hz
        subst this
        simp [Num.cast, castFixnum, Number.roundEven]
      | large z =>
        have : z = 0 := by simpa [Num.val] using hz
        subst this
        decide +kernel
      | ratio q =>
        have hq : q.val = 0 := hz
        show castRatio q = _
        have : Number.mpqGetD q = some 0 := by
          rw [Number.mpqGetD]
          simp [hq]
        rw [castRatio, this]
    · obtain ⟨s, t, he, ht, hs⟩ := (Number.Num.cast_spec hn).1 hr.lt
      have : t = |n.val| := ht.unique (Truncates.self hr)
      subst this
      refine finite_of_is ⟨s, _, he, ?_⟩ (by rw [toDouble, he]; exact hr) hz
      rw [hs]
      split
      · rename_i h; rw [abs_of_neg h, neg_neg]
      · rename_i h; rw [abs_of_nonneg (not_lt.1 h)]

/-! ### C107 -/

/-- **C107**: an elementary function of a real number is the C function of the value, if a flonum can have the
value. It is the same flonum for every representation of the number: fixnum, large integer, ratio, flonum or
single precision. A zero must be exact for the sign of the zero to be known. -/
theorem C107_value (f : Flo → Flo) {x : Wide} {v : ℚ} (h : Stands x v) (hr : Rep |v|) (h0 : v ≠ 0 ∨ Exact x) :
    real1 f x = .value (.real (.flo (f (.finite (decide (v < 0)) |v|)))) := by
  rw [real1, toDouble_eq h hr h0]

/-- **C107**: two numbers of the same value have the same image, and `inexact` may be applied first to any
number. -/
theorem C107_representation (f : Flo → Flo) :
    (∀ {x y : Wide} {v : ℚ}, Stands x v → Stands y v → Rep |v| → v ≠ 0 → real1 f x = real1 f y) ∧
    ∀ x : Wide, real1 f x.inexact = real1 f x := by
  refine ⟨fun hx hy hr h0 => ?_, fun x => ?_⟩
  · rw [C107_value f hx hr (Or.inl h0), C107_value f hy hr (Or.inl h0)]
  · match x with
    | .real (.exact n) => rfl
    | .real (.flo d) => rfl
    | .single d => rfl

theorem cast_tiny {n : Num} (h : |n.val| < 1 / 2 ^ 1074) : n.cast = .finite false 0 := by
  have hone : (1 : ℚ) / 2 ^ 1074 ≤ 1 := by
    rw [div_le_one (by positivity)]
    exact one_le_pow₀ (by norm_num)
  have int0 : ∀ i : Int, |(i : ℚ)| < 1 / 2 ^ 1074 → i = 0 := by
    intro i hi
    have : |(i : ℚ)| < 1 := lt_of_lt_of_le hi hone
    rw [← Int.cast_abs] at this
    have : |i| < 1 := by exact_mod_cast this
    exact Int.abs_lt_one_iff.1 this
  have rat : ∀ q : Mpq, |q.val| < 1 / 2 ^ 1074 → castRatio q = .finite false 0 := by
    intro q hq
    obtain ⟨s, t, he, ht, -⟩ := (Number.castRatio_spec q).1 (lt_of_lt_of_le (lt_of_lt_of_le hq hone)
      (one_le_pow₀ (by norm_num)))
    have h0 : t = 0 := by
      by_contra hne
      have := Number.Rep.least_le ht.1 (lt_of_le_of_ne ht.1.nonneg (Ne.symm hne))
      exact absurd (lt_of_le_of_lt (le_trans this ht.2.1) hq) (lt_irrefl _)
    subst h0
    rw [castRatio] at he ⊢
    cases hm : Number.mpqGetD q with
    | none => rw [hm] at he; cases he
    | some w =>
      rw [hm] at he
      simp only [Flo.finite.injEq] at he ⊢
      have hw : w = 0 := abs_eq_zero.1 he.2
      rw [hw]
      simp
  cases n with
  | small i =>
    have : i = 0 := int0 i h
    subst this
    simp [Num.cast, castFixnum, Number.roundEven]
  | large z =>
    have : z = 0 := int0 z h
    subst this
    decide +kernel
  | ratio q => exact rat q h

/-- **C107** for exact numbers that no flonum represents: the C function is applied to the value truncated
toward zero, or to an infinity, or to a positive zero. -/
theorem C107_exact_partial (f : Flo → Flo) {n : Num} (hn : n.Valid) :
    (1 / 2 ^ 1074 ≤ |n.val| → |n.val| < 2 ^ 1024 → ∃ t, 0 < t ∧ Truncates |n.val| t ∧
      real1 f (.real (.exact n)) = .value (.real (.flo (f (.finite (decide (n.val < 0)) t))))) ∧
    (2 ^ 1024 ≤ |n.val| →
      real1 f (.real (.exact n)) = .value (.real (.flo (f (.inf (decide (n.val < 0))))))) ∧
    (|n.val| < 1 / 2 ^ 1074 → real1 f (.real (.exact n)) = .value (.real (.flo (f (.finite false 0))))) := by
  obtain ⟨h1, h2⟩ := Number.Num.cast_spec hn
  refine ⟨fun h0 h => ?_, fun h => ?_, fun h => ?_⟩
  · obtain ⟨s, t, he, ht, hs⟩ := h1 h
    have hpos : (0 : ℚ) < t := lt_of_lt_of_le (by positivity) (ht.2.2 _ Number.least_rep h0)
    refine ⟨t, hpos, ht, ?_⟩
    have : n.cast = .finite (decide (n.val < 0)) t := by
      rw [he]
      congr 1
      by_cases hn : n.val < 0
      · rw [if_pos hn] at hs
        cases s
        · simp only [Bool.false_eq_true, if_false] at hs; linarith
        · simp [hn]
      · rw [if_neg hn] at hs
        cases s
        · simp [hn]
        · simp only [if_true] at hs; linarith
    rw [real1, toDouble, this]
  · rw [real1, toDouble, h2 h]
  · rw [real1, toDouble, cast_tiny h]

theorem toDouble_inexact (x : Wide) : toDouble x.inexact = toDouble x := by
  match x with
  | .real (.exact n) => rfl
  | .real (.flo d) => rfl
  | .single d => rfl

theorem equals_zero (d : Flo) :
    Wide.equals (.real (.flo d)) (.real (.exact (.small 0))) = .value (decide (∃ s, d = .finite s 0)) := by
  have h0 : castFixnum 0 = .finite false 0 := by simp [castFixnum, Number.roundEven]
  show Outcome.value (d.eq (castFixnum 0)) = _
  rw [h0]
  cases d with
  | finite s m => cases s <;> by_cases h : m = 0 <;> simp [Flo.eq, Number.signed, h]
  | inf s => simp [Flo.eq]
  | nan => simp [Flo.eq]

/-- **C107** for complex arguments: the result is what the complex function of the C library gives for the
values of the parts, whatever their representations. It is a real number if and only if its imaginary part is
a zero; small imaginary parts, infinities and NaN are kept. -/
theorem C107_complex (f : Flo → Flo) (F : Flo × Flo → Flo × Flo) {x y : Wide} {v w : ℚ} {a b : Flo}
    (hx : Stands x v) (hy : Stands y w) (hv : Rep |v|) (hw : Rep |w|) (hv0 : v ≠ 0 ∨ Exact x)
    (hw0 : w ≠ 0 ∨ Exact y) (hF : F (.finite (decide (v < 0)) |v|, .finite (decide (w < 0)) |w|) = (a, b)) :
    (b.Is 0 → complex1 f F (.rect x y) = .value (.real (.real (.flo a)))) ∧
    (¬ b.Is 0 → complex1 f F (.rect x y) = .value (.rect (.real (.flo a)) (.real (.flo b)))) := by
  have key : complex1 f F (.rect x y) = (Wide.equals (.real (.flo b)) (.real (.exact (.small 0)))).bind
      (fun t => if t then .value (.real (.real (.flo a))) else .value (.rect (.real (.flo a)) (.real (.flo b)))) := by
    rw [complex1, toDouble_inexact, toDouble_inexact, toDouble_eq hx hv hv0, toDouble_eq hy hw hw0, hF]
    rfl
  have hz : b.Is 0 ↔ ∃ s, b = .finite s 0 := by
    constructor
    · rintro ⟨s, m, rfl, h⟩
      refine ⟨s, ?_⟩
      cases s <;> simp at h <;> rw [h]
    · rintro ⟨s, rfl⟩
      exact ⟨s, 0, rfl, by simp⟩
  rw [key, equals_zero]
  refine ⟨fun h => ?_, fun h => ?_⟩
  · rw [decide_eq_true (hz.1 h)]; rfl
  · rw [decide_eq_false (fun h' => h (hz.2 h'))]; rfl

/-- **C107**: a real number is not treated like the complex number with the imaginary part zero. With a C
library that follows ISO C, `(log -1)` is NaN and `(log (make-rectangular -1 0))` is the logarithm. -/
theorem C107_real_complex_fails {f : Flo → Flo} {F : Flo × Flo → Flo × Flo} {p : ℚ} (hp : 0 < p)
    (hf : f (.finite true 1) = .nan) (hF : F (.finite true 1, .finite false 0) = (.finite false 0, .finite false p)) :
    complex1 f F (.real (.real (.exact (.small (-1))))) = .value (.real (.real (.flo .nan))) ∧
    complex1 f F (.rect (.real (.exact (.small (-1)))) (.real (.exact (.small 0)))) =
      .value (.rect (.real (.flo (.finite false 0))) (.real (.flo (.finite false p)))) := by
  have s1 : Stands (.real (.exact (.small (-1)))) (-1) := ⟨by simp [Num.Valid], by simp [Num.val]⟩
  have s0 : Stands (.real (.exact (.small 0))) 0 := ⟨by simp [Num.Valid], by simp [Num.val]⟩
  have r1 : Rep |(-1 : ℚ)| := ⟨1, 0, by norm_num, by norm_num, by norm_num, by norm_num⟩
  have r0 : Rep |(0 : ℚ)| := by rw [abs_zero]; exact Rep.zero
  refine ⟨?_, ?_⟩
  · have := C107_value f s1 r1 (by norm_num)
    rw [complex1, this, show Flo.finite (decide ((-1 : ℚ) < 0)) |(-1 : ℚ)| = .finite true 1 by norm_num, hf]
    rfl
  · refine (C107_complex f F s1 s0 r1 r0 (by norm_num) (Or.inr ⟨_, rfl⟩) (a := .finite false 0)
      (b := .finite false p) ?_).2 ?_
    · rw [show Flo.finite (decide ((-1 : ℚ) < 0)) |(-1 : ℚ)| = .finite true 1 by norm_num,
        show Flo.finite (decide ((0 : ℚ) < 0)) |(0 : ℚ)| = .finite false 0 by norm_num, hF]
    · rintro ⟨s, m, h, h'⟩
      cases h
      simp at h'
      linarith

/-- A C library as `C107_real_complex_fails` asks for, and a result with a small imaginary part, which is kept. -/
example : (∃ (f : Flo → Flo) (F : Flo × Flo → Flo × Flo), f (.finite true 1) = .nan ∧
      F (.finite true 1, .finite false 0) = (.finite false 0, .finite false (7074237752028440 / 2 ^ 51))) ∧
    ¬ (Flo.finite false (1 / 2 ^ 60)).Is 0 := by
  refine ⟨⟨fun _ => .nan, fun _ => (.finite false 0, .finite false (7074237752028440 / 2 ^ 51)), rfl, rfl⟩, ?_⟩
  rintro ⟨s, m, h, h'⟩
  cases h
  norm_num at h'

/-- **C107**: `atan` of two arguments is `atan2` of the values, the first argument first; of no or more than
two arguments it is an error, and so is `log`. -/
theorem C107_atan (f : Flo → Flo) (g : Flo → Flo → Flo) :
    (∀ {x y : Wide} {v w : ℚ}, Stands y v → Stands x w → Rep |v| → Rep |w| → v ≠ 0 ∨ Exact y →
      w ≠ 0 ∨ Exact x → atan f g [y, x] =
        .value (.real (.flo (g (.finite (decide (v < 0)) |v|) (.finite (decide (w < 0)) |w|))))) ∧
    (∀ {x : Wide} {v : ℚ}, Stands x v → Rep |v| → v ≠ 0 ∨ Exact x → atan f g [x] =
      .value (.real (.flo (f (.finite (decide (v < 0)) |v|))))) ∧
    ∀ xs : List Wide, xs.length ≠ 1 → xs.length ≠ 2 → atan f g xs = .raised ∧ log f xs = .raised := by
  refine ⟨fun hy hx rv rw' h1 h2 => ?_, fun hx hr h0 => C107_value f hx hr h0, fun xs h1 h2 => ?_⟩
  · rw [atan, real2, toDouble_eq hy rv h1, toDouble_eq hx rw' h2]
  · match xs with
    | [] => exact ⟨rfl, rfl⟩
    | [_] => exact absurd rfl h1
    | [_, _] => exact absurd rfl h2
    | _ :: _ :: _ :: _ => exact ⟨rfl, rfl⟩

/-- **C107**: a logarithm to a base is the quotient of the two logarithms, rounded once. -/
theorem C107_log (f : Flo → Flo) {x b : Wide} {v w p q : ℚ} (hx : Stands x v) (hb : Stands b w) (hv : Rep |v|)
    (hw : Rep |w|) (hv0 : v ≠ 0) (hw0 : w ≠ 0) (hp : (f (.finite (decide (v < 0)) |v|)).Is p)
    (hq : (f (.finite (decide (w < 0)) |w|)).Is q) (hq0 : q ≠ 0) :
    ∃ d : Flo, log f [x, b] = .value (.real (.flo d)) ∧ fllogBase f b x = .value (.real (.flo d)) ∧
      d.Rounds (p / q) := by
  refine ⟨(f (.finite (decide (v < 0)) |v|)).div (f (.finite (decide (w < 0)) |w|)), ?_, ?_, ?_⟩
  · rw [log, C107_value f hx hv (Or.inl hv0), C107_value f hb hw (Or.inl hw0)]; rfl
  · rw [fllogBase, log, C107_value f hx hv (Or.inl hv0), C107_value f hb hw (Or.inl hw0)]; rfl
  · obtain ⟨s, m, e, rfl⟩ := hp
    obtain ⟨t, n, e', rfl⟩ := hq
    rw [e, e']
    have : n ≠ 0 := by
      rintro rfl
      exact hq0 (by simp)
    simp only [Number.Flo.div, if_neg this]
    exact Number.roundEven_spec _ _

/-- **C107**: `fllog2` and `fllog10` are the logarithms to the bases two and ten, whatever object stands for the
base. -/
theorem C107_log_base (f : Flo → Flo) (x : Wide) {b : Wide} :
    (Stands b 2 → fllog2 f x = log f [x, b]) ∧ (Stands b 10 → fllog10 f x = log f [x, b]) := by
  have r2 : Rep |(2 : ℚ)| := ⟨1, 1, by norm_num, by norm_num, by norm_num, by norm_num⟩
  have r10 : Rep |(10 : ℚ)| := ⟨5, 1, by norm_num, by norm_num, by norm_num, by norm_num⟩
  refine ⟨fun h => ?_, fun h => ?_⟩
  · have h2 : Stands (.real (.exact (.small 2))) 2 := ⟨by simp [Num.Valid], by simp [Num.val]⟩
    rw [fllog2, log, log, C107_value f h r2 (by norm_num), C107_value f h2 r2 (by norm_num)]
  · have h10 : Stands (.real (.exact (.small 10))) 10 := ⟨by simp [Num.Valid], by simp [Num.val]⟩
    rw [fllog10, log, log, C107_value f h r10 (by norm_num), C107_value f h10 r10 (by norm_num)]

theorem mul_flo (r : Wide) (d : Flo) : Wide.mul r (.real (.flo d)) = .value (.real (.flo ((toDouble r).mul d))) := by
  match r with
  | .real (.exact n) => rfl
  | .real (.flo e) => rfl
  | .single e => rfl

/-- **C107**: the parts of the complex number that `make-polar` gives are the magnitude times the cosine and
the sine that the C library gives for the angle, each rounded once. -/
theorem C107_polar (c s : Flo → Flo) {r a : Wide} {v w p q : ℚ} (hr : Stands r v) (ha : Stands a w) (hv : Rep |v|)
    (hw : Rep |w|) (hv0 : v ≠ 0 ∨ Exact r) (hw0 : w ≠ 0 ∨ Exact a)
    (hp : (c (.finite (decide (w < 0)) |w|)).Is p) (hq : (s (.finite (decide (w < 0)) |w|)).Is q) :
    ∃ x y : Flo, makePolar c s r a = .value (.real (.flo x), .real (.flo y)) ∧ x.Rounds (v * p) ∧
      y.Rounds (v * q) := by
  have key : ∀ {d : Flo} {u : ℚ}, d.Is u → (Flo.mul (.finite (decide (v < 0)) |v|) d).Rounds (v * u) := by
    rintro d u ⟨t, m, rfl, rfl⟩
    have e : v = if decide (v < 0) then -|v| else |v| := by
      by_cases h : v < 0
      · simp [h, abs_of_neg h]
      · simp [h, abs_of_nonneg (not_lt.1 h)]
    have := Number.roundEven_spec (decide (v < 0) != t)
      ((if decide (v < 0) then -|v| else |v|) * (if t then -m else m))
    rw [← e] at this
    refine Eq.subst (motive := fun z => Flo.Rounds z _) ?_ this
    rw [Flo.mul, Number.signed, Number.signed, ← e]
  refine ⟨_, _, ?_, key hp, key hq⟩
  rw [makePolar, C107_value c ha hw hw0, C107_value s ha hw hw0]
  show (Wide.mul r (.real (.flo _))).bind (fun x => (Wide.mul r (.real (.flo _))).bind
    (fun y => Outcome.value (x, y))) = _
  rw [mul_flo, mul_flo, toDouble_eq hr hv hv0]
  rfl

/-- An integer literal that is a fixnum (include/meevax/memory/nan_boxing_pointer.hpp L55). -/
def int (i : Int) : Wide := .real (.exact (.small i))

theorem stands_int {i : Int} (h : -2 ^ 31 ≤ i ∧ i < 2 ^ 31) : Stands (int i) i := ⟨h, rfl⟩

theorem log_int {f : Flo → Flo} (hf : LogRounds f) {n m k : ℕ} (h1 : 1 < n) (h2 : n < 2 ^ 31) (hm : 2 ^ 52 < m)
    (hm' : m ≤ 2 ^ 53) (hk : k ≤ 1074) (hl : (2 * m - 1) / 2 ^ (k + 1) < Real.log n)
    (hu : Real.log n < (2 * m + 1) / 2 ^ (k + 1)) :
    real1 f (int n) = .value (.real (.flo (.finite false (m / 2 ^ k)))) := by
  have := hf n (Constants.rep_nat (by omega)) (by exact_mod_cast h1)
  push_cast at this
  have e : toDouble (int n) = .finite false n := Constants.cast_nat (by omega) h2
  rw [real1, e, Constants.approximates_eq hm hm' hk hl hu this]

/-- **C107** is false of logarithms to a base: however well the C library rounds, `(log 1000 10)` and
`(fllog10 1000.0)` are below three and `(log 536870912 2)`, of the 29th power of two, is above 29. -/
theorem C107_log_fails {f : Flo → Flo} (hf : LogRounds f) :
    log f [int 1000, int 10] = .value (.real (.flo (.finite false (3 - 1 / 2 ^ 51)))) ∧
    fllog10 f (.real (.flo (.finite false 1000))) = .value (.real (.flo (.finite false (3 - 1 / 2 ^ 51)))) ∧
    log f [int (2 ^ 29), int 2] = .value (.real (.flo (.finite false (29 + 1 / 2 ^ 48)))) ∧
    fllog2 f (.real (.flo (.finite false (2 ^ 29)))) =
      .value (.real (.flo (.finite false (29 + 1 / 2 ^ 48)))) ∧
    Real.log 1000 / Real.log 10 = 3 ∧ Real.log (2 ^ 29) / Real.log 2 = 29 := by
  obtain ⟨a1, a2⟩ := Constants.log10_bounds
  obtain ⟨b1, b2⟩ := Constants.log2_bounds
  norm_num at a1 a2 b1 b2
  have e1 : Real.log 1000 = 3 * Real.log 10 := by
    rw [show (1000 : ℝ) = 10 ^ 3 by norm_num, Real.log_pow]; norm_num
  have e2 : Real.log 536870912 = 29 * Real.log 2 := by
    rw [show (536870912 : ℝ) = 2 ^ 29 by norm_num, Real.log_pow]; norm_num
  have l1000 := log_int hf (n := 1000) (m := 7777441025097632) (k := 50) (by norm_num) (by norm_num) (by norm_num)
    (by norm_num) (by norm_num) (by push_cast; rw [e1]; norm_num; linarith) (by push_cast; rw [e1]; norm_num; linarith)
  have l10 := log_int hf (n := 10) (m := 5184960683398422) (k := 51) (by norm_num) (by norm_num) (by norm_num)
    (by norm_num) (by norm_num) (by norm_num; linarith) (by norm_num; linarith)
  have l29 := log_int hf (n := 536870912) (m := 5658004008649857) (k := 48) (by norm_num) (by norm_num)
    (by norm_num) (by norm_num) (by norm_num) (by push_cast; rw [e2]; norm_num; linarith)
    (by push_cast; rw [e2]; norm_num; linarith)
  have l2 := log_int hf (n := 2) (m := 6243314768165359) (k := 53) (by norm_num) (by norm_num) (by norm_num)
    (by norm_num) (by norm_num) (by norm_num; linarith) (by norm_num; linarith)
  have d1 : Flo.div (.finite false ((7777441025097632 : ℕ) / 2 ^ 50)) (.finite false ((5184960683398422 : ℕ) / 2 ^ 51)) =
      .finite false (3 - 1 / 2 ^ 51) := by
    rw [Constants.div_close (m := 6755399441055743) (k := 51) (by norm_num) (by norm_num) (by norm_num)] <;> norm_num
  have d2 : Flo.div (.finite false ((5658004008649857 : ℕ) / 2 ^ 48)) (.finite false ((6243314768165359 : ℕ) / 2 ^ 53)) =
      .finite false (29 + 1 / 2 ^ 48) := by
    rw [Constants.div_close (m := 8162774324609025) (k := 48) (by norm_num) (by norm_num) (by norm_num)] <;> norm_num
  have q1 : toDouble (.real (.flo (.finite false 1000))) = toDouble (int (1000 : ℕ)) := by
    show _ = castFixnum (1000 : ℕ)
    rw [Constants.cast_nat (by norm_num) (by norm_num)]; norm_num [toDouble]
  have q2 : toDouble (.real (.flo (.finite false (2 ^ 29)))) = toDouble (int (536870912 : ℕ)) := by
    show _ = castFixnum (536870912 : ℕ)
    rw [Constants.cast_nat (by norm_num) (by norm_num)]; norm_num [toDouble]
  have r1 : (do Wide.div (← real1 f (int (1000 : ℕ))) (← real1 f (int (10 : ℕ)))) =
      Outcome.value (Wide.real (.flo (.finite false (3 - 1 / 2 ^ 51)))) := by
    rw [l1000, l10, ← d1]; rfl
  have r2 : (do Wide.div (← real1 f (int (536870912 : ℕ))) (← real1 f (int (2 : ℕ)))) =
      Outcome.value (Wide.real (.flo (.finite false (29 + 1 / 2 ^ 48)))) := by
    rw [l29, l2, ← d2]; rfl
  refine ⟨r1, ?_, ?_, ?_, ?_, ?_⟩
  · rw [← r1, real1, ← q1]; rfl
  · rw [← r2]; norm_num [log]
  · rw [← r2, real1, ← q2]; rfl
  · rw [e1]; field_simp
  · rw [show (2 : ℝ) ^ 29 = 536870912 by norm_num, e2]; field_simp

/-- **C107** is false of numbers whose image is not real: where the C library answers NaN, as ISO C asks of a
real logarithm of a negative number and of a real arc sine or arc cosine of a number beyond one, so do `log`,
`asin` and `acos`. The complex number that R7RS asks for exists. -/
theorem C107_complex_fails {f : Flo → Flo} :
    ((∀ m, 0 < m → f (.finite true m) = .nan) → ∀ {x : Wide} {v : ℚ}, Stands x v → Rep |v| → v < 0 →
      log f [x] = .value (.real (.flo .nan)) ∧ ∃ w : ℂ, Complex.exp w = (v : ℂ)) ∧
    ((∀ s m, 1 < m → f (.finite s m) = .nan) → ∀ {x : Wide} {v : ℚ}, Stands x v → Rep |v| → 1 < |v| →
      real1 f x = .value (.real (.flo .nan)) ∧ (∃ w : ℂ, Complex.sin w = (v : ℂ)) ∧
        ∃ w : ℂ, Complex.cos w = (v : ℂ)) := by
  refine ⟨fun hf x v hx hr hv => ⟨?_, Complex.log v, Complex.exp_log (by exact_mod_cast hv.ne)⟩,
    fun hf x v hx hr hv => ⟨?_, Complex.sin_surjective _, Complex.cos_surjective _⟩⟩
  · rw [log, C107_value f hx hr (Or.inl hv.ne), decide_eq_true hv, hf _ (abs_pos.2 hv.ne)]
  · rw [C107_value f hx hr (Or.inl (by rintro rfl; norm_num at hv)), hf _ _ hv]

/-- **C107** is false of `atan` of two arguments, the first of which is negative and too close to zero for a
flonum: the argument becomes a positive zero. With a C library that follows ISO C, where `atan2` of a positive
zero and a negative number is positive, the angle of a point below the negative axis is positive. -/
theorem C107_atan_fails (f : Flo → Flo) {g : Flo → Flo → Flo} {d : Flo}
    (hg : g (.finite false 0) (.finite true 1) = d) {n : Num} (h0 : n.val < 0) (h : |n.val| < 1 / 2 ^ 1074) :
    atan f g [.real (.exact n), int (-1)] = .value (.real (.flo d)) ∧
    Complex.arg (((-1 : ℝ) : ℂ) + ((n.val : ℝ) : ℂ) * Complex.I) < 0 := by
  refine ⟨?_, ?_⟩
  · have h1 : toDouble (int (-1)) = .finite true 1 := by
      have := toDouble_eq (x := int (-1)) (v := -1) ⟨by simp [Num.Valid], by simp [Num.val]⟩
        ⟨1, 0, by norm_num, by norm_num, by norm_num, by norm_num⟩ (by norm_num)
      rw [this]
      norm_num
    rw [atan, real2, h1, toDouble, cast_tiny h, hg]
  · rw [Complex.arg_neg_iff]
    simpa using h0

/-- A ratio as `C107_atan_fails` asks for. -/
example : ∃ q : Mpq, (Num.ratio q).Valid ∧ (Num.ratio q).val < 0 ∧ |(Num.ratio q).val| < 1 / 2 ^ 1074 := by
  have key : ∀ k : ℕ, 1074 < k → (Num.ratio ⟨-1, 2 ^ k⟩).Valid ∧ (Num.ratio ⟨-1, 2 ^ k⟩).val < 0 ∧
      |(Num.ratio ⟨-1, 2 ^ k⟩).val| < 1 / 2 ^ 1074 := by
    intro k hk
    have hv : (Num.ratio ⟨-1, 2 ^ k⟩).val = -(1 / 2 ^ k) := by
      simp only [Num.val]
      push_cast
      ring
    have hp : (0 : ℚ) < 1 / 2 ^ k := by positivity
    refine ⟨⟨by simp, by simp⟩, by rw [hv]; linarith, ?_⟩
    rw [hv, abs_neg, abs_of_pos hp]
    exact one_div_lt_one_div_of_lt (by positivity) (pow_lt_pow_right₀ (by norm_num) hk)
  exact ⟨_, key 1100 (by norm_num)⟩

/-! ### `flloggamma` -/

theorem positive_flo (s : Bool) {m : ℚ} :
    Wide.isPositive (.real (.flo (.finite s m))) = .value (decide (0 < if s then -m else m)) := by
  have : castFixnum 0 = .finite false 0 := by simp [castFixnum, Number.roundEven]
  show Outcome.value ((castFixnum 0).lt (.finite s m)) = _
  rw [this]
  cases s <;> simp [Flo.lt, Number.signed]

/-- **C107**: `flloggamma` gives the logarithm of the C library, and the sign of the gamma function if the C
library gives a finite value other than zero for it. -/
theorem C107_loggamma_partial (lg tg : Flo → Flo) {x : Wide} {v g : ℚ} (h : Stands x v) (hr : Rep |v|)
    (h0 : v ≠ 0) (hg : (tg (.finite (decide (v < 0)) |v|)).Is g) :
    ∃ s : Flo, flloggamma lg tg x = .value (.real (.flo (lg (.finite (decide (v < 0)) |v|))), .real (.flo s)) ∧
      (0 < g → s.Is 1) ∧ (g < 0 → s.Is (-1)) := by
  obtain ⟨t, m, e, rfl⟩ := hg
  refine ⟨.finite (!(decide (0 < if t then -m else m))) 1, ?_, fun h => ?_, fun h => ?_⟩
  · have hp := positive_flo t (m := m)
    rw [flloggamma, C107_value lg h hr (Or.inl h0), C107_value tg h hr (Or.inl h0), e]
    show Outcome.bind (Wide.isPositive (.real (.flo (.finite t m))))
      (fun p => Outcome.value ((_ : Wide), Wide.real (.flo (.finite (!p) 1)))) = _
    rw [hp]; rfl
  · exact ⟨_, _, rfl, by rw [decide_eq_true h]; rfl⟩
  · exact ⟨_, _, rfl, by rw [decide_eq_false h.not_gt]; rfl⟩

/-- The sign of the gamma function half way between two integers. -/
theorem gamma_half (n : ℕ) : 0 < (-1) ^ n * Real.Gamma (1 / 2 - n) := by
  induction n with
  | zero => simpa using Real.Gamma_pos_of_pos (by norm_num : (0 : ℝ) < 1 / 2)
  | succ n ih =>
    have hn : (0 : ℝ) ≤ n := Nat.cast_nonneg n
    have h := Real.Gamma_add_one (s := 1 / 2 - (n + 1 : ℕ)) (by push_cast; intro h; linarith)
    rw [show (1 / 2 - ((n + 1 : ℕ) : ℝ)) + 1 = 1 / 2 - n by push_cast; ring] at h
    rw [h] at ih
    have e : (-1) ^ n * ((1 / 2 - ((n + 1 : ℕ) : ℝ)) * Real.Gamma (1 / 2 - (n + 1 : ℕ))) =
        (n + 1 / 2) * ((-1) ^ (n + 1) * Real.Gamma (1 / 2 - (n + 1 : ℕ))) := by
      push_cast; ring
    rw [e] at ih
    exact (pos_iff_pos_of_mul_pos ih).1 (by positivity)

theorem gamma_small (n : ℕ) : |Real.Gamma (1 / 2 - n)| * (n - 1).factorial ≤ 4 := by
  have hpi : √Real.pi ≤ 2 := by
    rw [Real.sqrt_le_left (by norm_num)]
    linarith [Real.pi_le_four]
  have step : ∀ n : ℕ, |Real.Gamma (1 / 2 - (n + 1 : ℕ))| * (n + 1 / 2) = |Real.Gamma (1 / 2 - n)| := by
    intro n
    have hn : (0 : ℝ) ≤ n := Nat.cast_nonneg n
    have h := Real.Gamma_add_one (s := 1 / 2 - (n + 1 : ℕ)) (by push_cast; intro h; linarith)
    rw [show (1 / 2 - ((n + 1 : ℕ) : ℝ)) + 1 = 1 / 2 - n by push_cast; ring] at h
    rw [h, abs_mul, show (1 / 2 - ((n + 1 : ℕ) : ℝ)) = -(n + 1 / 2) by push_cast; ring, abs_neg,
      abs_of_nonneg (by positivity : (0 : ℝ) ≤ n + 1 / 2), mul_comm]
  have zero : |Real.Gamma (1 / 2 - (0 : ℕ))| ≤ 2 := by
    rw [Nat.cast_zero, sub_zero, Real.Gamma_one_half_eq, abs_of_nonneg (Real.sqrt_nonneg _)]
    exact hpi
  induction n with
  | zero => simp only [Nat.zero_sub, Nat.factorial_zero, Nat.cast_one, mul_one]; linarith
  | succ n ih =>
    cases n with
    | zero =>
      have := step 0
      simp only [zero_add, Nat.sub_self, Nat.factorial_zero, Nat.cast_one, mul_one, Nat.cast_zero] at this zero ⊢
      linarith
    | succ k =>
      have hs := step (k + 1)
      simp only [Nat.add_sub_cancel] at ih ⊢
      rw [← hs] at ih
      refine le_trans ?_ ih
      rw [Nat.factorial_succ, mul_assoc]
      refine mul_le_mul_of_nonneg_left ?_ (abs_nonneg _)
      push_cast
      refine mul_le_mul_of_nonneg_right ?_ (by positivity)
      linarith

/-- **C107** is false of the sign that `flloggamma` gives: the gamma function of -201.5 is positive, but too
close to zero for a flonum, and the sign is -1. -/
theorem C107_loggamma_fails (lg tg : Flo → Flo)
    (h : ∃ s v, tg (.finite true (403 / 2)) = .finite s v ∧ Constants.Closest v (Real.Gamma (-403 / 2))) :
    (∃ l, flloggamma lg tg (.real (.flo (.finite true (403 / 2)))) =
      .value (l, .real (.flo (.finite true 1)))) ∧ 0 < Real.Gamma (-403 / 2) := by
  have hpos : 0 < Real.Gamma (-403 / 2) := by
    have := gamma_half 202
    norm_num at this ⊢
    exact this
  have hsmall : Real.Gamma (-403 / 2) < 1 / 2 ^ 1075 := by
    have := gamma_small 202
    rw [show (1 / 2 - ((202 : ℕ) : ℝ)) = -403 / 2 by norm_num, abs_of_pos hpos] at this
    have hf : (4 : ℝ) * 2 ^ 1075 < ((202 - 1).factorial : ℕ) := by
      have : 4 * 2 ^ 1075 < (202 - 1).factorial := by decide +kernel
      exact_mod_cast this
    rw [lt_div_iff₀ (by positivity)]
    by_contra hc
    rw [not_lt] at hc
    have h2 := mul_lt_mul_of_pos_left hf hpos
    have h3 : Real.Gamma (-403 / 2) * (4 * 2 ^ 1075) = 4 * (Real.Gamma (-403 / 2) * 2 ^ 1075) := by ring
    rw [h3] at h2
    generalize Real.Gamma (-403 / 2) * 2 ^ 1075 = a at hc h2
    linarith
  obtain ⟨s, v, e, hr, hc⟩ := h
  have hv : v = 0 := by
    by_contra hne
    have hl := Number.Rep.least_le hr (lt_of_le_of_ne hr.nonneg (Ne.symm hne))
    have hl' : (1 : ℝ) / 2 ^ 1074 ≤ v := by
      have : (((1 / 2 ^ 1074 : ℚ)) : ℝ) ≤ v := Rat.cast_le.2 hl
      refine le_trans (le_of_eq ?_) this
      push_cast
      rfl
    have h0 := hc 0 Rep.zero
    rw [Rat.cast_zero, sub_zero, abs_of_pos hpos] at h0
    have h1 := neg_abs_le (Real.Gamma (-403 / 2) - v)
    have h2 : (1 : ℝ) / 2 ^ 1074 = 1 / 2 ^ 1075 + 1 / 2 ^ 1075 := by rw [pow_succ 2 1074]; field_simp; norm_num
    linarith
  subst hv
  refine ⟨⟨.real (.flo (lg (.finite true (403 / 2)))), ?_⟩, hpos⟩
  have hp := positive_flo s (m := 0)
  rw [flloggamma, real1, real1, toDouble, e]
  show Outcome.bind (Wide.isPositive (.real (.flo (.finite s 0))))
      (fun p => Outcome.value ((_ : Wide), Wide.real (.flo (.finite (!p) 1)))) = _
  rw [hp]
  cases s <;> simp [Outcome.bind]

/-! ### Constants -/

/-- **C103**: `fl-sin-1`, `fl-cos-1` and `fl-gamma-1/2`, if the C library rounds the functions to nearest there; the
last is the flonum that is closest to the root of pi. -/
theorem C103_functions {s c tg : Flo → Flo} (hs : Constants.Approximates (s (.finite false 1)) (Real.sin 1))
    (hc : Constants.Approximates (c (.finite false 1)) (Real.cos 1))
    (hg : Constants.Approximates (tg (.finite false (1 / 2))) (Real.Gamma (1 / 2))) :
    (∃ d, flSin1 s = .value (.real (.flo d)) ∧ Constants.Approximates d (Real.sin 1)) ∧
    (∃ d, flCos1 c = .value (.real (.flo d)) ∧ Constants.Approximates d (Real.cos 1)) ∧
    (∃ d, flGamma12 tg = .value (.real (.flo d)) ∧ Constants.Approximates d (Real.Gamma (1 / 2))) ∧
    flGamma12 tg = .value (.real (.flo (.finite false ((7982422502469483 : ℕ) / 2 ^ 52)))) := by
  have s1 : Stands (.real (.exact (.small 1))) 1 := ⟨by simp [Num.Valid], by simp [Num.val]⟩
  have r1 : Rep |(1 : ℚ)| := ⟨1, 0, by norm_num, by norm_num, by norm_num, by norm_num⟩
  have s2 : Stands (.real (.exact (.ratio ⟨1, 2⟩))) (1 / 2) :=
    ⟨by simp [Num.Valid, Mpq.Canonical], by norm_num [Num.val, Mpq.val]⟩
  have r2 : Rep |(1 / 2 : ℚ)| := by
    rw [abs_of_pos (by norm_num)]
    exact ⟨1, -1, by norm_num, by norm_num, by norm_num, by norm_num⟩
  have e1 : ∀ f : Flo → Flo, real1 f (.real (.exact (.small 1))) = .value (.real (.flo (f (.finite false 1)))) := by
    intro f
    rw [C107_value f s1 r1 (by norm_num)]
    norm_num
  have e2 : flGamma12 tg = .value (.real (.flo (tg (.finite false (1 / 2))))) := by
    have hd : Wide.div (.real (.exact (.small 1))) (.real (.exact (.small 2))) =
        .value (.real (.exact (.ratio ⟨1, 2⟩))) := by
      decide +kernel
    rw [flGamma12, hd]
    refine (C107_value tg s2 r2 (by norm_num)).trans ?_
    rw [abs_of_pos (by norm_num : (0 : ℚ) < 1 / 2), decide_eq_false (by norm_num)]
  refine ⟨⟨_, e1 s, hs⟩, ⟨_, e1 c, hc⟩, ⟨_, e2, hg⟩, ?_⟩
  rw [Real.Gamma_one_half_eq] at hg
  rw [e2, Constants.approximates_eq (m := 7982422502469483) (k := 52) (by norm_num) (by norm_num) (by norm_num) ?_ ?_ hg]
  · exact Constants.sqrt_gt (by norm_num) (lt_of_le_of_lt (by norm_num) Real.pi_gt_d20)
  · exact Constants.sqrt_lt (by norm_num) (lt_of_lt_of_le Real.pi_lt_d20 (by norm_num))

/-- There are such functions. -/
example : ∃ s c tg : Flo → Flo, Constants.Approximates (s (.finite false 1)) (Real.sin 1) ∧
    Constants.Approximates (c (.finite false 1)) (Real.cos 1) ∧
    Constants.Approximates (tg (.finite false (1 / 2))) (Real.Gamma (1 / 2)) := by
  choose f hf using Constants.closest_exists
  exact ⟨fun _ => .finite false (f _), fun _ => .finite false (f _), fun _ => .finite false (f _), ⟨_, rfl, hf _⟩,
    ⟨_, rfl, hf _⟩, ⟨_, rfl, hf _⟩⟩

/-! ### The hypotheses can be met -/

/-- A ratio, a flonum and a number of single precision of the value `-1/2`; exact zero; and a large integer. -/
example : Stands (.real (.exact (.ratio ⟨-1, 2⟩))) (-1 / 2) ∧ Stands (.real (.flo (.finite true (1 / 2)))) (-1 / 2) ∧
    Stands (.single (.finite true (1 / 2))) (-1 / 2) ∧ Rep |(-1 / 2 : ℚ)| ∧
    Stands (int 0) 0 ∧ Exact (int 0) ∧ Rep |(0 : ℚ)| ∧
    Stands (.real (.exact (.large (2 ^ 70)))) (2 ^ 70) ∧ Rep |(2 ^ 70 : ℚ)| := by
  have r : Rep (1 / 2) := ⟨1, -1, by norm_num, by norm_num, by norm_num, by norm_num⟩
  have r' : Single.Rep (1 / 2) := ⟨1, -1, by norm_num, by norm_num, by norm_num, by norm_num⟩
  refine ⟨⟨by simp [Num.Valid, Mpq.Canonical], by norm_num [Num.val, Mpq.val]⟩,
    ⟨r, true, 1 / 2, rfl, by norm_num⟩, ⟨r', true, 1 / 2, rfl, by norm_num⟩, ?_,
    ⟨by simp [Num.Valid], by simp [Num.val]⟩, ⟨_, rfl⟩, by rw [abs_zero]; exact Rep.zero,
    ⟨trivial, by norm_num [Num.val]⟩, ?_⟩
  · rw [show |(-1 / 2 : ℚ)| = 1 / 2 by norm_num [abs_of_neg]]; exact r
  · exact ⟨1, 70, by norm_num, by norm_num, by norm_num, by norm_num⟩

/-- There are C libraries as `C107_log_fails`, `C107_complex_fails` and `C107_loggamma_fails` ask for. -/
example : (∃ f, LogRounds f) ∧ (∃ f : Flo → Flo, (∀ m, 0 < m → f (.finite true m) = .nan) ∧ f (.finite false 1) = .finite false 0) ∧
    ∃ tg : Flo → Flo, ∃ s v, tg (.finite true (403 / 2)) = .finite s v ∧
      Constants.Closest v (Real.Gamma (-403 / 2)) := by
  obtain ⟨p, -, hl, -⟩ := Constants.C103_platform
  obtain ⟨v, hv⟩ := Constants.closest_exists (Real.Gamma (-403 / 2))
  refine ⟨⟨p.log, hl⟩, ⟨fun d => match d with
    | .finite true _ => .nan
    | _ => .finite false 0, fun m _ => rfl, rfl⟩, fun _ => .finite false v, false, v, rfl, hv⟩

/-- `(exp 1/2)`, `(exp 0.5)` and `(exp 0.5f0)` are one flonum. -/
example (f : Flo → Flo) : real1 f (.real (.exact (.ratio ⟨1, 2⟩))) = real1 f (.single (.finite false (1 / 2))) := by
  have r : Rep (1 / 2) := ⟨1, -1, by norm_num, by norm_num, by norm_num, by norm_num⟩
  have r' : Single.Rep (1 / 2) := ⟨1, -1, by norm_num, by norm_num, by norm_num, by norm_num⟩
  refine (C107_representation f).1 (v := 1 / 2) ⟨by simp [Num.Valid, Mpq.Canonical], by norm_num [Num.val, Mpq.val]⟩
    ⟨r', false, 1 / 2, rfl, by simp⟩ (by rw [abs_of_pos (by norm_num)]; exact r) (by norm_num)

end Meevax.Elementary
