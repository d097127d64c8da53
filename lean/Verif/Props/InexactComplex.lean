import Verif.Model.InexactComplex
import Verif.Props.Elementary

/-
C108: arithmetic of inexact complex numbers.
-/

namespace Meevax.Elementary

open Meevax.Number (Flo Num Outcome Rep castFixnum)
open Meevax.Single (Wide)

/-! ### Specification -/

/-- A number with flonums as parts, which have the values `v` and `w`; a real flonum has the imaginary part
zero. -/
def Flat : CWide → ℚ → ℚ → Prop
  | .real (.real (.flo d)), v, w => d.Is v ∧ w = 0
  | .rect (.real (.flo d)) (.real (.flo e)), v, w => d.Is v ∧ e.Is w
  | _, _, _ => False

/-- A complex number object. -/
def NotReal (z : CWide) : Prop := ∃ x y, z = .rect x y

/-- The number object for the flonums `x` and `y` as parts: a real number if the imaginary part is a zero. -/
def Makes (r : Outcome CWide) (x y : Flo) : Prop :=
  (y.Is 0 → r = .value (.real (.real (.flo x)))) ∧
  (¬ y.Is 0 → r = .value (.rect (.real (.flo x)) (.real (.flo y))))

/-! ### Lemmas -/

theorem is_zero_iff {b : Flo} : b.Is 0 ↔ ∃ s, b = .finite s 0 := by
  constructor
  · rintro ⟨s, m, rfl, h⟩
    refine ⟨s, ?_⟩
    cases s <;> simp at h <;> rw [h]
  · rintro ⟨s, rfl⟩
    exact ⟨s, 0, rfl, by simp⟩

theorem makes_canonicalize (x y : Flo) : Makes (canonicalize (.real (.flo x)) (.real (.flo y))) x y := by
  have key : canonicalize (.real (.flo x)) (.real (.flo y)) =
      (Wide.equals (.real (.flo y)) (.real (.exact (.small 0)))).bind
      (fun t => if t then .value (.real (.real (.flo x))) else .value (.rect (.real (.flo x)) (.real (.flo y)))) :=
    rfl
  rw [Makes, key, equals_zero]
  refine ⟨fun h => ?_, fun h => ?_⟩
  · rw [decide_eq_true (is_zero_iff.1 h)]; rfl
  · rw [decide_eq_false (fun h' => h (is_zero_iff.2 h'))]; rfl

/-- The parts as flonums. -/
def floParts (z : CWide) : Flo × Flo := (toDouble z.parts.1, toDouble z.parts.2)

theorem cast_zero : castFixnum 0 = .finite false 0 := by simp [castFixnum, Number.roundEven]

theorem Flat.is {z : CWide} {v w : ℚ} (h : Flat z v w) : (floParts z).1.Is v ∧ (floParts z).2.Is w := by
  match z, h with
  | .real (.real (.flo d)), ⟨h1, h2⟩ =>
    subst h2
    refine ⟨h1, ?_⟩
    show (castFixnum 0).Is 0
    rw [cast_zero]
    exact ⟨false, 0, rfl, by simp⟩
  | .rect (.real (.flo d)) (.real (.flo e)), h => exact h

theorem flo_add {x y : Flo} {v w : ℚ} (hx : x.Is v) (hy : y.Is w) : (x.add y).Rounds (v + w) := by
  obtain ⟨s, m, rfl, rfl⟩ := hx
  obtain ⟨t, n, rfl, rfl⟩ := hy
  exact Number.roundEven_spec _ _

theorem flo_sub {x y : Flo} {v w : ℚ} (hx : x.Is v) (hy : y.Is w) : (x.sub y).Rounds (v - w) := by
  have hy' := Single.neg_is hy
  obtain ⟨s, m, rfl, rfl⟩ := hx
  obtain ⟨t, n, e, h⟩ := hy'
  rw [Number.Flo.sub, e, sub_eq_add_neg, ← h]
  exact Number.roundEven_spec _ _

theorem flo_mul {x y : Flo} {v w : ℚ} (hx : x.Is v) (hy : y.Is w) : (x.mul y).Rounds (v * w) := by
  obtain ⟨s, m, rfl, rfl⟩ := hx
  obtain ⟨t, n, rfl, rfl⟩ := hy
  exact Number.roundEven_spec _ _

theorem flo_div {x y : Flo} {v w : ℚ} (hx : x.Is v) (hy : y.Is w) (h : w ≠ 0) : (x.div y).Rounds (v / w) := by
  obtain ⟨s, m, rfl, rfl⟩ := hx
  obtain ⟨t, n, rfl, rfl⟩ := hy
  have : n ≠ 0 := by
    rintro rfl
    exact h (by simp)
  simp only [Number.Flo.div, if_neg this]
  exact Number.roundEven_spec _ _

theorem add_eq {z u : CWide} {a b c d : ℚ} (hz : Flat z a b) (hu : Flat u c d) (hr : NotReal z ∨ NotReal u) :
    z.add u = canonicalize (.real (.flo ((floParts z).1.add (floParts u).1)))
      (.real (.flo ((floParts z).2.add (floParts u).2))) ∧
    z.sub u = canonicalize (.real (.flo ((floParts z).1.sub (floParts u).1)))
      (.real (.flo ((floParts z).2.sub (floParts u).2))) ∧
    z.mul u = canonicalize
      (.real (.flo (((floParts z).1.mul (floParts u).1).sub ((floParts z).2.mul (floParts u).2))))
      (.real (.flo (((floParts z).2.mul (floParts u).1).add ((floParts z).1.mul (floParts u).2)))) := by
  match z, hz, u, hu with
  | .real (.real (.flo _)), _, .real (.real (.flo _)), _ =>
    rcases hr with ⟨_, _, h⟩ | ⟨_, _, h⟩ <;> cases h
  | .real (.real (.flo _)), _, .rect (.real (.flo _)) (.real (.flo _)), _ => exact ⟨rfl, rfl, rfl⟩
  | .rect (.real (.flo _)) (.real (.flo _)), _, .real (.real (.flo _)), _ => exact ⟨rfl, rfl, rfl⟩
  | .rect (.real (.flo _)) (.real (.flo _)), _, .rect (.real (.flo _)) (.real (.flo _)), _ => exact ⟨rfl, rfl, rfl⟩

theorem div_eq {z u : CWide} {a b c d : ℚ} (hz : Flat z a b) (hu : Flat u c d) (hr : NotReal z ∨ NotReal u) :
    z.div u = canonicalize
      (.real (.flo ((((floParts z).1.mul (floParts u).1).add ((floParts z).2.mul (floParts u).2)).div
        (((floParts u).1.mul (floParts u).1).add ((floParts u).2.mul (floParts u).2)))))
      (.real (.flo ((((floParts z).2.mul (floParts u).1).sub ((floParts z).1.mul (floParts u).2)).div
        (((floParts u).1.mul (floParts u).1).add ((floParts u).2.mul (floParts u).2))))) := by
  match z, hz, u, hu with
  | .real (.real (.flo _)), _, .real (.real (.flo _)), _ =>
    rcases hr with ⟨_, _, h⟩ | ⟨_, _, h⟩ <;> cases h
  | .real (.real (.flo _)), _, .rect (.real (.flo _)) (.real (.flo _)), _ => rfl
  | .rect (.real (.flo p)) (.real (.flo q)), _, .real (.real (.flo r)), _ =>
    have hk : castFixnum 0 = (castFixnum 0).mul (castFixnum 0) := by
      rw [cast_zero]
      simp [Flo.mul, Number.roundEven, Number.signed]
    have key : CWide.div (.rect (.real (.flo p)) (.real (.flo q))) (.real (.real (.flo r))) = canonicalize
        (.real (.flo (((p.mul r).add (q.mul (castFixnum 0))).div ((r.mul r).add (castFixnum 0)))))
        (.real (.flo (((q.mul r).sub (p.mul (castFixnum 0))).div ((r.mul r).add (castFixnum 0))))) := rfl
    rw [key]
    show _ = canonicalize
        (.real (.flo (((p.mul r).add (q.mul (castFixnum 0))).div ((r.mul r).add ((castFixnum 0).mul (castFixnum 0))))))
        (.real (.flo (((q.mul r).sub (p.mul (castFixnum 0))).div ((r.mul r).add ((castFixnum 0).mul (castFixnum 0))))))
    rw [← hk]
  | .rect (.real (.flo _)) (.real (.flo _)), _, .rect (.real (.flo _)) (.real (.flo _)), _ => rfl

/-! ### C108 -/

/-- **C108**: the parts of the sum and of the difference of two numbers with finite flonums as parts, one of
which may be real, are the sums and differences of the parts, each rounded once. The result is a real number if
and only if its imaginary part is a zero. -/
theorem C108_sum {z u : CWide} {a b c d : ℚ} (hz : Flat z a b) (hu : Flat u c d) (hr : NotReal z ∨ NotReal u) :
    (∃ x y : Flo, Makes (z.add u) x y ∧ x.Rounds (a + c) ∧ y.Rounds (b + d)) ∧
    (∃ x y : Flo, Makes (z.sub u) x y ∧ x.Rounds (a - c) ∧ y.Rounds (b - d)) := by
  obtain ⟨h1, h2, -⟩ := add_eq hz hu hr
  obtain ⟨ha, hb⟩ := hz.is
  obtain ⟨hc, hd⟩ := hu.is
  exact ⟨⟨_, _, h1 ▸ makes_canonicalize _ _, flo_add ha hc, flo_add hb hd⟩,
    ⟨_, _, h2 ▸ makes_canonicalize _ _, flo_sub ha hc, flo_sub hb hd⟩⟩

/-- **C108**: the four products of the parts are rounded, and their difference and sum are rounded again. -/
theorem C108_product {z u : CWide} {a b c d : ℚ} (hz : Flat z a b) (hu : Flat u c d) (hr : NotReal z ∨ NotReal u) :
    ∃ ac bd bc ad x y : Flo, Makes (z.mul u) x y ∧ ac.Rounds (a * c) ∧ bd.Rounds (b * d) ∧ bc.Rounds (b * c) ∧
      ad.Rounds (a * d) ∧ (∀ p q, ac.Is p → bd.Is q → x.Rounds (p - q)) ∧
      (∀ p q, bc.Is p → ad.Is q → y.Rounds (p + q)) := by
  obtain ⟨-, -, h⟩ := add_eq hz hu hr
  obtain ⟨ha, hb⟩ := hz.is
  obtain ⟨hc, hd⟩ := hu.is
  exact ⟨_, _, _, _, _, _, h ▸ makes_canonicalize _ _, flo_mul ha hc, flo_mul hb hd, flo_mul hb hc, flo_mul ha hd,
    fun p q => flo_sub, fun p q => flo_add⟩

theorem rep_int {q : ℚ} {i : ℤ} (h : q = i) (hi : |i| < 2 ^ 53) : Rep |q| := by
  rw [h]
  exact Rep.int hi

/-- **C108**: the product of two numbers whose parts are integers of no more than 25 bits is exact. -/
theorem C108_product_exact {z u : CWide} {a b c d : ℤ} (hz : Flat z a b) (hu : Flat u c d)
    (hr : NotReal z ∨ NotReal u) (ha : |a| ≤ 2 ^ 25) (hb : |b| ≤ 2 ^ 25) (hc : |c| ≤ 2 ^ 25) (hd : |d| ≤ 2 ^ 25) :
    ∃ x y : Flo, Makes (z.mul u) x y ∧ x.Is ((a * c - b * d : ℤ) : ℚ) ∧ y.Is ((b * c + a * d : ℤ) : ℚ) := by
  obtain ⟨ac, bd, bc, ad, x, y, hm, h1, h2, h3, h4, h5, h6⟩ := C108_product hz hu hr
  have pb : ∀ {p q : ℤ}, |p| ≤ 2 ^ 25 → |q| ≤ 2 ^ 25 → |p * q| ≤ 2 ^ 50 := by
    intro p q hp hq
    rw [abs_mul]
    calc |p| * |q| ≤ 2 ^ 25 * 2 ^ 25 := mul_le_mul hp hq (abs_nonneg _) (by norm_num)
      _ = 2 ^ 50 := by norm_num
  have k : ∀ {p q : ℤ} {f : Flo}, |p| ≤ 2 ^ 25 → |q| ≤ 2 ^ 25 → f.Rounds ((p : ℚ) * q) → f.Is ((p * q : ℤ) : ℚ) := by
    intro p q f hp hq hf
    have := hf.rep (rep_int (i := p * q) (by push_cast; rfl) (lt_of_le_of_lt (pb hp hq) (by norm_num)))
    push_cast
    exact this
  have g1 := h5 _ _ (k ha hc h1) (k hb hd h2)
  have g2 := h6 _ _ (k hb hc h3) (k ha hd h4)
  refine ⟨x, y, hm, ?_, ?_⟩
  · have := g1.rep (rep_int (i := a * c - b * d) (by push_cast; rfl)
      (lt_of_le_of_lt (abs_sub _ _) (by linarith [pb ha hc, pb hb hd])))
    push_cast at this ⊢
    exact this
  · have := g2.rep (rep_int (i := b * c + a * d) (by push_cast; rfl)
      (lt_of_le_of_lt (abs_add_le _ _) (by linarith [pb hb hc, pb ha hd])))
    push_cast at this ⊢
    exact this

/-- **C108**, division: where the six products, the three sums and the quotients are in
range, each of them is rounded once. -/
theorem C108_quotient_partial {z u : CWide} {a b c d : ℚ} (hz : Flat z a b) (hu : Flat u c d)
    (hr : NotReal z ∨ NotReal u) :
    ∃ ac bd bc ad cc dd m n k x y : Flo, Makes (z.div u) x y ∧ ac.Rounds (a * c) ∧ bd.Rounds (b * d) ∧
      bc.Rounds (b * c) ∧ ad.Rounds (a * d) ∧ cc.Rounds (c * c) ∧ dd.Rounds (d * d) ∧
      (∀ p q, ac.Is p → bd.Is q → m.Rounds (p + q)) ∧ (∀ p q, bc.Is p → ad.Is q → n.Rounds (p - q)) ∧
      (∀ p q, cc.Is p → dd.Is q → k.Rounds (p + q)) ∧
      (∀ p q, m.Is p → k.Is q → q ≠ 0 → x.Rounds (p / q)) ∧
      (∀ p q, n.Is p → k.Is q → q ≠ 0 → y.Rounds (p / q)) := by
  have h := div_eq hz hu hr
  obtain ⟨ha, hb⟩ := hz.is
  obtain ⟨hc, hd⟩ := hu.is
  exact ⟨_, _, _, _, _, _, _, _, _, _, _, h ▸ makes_canonicalize _ _, flo_mul ha hc, flo_mul hb hd, flo_mul hb hc,
    flo_mul ha hd, flo_mul hc hc, flo_mul hd hd, fun p q => flo_add, fun p q => flo_sub, fun p q => flo_add,
    fun p q => flo_div, fun p q => flo_div⟩

/-! ### What fails -/

theorem overflow {z : Bool} {x : ℚ} (h : 2 ^ 1024 ≤ x) : Number.roundEven z x = .inf false := by
  have h0 : (0 : ℚ) < x := lt_of_lt_of_le (by positivity) h
  have := Number.roundEven_spec z x
  rw [Flo.Rounds, abs_of_pos h0, if_pos ((sub_le_self _ (by positivity)).trans h)] at this
  rw [this, decide_eq_false (not_lt.2 h0.le)]

theorem one_le_limit : (1 : ℚ) ≤ 2 ^ 1024 - 2 ^ 970 := by
  have : (2 : ℚ) ^ 971 ≤ 2 ^ 1024 := pow_le_pow_right₀ (by norm_num) (by norm_num)
  have h2 : (1 : ℚ) ≤ 2 ^ 970 := one_le_pow₀ (by norm_num)
  have h3 : (2 : ℚ) ^ 971 = 2 ^ 970 + 2 ^ 970 := by rw [pow_succ 2 970]; ring
  rw [h3] at this
  clear h3
  generalize (2 : ℚ) ^ 970 = a at *
  generalize (2 : ℚ) ^ 1024 = b at *
  linarith

theorem underflow {z : Bool} {x : ℚ} (h0 : 0 < x) (h : x + x < 1 / 2 ^ 1074) :
    Number.roundEven z x = .finite false 0 := by
  have hs := Number.roundEven_spec z x
  have hone : (1 : ℚ) / 2 ^ 1074 ≤ 1 := by
    rw [div_le_one (by positivity)]
    exact one_le_pow₀ (by norm_num)
  have hlt : x < 1 := lt_of_lt_of_le (lt_of_le_of_lt (le_add_of_nonneg_left h0.le) h) hone
  rw [Flo.Rounds, abs_of_pos h0, if_neg (not_le.2 (lt_of_lt_of_le hlt one_le_limit))] at hs
  obtain ⟨s, v, he, -, hp, hn⟩ := hs
  rw [he, hp h0]
  have hv : v = 0 := by
    by_contra hne
    have hpos : 0 < v := lt_of_le_of_ne hn.1.nonneg (Ne.symm hne)
    have hl := Number.Rep.least_le hn.1 hpos
    have h1 := hn.2.1 0 Rep.zero
    rw [sub_zero, abs_of_pos h0] at h1
    have h2 := neg_abs_le (x - v)
    generalize (1 : ℚ) / 2 ^ 1074 = a at *
    linarith
  rw [hv]

theorem square_big {m : ℚ} (h : 2 ^ 512 ≤ m) : Flo.mul (.finite false m) (.finite false m) = .inf false := by
  show Number.roundEven (false != false) (m * m) = _
  refine overflow ?_
  calc (2 : ℚ) ^ 1024 = 2 ^ 512 * 2 ^ 512 := by rw [← pow_add]
    _ ≤ m * m := mul_le_mul h h (by positivity) (le_trans (by positivity) h)

theorem square_small {m : ℚ} (h0 : 0 < m) (h : m < 1 / 2 ^ 538) :
    Flo.mul (.finite false m) (.finite false m) = .finite false 0 := by
  show Number.roundEven (false != false) (m * m) = _
  refine underflow (mul_pos h0 h0) ?_
  have h1 : m * m < 1 / 2 ^ 538 * (1 / 2 ^ 538) := mul_lt_mul'' h h h0.le h0.le
  have h2 : (1 : ℚ) / 2 ^ 538 * (1 / 2 ^ 538) = 1 / 2 ^ 1076 := by
    rw [div_mul_div_comm, one_mul, ← pow_add]
  have h3 : (1 : ℚ) / 2 ^ 1074 = 1 / 2 ^ 1076 * 4 := by
    rw [show (1076 : ℕ) = 1074 + 2 from rfl, pow_add]
    field_simp
    norm_num
  have h4 : (0 : ℚ) < 1 / 2 ^ 1076 := by positivity
  rw [h2] at h1
  rw [h3]
  generalize (1 : ℚ) / 2 ^ 1076 = a at *
  linarith

/-- **C108** is false of division: the square of the magnitude overflows or underflows, so that the quotient of
a number and itself, or its real part, has NaN as its parts. -/
theorem C108_quotient_fails {m : ℚ} (h : 2 ^ 512 ≤ m ∨ (0 < m ∧ m < 1 / 2 ^ 538)) :
    ∀ z, z = CWide.rect (.real (.flo (.finite false m))) (.real (.flo (.finite false m))) →
      z.div z = .value (.rect (.real (.flo .nan)) (.real (.flo .nan))) ∧
      z.div (.real (.real (.flo (.finite false m)))) = .value (.rect (.real (.flo .nan)) (.real (.flo .nan))) := by
  rintro z rfl
  have hmm : ∃ k, (k = .inf false ∨ k = .finite false 0) ∧ Flo.mul (.finite false m) (.finite false m) = k :=
    ⟨_, h.imp square_big fun h => square_small h.1 h.2, rfl⟩
  obtain ⟨k, hk, e⟩ := hmm
  have key : CWide.div (.rect (.real (.flo (.finite false m))) (.real (.flo (.finite false m))))
      (.rect (.real (.flo (.finite false m))) (.real (.flo (.finite false m)))) =
      canonicalize (.real (.flo ((k.add k).div (k.add k)))) (.real (.flo ((k.sub k).div (k.add k)))) := by
    rw [← e]; rfl
  have nan : (k.add k).div (k.add k) = .nan ∧ (k.sub k).div (k.add k) = .nan := by
    rcases hk with rfl | rfl <;> simp [Flo.add, Flo.sub, Flo.neg, Flo.div, Number.roundEven, Number.signed]
  have nn : canonicalize (.real (.flo .nan)) (.real (.flo .nan)) =
      .value (.rect (.real (.flo .nan)) (.real (.flo .nan))) := by
    refine (makes_canonicalize .nan .nan).2 ?_
    rintro ⟨s, n, h, -⟩
    cases h
  have key' : CWide.div (.rect (.real (.flo (.finite false m))) (.real (.flo (.finite false m))))
      (.real (.real (.flo (.finite false m)))) = canonicalize
      (.real (.flo ((k.add (.finite false 0)).div (k.add (.finite false 0)))))
      (.real (.flo ((k.sub (.finite false 0)).div (k.add (.finite false 0))))) := by
    have hz : Flo.mul (.finite false m) (castFixnum 0) = .finite false 0 := by
      rw [cast_zero]
      simp [Flo.mul, Number.roundEven, Number.signed]
    have key : CWide.div (.rect (.real (.flo (.finite false m))) (.real (.flo (.finite false m))))
        (.real (.real (.flo (.finite false m)))) = canonicalize
        (.real (.flo (((Flo.mul (.finite false m) (.finite false m)).add (Flo.mul (.finite false m) (castFixnum 0))).div
          ((Flo.mul (.finite false m) (.finite false m)).add (castFixnum 0)))))
        (.real (.flo (((Flo.mul (.finite false m) (.finite false m)).sub (Flo.mul (.finite false m) (castFixnum 0))).div
          ((Flo.mul (.finite false m) (.finite false m)).add (castFixnum 0))))) := rfl
    rw [key, hz, cast_zero, e]
  have nan' : (k.add (.finite false 0)).div (k.add (.finite false 0)) = .nan ∧
      (k.sub (.finite false 0)).div (k.add (.finite false 0)) = .nan := by
    rcases hk with rfl | rfl <;> simp [Flo.add, Flo.sub, Flo.neg, Flo.div, Number.roundEven, Number.signed]
  refine ⟨?_, ?_⟩
  · rw [key, nan.1, nan.2, nn]
  · rw [key', nan'.1, nan'.2, nn]

/-- **C108** is false of products with an infinite part: a real factor counts as one with the imaginary part
zero, and zero times infinity is NaN. So is the real part of `(* 2.0 (make-rectangular 1.0 +inf.0))`. -/
theorem C108_product_fails (s t r : Bool) {m : ℚ} (n : ℚ) (hm : m ≠ 0) :
    CWide.mul (.real (.real (.flo (.finite s m)))) (.rect (.real (.flo (.finite t n))) (.real (.flo (.inf r)))) =
      .value (.rect (.real (.flo .nan)) (.real (.flo (.inf (s != r))))) := by
  have key : CWide.mul (.real (.real (.flo (.finite s m)))) (.rect (.real (.flo (.finite t n))) (.real (.flo (.inf r)))) =
      canonicalize (.real (.flo ((Flo.mul (.finite s m) (.finite t n)).sub ((castFixnum 0).mul (.inf r)))))
        (.real (.flo (((castFixnum 0).mul (.finite t n)).add (Flo.mul (.finite s m) (.inf r))))) := rfl
  have h1 : (Flo.mul (.finite s m) (.finite t n)).sub ((castFixnum 0).mul (.inf r)) = .nan := by
    rw [cast_zero]
    have : Flo.mul (.finite false 0) (.inf r) = .nan := by simp [Flo.mul]
    rw [this]
    cases Flo.mul (.finite s m) (.finite t n) <;> rfl
  have h2 : ((castFixnum 0).mul (.finite t n)).add (Flo.mul (.finite s m) (.inf r)) = .inf (s != r) := by
    rw [cast_zero]
    simp [Flo.mul, hm, Number.signed, Number.roundEven, Flo.add]
  rw [key, h1, h2]
  refine (makes_canonicalize _ _).2 ?_
  rintro ⟨s, n, h, -⟩
  cases h

theorem rep_eps : Rep (1 / 2 ^ 52) :=
  ⟨1, -52, by norm_num, by norm_num, by norm_num, by norm_num⟩

theorem rep_eps_next : Rep (1 / 2 ^ 52 + 1 / 2 ^ 104) :=
  ⟨2 ^ 52 + 1, -104, by norm_num, by norm_num, by norm_num, by norm_num⟩

theorem rounds_eps {f : Flo} {x : ℚ} (h : f.Rounds x) :
    (|x| ≤ 1 / 2 ^ 52 → f.abs.le (.finite false (1 / 2 ^ 52)) = true) ∧
    (f.abs.le (.finite false (1 / 2 ^ 52)) = true → |x| < 1 / 2 ^ 52 + 1 / 2 ^ 104) := by
  rw [Flo.Rounds] at h
  split at h
  · rename_i hx
    subst h
    refine ⟨fun h' => ?_, fun h' => ?_⟩
    · have := (one_le_limit.trans hx).trans h'
      norm_num at this
    · simp [Flo.abs, Flo.le, Flo.lt, Flo.eq] at h'
  · obtain ⟨s, v, rfl, -, -, hn⟩ := h
    have key : (Flo.finite s v).abs.le (.finite false (1 / 2 ^ 52)) = true ↔ v ≤ 1 / 2 ^ 52 := by
      simp [Flo.abs, Flo.le, Flo.lt, Flo.eq, Number.signed, le_iff_lt_or_eq]
    rw [key]
    refine ⟨fun h' => ?_, fun h' => ?_⟩
    · by_contra hc
      have h1 := hn.2.1 _ rep_eps
      rw [abs_of_nonpos (a := |x| - 1 / 2 ^ 52) (by linarith)] at h1
      linarith [neg_abs_le (|x| - v), not_le.1 hc]
    · by_contra hc
      have h1 := hn.2.1 _ rep_eps_next
      rw [abs_of_nonneg (a := |x| - (1 / 2 ^ 52 + 1 / 2 ^ 104)) (by linarith)] at h1
      have h2 := le_abs_self (|x| - v)
      have h3 : (0 : ℚ) < 1 / 2 ^ 104 := by norm_num
      linarith

theorem inexact_equals {x y : Flo} {v w : ℚ} (hx : x.Is v) (hy : y.Is w) :
    (|v - w| ≤ 1 / 2 ^ 52 → Number.inexactEquals x y = true) ∧
    (Number.inexactEquals x y = true → |v - w| < 1 / 2 ^ 52 + 1 / 2 ^ 104) := by
  have h := rounds_eps (flo_sub hx hy)
  obtain ⟨s, m, rfl, -⟩ := hx
  obtain ⟨t, n, rfl, -⟩ := hy
  exact h

/-- **C108**: `=` of two complex numbers with finite flonums as parts compares both parts with the tolerance
2^-52; only differences within 2^-104 above it may count either way. -/
theorem C108_equal {x y x' y' : Flo} {a b c d : ℚ} (hx : x.Is a) (hy : y.Is b) (hx' : x'.Is c) (hy' : y'.Is d) :
    ∃ r, CWide.equals (.rect (.real (.flo x)) (.real (.flo y))) (.rect (.real (.flo x')) (.real (.flo y'))) = .value r ∧
      (|a - c| ≤ 1 / 2 ^ 52 → |b - d| ≤ 1 / 2 ^ 52 → r = true) ∧
      (r = true → |a - c| < 1 / 2 ^ 52 + 1 / 2 ^ 104 ∧ |b - d| < 1 / 2 ^ 52 + 1 / 2 ^ 104) := by
  have key : CWide.equals (.rect (.real (.flo x)) (.real (.flo y))) (.rect (.real (.flo x')) (.real (.flo y'))) =
      if Number.inexactEquals x x' then .value (Number.inexactEquals y y') else .value false := rfl
  obtain ⟨h1, h2⟩ := inexact_equals hx hx'
  obtain ⟨h3, h4⟩ := inexact_equals hy hy'
  rw [key]
  by_cases h : Number.inexactEquals x x' = true
  · rw [if_pos h]
    exact ⟨_, rfl, fun _ h' => h3 h', fun h' => ⟨h2 h, h4 h'⟩⟩
  · rw [if_neg h]
    exact ⟨_, rfl, fun h' _ => absurd (h1 h') h, fun h' => by cases h'⟩

/-- **C108**: a complex number whose imaginary part is a finite flonum other than zero is never `=` to a real
flonum, however small the imaginary part. -/
theorem C108_equal_real {x y e : Flo} {b : ℚ} (hy : y.Is b) (hb : b ≠ 0) :
    CWide.equals (.rect (.real (.flo x)) (.real (.flo y))) (.real (.real (.flo e))) = .value false := by
  have key : CWide.equals (.rect (.real (.flo x)) (.real (.flo y))) (.real (.real (.flo e))) =
      if Number.inexactEquals x e then Wide.equals (.real (.flo y)) (.real (.exact (.small 0))) else .value false := rfl
  have hne : ¬ ∃ s, y = .finite s 0 := by
    rintro ⟨s, rfl⟩
    obtain ⟨t, m, h, rfl⟩ := hy
    cases h
    exact hb (by simp)
  rw [key, equals_zero, decide_eq_false hne, ite_self]

theorem lt_zero_iff {x : Flo} {v : ℚ} (hx : x.Is v) : x.lt (castFixnum 0) = decide (v < 0) := by
  rw [cast_zero]
  obtain ⟨s, m, rfl, rfl⟩ := hx
  cases s <;> simp [Flo.lt, Number.signed]

/-- **C108**: the square root of a flonum is the square root the C library gives, of its absolute value with the
imaginary unit for negative ones, the real part of which is an exact zero. -/
theorem C108_sqrt (root : Flo → Flo) {x : Flo} {v : ℚ} (hx : x.Is v) (hv : x.Valid) :
    (0 ≤ v → sqrtFlo root x = .real (.real (.flo (root x)))) ∧
    (v < 0 → ∃ e : Flo, e.Is (-v) ∧
      sqrtFlo root x = .rect (.real (.exact (.small 0))) (.real (.flo (root e)))) := by
  rw [sqrtFlo, lt_zero_iff hx]
  refine ⟨fun h => by simp [not_lt.2 h], fun h => ?_⟩
  have h0 : (castFixnum 0).Is 0 := is_zero_iff.2 ⟨false, cast_zero⟩
  have hr := flo_sub h0 hx
  rw [zero_sub] at hr
  refine ⟨_, ?_, by rw [decide_eq_true h]; rfl⟩
  refine hr.rep ?_
  obtain ⟨s, m, rfl, rfl⟩ := hx
  have hm : |(if s then -m else m : ℚ)| = m := by
    have : 0 ≤ m := Rep.nonneg hv
    cases s <;> simp [abs_of_nonneg this]
  rw [abs_neg, hm]
  exact hv

theorem rounds_nonneg {f : Flo} {x p : ℚ} (h : f.Rounds x) (hx : 0 ≤ x) (hf : f.Is p) : 0 ≤ p := by
  obtain ⟨s, m, rfl, rfl⟩ := hf
  rw [Flo.Rounds] at h
  split at h
  · cases h
  · obtain ⟨t, v, he, -, hp, hn⟩ := h
    cases he
    have hv : 0 ≤ m := Rep.nonneg hn.1
    rcases hx.eq_or_lt with rfl | hx
    · have := hn.2.1 0 Rep.zero
      simp only [abs_zero, sub_zero, zero_sub, abs_neg] at this
      rw [abs_nonpos_iff.1 this]
      simp
    · rw [hp hx]
      simpa using hv

/-- **C108**: the magnitude of a complex number is the square root of the sum of the squares of the parts, each
step rounded once, where the squares are in range. -/
theorem C108_magnitude_partial (root : Flo → Flo) {x y : Flo} {a b : ℚ} (hx : x.Is a) (hy : y.Is b) :
    ∃ aa bb d : Flo, aa.Rounds (a * a) ∧ bb.Rounds (b * b) ∧ ∀ p q, aa.Is p → bb.Is q → d.Rounds (p + q) ∧
      CWide.magnitude root (.rect (.real (.flo x)) (.real (.flo y))) = .value (.real (.real (.flo (root d)))) := by
  refine ⟨_, _, _, flo_mul hx hx, flo_mul hy hy, fun p q hp hq => ⟨flo_add hp hq, ?_⟩⟩
  have hs := flo_add hp hq
  have h0 : 0 ≤ p + q := add_nonneg (rounds_nonneg (flo_mul hx hx) (mul_self_nonneg a) hp)
    (rounds_nonneg (flo_mul hy hy) (mul_self_nonneg b) hq)
  have key : CWide.magnitude root (.rect (.real (.flo x)) (.real (.flo y))) =
      .value (sqrtFlo root ((x.mul x).add (y.mul y))) := rfl
  have hlt : ((x.mul x).add (y.mul y)).lt (castFixnum 0) = false := by
    generalize hd : (x.mul x).add (y.mul y) = d at hs
    by_cases hi : ∃ r, d.Is r
    · obtain ⟨r, hr⟩ := hi
      rw [lt_zero_iff hr, decide_eq_false (not_lt.2 (rounds_nonneg hs h0 hr))]
    · rw [Flo.Rounds] at hs
      split at hs
      · rw [hs, decide_eq_false (not_lt.2 h0), cast_zero]
        rfl
      · obtain ⟨s, v, rfl, -⟩ := hs
        exact absurd ⟨_, s, v, rfl, rfl⟩ hi
  rw [key, sqrtFlo, hlt]
  rfl

/-- **C108** is false of magnitudes whose square is out of range: they are infinite, or zero though the number is
not. -/
theorem C108_magnitude_fails (root : Flo → Flo) (hi : root (.inf false) = .inf false)
    (hz : root (.finite false 0) = .finite false 0) {m : ℚ} :
    (2 ^ 512 ≤ m → CWide.magnitude root (.rect (.real (.flo (.finite false m))) (.real (.flo (.finite false m)))) =
      .value (.real (.real (.flo (.inf false))))) ∧
    (0 < m → m < 1 / 2 ^ 538 →
      CWide.magnitude root (.rect (.real (.flo (.finite false m))) (.real (.flo (.finite false m)))) =
      .value (.real (.real (.flo (.finite false 0))))) := by
  have key : CWide.magnitude root (.rect (.real (.flo (.finite false m))) (.real (.flo (.finite false m)))) =
      .value (sqrtFlo root ((Flo.mul (.finite false m) (.finite false m)).add
        (Flo.mul (.finite false m) (.finite false m)))) := rfl
  rw [key]
  refine ⟨fun h => ?_, fun h0 h => ?_⟩
  · have : Flo.mul (.finite false m) (.finite false m) = .inf false := square_big h
    rw [this, sqrtFlo, cast_zero]
    simp [Flo.add, Flo.lt, hi]
  · have : Flo.mul (.finite false m) (.finite false m) = .finite false 0 := square_small h0 h
    rw [this, sqrtFlo, cast_zero]
    simp [Flo.add, Flo.lt, hz, Number.roundEven, Number.signed]

/-! ### The hypotheses can be met -/

/-- `(* (make-rectangular 1. 2.) (make-rectangular 3. -4.))` is `11.+2.i`, and with a real factor. -/
example : Flat (.rect (.real (.flo (.finite false 1))) (.real (.flo (.finite false 2)))) (1 : ℤ) (2 : ℤ) ∧
    Flat (.rect (.real (.flo (.finite false 3))) (.real (.flo (.finite true 4)))) (3 : ℤ) (-4 : ℤ) ∧
    Flat (.real (.real (.flo (.finite false 3)))) (3 : ℤ) (0 : ℤ) ∧
    NotReal (.rect (.real (.flo (.finite false 1))) (.real (.flo (.finite false 2)))) :=
  ⟨⟨⟨_, _, rfl, by simp⟩, ⟨_, _, rfl, by simp⟩⟩, ⟨⟨_, _, rfl, by simp⟩, ⟨_, _, rfl, by simp⟩⟩,
    ⟨⟨_, _, rfl, by simp⟩, by simp⟩, ⟨_, _, rfl⟩⟩

/-- Flonums as `C108_quotient_fails` asks for. -/
example : Rep (2 ^ 600) ∧ Rep (1 / 2 ^ 600) ∧ (2 : ℚ) ^ 512 ≤ 2 ^ 600 ∧ (1 : ℚ) / 2 ^ 600 < 1 / 2 ^ 538 := by
  refine ⟨⟨1, 600, by norm_num, by norm_num, by norm_num, ?_⟩, ⟨1, -600, by norm_num, by norm_num, by norm_num, ?_⟩,
    pow_le_pow_right₀ (by norm_num) (by norm_num),
    one_div_lt_one_div_of_lt (by positivity) (pow_lt_pow_right₀ (by norm_num) (by norm_num))⟩
  · rw [Nat.cast_one, one_mul, show (600 : ℤ) = ((600 : ℕ) : ℤ) from rfl, zpow_natCast]
  · rw [Nat.cast_one, one_mul, show (-600 : ℤ) = -((600 : ℕ) : ℤ) from rfl, zpow_neg, zpow_natCast, one_div]

/-- Flonums as `C108_sqrt`, `C108_equal` and `C108_magnitude_partial` ask for: -4.0 and 3.0. -/
example : (Flo.finite true 4).Is (-4) ∧ (Flo.finite true 4).Valid ∧ (Flo.finite false 3).Is 3 :=
  ⟨⟨_, _, rfl, by simp⟩, ⟨4, 0, by norm_num, by norm_num, by norm_num, by norm_num⟩, ⟨_, _, rfl, by simp⟩⟩

end Meevax.Elementary
