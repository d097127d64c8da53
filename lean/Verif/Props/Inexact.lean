import Verif.Lemmas.InexactOrder

/-
C72: `exact` and `inexact`. C73: comparison of inexact numbers.
-/

namespace Meevax.Number

/-! ### C72: conversion -/

theorem exactFlo_spec {d : Flo} {v : ℚ} (h : d.Is v) : Yields (exactFlo d) v := by
  obtain ⟨s, m, rfl, hv⟩ := h
  have hs : signed s m = v := hv
  have hc : (⟨v.num, v.den⟩ : Mpq).Canonical :=
    ⟨Int.natCast_pos.2 v.den_pos, by simpa [Int.gcd] using v.reduced⟩
  refine ⟨_, by rw [exactFlo, hs], ?_⟩
  obtain ⟨h1, h2⟩ := canonicalizeRatio_spec hc
  refine ⟨h1, ?_⟩
  rw [h2]
  exact Rat.num_div_den v

/-- **C72**: `exact` of a finite inexact number is the exact number with the same value. -/
theorem C72_exact {d : Flo} {v : ℚ} (h : d.Is v) :
    ∃ n, Real.toExact (.flo d) = .value (.exact n) ∧ n.Valid ∧ n.val = v := by
  obtain ⟨n, e, h1, h2⟩ := exactFlo_spec h
  exact ⟨n, by simp [Real.toExact, e], h1, h2⟩

/-- **C72**: `exact` of an exact number is that number. -/
theorem C72_exact_exact {n : Num} (hn : n.Valid) :
    ∃ m, Real.toExact (.exact n) = .value (.exact m) ∧ m.Valid ∧ m.val = n.val := by
  cases n with
  | small i =>
    have := IsInt.canonicalize i
    exact ⟨_, rfl, this.valid, this.val⟩
  | large z => exact ⟨_, rfl, hn, rfl⟩
  | ratio q =>
    obtain ⟨h1, h2⟩ := canonicalizeRatio_spec hn
    exact ⟨_, rfl, h1, h2⟩

/-- **C72**: `inexact` of an exact number that an inexact number can represent has the same value. -/
theorem C72_inexact {n : Num} (hn : n.Valid) (hr : Rep |n.val|) :
    ∃ d, Real.inexact (.exact n) = .flo d ∧ d.Valid ∧ d.Is n.val := by
  obtain ⟨s, t, e, ht, hs⟩ := (Num.cast_spec hn).1 hr.lt
  have htv : t = |n.val| := ht.unique (Truncates.self hr)
  refine ⟨.finite s t, by rw [Real.inexact, e], ht.1, s, t, rfl, ?_⟩
  rw [hs, htv]
  rcases lt_or_ge n.val 0 with h | h
  · rw [if_pos h, abs_of_neg h, neg_neg]
  · rw [if_neg (not_lt.2 h), abs_of_nonneg h]

/-- **C72**: an inexact number survives the way through `exact` and `inexact`, except for the sign of
zero. -/
theorem C72_round_trip {d : Flo} {v : ℚ} (hd : d.Valid) (h : d.Is v) :
    ∃ x e, Real.toExact (.flo d) = .value x ∧ x.inexact = .flo e ∧ e.Is v ∧
      (v ≠ 0 → e = d) := by
  obtain ⟨n, e, h1, h2⟩ := C72_exact h
  have hr : Rep |n.val| := by
    obtain ⟨s, m, rfl, hv⟩ := h
    have hm : Rep m := hd
    rw [h2, ← hv]
    cases s <;> simpa [abs_of_nonneg hm.nonneg] using hm
  obtain ⟨d', e', hv', hi⟩ := C72_inexact h1 hr
  rw [h2] at hi
  refine ⟨_, _, e, e', hi, fun h0 => ?_⟩
  obtain ⟨s, m, rfl, hv⟩ := h
  obtain ⟨t, n, rfl, hw⟩ := hi
  have hm : 0 ≤ m := Rep.nonneg hd
  have hn : 0 ≤ n := Rep.nonneg hv'
  cases s <;> cases t <;> simp only [Bool.false_eq_true, if_false, if_true] at hv hw
  · rw [hv, hw]
  · exact absurd (by linarith : v = 0) h0
  · exact absurd (by linarith : v = 0) h0
  · rw [show n = m by linarith]

/-- **C72**, partly: `inexact` of an exact number has the sign of the number and the greatest
magnitude that is not beyond it; from `2 ^ 1024` on it is an infinity. R7RS asks for the number
numerically closest to the argument; `C72_closest_fails`. -/
theorem C72_inexact_partial {n : Num} (hn : n.Valid) :
    (|n.val| < 2 ^ 1024 → ∃ d t, Real.inexact (.exact n) = .flo d ∧ Truncates |n.val| t ∧
      d.Is (if n.val < 0 then -t else t)) ∧
    (2 ^ 1024 ≤ |n.val| → Real.inexact (.exact n) = .flo (.inf (decide (n.val < 0)))) := by
  obtain ⟨h1, h2⟩ := Num.cast_spec hn
  refine ⟨fun h => ?_, fun h => by rw [Real.inexact, h2 h]⟩
  obtain ⟨s, t, e, ht, hs⟩ := h1 h
  exact ⟨_, t, by rw [Real.inexact, e], ht, s, t, rfl, hs⟩

/-- The place of an exact number made inexact. -/
theorem cast_place {n : Num} (hn : n.Valid) : ∃ a, n.cast.place = some a ∧
    ((|n.val| < 2 ^ 1024 ∧ ∃ t, Truncates |n.val| t ∧
        a = (((if n.val < 0 then -t else t : ℚ) : WithTop ℚ) : WithBot (WithTop ℚ))) ∨
     (2 ^ 1024 ≤ n.val ∧ a = ((⊤ : WithTop ℚ) : WithBot (WithTop ℚ))) ∨
     (n.val ≤ -2 ^ 1024 ∧ a = ⊥)) := by
  obtain ⟨h1, h2⟩ := Num.cast_spec hn
  rcases lt_or_ge |n.val| (2 ^ 1024) with h | h
  · obtain ⟨s, t, e, ht, hs⟩ := h1 h
    exact ⟨_, by rw [e]; rfl, Or.inl ⟨h, t, ht, by rw [hs]⟩⟩
  · have e := h2 h
    rcases lt_or_ge n.val 0 with h0 | h0
    · refine ⟨⊥, by rw [e]; simp [h0, Flo.place], Or.inr (Or.inr ⟨?_, rfl⟩)⟩
      rw [abs_of_neg h0] at h
      generalize (2 : ℚ) ^ 1024 = A at *
      linarith
    · refine ⟨_, by rw [e]; simp only [not_lt.2 h0, decide_false]; rfl, Or.inr (Or.inl ⟨?_, rfl⟩)⟩
      rw [abs_of_nonneg h0] at h
      exact h

/-- **C72**: `inexact` preserves the order. -/
theorem C72_monotone {m n : Num} (hm : m.Valid) (hn : n.Valid) (h : m.val ≤ n.val) :
    ∃ a b, (Real.inexact (.exact m)).place = some a ∧ (Real.inexact (.exact n)).place = some b ∧
      a ≤ b := by
  obtain ⟨a, ea, ha⟩ := cast_place hm
  obtain ⟨b, eb, hb⟩ := cast_place hn
  refine ⟨a, b, ea, eb, ?_⟩
  have hpos : (0 : ℚ) < 2 ^ 1024 := by positivity
  rcases ha with ⟨h1, t, ht, rfl⟩ | ⟨h1, rfl⟩ | ⟨h1, rfl⟩
  · rcases hb with ⟨h2, u, hu, rfl⟩ | ⟨h2, rfl⟩ | ⟨h2, rfl⟩
    · rw [WithBot.coe_le_coe, WithTop.coe_le_coe]
      have ht0 := ht.1.nonneg
      have hu0 := hu.1.nonneg
      rcases lt_or_ge m.val 0 with hm0 | hm0
      · rw [if_pos hm0]
        rcases lt_or_ge n.val 0 with hn0 | hn0
        · rw [if_pos hn0]
          rw [abs_of_neg hm0] at ht
          rw [abs_of_neg hn0] at hu
          exact neg_le_neg (hu.mono ht (neg_le_neg h))
        · rw [if_neg (not_lt.2 hn0)]
          linarith
      · have hn0 : 0 ≤ n.val := hm0.trans h
        rw [if_neg (not_lt.2 hm0), if_neg (not_lt.2 hn0)]
        rw [abs_of_nonneg hm0] at ht
        rw [abs_of_nonneg hn0] at hu
        exact ht.mono hu h
    · exact WithBot.coe_le_coe.2 le_top
    · have := (abs_lt.1 h1).1
      exact absurd (h.trans h2) (not_le.2 this)
  · rcases hb with ⟨h2, u, hu, rfl⟩ | ⟨h2, rfl⟩ | ⟨h2, rfl⟩
    · have := (abs_lt.1 h2).2
      exact absurd (h1.trans h) (not_le.2 this)
    · exact le_refl _
    · exact absurd (h1.trans (h.trans h2)) (not_le.2 (by
        have : -(2 : ℚ) ^ 1024 < 0 := neg_lt_zero.2 hpos
        exact this.trans hpos))
  · exact bot_le

/-- The number written 0.1: the datum closest to a tenth. -/
def tenth : Flo := .finite false (7205759403792794 / 2 ^ 56)

/-- **C72** fails: `(inexact 1/10)` is not the inexact number closest to 1/10, which is what `0.1`
denotes. -/
theorem C72_closest_fails :
    (Num.ratio ⟨1, 10⟩).Valid ∧ tenth.Valid ∧
    Real.inexact (.exact (.ratio ⟨1, 10⟩)) = .flo (.finite false (7205759403792793 / 2 ^ 56)) ∧
    |(1 / 10 : ℚ) - 7205759403792794 / 2 ^ 56| < |(1 / 10 : ℚ) - 7205759403792793 / 2 ^ 56| := by
  have hv : (Num.ratio ⟨1, 10⟩).Valid := ⟨by norm_num, by rfl⟩
  have hr : Rep (7205759403792793 / 2 ^ 56) :=
    ⟨7205759403792793, -56, by norm_num, by norm_num, by norm_num, by norm_num⟩
  have hr' : Rep (7205759403792794 / 2 ^ 56) :=
    ⟨7205759403792794, -56, by norm_num, by norm_num, by norm_num, by norm_num⟩
  refine ⟨hv, hr', ?_, by
    rw [abs_of_neg (by norm_num), abs_of_pos (by norm_num)]; norm_num⟩
  have hval : (Num.ratio ⟨1, 10⟩).val = 1 / 10 := by norm_num [Num.val]
  have hb : |(1 / 10 : ℚ)| < 2 ^ 1024 :=
    lt_of_lt_of_le (by norm_num [abs_of_pos]) (one_le_pow₀ (by norm_num : (1 : ℚ) ≤ 2))
  obtain ⟨s, t, e, ht, hs⟩ := (Num.cast_spec hv).1 (by rw [hval]; exact hb)
  rw [hval, abs_of_pos (by norm_num)] at ht
  have htr : Truncates (1 / 10) (7205759403792793 / 2 ^ 56) := by
    refine ⟨hr, by norm_num, fun w hw hle => ?_⟩
    rcases hw.onGrid (E := -56) with ⟨j, rfl⟩ | ⟨h, _⟩
    · have hj : (j : ℚ) < 7205759403792794 := by
        norm_num at hle
        linarith
      have hj' : j ≤ 7205759403792793 := by
        have : j < 7205759403792794 := by exact_mod_cast hj
        omega
      have : (j : ℚ) ≤ 7205759403792793 := by exact_mod_cast hj'
      norm_num
      linarith
    · norm_num at h
      norm_num
      linarith
  have htt := ht.unique htr
  rw [Real.inexact, e, htt]
  have hsf : s = false := by
    cases s
    · rfl
    · rw [hval, htt] at hs
      norm_num at hs
  rw [hsf]

/-- **C72** fails: `exact` of an infinity or of NaN kills the process. -/
theorem C72_not_finite_fails (s : Bool) :
    Real.toExact (.flo (.inf s)) = .undefined ∧ Real.toExact (.flo .nan) = .undefined := by
  cases s <;> exact ⟨rfl, rfl⟩

/-- A case: `(exact 0.1)` and back. -/
example : ∃ x, Real.toExact (.flo tenth) = .value x ∧ x.inexact = .flo tenth := by
  have hd : tenth.Valid := ⟨7205759403792794, -56, by norm_num, by norm_num, by norm_num, by norm_num⟩
  obtain ⟨x, e, h1, h2, _, h4⟩ := C72_round_trip hd ⟨false, _, rfl, rfl⟩
  exact ⟨x, h1, by rw [h2, h4 (by norm_num)]⟩

/-- A case: `(inexact 3/4)` is `0.75`. -/
example : ∃ d, Real.inexact (.exact (.ratio ⟨3, 4⟩)) = .flo d ∧ d.Is (3 / 4) := by
  have hv : (Num.ratio ⟨3, 4⟩).val = 3 / 4 := by norm_num [Num.val]
  obtain ⟨d, h1, _, h2⟩ := C72_inexact (n := .ratio ⟨3, 4⟩) ⟨by norm_num, by rfl⟩
    (by rw [hv]; exact ⟨3, -2, by norm_num, by norm_num, by norm_num, by norm_num⟩)
  exact ⟨d, h1, by rwa [hv] at h2⟩

/-! ### C73: comparison -/

theorem Real.noAdjacent_spec {p : Real → Real → Outcome Bool}
    {R : WithBot (WithTop ℚ) → WithBot (WithTop ℚ) → Prop} {P : Real → Real → Prop}
    (h : ∀ x y a b, x.Valid → y.Valid → x.place = some a → y.place = some b → P x y →
      ∃ r, p x y = .value r ∧ (r = true ↔ ¬ R a b)) :
    ∀ (xs : List Real) (ps : List (WithBot (WithTop ℚ))), (∀ x ∈ xs, x.Valid) →
      xs.map Real.place = ps.map some → List.IsChain P xs →
      ∃ r, Real.noAdjacent p xs = .value r ∧ (r = true ↔ List.IsChain R ps)
  | [], [], _, _, _ => ⟨true, rfl, by simp⟩
  | [_], [_], _, _, _ => ⟨true, rfl, by simp⟩
  | x :: y :: rest, a :: b :: ps, hv, hm, hc => by
    simp only [List.map_cons, List.cons.injEq] at hm
    rw [List.isChain_cons_cons] at hc
    obtain ⟨r, hr, hri⟩ := h x y a b (hv x (by simp)) (hv y (by simp)) hm.1 hm.2.1 hc.1
    obtain ⟨r', hr', hri'⟩ := Real.noAdjacent_spec h (y :: rest) (b :: ps)
      (fun z hz => hv z (by simp_all)) (by simp [hm.2]) hc.2
    rw [List.isChain_cons_cons]
    cases r with
    | true => exact ⟨false, by simp [Real.noAdjacent, hr], by simp [hri.1 rfl]⟩
    | false =>
      refine ⟨r', by simp [Real.noAdjacent, hr, hr'], ?_⟩
      have : R a b := by
        by_contra hn
        exact absurd (hri.2 hn) (by simp)
      simp [this, hri']
  | [], _ :: _, _, hm, _ => by simp at hm
  | [_], [], _, hm, _ => by simp at hm
  | [_], _ :: _ :: _, _, hm, _ => by simp at hm
  | _ :: _ :: _, [], _, hm, _ => by simp at hm
  | _ :: _ :: _, [_], _, hm, _ => by simp at hm

/-- **C73**, partly: an n-ary `<`, `>`, `<=` or `>=` of numbers other than NaN, of which no ratio is
beside an inexact number, holds just if the relation of the extended number line holds between all
neighbours. -/
theorem C73_order_partial {xs : List Real} {ps : List (WithBot (WithTop ℚ))}
    (hv : ∀ x ∈ xs, x.Valid) (hp : xs.map Real.place = ps.map some)
    (hr : List.IsChain Plain xs) :
    (∃ r, Real.numLt xs = .value r ∧ (r = true ↔ List.IsChain (· < ·) ps)) ∧
    (∃ r, Real.numLe xs = .value r ∧ (r = true ↔ List.IsChain (· ≤ ·) ps)) ∧
    (∃ r, Real.numGt xs = .value r ∧ (r = true ↔ List.IsChain (· > ·) ps)) ∧
    (∃ r, Real.numGe xs = .value r ∧ (r = true ↔ List.IsChain (· ≥ ·) ps)) := by
  refine ⟨Real.noAdjacent_spec ?_ xs ps hv hp hr, Real.noAdjacent_spec ?_ xs ps hv hp hr,
    Real.noAdjacent_spec ?_ xs ps hv hp hr, Real.noAdjacent_spec ?_ xs ps hv hp hr⟩
  · intro x y a b hx hy ha hb hpl
    obtain ⟨r, h1, h2⟩ := Real.lessThan_spec hx hy ha hb hpl
    refine ⟨!r, by simp [Real.greaterThanOrEquals, h1], ?_⟩
    rw [Bool.not_eq_true', ← Bool.not_eq_true, h2]
  · intro x y a b hx hy ha hb hpl
    obtain ⟨r, h1, h2⟩ := Real.greaterThan_spec hx hy ha hb hpl
    exact ⟨r, h1, by rw [h2, not_le]⟩
  · intro x y a b hx hy ha hb hpl
    obtain ⟨r, h1, h2⟩ := Real.greaterThan_spec hx hy ha hb hpl
    refine ⟨!r, by simp [Real.lessThanOrEquals, h1], ?_⟩
    rw [Bool.not_eq_true', ← Bool.not_eq_true, h2]
  · intro x y a b hx hy ha hb hpl
    obtain ⟨r, h1, h2⟩ := Real.lessThan_spec hx hy ha hb hpl
    exact ⟨r, h1, by rw [h2, ge_iff_le, not_le]⟩

theorem Real.equals_spec {x y : Real} {a b : WithBot (WithTop ℚ)} (hx : x.Valid) (hy : y.Valid)
    (ha : x.place = some a) (hb : y.place = some b) (hp : Exactly x y) :
    ∃ r, x.equals y = .value r ∧ (r = true ↔ a = b) := by
  obtain ⟨hp, hf⟩ := hp
  cases x with
  | exact m =>
    simp only [Real.place, Option.some.injEq] at ha
    subst ha
    cases y with
    | exact n =>
      simp only [Real.place, Option.some.injEq] at hb
      subst hb
      refine ⟨_, rfl, ?_⟩
      rw [equals_iff hx hy, WithBot.coe_inj, WithTop.coe_inj]
    | flo d =>
      cases m with
      | small i => exact ⟨_, rfl, Flo.eq_iff (cast_small_place hx) hb⟩
      | large z =>
        obtain ⟨c, hc, _, h1, _⟩ := mpzCmpD_spec (z := z) hb
        refine ⟨decide (c = 0), by simp [Real.equals, hc], ?_⟩
        rw [decide_eq_true_iff, h1]
        rfl
      | ratio q =>
        obtain ⟨n, hn⟩ := hp.1 q rfl
        cases hn
  | flo d =>
    cases y with
    | exact n =>
      simp only [Real.place, Option.some.injEq] at hb
      subst hb
      cases n with
      | small i => exact ⟨_, rfl, Flo.eq_iff ha (cast_small_place hy)⟩
      | large z =>
        obtain ⟨c, hc, _, h1, _⟩ := mpzCmpD_spec (z := z) ha
        refine ⟨decide (0 = c), by simp [Real.equals, hc], ?_⟩
        rw [decide_eq_true_iff, eq_comm, h1, eq_comm]
        rfl
      | ratio q =>
        obtain ⟨n, hn⟩ := hp.2 q rfl
        cases hn
    | flo e =>
      refine ⟨_, rfl, ?_⟩
      cases d with
      | nan => cases ha
      | inf s =>
        have : inexactEquals (.inf s) e = (Flo.inf s).eq e := by
          simp [inexactEquals, Flo.isNan, Flo.isInf]
        rw [this]
        exact Flo.eq_iff ha hb
      | finite s m =>
        cases e with
        | nan => cases hb
        | inf t =>
          have : inexactEquals (.finite s m) (.inf t) = (Flo.finite s m).eq (.inf t) := by
            simp [inexactEquals, Flo.isNan, Flo.isInf]
          rw [this]
          exact Flo.eq_iff ha hb
        | finite t n =>
          have h1 : (Flo.finite s m).Is (if s then -m else m) := ⟨s, m, rfl, rfl⟩
          have h2 : (Flo.finite t n).Is (if t then -n else n) := ⟨t, n, rfl, rfl⟩
          obtain ⟨h3, h4⟩ := hf _ _ _ _ rfl rfl h1 h2
          obtain ⟨h5, h6⟩ := inexactEquals_finite h1 h2
          simp only [Real.place, Flo.place, Option.some.injEq] at ha hb
          subst ha
          subst hb
          rw [WithBot.coe_inj, WithTop.coe_inj]
          by_cases he : (if s then -m else m : ℚ) = (if t then -n else n)
          · rw [he, sub_self, abs_zero] at h5
            exact iff_of_true (h5 (by norm_num)) he
          · have := h6 (far_apart h1 h2 hx hy h3 h4 he)
            rw [this]
            simp [he]

/-- **C73**, partly: an n-ary `=` of numbers other than NaN holds just if all neighbours are equal,
provided they are exact, infinite, or at least 2 in magnitude. -/
theorem C73_equal_partial {xs : List Real} {ps : List (WithBot (WithTop ℚ))}
    (hv : ∀ x ∈ xs, x.Valid) (hp : xs.map Real.place = ps.map some)
    (hr : List.IsChain Exactly xs) :
    ∃ r, Real.numEq xs = .value r ∧ (r = true ↔ List.IsChain (· = ·) ps) := by
  refine Real.noAdjacent_spec ?_ xs ps hv hp hr
  intro x y a b hx hy ha hb hpl
  obtain ⟨r, h1, h2⟩ := Real.equals_spec hx hy ha hb hpl
  refine ⟨!r, by simp [Real.notEquals, h1], ?_⟩
  rw [Bool.not_eq_true', ← Bool.not_eq_true, h2]

/-- **C73**: `=` holds of every inexact number and itself, and of any two that are closer than the
tolerance; it does not hold of two that differ by twice the tolerance. -/
theorem C73_tolerance {x y : Flo} {v w : ℚ} (hx : x.Is v) (hy : y.Is w) :
    (|v - w| ≤ 1 / 2 ^ 52 → Real.numEq [.flo x, .flo y] = .value true) ∧
    (1 / 2 ^ 51 ≤ |v - w| → Real.numEq [.flo x, .flo y] = .value false) := by
  obtain ⟨h1, h2⟩ := inexactEquals_finite hx hy
  exact ⟨fun h => by simp [Real.numEq, Real.noAdjacent, Real.notEquals, Real.equals, h1 h],
    fun h => by simp [Real.numEq, Real.noAdjacent, Real.notEquals, Real.equals, h2 h]⟩

/-- **C73**: `zero?`, `positive?` and `negative?` are exact on inexact numbers. -/
theorem C73_sign {d : Flo} {v : ℚ} (h : d.Is v) :
    Real.isZero (.flo d) = .value (decide (v = 0)) ∧
    Real.isPositive (.flo d) = .value (decide (0 < v)) ∧
    Real.isNegative (.flo d) = .value (decide (v < 0)) := by
  have h0 : (castFixnum 0).place = some (((0 : ℚ) : WithTop ℚ) : WithBot (WithTop ℚ)) := by
    have := cast_small_place (i := 0) ⟨by norm_num, by norm_num⟩
    rwa [Int.cast_zero] at this
  have hp := h.place
  refine ⟨?_, ?_, ?_⟩
  · have := Flo.eq_iff hp h0
    rw [WithBot.coe_inj, WithTop.coe_inj] at this
    simp only [Real.isZero, Real.equals, Outcome.value.injEq]
    rw [Bool.eq_iff_iff, this, decide_eq_true_iff]
  · have := Flo.lt_iff h0 hp
    rw [WithBot.coe_lt_coe, WithTop.coe_lt_coe] at this
    simp only [Real.isPositive, Real.lessThan, Outcome.value.injEq]
    rw [Bool.eq_iff_iff, this, decide_eq_true_iff]
  · have := Flo.lt_iff hp h0
    rw [WithBot.coe_lt_coe, WithTop.coe_lt_coe] at this
    simp only [Real.isNegative, Real.lessThan, Outcome.value.injEq]
    rw [Bool.eq_iff_iff, this, decide_eq_true_iff]

/-- The inexact number `n / 2 ^ 52`. -/
def tiny (n : Nat) : Flo := .finite false (n / 2 ^ 52)

/-- **C73** fails: `=` is not transitive on inexact numbers, and `=` and `<` hold of the same two. -/
theorem C73_transitive_fails :
    Real.numEq [.flo (tiny 0), .flo (tiny 1)] = .value true ∧
    Real.numEq [.flo (tiny 1), .flo (tiny 2)] = .value true ∧
    Real.numEq [.flo (tiny 0), .flo (tiny 2)] = .value false ∧
    Real.numLt [.flo (tiny 0), .flo (tiny 1)] = .value true := by
  have hi : ∀ n, (tiny n).Is (n / 2 ^ 52) := fun n => ⟨false, _, rfl, rfl⟩
  refine ⟨(C73_tolerance (hi 0) (hi 1)).1 ?_, (C73_tolerance (hi 1) (hi 2)).1 ?_,
    (C73_tolerance (hi 0) (hi 2)).2 ?_, ?_⟩
  · rw [abs_of_neg (by norm_num)]; norm_num
  · rw [abs_of_neg (by norm_num)]; norm_num
  · rw [abs_of_neg (by norm_num)]; norm_num
  · have : (tiny 0).lt (tiny 1) = true := by
      simp [tiny, Flo.lt, signed]
    simp [Real.numLt, Real.noAdjacent, Real.greaterThanOrEquals, Real.lessThan, this]

/-- **C73** fails: a ratio is rounded before it is compared, so that `=` is not transitive: 1/10 equals
`(inexact 1/10)`, which equals its exact value, which does not equal 1/10. -/
theorem C73_ratio_fails :
    let d : Real := .flo (.finite false (7205759403792793 / 2 ^ 56))
    ∃ n : Num, n.Valid ∧ d.toExact = .value (.exact n) ∧
    Real.numEq [.exact (.ratio ⟨1, 10⟩), d] = .value true ∧
    Real.numEq [d, .exact n] = .value true ∧
    Real.numEq [.exact (.ratio ⟨1, 10⟩), .exact n] = .value false := by
  intro d
  have hr : Rep (7205759403792793 / 2 ^ 56) :=
    ⟨7205759403792793, -56, by norm_num, by norm_num, by norm_num, by norm_num⟩
  have hi : (Flo.finite false (7205759403792793 / 2 ^ 56)).Is (7205759403792793 / 2 ^ 56) :=
    ⟨false, _, rfl, rfl⟩
  obtain ⟨n, h1, h2, h3⟩ := C72_exact hi
  obtain ⟨hv, _, hc, _⟩ := C72_closest_fails
  have hcast : castRatio ⟨1, 10⟩ = .finite false (7205759403792793 / 2 ^ 56) := by
    simpa [Real.inexact, Num.cast] using hc
  have hself : inexactEquals (.finite false (7205759403792793 / 2 ^ 56))
      (.finite false (7205759403792793 / 2 ^ 56)) = true :=
    (inexactEquals_finite hi hi).1 (by rw [sub_self, abs_zero]; norm_num)
  refine ⟨n, h2, h1, ?_, ?_, ?_⟩
  · simp [Real.numEq, Real.noAdjacent, Real.notEquals, Real.equals, d, hcast, hself]
  · -- the exact value is a ratio, and comes back
    obtain ⟨x, e, hx, hxe, _, hxd⟩ := C72_round_trip (d := .finite false (7205759403792793 / 2 ^ 56))
      hr hi
    rw [h1] at hx
    cases hx
    rw [hxd (by norm_num)] at hxe
    have hne : Number.isInteger n = false := by
      cases n with
      | small i =>
        exfalso
        have h4 : (i : ℚ) = 7205759403792793 / 2 ^ 56 := h3
        have h5 : ((i * 2 ^ 56 : ℤ) : ℚ) = 7205759403792793 := by push_cast; rw [h4]; norm_num
        have h6 : i * 2 ^ 56 = 7205759403792793 := by exact_mod_cast h5
        omega
      | large i =>
        exfalso
        have h4 : (i : ℚ) = 7205759403792793 / 2 ^ 56 := h3
        have h5 : ((i * 2 ^ 56 : ℤ) : ℚ) = 7205759403792793 := by push_cast; rw [h4]; norm_num
        have h6 : i * 2 ^ 56 = 7205759403792793 := by exact_mod_cast h5
        omega
      | ratio q =>
        by_contra hc
        simp only [Number.isInteger, Bool.not_eq_false, beq_iff_eq] at hc
        have h4 : (q.num : ℚ) / q.den = 7205759403792793 / 2 ^ 56 := h3
        rw [hc] at h4
        have h5 : ((q.num * 2 ^ 56 : ℤ) : ℚ) = 7205759403792793 := by
          push_cast
          have : (q.num : ℚ) = 7205759403792793 / 2 ^ 56 := by rw [← h4]; simp
          rw [this]
          norm_num
        have h6 : q.num * 2 ^ 56 = 7205759403792793 := by exact_mod_cast h5
        omega
    cases n with
    | small i => simp [Number.isInteger] at hne
    | large i => simp [Number.isInteger] at hne
    | ratio q =>
      have hq : castRatio q = .finite false (7205759403792793 / 2 ^ 56) := by
        simpa [Real.inexact, Num.cast] using hxe
      simp [Real.numEq, Real.noAdjacent, Real.notEquals, Real.equals, d, hq, hself]
  · have : Number.equals (.ratio ⟨1, 10⟩) n = false := by
      rw [← Bool.not_eq_true, equals_iff hv h2, h3]
      norm_num [Num.val]
    simp [Real.numEq, Real.noAdjacent, Real.notEquals, Real.equals, this]

/-- **C73** fails of NaN: it is equal to itself, neither less nor greater than a number but both
`<=` and `>=`, and comparing it with a big exact integer is undefined. -/
theorem C73_nan_fails (x : Flo) (z : Int) :
    Real.numEq [.flo .nan, .flo .nan] = .value true ∧
    Real.numLe [.flo .nan, .flo x] = .value true ∧
    Real.numGe [.flo .nan, .flo x] = .value true ∧
    Real.numLt [.flo .nan, .exact (.large z)] = .undefined := by
  refine ⟨rfl, ?_, ?_, rfl⟩
  · cases x <;> rfl
  · rfl

/-- A case: 1.5, 2, the big integer 2 ^ 70 and `+inf.0` ascend. -/
example : Real.numLt [.flo (.finite false (3 / 2)), .exact (.small 2), .exact (.large (2 ^ 70)),
    .flo (.inf false)] = .value true := by
  obtain ⟨⟨r, h1, h2⟩, _⟩ := C73_order_partial
    (xs := [.flo (.finite false (3 / 2)), .exact (.small 2), .exact (.large (2 ^ 70)),
      .flo (.inf false)])
    (ps := [((3 / 2 : ℚ) : WithTop ℚ), ((2 : ℚ) : WithTop ℚ), (((2 ^ 70 : ℤ) : ℚ) : WithTop ℚ),
      ((⊤ : WithTop ℚ) : WithBot (WithTop ℚ))])
    (by
      intro x hx
      simp only [List.mem_cons, List.not_mem_nil, or_false] at hx
      rcases hx with rfl | rfl | rfl | rfl
      · exact ⟨3, -1, by norm_num, by norm_num, by norm_num, by norm_num⟩
      · exact ⟨by norm_num, by norm_num⟩
      · trivial
      · trivial)
    (by simp only [List.map_cons, List.map_nil, Real.place, Flo.place, Num.val]; rfl)
    (by simp [Plain])
  rw [h1, h2.2 (by
    simp only [List.isChain_cons_cons, WithBot.coe_lt_coe, WithTop.coe_lt_coe, WithTop.coe_lt_top]
    norm_num)]

/-- A case: 2.5, as a double, is not equal to 3.5. -/
example : Real.numEq [.flo (.finite false (5 / 2)), .flo (.finite false (7 / 2))] = .value false := by
  refine (C73_tolerance ⟨false, _, rfl, rfl⟩ ⟨false, _, rfl, rfl⟩).2 ?_
  norm_num [abs_of_neg]

end Meevax.Number
