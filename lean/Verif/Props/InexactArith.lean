import Verif.Props.Inexact

/-
C74: arithmetic, rounding, predicates, `max` and `min` on inexact numbers.
-/

namespace Meevax.Number

/-! ### C74: arithmetic -/

/-- **C74**: the result of `+`, `-`, `*` or `/` is inexact just if an operand is inexact, and with an
inexact operand the operation always returns. -/
theorem C74_contagion (x y : Real) :
    ∀ op ∈ [Real.add, Real.sub, Real.mul, Real.div],
      (∀ r, op x y = .value r → (r.isInexact = (x.isInexact || y.isInexact))) ∧
      ((x.isInexact || y.isInexact) = true → ∃ r, op x y = .value r) := by
  have key : ∀ f g, (∀ r, Real.lift f g x y = .value r →
      (r.isInexact = (x.isInexact || y.isInexact))) ∧
      ((x.isInexact || y.isInexact) = true → ∃ r, Real.lift f g x y = .value r) := by
    intro f g
    cases x with
    | exact m =>
      cases y with
      | exact n =>
        refine ⟨fun r h => ?_, fun h => by simp [Real.isInexact, Real.isExact] at h⟩
        simp only [Real.lift] at h
        cases hf : f m n with
        | value a =>
          rw [hf] at h
          simp only [bind_value, pure_eq, Outcome.value.injEq] at h
          subst h
          rfl
        | raised => rw [hf] at h; cases h
        | undefined => rw [hf] at h; cases h
      | flo e => exact ⟨fun r h => by cases h; rfl, fun _ => ⟨_, rfl⟩⟩
    | flo d =>
      cases y with
      | exact n => exact ⟨fun r h => by cases h; rfl, fun _ => ⟨_, rfl⟩⟩
      | flo e => exact ⟨fun r h => by cases h; rfl, fun _ => ⟨_, rfl⟩⟩
  intro op hop
  simp only [List.mem_cons, List.not_mem_nil, or_false] at hop
  rcases hop with rfl | rfl | rfl | rfl <;> exact key _ _

theorem lift_flo {f : Num → Num → Outcome Num} {g : Flo → Flo → Flo} {x y : Real} {v w : ℚ}
    (hx : x.Has v) (hy : y.Has w) (hi : x.isInexact = true ∨ y.isInexact = true) :
    ∃ d e, d.Is v ∧ e.Is w ∧ Real.lift f g x y = .value (.flo (g d e)) := by
  have hcast : ∀ {n : Num} {v : ℚ}, n.Valid → n.val = v → Rep |v| → n.cast.Is v := by
    intro n v h1 h2 h3
    subst h2
    obtain ⟨d, e, _, h⟩ := C72_inexact h1 h3
    simp only [Real.inexact, Real.flo.injEq] at e
    rwa [e]
  rcases hx with ⟨m, rfl, h1, h2, h3⟩ | ⟨d, rfl, h1⟩
  · rcases hy with ⟨n, rfl, h4, h5, h6⟩ | ⟨e, rfl, h4⟩
    · simp [Real.isInexact, Real.isExact] at hi
    · exact ⟨_, e, hcast h1 h2 h3, h4, rfl⟩
  · rcases hy with ⟨n, rfl, h4, h5, h6⟩ | ⟨e, rfl, h4⟩
    · exact ⟨d, _, h1, hcast h4 h5 h6, rfl⟩
    · exact ⟨d, e, h1, h4, rfl⟩

/-- **C74**, partly: with an inexact operand, finite operands and each exact operand representable,
`+`, `-`, `*` and `/` give the inexact number closest to the mathematical result. What is missing:
exact operands that must be rounded first; `C74_operand_fails`. -/
theorem C74_closest_partial {x y : Real} {v w : ℚ} (hx : x.Has v) (hy : y.Has w)
    (hi : x.isInexact = true ∨ y.isInexact = true) :
    (∃ d, x.add y = .value (.flo d) ∧ d.Rounds (v + w)) ∧
    (∃ d, x.sub y = .value (.flo d) ∧ d.Rounds (v - w)) ∧
    (∃ d, x.mul y = .value (.flo d) ∧ d.Rounds (v * w)) ∧
    (w ≠ 0 → ∃ d, x.div y = .value (.flo d) ∧ d.Rounds (v / w)) := by
  refine ⟨?_, ?_, ?_, fun hw => ?_⟩
  · obtain ⟨d, e, ⟨s, m, rfl, hd⟩, ⟨t, n, rfl, he⟩, h⟩ :=
      lift_flo (f := Number.add) (g := Flo.add) hx hy hi
    refine ⟨_, h, ?_⟩
    rw [← hd, ← he]
    exact roundEven_spec _ _
  · obtain ⟨d, e, ⟨s, m, rfl, hd⟩, ⟨t, n, rfl, he⟩, h⟩ :=
      lift_flo (f := Number.sub) (g := Flo.sub) hx hy hi
    refine ⟨_, h, ?_⟩
    have : signed s m + signed (!t) n = v - w := by
      rw [← hd, ← he]
      cases s <;> cases t <;> simp [signed, sub_eq_add_neg]
    simp only [Flo.sub, Flo.neg, Flo.add, this]
    exact roundEven_spec _ _
  · obtain ⟨d, e, ⟨s, m, rfl, hd⟩, ⟨t, n, rfl, he⟩, h⟩ :=
      lift_flo (f := Number.mul) (g := Flo.mul) hx hy hi
    refine ⟨_, h, ?_⟩
    rw [← hd, ← he]
    exact roundEven_spec _ _
  · obtain ⟨d, e, ⟨s, m, rfl, hd⟩, ⟨t, n, rfl, he⟩, h⟩ :=
      lift_flo (f := Number.div) (g := Flo.div) hx hy hi
    refine ⟨_, h, ?_⟩
    have hn : n ≠ 0 := by
      rintro rfl
      exact hw (by rw [← he]; simp)
    simp only [Flo.div, if_neg hn]
    rw [← hd, ← he]
    exact roundEven_spec _ _

/-- **C74**: a mathematical result that is representable is the result. -/
theorem C74_exact_result {x y : Real} {v w : ℚ} (hx : x.Has v) (hy : y.Has w)
    (hi : x.isInexact = true ∨ y.isInexact = true) :
    (Rep |v + w| → ∃ d, x.add y = .value (.flo d) ∧ d.Is (v + w)) ∧
    (Rep |v - w| → ∃ d, x.sub y = .value (.flo d) ∧ d.Is (v - w)) ∧
    (Rep |v * w| → ∃ d, x.mul y = .value (.flo d) ∧ d.Is (v * w)) ∧
    (w ≠ 0 → Rep |v / w| → ∃ d, x.div y = .value (.flo d) ∧ d.Is (v / w)) := by
  obtain ⟨⟨d1, e1, h1⟩, ⟨d2, e2, h2⟩, ⟨d3, e3, h3⟩, h4⟩ := C74_closest_partial hx hy hi
  refine ⟨fun h => ⟨d1, e1, h1.rep h⟩, fun h => ⟨d2, e2, h2.rep h⟩, fun h => ⟨d3, e3, h3.rep h⟩,
    fun hw h => ?_⟩
  obtain ⟨d, e, h'⟩ := h4 hw
  exact ⟨d, e, h'.rep h⟩

/-- **C74** fails: the exact operand is rounded before the operation, so that the sum of
9007199254740993 and 1.0 is 9007199254740992.0 although 9007199254740994.0 is representable. -/
theorem C74_operand_fails :
    ∃ d, Real.add (.exact (.large 9007199254740993)) (.flo (.finite false 1)) = .value (.flo d) ∧
      d.Is 9007199254740992 ∧ Rep 9007199254740994 := by
  have hv : (Num.large 9007199254740993).Valid := trivial
  have hval : (Num.large 9007199254740993).val = 9007199254740993 := by norm_num [Num.val]
  have hb : |(9007199254740993 : ℚ)| < 2 ^ 1024 := by
    refine lt_trans ?_ (two_pow_lt (show 54 < 1024 by norm_num))
    norm_num [abs_of_pos]
  obtain ⟨s, t, e, ht, hs⟩ := (Num.cast_spec hv).1 (by rw [hval]; exact hb)
  rw [hval, abs_of_pos (by norm_num)] at ht
  have hr : Rep 9007199254740992 :=
    ⟨4503599627370496, 1, by norm_num, by norm_num, by norm_num, by norm_num⟩
  have hr2 : Rep 9007199254740994 :=
    ⟨4503599627370497, 1, by norm_num, by norm_num, by norm_num, by norm_num⟩
  have htr : Truncates 9007199254740993 9007199254740992 := by
    refine ⟨hr, by norm_num, fun w hw hle => ?_⟩
    rcases hw.onGrid (E := 1) with ⟨j, rfl⟩ | ⟨h, _⟩
    · have hj : ((2 * j : ℤ) : ℚ) ≤ 9007199254740993 := by
        push_cast
        norm_num at hle
        exact hle
      have hj' : 2 * j ≤ 9007199254740993 := by exact_mod_cast hj
      have hj2 : 2 * j ≤ 9007199254740992 := by omega
      have : ((2 * j : ℤ) : ℚ) ≤ 9007199254740992 := by exact_mod_cast hj2
      push_cast at this
      norm_num
      exact this
    · norm_num at h
      exact h.le
  have htt := ht.unique htr
  subst htt
  have hsf : s = false := by
    cases s
    · rfl
    · rw [hval] at hs
      norm_num at hs
  subst hsf
  refine ⟨(Flo.finite false 9007199254740992).add (.finite false 1), ?_, ?_, hr2⟩
  · simp only [Real.add, Real.lift, e]
  · -- a tie, of which the even side is taken
    have hround := roundEven_spec (false && false) (signed false 9007199254740992 + signed false 1)
    have hsum : signed false 9007199254740992 + signed false 1 = 9007199254740993 := by
      norm_num [signed]
    change (roundEven _ _).Is _
    rw [hsum] at hround ⊢
    have hno : ¬ (2 : ℚ) ^ 1024 - 2 ^ 970 ≤ |9007199254740993| := by
      have h1 := hr2.not_over
      intro h2
      exact h1 (h2.trans (by norm_num [abs_of_pos]))
    rw [Flo.Rounds, if_neg hno] at hround
    obtain ⟨s, v, e', _, hsg, hn⟩ := hround
    rw [e']
    have hs' := hsg (by norm_num)
    subst hs'
    refine ⟨false, v, rfl, ?_⟩
    rw [abs_of_pos (by norm_num)] at hn
    obtain ⟨hrv, hnear, htie⟩ := hn
    have h1 := hnear _ hr
    have h2 := hnear _ hr2
    norm_num at h1 h2
    have hvb : 9007199254740992 ≤ v ∧ v ≤ 9007199254740994 := by
      have := abs_le.1 h1
      constructor <;> linarith
    have hgrid : v = 9007199254740992 ∨ v = 9007199254740994 := by
      rcases hrv.onGrid (E := 1) with ⟨j, rfl⟩ | ⟨h, _⟩
      · norm_num at hvb ⊢
        have a1 : ((9007199254740992 : ℤ) : ℚ) ≤ ((2 * j : ℤ) : ℚ) := by push_cast; exact hvb.1
        have a2 : ((2 * j : ℤ) : ℚ) ≤ ((9007199254740994 : ℤ) : ℚ) := by push_cast; exact hvb.2
        have a3 : (9007199254740992 : ℤ) ≤ 2 * j := by exact_mod_cast a1
        have a4 : 2 * j ≤ (9007199254740994 : ℤ) := by exact_mod_cast a2
        have : j = 4503599627370496 ∨ j = 4503599627370497 := by omega
        rcases this with rfl | rfl
        · left; norm_num
        · right; norm_num
      · norm_num at h
        exact absurd hvb.1 (not_le.2 h)
    rcases hgrid with h | h
    · simp [h]
    · exfalso
      obtain ⟨k, ex, hk, hk2, hk3, hk4⟩ := htie ⟨9007199254740992, hr, by rw [h]; norm_num, by
        rw [h]
        norm_num⟩
      rw [h] at hk
      -- 2 k 2^ex = 2^53 + 2 with 2 k in [2^52, 2^53]: ex = 1 and 2 k = 2^52 + 1
      have hkne : (0 : ℚ) < (2 * k : ℕ) := by
        by_contra hc
        have : ((2 * k : ℕ) : ℚ) = 0 := le_antisymm (not_lt.1 hc) (Nat.cast_nonneg _)
        rw [this] at hk
        norm_num at hk
      have hkle : ((2 * k : ℕ) : ℚ) ≤ 2 ^ 53 := by exact_mod_cast hk2
      rcases lt_trichotomy ex 1 with hlt | heq | hgt
      · have : (2 : ℚ) ^ ex ≤ 2 ^ (0 : ℤ) := zpow_le_zpow_right₀ (by norm_num) (by omega)
        have h5 : ((2 * k : ℕ) : ℚ) * 2 ^ ex ≤ 2 ^ 53 * 1 := by
          have hp := two_zpow_pos ex
          rw [zpow_zero] at this
          exact mul_le_mul hkle this hp.le (by norm_num)
        rw [← hk] at h5
        norm_num at h5
      · subst heq
        have h6 : ((2 * k * 2 : ℕ) : ℚ) = ((9007199254740994 : ℕ) : ℚ) := by
          rw [Nat.cast_mul (2 * k) 2]
          norm_num at hk ⊢
          linarith
        have h7 : 2 * k * 2 = 9007199254740994 := by exact_mod_cast h6
        omega
      · have h8 : (2 : ℚ) ^ (2 : ℤ) ≤ 2 ^ ex := zpow_le_zpow_right₀ (by norm_num) (by omega)
        have h9 : (2 : ℚ) ^ 52 ≤ (2 * k : ℕ) := by
          rcases hk4 with h | h
          · exact_mod_cast h
          · omega
        have h5 : (2 : ℚ) ^ 52 * 2 ^ (2 : ℤ) ≤ ((2 * k : ℕ) : ℚ) * 2 ^ ex :=
          mul_le_mul h9 h8 (by norm_num) hkne.le
        rw [← hk] at h5
        norm_num at h5

/-! ### C74: infinities, NaN and the sign -/

theorem roundEven_ne_nan (z : Bool) (x : ℚ) : roundEven z x ≠ .nan := by
  unfold roundEven
  split
  · exact (fun e => by cases e)
  · simp only
    split <;> split <;> exact (fun e => by cases e)

theorem roundEven_neg (z : Bool) (x : ℚ) : roundEven (!z) (-x) = (roundEven z x).neg := by
  by_cases h : x = 0
  · simp [roundEven, h, Flo.neg]
  · have hu : ulp (-x) = ulp x := by rw [ulp, ulp, abs_neg]
    have hd : decide (-x < 0) = !decide (x < 0) := by
      rcases lt_or_gt_of_ne h with h | h
      · simp [h, h.le]
      · simp [h, h.le]
    have hn : -x ≠ 0 := neg_ne_zero.2 h
    simp only [roundEven, if_neg h, if_neg hn, hu, abs_neg, hd]
    split <;> split <;> rfl

/-- **C74**: an operation on inexact numbers gives NaN just if an operand is NaN, or for the sum of
opposite infinities, the product of a zero and an infinity, and the quotient of two zeros or two
infinities. -/
theorem C74_nan (x y : Flo) :
    (Real.add (.flo x) (.flo y) = .value (.flo .nan) ↔
      x = .nan ∨ y = .nan ∨ ∃ s, x = .inf s ∧ y = .inf (!s)) ∧
    (Real.sub (.flo x) (.flo y) = .value (.flo .nan) ↔
      x = .nan ∨ y = .nan ∨ ∃ s, x = .inf s ∧ y = .inf s) ∧
    (Real.mul (.flo x) (.flo y) = .value (.flo .nan) ↔
      x = .nan ∨ y = .nan ∨ ∃ s t, (x = .finite s 0 ∧ y = .inf t) ∨ (x = .inf s ∧ y = .finite t 0)) ∧
    (Real.div (.flo x) (.flo y) = .value (.flo .nan) ↔
      x = .nan ∨ y = .nan ∨ ∃ s t, (x = .finite s 0 ∧ y = .finite t 0) ∨ (x = .inf s ∧ y = .inf t)) := by
  simp only [Real.add, Real.sub, Real.mul, Real.div, Real.lift, Outcome.value.injEq, Real.flo.injEq]
  refine ⟨?_, ?_, ?_, ?_⟩
  · cases x <;> cases y <;> simp [Flo.add, roundEven_ne_nan]
    rename_i a b
    cases a <;> cases b <;> simp
  · cases x <;> cases y <;> simp [Flo.sub, Flo.neg, Flo.add, roundEven_ne_nan]
    rename_i a b
    cases a <;> cases b <;> simp
  · cases x <;> cases y <;> simp [Flo.mul, roundEven_ne_nan]
  · cases x <;> cases y <;> simp [Flo.div, roundEven_ne_nan]
    split
    · split <;> simp [*]
    · simp [*, roundEven_ne_nan]

/-- **C74**: `+` and `*` of inexact numbers are commutative. -/
theorem C74_commutative (x y : Flo) :
    Real.add (.flo x) (.flo y) = Real.add (.flo y) (.flo x) ∧
    Real.mul (.flo x) (.flo y) = Real.mul (.flo y) (.flo x) := by
  simp only [Real.add, Real.mul, Real.lift, Outcome.value.injEq, Real.flo.injEq]
  constructor
  · cases x <;> cases y <;> simp [Flo.add, add_comm, Bool.and_comm]
    rename_i a b
    cases a <;> cases b <;> simp
  · cases x <;> cases y <;> simp [Flo.mul, mul_comm, bne_comm]

/-- **C74**: changing the sign of an operand of `*` or `/` changes the sign of the result, also if it
is a zero or an infinity. -/
theorem C74_negate (x y : Flo) :
    (∀ r, Real.mul (.flo x) (.flo y) = .value (.flo r) →
      Real.mul (.flo x.neg) (.flo y) = .value (.flo r.neg) ∧
      Real.mul (.flo x) (.flo y.neg) = .value (.flo r.neg)) ∧
    (∀ r, Real.div (.flo x) (.flo y) = .value (.flo r) →
      Real.div (.flo x.neg) (.flo y) = .value (.flo r.neg) ∧
      Real.div (.flo x) (.flo y.neg) = .value (.flo r.neg)) := by
  have hs : ∀ s m, signed (!s) m = -signed s m := by intro s m; cases s <;> simp [signed]
  have hb1 : ∀ s t : Bool, ((!s) != t) = !(s != t) := by decide
  have hb2 : ∀ s t : Bool, (s != (!t)) = !(s != t) := by decide
  simp only [Real.mul, Real.div, Real.lift, Outcome.value.injEq, Real.flo.injEq]
  constructor
  · rintro r rfl
    constructor
    · cases x <;> cases y <;> simp only [Flo.neg, Flo.mul, hs, hb1, neg_mul, roundEven_neg]
      all_goals try (split <;> rfl)
    · cases x <;> cases y <;> simp only [Flo.neg, Flo.mul, hs, hb2, mul_neg, roundEven_neg]
      all_goals try (split <;> rfl)
  · rintro r rfl
    constructor
    · cases x <;> cases y <;> simp only [Flo.neg, Flo.div, hs, hb1, neg_div, roundEven_neg]
      all_goals try (split <;> [(split <;> rfl); rfl])
    · cases x <;> cases y <;> simp only [Flo.neg, Flo.div, hs, hb2, div_neg, roundEven_neg]
      all_goals try (split <;> [(split <;> rfl); rfl])

/-- **C74**: infinities absorb finite numbers, the quotient by an infinity is a zero, and the quotient
of a positive number by a positive zero is the positive infinity. -/
theorem C74_infinite (s : Bool) {m : ℚ} (h : 0 < m) :
    Real.add (.flo (.inf s)) (.flo (.finite false m)) = .value (.flo (.inf s)) ∧
    Real.sub (.flo (.inf s)) (.flo (.finite false m)) = .value (.flo (.inf s)) ∧
    Real.add (.flo (.inf s)) (.flo (.inf s)) = .value (.flo (.inf s)) ∧
    Real.mul (.flo (.inf false)) (.flo (.finite false m)) = .value (.flo (.inf false)) ∧
    Real.mul (.flo (.inf false)) (.flo (.inf false)) = .value (.flo (.inf false)) ∧
    Real.div (.flo (.inf false)) (.flo (.finite false m)) = .value (.flo (.inf false)) ∧
    Real.div (.flo (.finite false m)) (.flo (.inf false)) = .value (.flo (.finite false 0)) ∧
    Real.div (.flo (.finite false m)) (.flo (.finite false 0)) = .value (.flo (.inf false)) := by
  simp [Real.add, Real.sub, Real.mul, Real.div, Real.lift, Flo.add, Flo.sub, Flo.neg, Flo.mul,
    Flo.div, h.ne']

/-! ### C74: rounding to an integer -/

theorem Rep.integer {v : ℚ} (h : Rep v) (h1 : 2 ^ 52 ≤ v) : ∃ z : ℤ, v = z := by
  rcases h.onGrid (E := 0) with ⟨j, hj⟩ | ⟨hj, _⟩
  · exact ⟨j, by simpa using hj⟩
  · simp only [zpow_zero, mul_one] at hj
    exact absurd h1 (not_le.2 hj)

/-- Integers next to representable numbers are representable. -/
theorem Rep.near {v : ℚ} {z : ℤ} (h : Rep |v|) (h1 : |(z : ℚ) - v| < 1) : Rep |(z : ℚ)| := by
  rcases lt_or_ge |v| (2 ^ 52) with hs | hs
  · refine Rep.int ?_
    have h2 : |(z : ℚ)| < 2 ^ 52 + 1 := by
      have := abs_sub_abs_le_abs_sub (z : ℚ) v
      linarith
    have h3 : ((|z| : ℤ) : ℚ) < ((2 ^ 52 + 1 : ℤ) : ℚ) := by
      rw [Int.cast_abs]
      refine lt_of_lt_of_eq h2 ?_
      norm_num
    have h4 : |z| < 2 ^ 52 + 1 := by exact_mod_cast h3
    omega
  · obtain ⟨w, hw⟩ := h.integer hs
    have hz : ∃ u : ℤ, v = u := by
      rcases abs_choice v with h | h
      · exact ⟨w, by rw [← h, hw]⟩
      · exact ⟨-w, by push_cast; linarith⟩
    obtain ⟨u, rfl⟩ := hz
    have h2 : |z - u| < 1 := by exact_mod_cast h1
    have h3 : z = u := by
      have := Int.abs_lt_one_iff.1 h2
      omega
    rw [h3]
    exact h

theorem Flo.Is.rep {d : Flo} {v : ℚ} (h : d.Is v) (hd : d.Valid) : Rep |v| := by
  obtain ⟨s, m, rfl, hv⟩ := h
  have hm : Rep m := hd
  rw [← hv]
  cases s <;> simpa [abs_of_nonneg hm.nonneg] using hm

theorem nearest_is {f : Double → Int} {d : Flo} {v : ℚ} (h : d.Is v) (hd : d.Valid)
    (hneg : v < 0 → f v ≤ 0) (hpos : 0 ≤ v → 0 ≤ f v) (hclose : |(f v : ℚ) - v| < 1) :
    ∃ e, Real.nearest f (.flo d) = .value (.flo e) ∧ e.Valid ∧ e.Is (f v) := by
  have hr := h.rep hd
  have hr' := hr.near hclose
  obtain ⟨s, m, rfl, hv⟩ := h
  have hs : signed s m = v := hv
  have hm : 0 ≤ m := Rep.nonneg hd
  refine ⟨.finite s |(f v : ℚ)|, by simp only [Real.nearest, Flo.nearest, hs], hr', s, _, rfl, ?_⟩
  cases s
  · simp only [Bool.false_eq_true, if_false] at hv ⊢
    have := hpos (by linarith)
    exact abs_of_nonneg (by exact_mod_cast this)
  · simp only [if_true] at hv ⊢
    have h0 : f v ≤ 0 := by
      rcases lt_or_ge v 0 with h | h
      · exact hneg h
      · have hv0 : v = 0 := by linarith
        rw [hv0] at hclose ⊢
        rw [sub_zero] at hclose
        have : |f 0| < 1 := by exact_mod_cast hclose
        have := Int.abs_lt_one_iff.1 this
        omega
    rw [abs_of_nonpos (by exact_mod_cast h0), neg_neg]

/-- **C74**: `floor` and `ceiling` of a finite inexact number are the integers below and above it, as
inexact numbers; `truncate` is the integer part. -/
theorem C74_floor {d : Flo} {v : ℚ} (h : d.Is v) (hd : d.Valid) :
    (∃ e, Real.floor (.flo d) = .value (.flo e) ∧ e.Valid ∧ e.Is ⌊v⌋) ∧
    (∃ e, Real.ceiling (.flo d) = .value (.flo e) ∧ e.Valid ∧ e.Is ⌈v⌉) ∧
    (∃ e z, Real.truncate (.flo d) = .value (.flo e) ∧ e.Valid ∧ e.Is z ∧ (∃ i : Int, z = i) ∧
      |z| ≤ |v| ∧ |v| < |z| + 1 ∧ 0 ≤ z * v) := by
  refine ⟨?_, ?_, ?_⟩
  · refine nearest_is (f := stdFloor) h hd (fun hv => ?_) (fun hv => Int.floor_nonneg.2 hv) ?_
    · have h1 : (stdFloor v : ℚ) ≤ v := Int.floor_le v
      have : (stdFloor v : ℚ) ≤ ((0 : Int) : ℚ) := by push_cast; linarith
      exact_mod_cast this
    · have h1 := Int.floor_le v
      have h2 := Int.lt_floor_add_one v
      change |(⌊v⌋ : ℚ) - v| < 1
      rw [abs_lt]
      constructor <;> linarith
  · refine nearest_is (f := stdCeil) h hd (fun hv => ?_) (fun hv => Int.ceil_nonneg hv) ?_
    · exact Int.ceil_le.2 (by push_cast; exact hv.le)
    · have h1 := Int.le_ceil v
      have h2 := Int.ceil_lt_add_one v
      change |(⌈v⌉ : ℚ) - v| < 1
      rw [abs_lt]
      constructor <;> linarith
  · have hfl := Int.floor_le |v|
    have hfu := Int.lt_floor_add_one |v|
    have hf0 : 0 ≤ ⌊|v|⌋ := Int.floor_nonneg.2 (abs_nonneg v)
    have hf0' : (0 : ℚ) ≤ (⌊|v|⌋ : ℚ) := by exact_mod_cast hf0
    obtain ⟨e, h1, h2, h3⟩ := nearest_is (f := stdTrunc) h hd
      (fun hv => by simp only [stdTrunc, if_pos hv]; omega)
      (fun hv => by simp only [stdTrunc, if_neg (not_lt.2 hv)]; exact hf0) (by
        rcases lt_or_ge v 0 with hv | hv
        · simp only [stdTrunc, if_pos hv]
          have ha := abs_of_neg hv
          push_cast
          rw [abs_lt]
          constructor <;> linarith
        · simp only [stdTrunc, if_neg (not_lt.2 hv)]
          have ha := abs_of_nonneg hv
          rw [abs_lt]
          constructor <;> linarith)
    refine ⟨e, _, h1, h2, h3, ⟨_, rfl⟩, ?_⟩
    rcases lt_or_ge v 0 with hv | hv
    · simp only [stdTrunc, if_pos hv]
      push_cast
      rw [abs_neg, abs_of_nonneg hf0']
      exact ⟨hfl, hfu, by nlinarith⟩
    · simp only [stdTrunc, if_neg (not_lt.2 hv)]
      rw [abs_of_nonneg hf0']
      exact ⟨hfl, hfu, by positivity⟩

/-- **C74**, partly: `round` of a finite inexact number is an integer that is no further away than
any other, as an inexact number. R7RS asks for the even one of two; `C74_round_fails`. -/
theorem C74_round_partial {d : Flo} {v : ℚ} (h : d.Is v) (hd : d.Valid) :
    ∃ e, ∃ z : Int, Real.round (.flo d) = .value (.flo e) ∧ e.Valid ∧ e.Is z ∧
      |v - z| ≤ 1 / 2 := by
  have hfl := Int.floor_le (|v| + 1 / 2)
  have hfu := Int.lt_floor_add_one (|v| + 1 / 2)
  have hf0 : 0 ≤ ⌊|v| + 1 / 2⌋ := Int.floor_nonneg.2 (by positivity)
  have hclose : |v - (stdRound v : ℚ)| ≤ 1 / 2 := by
    rcases lt_or_ge v 0 with hv | hv
    · simp only [stdRound, if_pos hv]
      have ha := abs_of_neg hv
      push_cast
      rw [abs_le]
      constructor <;> linarith
    · simp only [stdRound, if_neg (not_lt.2 hv)]
      have ha := abs_of_nonneg hv
      rw [abs_le]
      constructor <;> linarith
  obtain ⟨e, h1, h2, h3⟩ := nearest_is (f := stdRound) h hd
    (fun hv => by simp only [stdRound, if_pos hv]; omega)
    (fun hv => by simp only [stdRound, if_neg (not_lt.2 hv)]; exact hf0)
    (by rw [abs_sub_comm]; linarith)
  exact ⟨e, _, h1, h2, h3, hclose⟩

/-- **C74** fails: `(round 2.5)` is 3.0, not the even 2.0. -/
theorem C74_round_fails :
    Real.round (.flo (.finite false (5 / 2))) = .value (.flo (.finite false 3)) := by
  have : stdRound (5 / 2) = 3 := by
    rw [stdRound, if_neg (by norm_num), abs_of_pos (by norm_num), Int.floor_eq_iff]
    norm_num
  simp [Real.round, Real.nearest, Flo.nearest, signed, this]

/-- **C74**: `abs` of a finite inexact number. -/
theorem C74_abs {d : Flo} {v : ℚ} (h : d.Is v) (hd : d.Valid) :
    ∃ e, Real.abs (.flo d) = .value (.flo e) ∧ e.Valid ∧ e.Is |v| := by
  obtain ⟨s, m, rfl, hv⟩ := h
  have hm : 0 ≤ m := Rep.nonneg hd
  refine ⟨_, rfl, hd, false, m, rfl, ?_⟩
  rw [← hv]
  cases s <;> simp [abs_of_nonneg hm]

/-! ### C74: predicates -/

/-- **C74**, partly: `integer?`, `rational?`, `finite?`, `infinite?` and `nan?` of a finite inexact
number, and what they answer of the others. -/
theorem C74_predicates_partial {d : Flo} {v : ℚ} (h : d.Is v) (hd : d.Valid) (s : Bool) :
    ((Real.flo d).isInteger = true ↔ ∃ z : Int, v = z) ∧
    (Real.flo d).isRational = true ∧ (Real.flo d).isFinite = true ∧
    (Real.flo d).isInfinite = false ∧ (Real.flo d).isNan = false ∧
    (Real.flo (.inf s)).isRational = false ∧ (Real.flo (.inf s)).isFinite = false ∧
    (Real.flo (.inf s)).isInfinite = true ∧ (Real.flo (.inf s)).isNan = false ∧
    (Real.flo .nan).isInteger = false ∧ (Real.flo .nan).isRational = false ∧
    (Real.flo .nan).isInfinite = false ∧ (Real.flo .nan).isNan = true := by
  obtain ⟨t, m, rfl, hv⟩ := h
  have hs : signed t m = v := hv
  refine ⟨?_, rfl, rfl, rfl, rfl, by cases s <;> rfl, by cases s <;> rfl, by cases s <;> rfl,
    by cases s <;> rfl, rfl, rfl, rfl, rfl⟩
  have hm : 0 ≤ m := Rep.nonneg hd
  simp only [Real.isInteger, Flo.nearest, Flo.eq, hs, beq_iff_eq]
  constructor
  · intro h
    cases t
    · exact ⟨|stdTrunc v|, by rw [Int.cast_abs]; exact h⟩
    · exact ⟨-|stdTrunc v|, by rw [Int.cast_neg, Int.cast_abs]; exact h⟩
  · rintro ⟨z, rfl⟩
    rw [stdTrunc_int, ← hs]
    cases t
    · simp only [signed, Bool.false_eq_true, if_false, abs_of_nonneg hm]
    · simp only [signed, if_true, abs_neg, abs_of_nonneg hm]

/-- **C74** fails: `integer?` holds of an infinity, which is not rational, and `finite?` holds of
NaN. -/
theorem C74_predicates_fails (s : Bool) :
    (Real.flo (.inf s)).isInteger = true ∧ (Real.flo (.inf s)).isRational = false ∧
    (Real.flo .nan).isFinite = true := by
  cases s <;> exact ⟨rfl, rfl, rfl⟩

/-! ### C74: `max` and `min` -/

theorem Real.maxLoop_spec : ∀ (ys : List Real) (best : Real), (∀ y ∈ best :: ys, y.Valid) →
    (∀ y ∈ best :: ys, ∃ b, y.place = some b) → (∀ y ∈ best :: ys, ∀ z ∈ best :: ys, Plain y z) →
    ∃ r a, Real.maxLoop best ys = .value r ∧ r ∈ best :: ys ∧ r.place = some a ∧
      ∀ y ∈ best :: ys, ∀ b, y.place = some b → b ≤ a
  | [], best, _, hn, _ => by
    obtain ⟨a, ha⟩ := hn best (by simp)
    refine ⟨best, a, rfl, by simp, ha, fun y hy b hb => ?_⟩
    simp only [List.mem_singleton] at hy
    rw [hy, ha] at hb
    cases hb
    exact le_rfl
  | y :: ys, best, hv, hn, hp => by
    obtain ⟨a, ha⟩ := hn best (by simp)
    obtain ⟨b, hb⟩ := hn y (by simp)
    obtain ⟨t, ht, hl⟩ := Real.lessThan_spec (hv best (by simp)) (hv y (by simp)) ha hb
      (hp best (by simp) y (by simp))
    have hsub : ∀ z ∈ (if t then y else best) :: ys, z ∈ best :: y :: ys := by
      intro z hz
      cases t <;> simp only [if_true, if_false, Bool.false_eq_true, List.mem_cons] at hz ⊢ <;> tauto
    obtain ⟨r, c, h1, h2, h3, h4⟩ := Real.maxLoop_spec ys (if t then y else best)
      (fun z hz => hv z (hsub z hz)) (fun z hz => hn z (hsub z hz))
      (fun z hz w hw => hp z (hsub z hz) w (hsub w hw))
    refine ⟨r, c, by simp only [Real.maxLoop, ht, bind_value]; exact h1, hsub r h2, h3, ?_⟩
    intro z hz d hd
    simp only [List.mem_cons] at hz
    cases t with
    | true =>
      have hba := h4 y (by simp) b hb
      rcases hz with rfl | rfl | hz
      · rw [ha] at hd
        cases hd
        exact ((hl.1 rfl).le).trans hba
      · rw [hb] at hd
        cases hd
        exact hba
      · exact h4 z (by simp [hz]) d hd
    | false =>
      have hba := h4 best (by simp) a ha
      have hle : b ≤ a := not_lt.1 (fun h => by cases hl.2 h)
      rcases hz with rfl | rfl | hz
      · rw [ha] at hd
        cases hd
        exact hba
      · rw [hb] at hd
        cases hd
        exact hle.trans hba
      · exact h4 z (by simp [hz]) d hd

theorem Real.minLoop_spec : ∀ (ys : List Real) (best : Real), (∀ y ∈ best :: ys, y.Valid) →
    (∀ y ∈ best :: ys, ∃ b, y.place = some b) → (∀ y ∈ best :: ys, ∀ z ∈ best :: ys, Plain y z) →
    ∃ r a, Real.minLoop best ys = .value r ∧ r ∈ best :: ys ∧ r.place = some a ∧
      ∀ y ∈ best :: ys, ∀ b, y.place = some b → a ≤ b
  | [], best, _, hn, _ => by
    obtain ⟨a, ha⟩ := hn best (by simp)
    refine ⟨best, a, rfl, by simp, ha, fun y hy b hb => ?_⟩
    simp only [List.mem_singleton] at hy
    rw [hy, ha] at hb
    cases hb
    exact le_rfl
  | y :: ys, best, hv, hn, hp => by
    obtain ⟨a, ha⟩ := hn best (by simp)
    obtain ⟨b, hb⟩ := hn y (by simp)
    obtain ⟨t, ht, hl⟩ := Real.lessThan_spec (hv y (by simp)) (hv best (by simp)) hb ha
      (hp y (by simp) best (by simp))
    have hsub : ∀ z ∈ (if t then y else best) :: ys, z ∈ best :: y :: ys := by
      intro z hz
      cases t <;> simp only [if_true, if_false, Bool.false_eq_true, List.mem_cons] at hz ⊢ <;> tauto
    obtain ⟨r, c, h1, h2, h3, h4⟩ := Real.minLoop_spec ys (if t then y else best)
      (fun z hz => hv z (hsub z hz)) (fun z hz => hn z (hsub z hz))
      (fun z hz w hw => hp z (hsub z hz) w (hsub w hw))
    refine ⟨r, c, by simp only [Real.minLoop, ht, bind_value]; exact h1, hsub r h2, h3, ?_⟩
    intro z hz d hd
    simp only [List.mem_cons] at hz
    cases t with
    | true =>
      have hba := h4 y (by simp) b hb
      rcases hz with rfl | rfl | hz
      · rw [ha] at hd
        cases hd
        exact hba.trans (hl.1 rfl).le
      · rw [hb] at hd
        cases hd
        exact hba
      · exact h4 z (by simp [hz]) d hd
    | false =>
      have hba := h4 best (by simp) a ha
      have hle : a ≤ b := not_lt.1 (fun h => by cases hl.2 h)
      rcases hz with rfl | rfl | hz
      · rw [ha] at hd
        cases hd
        exact hba
      · rw [hb] at hd
        cases hd
        exact hba.trans hle
      · exact h4 z (by simp [hz]) d hd

theorem inexact_place {l : List Real} {r : Real} {a : WithBot (WithTop ℚ)} (hr : r ∈ l)
    (hv : ∀ y ∈ l, y.Valid) (hx : ∀ n, .exact n ∈ l → l.any Real.isInexact = true → Rep |n.val|)
    (ha : r.place = some a) :
    let m := if l.any Real.isInexact then r.inexact else r
    m.isInexact = l.any Real.isInexact ∧ m.place = some a := by
  by_cases h : l.any Real.isInexact = true
  · simp only [h, if_true]
    refine ⟨by cases r <;> rfl, ?_⟩
    cases r with
    | flo d => exact ha
    | exact n =>
      obtain ⟨d, e, _, hd⟩ := C72_inexact (hv _ hr) (hx n hr h)
      rw [e]
      exact hd.place.trans ha
  · rw [Bool.not_eq_true] at h
    simp only [h, Bool.false_eq_true, if_false]
    refine ⟨?_, ha⟩
    rw [List.any_eq_false] at h
    simpa using h r hr

/-- **C74**, partly: `max` and `min` of numbers other than NaN, with no ratio beside an inexact
number and the exact ones representable if one is inexact: the greatest and the least argument, made
inexact just if an argument is inexact. -/
theorem C74_max_partial {x : Real} {xs : List Real} (hv : ∀ y ∈ x :: xs, y.Valid)
    (hn : ∀ y ∈ x :: xs, ∃ b, y.place = some b) (hp : ∀ y ∈ x :: xs, ∀ z ∈ x :: xs, Plain y z)
    (hx : ∀ n, .exact n ∈ x :: xs → (x :: xs).any Real.isInexact = true → Rep |n.val|) :
    (∃ m a, Real.max x xs = .value m ∧ m.isInexact = (x :: xs).any Real.isInexact ∧
      m.place = some a ∧ (∃ y ∈ x :: xs, y.place = some a) ∧
      ∀ y ∈ x :: xs, ∀ b, y.place = some b → b ≤ a) ∧
    (∃ m a, Real.min x xs = .value m ∧ m.isInexact = (x :: xs).any Real.isInexact ∧
      m.place = some a ∧ (∃ y ∈ x :: xs, y.place = some a) ∧
      ∀ y ∈ x :: xs, ∀ b, y.place = some b → a ≤ b) := by
  obtain ⟨r, a, h1, h2, h3, h4⟩ := Real.maxLoop_spec xs x hv hn hp
  obtain ⟨r', a', h1', h2', h3', h4'⟩ := Real.minLoop_spec xs x hv hn hp
  obtain ⟨k1, k2⟩ := inexact_place h2 hv hx h3
  obtain ⟨k1', k2'⟩ := inexact_place h2' hv hx h3'
  exact ⟨⟨_, a, by simp only [Real.max, h1, bind_value, pure_eq], k1, k2, ⟨r, h2, h3⟩, h4⟩,
    ⟨_, a', by simp only [Real.min, h1', bind_value, pure_eq], k1', k2', ⟨r', h2', h3'⟩, h4'⟩⟩

/-! ### The hypotheses can be met -/

/-- `(+ 1.5 2)` is 3.5. -/
example : ∃ d, Real.add (.flo (.finite false (3 / 2))) (.exact (.small 2)) = .value (.flo d) ∧
    d.Is (7 / 2) := by
  have h := (C74_exact_result (x := .flo (.finite false (3 / 2))) (y := .exact (.small 2))
    (v := 3 / 2) (w := 2) (Or.inr ⟨_, rfl, false, _, rfl, by simp⟩)
    (Or.inl ⟨_, rfl, by constructor <;> norm_num, by norm_num [Num.val], 2, 0, by norm_num,
      by norm_num, by norm_num, by norm_num [abs_of_pos]⟩) (Or.inl rfl)).1
    ⟨7, -1, by norm_num, by norm_num, by norm_num, by norm_num [abs_of_pos]⟩
  obtain ⟨d, e, hd⟩ := h
  exact ⟨d, e, by convert hd using 1; norm_num⟩

/-- `(floor -2.5)` is -3.0. -/
example : ∃ e, Real.floor (.flo (.finite true (5 / 2))) = .value (.flo e) ∧ e.Is (-3) := by
  obtain ⟨⟨e, h1, _, h2⟩, _⟩ := C74_floor (d := .finite true (5 / 2)) (v := -5 / 2)
    ⟨true, _, rfl, by norm_num⟩ ⟨5, -1, by norm_num, by norm_num, by norm_num, by norm_num⟩
  refine ⟨e, h1, ?_⟩
  have : ⌊(-5 / 2 : ℚ)⌋ = -3 := by
    rw [Int.floor_eq_iff]
    norm_num
  rw [this] at h2
  exact_mod_cast h2

/-- `(max 1 2.5 -7)` is inexact and has the place of 2.5. -/
example : ∃ m a, Real.max (.exact (.small 1)) [.flo (.finite false (5 / 2)), .exact (.small (-7))] =
    .value m ∧ m.isInexact = true ∧ m.place = some a ∧ (((5 / 2 : ℚ) : WithTop ℚ) : WithBot _) ≤ a := by
  have hs : ∀ z : Int, |z| < 8 → Rep |(z : ℚ)| := fun z hz => Rep.int (by omega)
  obtain ⟨⟨m, a, h1, h2, h3, _, h4⟩, _⟩ := C74_max_partial (x := .exact (.small 1))
    (xs := [.flo (.finite false (5 / 2)), .exact (.small (-7))])
    (by
      intro y hy
      simp only [List.mem_cons, List.not_mem_nil, or_false] at hy
      rcases hy with rfl | rfl | rfl
      · constructor <;> norm_num
      · exact ⟨5, -1, by norm_num, by norm_num, by norm_num, by norm_num⟩
      · constructor <;> norm_num)
    (by
      intro y hy
      simp only [List.mem_cons, List.not_mem_nil, or_false] at hy
      rcases hy with rfl | rfl | rfl <;> exact ⟨_, rfl⟩)
    (by
      intro y hy z hz
      simp only [List.mem_cons, List.not_mem_nil, or_false] at hy hz
      constructor
      · rintro q rfl
        simp at hy
      · rintro q rfl
        simp at hz)
    (by
      intro n hn _
      simp only [List.mem_cons, Real.exact.injEq, reduceCtorEq, List.not_mem_nil, or_false,
        false_or] at hn
      rcases hn with rfl | rfl
      · exact hs 1 (by norm_num)
      · exact hs (-7) (by norm_num))
  refine ⟨m, a, h1, h2, h3, h4 (.flo (.finite false (5 / 2))) (by simp) _ ?_⟩
  simp [Real.place, Flo.place]

end Meevax.Number
