import Verif.Lemmas.Inexact

/-
Conversion between exact and inexact numbers, and their comparison.
-/

namespace Meevax.Number

/-! ### Rounding what needs no rounding -/

theorem Rep.le_max {v : ℚ} (h : Rep v) : v ≤ (2 ^ 53 - 1) * 2 ^ 971 := by
  obtain ⟨m, e, h1, _, h3, rfl⟩ := h
  have hm : (m : ℚ) ≤ 2 ^ 53 - 1 := by
    have h : m + 1 ≤ 2 ^ 53 := h1
    have h' : ((m + 1 : ℕ) : ℚ) ≤ ((2 ^ 53 : ℕ) : ℚ) := Nat.cast_le.2 h
    push_cast at h'
    linarith
  have he : (2 : ℚ) ^ e ≤ 2 ^ 971 := by
    have : (2 : ℚ) ^ e ≤ 2 ^ (971 : ℤ) := zpow_le_zpow_right₀ (by norm_num) h3
    rwa [show (971 : ℤ) = ((971 : ℕ) : ℤ) from rfl, zpow_natCast] at this
  have hp := two_zpow_pos e
  have h0 : (0 : ℚ) ≤ 2 ^ 53 - 1 := by norm_num
  calc (m : ℚ) * 2 ^ e ≤ (2 ^ 53 - 1) * 2 ^ e := mul_le_mul_of_nonneg_right hm hp.le
    _ ≤ _ := mul_le_mul_of_nonneg_left he h0

theorem max_lt : ((2 : ℚ) ^ 53 - 1) * 2 ^ 971 < 2 ^ 1024 - 2 ^ 970 := by
  have p1 : (2 : ℚ) ^ 1024 = 2 ^ 54 * 2 ^ 970 := by rw [← pow_add]
  have p2 : (2 : ℚ) ^ 971 = 2 * 2 ^ 970 := by rw [pow_succ, mul_comm]
  have p3 : (0 : ℚ) < 2 ^ 970 := by positivity
  rw [p1, p2]
  clear p1 p2
  generalize (2 : ℚ) ^ 970 = C at *
  have e : ((2 : ℚ) ^ 53 - 1) * (2 * C) = 2 ^ 54 * C - 2 * C := by ring
  rw [e]
  generalize (2 : ℚ) ^ 54 * C = D
  linarith

theorem Rep.not_over {v : ℚ} (h : Rep v) : ¬ (2 : ℚ) ^ 1024 - 2 ^ 970 ≤ v :=
  not_le.2 (lt_of_le_of_lt h.le_max max_lt)

theorem Flo.Rounds.rep {d : Flo} {x : ℚ} (h : d.Rounds x) (hx : Rep |x|) : d.Is x := by
  rw [Flo.Rounds, if_neg hx.not_over] at h
  obtain ⟨s, v, rfl, h1, h2, h3⟩ := h
  have h4 := h3.2.1 _ hx
  rw [sub_self, abs_zero] at h4
  have h5 : |x| = v := by
    have := abs_nonpos_iff.1 h4
    linarith
  refine ⟨s, v, rfl, ?_⟩
  rcases lt_trichotomy x 0 with h | h | h
  · rw [h1 h, if_pos rfl, ← h5, abs_of_neg h, neg_neg]
  · rw [← h5, h]
    cases s <;> simp
  · rw [h2 h, ← h5, abs_of_pos h]
    simp

/-- Rounding is monotone with respect to a representable magnitude. -/
theorem Flo.Rounds.ge {s : Bool} {v x r : ℚ} (h : (Flo.finite s v).Rounds x) (hr : Rep r)
    (hle : r ≤ |x|) : r ≤ v := by
  rw [Flo.Rounds] at h
  split at h
  · cases h
  · obtain ⟨s', v', e, _, _, h3⟩ := h
    cases e
    have h4 := h3.2.1 _ hr
    rw [abs_of_nonneg (show 0 ≤ |x| - r by linarith)] at h4
    have := (abs_le.1 h4).2
    linarith

theorem Flo.Rounds.le {d : Flo} {x r : ℚ} (h : d.Rounds x) (hr : Rep r)
    (hle : |x| ≤ r) : ∃ s v, d = .finite s v ∧ v ≤ r ∧ 0 ≤ v := by
  rw [Flo.Rounds, if_neg (fun hc => hr.not_over (hc.trans hle))] at h
  obtain ⟨s', v', e, _, _, h3⟩ := h
  refine ⟨s', v', e, ?_, h3.1.nonneg⟩
  have h4 := h3.2.1 _ hr
  rw [abs_of_nonpos (show |x| - r ≤ 0 by linarith)] at h4
  have := (abs_le.1 h4).1
  linarith

theorem Rep.int {z : ℤ} (h : |z| < 2 ^ 53) : Rep |(z : ℚ)| := by
  refine ⟨z.natAbs, 0, ?_, by norm_num, by norm_num, ?_⟩
  · have := Int.abs_eq_natAbs z
    omega
  · rw [zpow_zero, mul_one, ← Int.cast_abs, Int.abs_eq_natAbs z, Int.cast_natCast]

/-! ### Casts -/

theorem castRatio_spec (q : Mpq) :
    (|(Num.ratio q).val| < 2 ^ 1024 → ∃ s t, castRatio q = .finite s t ∧
      Truncates |(Num.ratio q).val| t ∧
      (if s then -t else t) = (if (Num.ratio q).val < 0 then -t else t)) ∧
    (2 ^ 1024 ≤ |(Num.ratio q).val| →
      castRatio q = .inf (decide ((Num.ratio q).val < 0))) := by
  have hv : q.val = (Num.ratio q).val := rfl
  generalize (Num.ratio q).val = x at *
  constructor
  · intro h
    by_cases h0 : x = 0
    · refine ⟨false, 0, ?_, ?_, by simp⟩
      · simp [castRatio, mpqGetD, hv, h0]
      · rw [h0, abs_zero]
        exact Truncates.self Rep.zero
    · have ht := truncates_grid h0 h
      have hn := ht.1.nonneg
      generalize ht' : ulp x * ⌊|x| / ulp x⌋ = t at *
      rcases lt_or_ge x 0 with hx | hx
      · have e : mpqGetD q = some (-t) := by
          simp only [mpqGetD, hv, if_neg h0, if_neg (not_le.2 h), if_pos hx, ht']
        refine ⟨decide (-t < 0), t, by simp [castRatio, e, abs_of_nonneg hn], ht, ?_⟩
        rcases hn.eq_or_lt with h1 | h1
        · simp [← h1]
        · simp [h1, hx]
      · have e : mpqGetD q = some t := by
          simp only [mpqGetD, hv, if_neg h0, if_neg (not_le.2 h), if_neg (not_lt.2 hx), ht']
        refine ⟨decide (t < 0), t, by simp [castRatio, e, abs_of_nonneg hn], ht, ?_⟩
        simp [not_lt.2 hn, not_lt.2 hx]
  · intro h
    have h0 : x ≠ 0 := by
      rintro rfl
      rw [abs_zero] at h
      exact absurd h (not_le.2 (by positivity))
    have e : mpqGetD q = none := by
      simp only [mpqGetD, hv, if_neg h0, if_pos h]
    simp [castRatio, e, hv]

theorem ofInteger_val (z : Int) : (Num.ratio (Mpq.ofInteger z)).val = z := by
  simp [Num.val, Mpq.ofInteger]

theorem castFixnum_spec {i : Int} (h1 : -2 ^ 31 ≤ i) (h2 : i < 2 ^ 31) :
    (castFixnum i).Is i ∧ (castFixnum i).Valid := by
  have hr : Rep |(i : ℚ)| := Rep.int (by rw [abs_lt]; constructor <;> omega)
  have h := roundEven_spec false i
  have hi := h.rep hr
  refine ⟨hi, ?_⟩
  rw [Flo.Rounds, if_neg hr.not_over] at h
  obtain ⟨_, _, e', _, _, h3⟩ := h
  rw [castFixnum, e']
  exact h3.1

theorem Num.cast_spec {n : Num} (hn : n.Valid) :
    (|n.val| < 2 ^ 1024 → ∃ s t, n.cast = .finite s t ∧ Truncates |n.val| t ∧
      (if s then -t else t) = (if n.val < 0 then -t else t)) ∧
    (2 ^ 1024 ≤ |n.val| → n.cast = .inf (decide (n.val < 0))) := by
  cases n with
  | small i =>
    obtain ⟨h1, h2⟩ := hn
    obtain ⟨⟨s, m, e, he⟩, hv⟩ := castFixnum_spec h1 h2
    have hr : Rep |(i : ℚ)| := Rep.int (by rw [abs_lt]; constructor <;> omega)
    have hm : Rep m := by rw [e] at hv; exact hv
    refine ⟨fun _ => ⟨s, m, e, ?_, ?_⟩, fun h => ?_⟩
    · have : |(i : ℚ)| = m := by
        rw [← he]
        cases s <;> simp [abs_of_nonneg hm.nonneg]
      change Truncates |(i : ℚ)| m
      rw [this]
      exact Truncates.self hm
    · change _ = if (i : ℚ) < 0 then -m else m
      rcases lt_or_ge (i : ℚ) 0 with h | h
      · rw [if_pos h]
        cases s
        · simp only [Bool.false_eq_true, if_false] at he ⊢
          rw [← he] at h
          exact absurd hm.nonneg (not_le.2 h)
        · rfl
      · rw [if_neg (not_lt.2 h)]
        cases s
        · rfl
        · simp only [if_true] at he ⊢
          rw [← he] at h
          have := hm.nonneg
          linarith
    · exact absurd hr.lt (not_lt.2 h)
  | large z =>
    have h := castRatio_spec (Mpq.ofInteger z)
    rw [ofInteger_val] at h
    exact h
  | ratio q => exact castRatio_spec q

/-! ### Places -/

theorem Flo.Is.place {d : Flo} {v : ℚ} (h : d.Is v) :
    d.place = some ((v : WithTop ℚ) : WithBot (WithTop ℚ)) := by
  obtain ⟨s, m, rfl, rfl⟩ := h
  rfl

theorem Flo.lt_iff {x y : Flo} {a b : WithBot (WithTop ℚ)} (hx : x.place = some a)
    (hy : y.place = some b) : x.lt y = true ↔ a < b := by
  cases x with
  | nan => cases hx
  | inf s =>
    cases y with
    | nan => cases hy
    | inf t =>
      cases s <;> cases t <;> simp only [Flo.place, Option.some.injEq] at hx hy <;> subst hx <;>
        subst hy <;> simp [Flo.lt]
    | finite t n =>
      cases s <;> simp only [Flo.place, Option.some.injEq] at hx hy <;> subst hx <;>
        subst hy <;> simp [Flo.lt]
  | finite s m =>
    cases y with
    | nan => cases hy
    | inf t =>
      cases t <;> simp only [Flo.place, Option.some.injEq] at hx hy <;> subst hx <;>
        subst hy
      · exact iff_of_true rfl (WithBot.coe_lt_coe.2 (WithTop.coe_lt_top _))
      · simp [Flo.lt]
    | finite t n =>
      simp only [Flo.place, Option.some.injEq] at hx hy
      subst hx
      subst hy
      rw [WithBot.coe_lt_coe, WithTop.coe_lt_coe, Flo.lt, decide_eq_true_iff]
      rfl

theorem Flo.eq_iff {x y : Flo} {a b : WithBot (WithTop ℚ)} (hx : x.place = some a)
    (hy : y.place = some b) : x.eq y = true ↔ a = b := by
  cases x with
  | nan => cases hx
  | inf s =>
    cases y with
    | nan => cases hy
    | inf t =>
      cases s <;> cases t <;> simp only [Flo.place, Option.some.injEq] at hx hy <;> subst hx <;>
        subst hy <;> simp [Flo.eq]
    | finite t n =>
      cases s <;> simp only [Flo.place, Option.some.injEq] at hx hy <;> subst hx <;>
        subst hy <;> simp [Flo.eq]
  | finite s m =>
    cases y with
    | nan => cases hy
    | inf t =>
      cases t <;> simp only [Flo.place, Option.some.injEq] at hx hy <;> subst hx <;>
        subst hy <;> simp [Flo.eq]
    | finite t n =>
      simp only [Flo.place, Option.some.injEq] at hx hy
      subst hx
      subst hy
      simp [Flo.eq, signed, WithBot.coe_inj, WithTop.coe_inj]

theorem mpzCmpD_spec {z : Int} {d : Flo} {b : WithBot (WithTop ℚ)} (h : d.place = some b) :
    ∃ c, mpzCmpD z d = .value c ∧
      (c < 0 ↔ (((z : ℚ) : WithTop ℚ) : WithBot (WithTop ℚ)) < b) ∧
      (c = 0 ↔ (((z : ℚ) : WithTop ℚ) : WithBot (WithTop ℚ)) = b) ∧
      (0 < c ↔ b < (((z : ℚ) : WithTop ℚ) : WithBot (WithTop ℚ))) := by
  cases d with
  | nan => cases h
  | inf s =>
    cases s <;> simp only [Flo.place, Option.some.injEq] at h <;> subst h <;>
      refine ⟨_, rfl, ?_⟩
    · refine ⟨iff_of_true (by simp) (WithBot.coe_lt_coe.2 (WithTop.coe_lt_top _)), ?_, ?_⟩ <;> simp
    · simp
  | finite s m =>
    simp only [Flo.place, Option.some.injEq] at h
    subst h
    refine ⟨_, rfl, ?_⟩
    simp only [WithBot.coe_lt_coe, WithTop.coe_lt_coe, WithBot.coe_inj, WithTop.coe_inj]
    change (_ ↔ (z : ℚ) < signed s m) ∧ (_ ↔ (z : ℚ) = signed s m) ∧ (_ ↔ signed s m < (z : ℚ))
    rcases lt_trichotomy (z : ℚ) (signed s m) with h | h | h
    · simp [h, h.ne, h.le]
    · simp [h]
    · simp [h, h.ne', not_lt.2 h.le]

theorem cast_small_place {i : Int} (h : (Num.small i).Valid) :
    (castFixnum i).place = some (((i : ℚ) : WithTop ℚ) : WithBot (WithTop ℚ)) :=
  (castFixnum_spec h.1 h.2).1.place

theorem Real.lessThan_spec {x y : Real} {a b : WithBot (WithTop ℚ)} (hx : x.Valid) (hy : y.Valid)
    (ha : x.place = some a) (hb : y.place = some b) (hp : Plain x y) :
    ∃ r, x.lessThan y = .value r ∧ (r = true ↔ a < b) := by
  cases x with
  | exact m =>
    simp only [Real.place, Option.some.injEq] at ha
    subst ha
    cases y with
    | exact n =>
      simp only [Real.place, Option.some.injEq] at hb
      subst hb
      refine ⟨_, rfl, ?_⟩
      rw [lessThan_iff hx hy, WithBot.coe_lt_coe, WithTop.coe_lt_coe]
    | flo d =>
      cases m with
      | small i => exact ⟨_, rfl, Flo.lt_iff (cast_small_place hx) hb⟩
      | large z =>
        obtain ⟨c, hc, h1, _, _⟩ := mpzCmpD_spec (z := z) hb
        refine ⟨decide (c < 0), by simp [Real.lessThan, hc], ?_⟩
        rw [decide_eq_true_iff, h1]
        rfl
      | ratio q =>
        obtain ⟨n, hn⟩ := hp.1 q rfl
        cases hn
  | flo d =>
    cases y with
    | exact n =>
      simp only [Real.place, Option.some.injEq] at hb
      subst hb
      cases n with
      | small i => exact ⟨_, rfl, Flo.lt_iff ha (cast_small_place hy)⟩
      | large z =>
        obtain ⟨c, hc, _, _, h1⟩ := mpzCmpD_spec (z := z) ha
        refine ⟨decide (0 < c), by simp [Real.lessThan, hc], ?_⟩
        rw [decide_eq_true_iff, h1]
        rfl
      | ratio q =>
        obtain ⟨n, hn⟩ := hp.2 q rfl
        cases hn
    | flo e => exact ⟨_, rfl, Flo.lt_iff ha hb⟩

theorem Real.greaterThan_spec {x y : Real} {a b : WithBot (WithTop ℚ)} (hx : x.Valid)
    (hy : y.Valid) (ha : x.place = some a) (hb : y.place = some b) (hp : Plain x y) :
    ∃ r, x.greaterThan y = .value r ∧ (r = true ↔ b < a) := by
  cases x with
  | exact m =>
    simp only [Real.place, Option.some.injEq] at ha
    subst ha
    cases y with
    | exact n =>
      simp only [Real.place, Option.some.injEq] at hb
      subst hb
      refine ⟨_, rfl, ?_⟩
      rw [greaterThan_iff hx hy, WithBot.coe_lt_coe, WithTop.coe_lt_coe]
    | flo d =>
      cases m with
      | small i => exact ⟨_, rfl, Flo.lt_iff hb (cast_small_place hx)⟩
      | large z =>
        obtain ⟨c, hc, _, _, h1⟩ := mpzCmpD_spec (z := z) hb
        refine ⟨decide (c > 0), by simp [Real.greaterThan, hc], ?_⟩
        rw [decide_eq_true_iff, gt_iff_lt, h1]
        rfl
      | ratio q =>
        obtain ⟨n, hn⟩ := hp.1 q rfl
        cases hn
  | flo d =>
    cases y with
    | exact n =>
      simp only [Real.place, Option.some.injEq] at hb
      subst hb
      cases n with
      | small i => exact ⟨_, rfl, Flo.lt_iff (cast_small_place hy) ha⟩
      | large z =>
        obtain ⟨c, hc, h1, _, _⟩ := mpzCmpD_spec (z := z) ha
        refine ⟨decide (0 > c), by simp [Real.greaterThan, hc], ?_⟩
        rw [decide_eq_true_iff, gt_iff_lt, h1]
        rfl
      | ratio q =>
        obtain ⟨n, hn⟩ := hp.2 q rfl
        cases hn
    | flo e => exact ⟨_, rfl, Flo.lt_iff hb ha⟩

/-! ### Equality of doubles -/

/-- Two doubles that differ by no more than the tolerance are equal; those that differ by more than
twice the tolerance are not. -/
theorem inexactEquals_finite {x y : Flo} {v w : ℚ} (hx : x.Is v) (hy : y.Is w) :
    (|v - w| ≤ 1 / 2 ^ 52 → inexactEquals x y = true) ∧
    (1 / 2 ^ 51 ≤ |v - w| → inexactEquals x y = false) := by
  obtain ⟨s, m, rfl, hv⟩ := hx
  obtain ⟨t, n, rfl, hw⟩ := hy
  have heps : Rep (1 / 2 ^ 52) := ⟨1, -52, by norm_num, by norm_num, by norm_num, by norm_num⟩
  have heps2 : Rep (1 / 2 ^ 51) := ⟨1, -51, by norm_num, by norm_num, by norm_num, by norm_num⟩
  have hsub : ((Flo.finite s m).sub (.finite t n)).Rounds (v - w) := by
    have : signed s m + signed (!t) n = v - w := by
      rw [← hv, ← hw]
      cases s <;> cases t <;> simp [signed, sub_eq_add_neg]
    simp only [Flo.sub, Flo.neg, Flo.add, this]
    exact roundEven_spec _ _
  have hdef : inexactEquals (.finite s m) (.finite t n) =
      (((Flo.finite s m).sub (.finite t n)).abs.le (.finite false (1 / 2 ^ 52))) := by
    simp [inexactEquals, Flo.isNan, Flo.isInf]
  rw [hdef]
  constructor
  · intro h
    obtain ⟨s', u, e, h1, _⟩ := hsub.le heps h
    rw [e]
    simp only [Flo.abs, Flo.le, Flo.lt, Flo.eq, signed, Bool.false_eq_true, if_false,
      Bool.or_eq_true, decide_eq_true_eq, beq_iff_eq]
    exact h1.lt_or_eq
  · intro h
    generalize hd : (Flo.finite s m).sub (.finite t n) = d at *
    cases d with
    | nan =>
      rw [Flo.Rounds] at hsub
      split at hsub
      · cases hsub
      · obtain ⟨_, _, e, _⟩ := hsub
        cases e
    | inf s' => simp [Flo.abs, Flo.le, Flo.lt, Flo.eq]
    | finite s' u =>
      have h1 := hsub.ge heps2 h
      have h2 : (1 : ℚ) / 2 ^ 52 < 1 / 2 ^ 51 := by norm_num
      have h3 := lt_of_lt_of_le h2 h1
      simp only [Flo.abs, Flo.le, Flo.lt, Flo.eq, signed, Bool.false_eq_true, if_false,
        Bool.or_eq_false_iff, decide_eq_false_iff_not, beq_eq_false_iff_ne, not_lt]
      exact ⟨h3.le, h3.ne'⟩

theorem Rep.coarse {v : ℚ} (h : Rep v) (h2 : 2 ≤ v) : ∃ j : ℤ, v = 1 / 2 ^ 51 * j := by
  rcases h.onGrid (E := -51) with ⟨j, hj⟩ | ⟨hj, _⟩
  · refine ⟨j, ?_⟩
    rw [hj]
    norm_num
  · norm_num at hj
    linarith

/-- From 2 on the data are further apart than the tolerance. -/
theorem far_apart {x y : Flo} {v w : ℚ} (hx : x.Is v) (hy : y.Is w) (hvx : x.Valid) (hvy : y.Valid)
    (h1 : 2 ≤ |v|) (h2 : 2 ≤ |w|) (hne : v ≠ w) : 1 / 2 ^ 51 ≤ |v - w| := by
  have key : ∀ {x : Flo} {v : ℚ}, x.Is v → x.Valid → 2 ≤ |v| → ∃ j : ℤ, v = 1 / 2 ^ 51 * j := by
    intro x v hx hv h
    obtain ⟨s, m, rfl, he⟩ := hx
    have hm : Rep m := hv
    have ha : |v| = m := by
      rw [← he]
      cases s <;> simp [abs_of_nonneg hm.nonneg]
    obtain ⟨j, hj⟩ := hm.coarse (ha ▸ h)
    cases s
    · exact ⟨j, by rw [← hj, ← he]; simp⟩
    · exact ⟨-j, by rw [← he]; push_cast; simp only [if_true]; rw [hj]; ring⟩
  obtain ⟨i, hi⟩ := key hx hvx h1
  obtain ⟨j, hj⟩ := key hy hvy h2
  have hij : i ≠ j := by
    rintro rfl
    exact hne (hi.trans hj.symm)
  have h3 : (1 : ℚ) ≤ |(i : ℚ) - j| := by
    have : (1 : ℤ) ≤ |i - j| := Int.one_le_abs (sub_ne_zero.2 hij)
    exact_mod_cast this
  rw [hi, hj, ← mul_sub, abs_mul, abs_of_pos (by norm_num : (0 : ℚ) < 1 / 2 ^ 51)]
  linarith [mul_le_mul_of_nonneg_left h3 (by norm_num : (0 : ℚ) ≤ 1 / 2 ^ 51)]

end Meevax.Number
