import Verif.Lemmas.Number

/-
Comparison of exact numbers.
-/

namespace Meevax.Number

theorem sign_neg {i : Int} : Int.sign i < 0 ↔ i < 0 := by
  rcases lt_trichotomy i 0 with h | h | h
  · simp [Int.sign_eq_neg_one_of_neg h, h]
  · simp [h]
  · simp [Int.sign_eq_one_of_pos h]; omega

theorem sign_pos {i : Int} : 0 < Int.sign i ↔ 0 < i := by
  rcases lt_trichotomy i 0 with h | h | h
  · simp [Int.sign_eq_neg_one_of_neg h]; omega
  · simp [h]
  · simp [Int.sign_eq_one_of_pos h, h]

theorem sign_zero {i : Int} : Int.sign i = 0 ↔ i = 0 := Int.sign_eq_zero_iff_zero

theorem mpzCmp_neg {a b : Int} : mpzCmp a b < 0 ↔ (a : ℚ) < b := by
  rw [mpzCmp, sign_neg]
  norm_cast
  omega

theorem mpzCmp_pos {a b : Int} : 0 < mpzCmp a b ↔ (b : ℚ) < a := by
  rw [mpzCmp, sign_pos]
  norm_cast
  omega

theorem mpzCmp_zero {a b : Int} : mpzCmp a b = 0 ↔ (a : ℚ) = b := by
  rw [mpzCmp, sign_zero]
  norm_cast
  omega

theorem Mpq.Canonical.den_posQ {q : Mpq} (h : q.Canonical) : (0 : ℚ) < q.den := by
  exact_mod_cast h.1

theorem cmp_neg {a b : Mpq} (ha : a.Canonical) (hb : b.Canonical) :
    Mpq.cmp a b < 0 ↔ (a.num : ℚ) / a.den < (b.num : ℚ) / b.den := by
  rw [Mpq.cmp, sign_neg, div_lt_div_iff₀ ha.den_posQ hb.den_posQ]
  norm_cast
  omega

theorem cmp_pos {a b : Mpq} (ha : a.Canonical) (hb : b.Canonical) :
    0 < Mpq.cmp a b ↔ (b.num : ℚ) / b.den < (a.num : ℚ) / a.den := by
  rw [Mpq.cmp, sign_pos, div_lt_div_iff₀ hb.den_posQ ha.den_posQ]
  norm_cast
  omega

theorem cmp_zero {a b : Mpq} (ha : a.Canonical) (hb : b.Canonical) :
    Mpq.cmp a b = 0 ↔ (a.num : ℚ) / a.den = (b.num : ℚ) / b.den := by
  rw [Mpq.cmp, sign_zero, div_eq_div_iff ha.den_posQ.ne' hb.den_posQ.ne']
  norm_cast
  omega

theorem lessThan_iff {x y : Num} (hx : x.Valid) (hy : y.Valid) :
    lessThan x y = true ↔ x.val < y.val := by
  cases x <;> cases y <;> simp only [lessThan, decide_eq_true_eq, Num.val]
  · norm_cast
  · exact mpzCmp_pos
  · rw [cmp_pos hy (Mpq.ofInteger_canonical _), ofInteger_div]
  · exact mpzCmp_neg
  · exact mpzCmp_neg
  · rw [cmp_pos hy (Mpq.ofInteger_canonical _), ofInteger_div]
  · rw [cmp_neg hx (Mpq.ofInteger_canonical _), ofInteger_div]
  · rw [cmp_neg hx (Mpq.ofInteger_canonical _), ofInteger_div]
  · exact cmp_neg hx hy

theorem greaterThan_iff {x y : Num} (hx : x.Valid) (hy : y.Valid) :
    greaterThan x y = true ↔ y.val < x.val := by
  cases x <;> cases y <;> simp only [greaterThan, decide_eq_true_eq, Num.val, gt_iff_lt]
  · norm_cast
  · exact mpzCmp_neg
  · rw [cmp_neg hy (Mpq.ofInteger_canonical _), ofInteger_div]
  · exact mpzCmp_pos
  · exact mpzCmp_pos
  · rw [cmp_neg hy (Mpq.ofInteger_canonical _), ofInteger_div]
  · rw [cmp_pos hx (Mpq.ofInteger_canonical _), ofInteger_div]
  · rw [cmp_pos hx (Mpq.ofInteger_canonical _), ofInteger_div]
  · exact cmp_pos hx hy

theorem equals_iff {x y : Num} (hx : x.Valid) (hy : y.Valid) :
    equals x y = true ↔ x.val = y.val := by
  cases x <;> cases y <;> simp only [equals, beq_iff_eq, Num.val]
  · norm_cast
  · rw [eq_comm, mpzCmp_zero, eq_comm]
  · rw [eq_comm, cmp_zero hy (Mpq.ofInteger_canonical _), ofInteger_div, eq_comm]
  · exact mpzCmp_zero
  · exact mpzCmp_zero
  · rw [eq_comm, cmp_zero hy (Mpq.ofInteger_canonical _), ofInteger_div, eq_comm]
  · rw [cmp_zero hx (Mpq.ofInteger_canonical _), ofInteger_div]
  · rw [cmp_zero hx (Mpq.ofInteger_canonical _), ofInteger_div]
  · exact cmp_zero hx hy

theorem notEquals_iff {x y : Num} (hx : x.Valid) (hy : y.Valid) :
    notEquals x y = true ↔ x.val ≠ y.val := by
  rw [notEquals, Bool.not_eq_true', ← Bool.not_eq_true, equals_iff hx hy]

theorem lessThanOrEquals_iff {x y : Num} (hx : x.Valid) (hy : y.Valid) :
    lessThanOrEquals x y = true ↔ x.val ≤ y.val := by
  rw [lessThanOrEquals, Bool.not_eq_true', ← Bool.not_eq_true, greaterThan_iff hx hy, not_lt]

theorem greaterThanOrEquals_iff {x y : Num} (hx : x.Valid) (hy : y.Valid) :
    greaterThanOrEquals x y = true ↔ y.val ≤ x.val := by
  rw [greaterThanOrEquals, Bool.not_eq_true', ← Bool.not_eq_true, lessThan_iff hx hy, not_lt]

theorem noAdjacent_iff {p : Num → Num → Bool} {R : ℚ → ℚ → Prop}
    (h : ∀ x y : Num, x.Valid → y.Valid → (p x y = true ↔ ¬ R x.val y.val)) :
    ∀ xs : List Num, (∀ x ∈ xs, x.Valid) →
      (noAdjacent p xs = true ↔ List.IsChain R (xs.map Num.val))
  | [], _ => by simp [noAdjacent]
  | [x], _ => by simp [noAdjacent]
  | x :: y :: rest, hv => by
    have ih := noAdjacent_iff h (y :: rest) (fun z hz => hv z (by simp_all))
    have hxy := h x y (hv x (by simp)) (hv y (by simp))
    rw [noAdjacent, Bool.and_eq_true, ih, Bool.not_eq_true', ← Bool.not_eq_true, hxy, not_not]
    simp [List.isChain_cons_cons]

theorem isZero_iff {x : Num} (hx : x.Valid) : isZero x = true ↔ x.val = 0 := by
  rw [isZero, equals_iff hx (by simp [Num.Valid])]
  simp [Num.val]

theorem isPositive_iff {x : Num} (hx : x.Valid) : isPositive x = true ↔ 0 < x.val := by
  rw [isPositive, lessThan_iff (by simp [Num.Valid]) hx]
  simp [Num.val]

theorem isNegative_iff {x : Num} (hx : x.Valid) : isNegative x = true ↔ x.val < 0 := by
  rw [isNegative, lessThan_iff hx (by simp [Num.Valid])]
  simp [Num.val]

theorem IsInt.isZero {x : Num} {z : Int} (h : IsInt x z) : isZero x = true ↔ z = 0 := by
  rw [isZero_iff h.valid, h.val]
  norm_cast

theorem IsInt.isNegative {x : Num} {z : Int} (h : IsInt x z) : isNegative x = true ↔ z < 0 := by
  rw [isNegative_iff h.valid, h.val]
  norm_cast

theorem maxLoop_spec : ∀ (xs : List Num) (b : Num), b.Valid → (∀ x ∈ xs, x.Valid) →
    maxLoop b xs ∈ b :: xs ∧ ∀ x ∈ b :: xs, x.val ≤ (maxLoop b xs).val
  | [], b, _, _ => by simp [maxLoop]
  | y :: ys, b, hb, h => by
    have hy := h y (by simp)
    unfold maxLoop
    split
    · rename_i hlt
      rw [lessThan_iff hb hy] at hlt
      have ih := maxLoop_spec ys y hy (fun x hx => h x (by simp [hx]))
      refine ⟨List.mem_cons_of_mem _ ih.1, ?_⟩
      intro x hx
      rcases List.mem_cons.1 hx with rfl | hx
      · exact hlt.le.trans (ih.2 y (by simp))
      · exact ih.2 x hx
    · rename_i hlt
      rw [lessThan_iff hb hy, not_lt] at hlt
      have ih := maxLoop_spec ys b hb (fun x hx => h x (by simp [hx]))
      refine ⟨?_, ?_⟩
      · rcases List.mem_cons.1 ih.1 with h1 | h1
        · rw [h1]; simp
        · simp [h1]
      intro x hx
      rcases List.mem_cons.1 hx with rfl | hx
      · exact ih.2 x (by simp)
      rcases List.mem_cons.1 hx with rfl | hx
      · exact hlt.trans (ih.2 b (by simp))
      · exact ih.2 x (by simp [hx])

theorem minLoop_spec : ∀ (xs : List Num) (b : Num), b.Valid → (∀ x ∈ xs, x.Valid) →
    minLoop b xs ∈ b :: xs ∧ ∀ x ∈ b :: xs, (minLoop b xs).val ≤ x.val
  | [], b, _, _ => by simp [minLoop]
  | y :: ys, b, hb, h => by
    have hy := h y (by simp)
    unfold minLoop
    split
    · rename_i hlt
      rw [lessThan_iff hy hb] at hlt
      have ih := minLoop_spec ys y hy (fun x hx => h x (by simp [hx]))
      refine ⟨List.mem_cons_of_mem _ ih.1, ?_⟩
      intro x hx
      rcases List.mem_cons.1 hx with rfl | hx
      · exact (ih.2 y (by simp)).trans hlt.le
      · exact ih.2 x hx
    · rename_i hlt
      rw [lessThan_iff hy hb, not_lt] at hlt
      have ih := minLoop_spec ys b hb (fun x hx => h x (by simp [hx]))
      refine ⟨?_, ?_⟩
      · rcases List.mem_cons.1 ih.1 with h1 | h1
        · rw [h1]; simp
        · simp [h1]
      intro x hx
      rcases List.mem_cons.1 hx with rfl | hx
      · exact ih.2 x (by simp)
      rcases List.mem_cons.1 hx with rfl | hx
      · exact (ih.2 b (by simp)).trans hlt
      · exact ih.2 x (by simp [hx])

theorem foldLeft_val {f : Num → Num → Outcome Num} {op : ℚ → ℚ → ℚ}
    (hf : ∀ x y : Num, x.Valid → y.Valid → Yields (f x y) (op x.val y.val)) :
    ∀ (xs : List Num) (init : Num), init.Valid → (∀ x ∈ xs, x.Valid) →
      Yields (foldLeft f init xs) (List.foldl op init.val (xs.map Num.val))
  | [], init, h, _ => ⟨init, rfl, h, rfl⟩
  | x :: xs, init, h, hv => by
    have h1 := hf init x h (hv x (by simp))
    unfold foldLeft
    refine h1.bind fun r hr hrv => ?_
    have := foldLeft_val hf xs r hr (fun y hy => hv y (by simp [hy]))
    rw [hrv] at this
    exact this

theorem foldLeft_int {f : Num → Num → Outcome Num} {op : Int → Int → Int}
    (hf : ∀ x y a b, IsInt x a → IsInt y b → Gives (f x y) (op a b)) :
    ∀ (xs : List Num) (zs : List Int) (init : Num) (z : Int), IsInt init z →
      List.Forall₂ IsInt xs zs → Gives (foldLeft f init xs) (List.foldl op z zs)
  | [], _, init, z, h, .nil => ⟨init, rfl, h⟩
  | x :: xs, _, init, z, h, .cons hx hxs => by
    unfold foldLeft
    rw [List.foldl_cons]
    exact (hf init x _ _ h hx).bind fun r hr => foldLeft_int hf xs _ r _ hr hxs

end Meevax.Number
