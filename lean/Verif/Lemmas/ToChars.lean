import Verif.Lemmas.InexactText
import Mathlib.Data.Int.Log
import Mathlib.Data.Nat.Digits.Lemmas

/-! The digits that `std::to_chars` prints. -/

namespace Meevax.Text

open Meevax.Number

/-- Every number is written with decimal digits, as many as wanted. -/
theorem exists_digits (n : ℕ) : ∀ l : ℕ, n < 10 ^ l → ∃ ds : List (Fin 10), ds.length = l ∧
    digitsValue ds = n := by
  intro l
  induction l generalizing n with
  | zero =>
    intro h
    exact ⟨[], rfl, by rw [digitsValue_nil]; omega⟩
  | succ l ih =>
    intro h
    obtain ⟨ds, h1, h2⟩ := ih (n / 10) (by rw [pow_succ] at h; omega)
    refine ⟨ds ++ [⟨n % 10, by omega⟩], by simp [h1], ?_⟩
    rw [digitsValue_append, h2]
    have : digitsValue [⟨n % 10, by omega⟩] = n % 10 := by simp [digitsValue]
    rw [this]
    simp
    omega

theorem digitsValue_cons (d : Fin 10) (ds : List (Fin 10)) :
    digitsValue (d :: ds) = d.val * 10 ^ ds.length + digitsValue ds := by
  have := digitsValue_append [d] ds
  rw [List.singleton_append] at this
  rw [this]
  simp [digitsValue]

theorem exists_exponentDigits (n : ℕ) : ∃ es, ExponentDigits n es := by
  rcases lt_or_ge n 100 with h | h
  · obtain ⟨ds, h1, h2⟩ := exists_digits n 2 (by norm_num; exact h)
    exact ⟨ds, h2, by omega, by omega⟩
  · obtain ⟨ds, h1, h2⟩ := exists_digits n (Nat.log 10 n + 1) (Nat.lt_pow_succ_log_self (by norm_num) n)
    have h3 : 2 ≤ Nat.log 10 n := by
      rw [Nat.le_log_iff_pow_le (by norm_num) (by omega)]
      norm_num
      exact h
    refine ⟨ds, h2, by omega, fun _ => ?_⟩
    cases ds with
    | nil => simp
    | cons d ds =>
      rintro e
      simp only [List.head?_cons, Option.some.injEq] at e
      subst e
      rw [digitsValue_zero_cons] at h2
      have h4 := digitsValue_lt ds
      have h5 : 10 ^ Nat.log 10 n ≤ n := Nat.pow_log_le_self 10 (by omega)
      rw [List.length_cons, Nat.add_right_cancel_iff] at h1
      rw [h1] at h4
      omega

theorem exists_general (sign : Sign) (ds : List (Fin 10)) (x : ℤ) : ∃ t, General sign ds x t := by
  obtain ⟨es, he⟩ := exists_exponentDigits x.natAbs
  unfold General
  by_cases h : -4 ≤ x ∧ x < 6
  · simp only [if_pos h]
    by_cases h1 : x < 0
    · simp only [if_pos h1]
      exact ⟨⟨sign, _, _, none⟩, rfl, rfl, rfl, rfl⟩
    · simp only [if_neg h1]
      by_cases h2 : (ds.length : ℤ) ≤ x + 1
      · simp only [if_pos h2]
        exact ⟨⟨sign, _, none, none⟩, rfl, rfl, rfl, rfl⟩
      · simp only [if_neg h2]
        exact ⟨⟨sign, _, _, none⟩, rfl, rfl, rfl, rfl⟩
  · simp only [if_neg h]
    exact ⟨⟨sign, _, _, _⟩, rfl, rfl, rfl, es, he, rfl⟩

theorem scientific_nonneg (ds : List (Fin 10)) (x : ℤ) : 0 ≤ scientific ds x :=
  mul_nonneg (Nat.cast_nonneg _) (zpow_nonneg (by norm_num) _)

theorem Recovers.iff {ds : List (Fin 10)} {x : ℤ} {m : ℚ} : Recovers ds x m ↔
    scientific ds x < 2 ^ 1024 - 2 ^ 970 ∧ Nearest (scientific ds x) m := by
  have h0 := scientific_nonneg ds x
  unfold Recovers Flo.Rounds
  rw [abs_of_nonneg h0]
  constructor
  · intro h
    split at h
    · cases h
    · rename_i hc
      obtain ⟨s, v, e, -, -, h3⟩ := h
      cases e
      exact ⟨not_le.1 hc, h3⟩
  · rintro ⟨h1, h2⟩
    rw [if_neg (not_le.2 h1)]
    exact ⟨false, m, rfl, fun h => absurd h (not_lt.2 h0), fun _ => rfl, h2⟩

theorem Recovers.of_eq {ds : List (Fin 10)} {x : ℤ} {m : ℚ} (hm : Rep m) (h : scientific ds x = m) :
    Recovers ds x m := by
  rw [Recovers.iff, h]
  exact ⟨not_le.1 hm.not_over, .self hm⟩

/-- Eighteen digits identify every magnitude. -/
theorem exists_recovers {m : ℚ} (hm : Rep m) : ∃ ds x, ds ≠ [] ∧ ds.length ≤ 18 ∧ (m = 0 → x = 0) ∧
    Recovers ds x m := by
  by_cases h0 : m = 0
  · refine ⟨[0], 0, by simp, by simp, fun _ => rfl, Recovers.of_eq hm ?_⟩
    rw [h0, scientific]
    simp [digitsValue]
  have hpos : 0 < m := lt_of_le_of_ne hm.nonneg (Ne.symm h0)
  have hlo : (10 : ℚ) ^ Int.log 10 m ≤ m := by
    have := Int.zpow_log_le_self (b := 10) (by norm_num) hpos
    exact_mod_cast this
  have hhi : m < (10 : ℚ) ^ (Int.log 10 m + 1) := by
    have := Int.lt_zpow_succ_log_self (b := 10) (by norm_num) m
    exact_mod_cast this
  generalize Int.log 10 m = L at hlo hhi
  have hu : (0 : ℚ) < 10 ^ (L - 17) := zpow_pos (by norm_num) _
  have e1 : (10 : ℚ) ^ L = 10 ^ (L - 17) * 10 ^ 17 := by
    rw [← zpow_natCast, ← zpow_add₀ (by norm_num)]
    congr 1
    push_cast
    ring
  have e2 : (10 : ℚ) ^ (L + 1) = 10 ^ (L - 17) * 10 ^ 18 := by
    rw [← zpow_natCast, ← zpow_add₀ (by norm_num)]
    congr 1
    push_cast
    ring
  rw [e1] at hlo
  rw [e2] at hhi
  have hfl : (⌊m / 10 ^ (L - 17)⌋₊ : ℚ) ≤ m / 10 ^ (L - 17) := Nat.floor_le (by positivity)
  have hfu := Nat.lt_floor_add_one (m / (10 : ℚ) ^ (L - 17))
  have hk : ⌊m / (10 : ℚ) ^ (L - 17)⌋₊ < 10 ^ 18 := by
    rw [Nat.floor_lt (by positivity), div_lt_iff₀ hu]
    push_cast
    linarith
  obtain ⟨ds, h1, h2⟩ := exists_digits _ _ hk
  refine ⟨ds, L, by rintro rfl; simp at h1, by omega, fun h => absurd h h0, ?_⟩
  rw [le_div_iff₀ hu] at hfl
  rw [div_lt_iff₀ hu] at hfu
  have hs : scientific ds L = ⌊m / (10 : ℚ) ^ (L - 17)⌋₊ * 10 ^ (L - 17) := by
    rw [scientific, h2, h1]
    norm_num
  rw [Recovers.iff, hs]
  refine ⟨lt_of_le_of_lt hfl (not_le.1 hm.not_over), ?_⟩
  refine Nearest.below hm hfl ?_
  have : m - ⌊m / (10 : ℚ) ^ (L - 17)⌋₊ * 10 ^ (L - 17) < 10 ^ (L - 17) := by linarith
  linarith

/-- There are shortest digits. -/
theorem exists_shortest {m : ℚ} (hm : Rep m) : ∃ ds x, ds ≠ [] ∧ (m = 0 → x = 0) ∧ Recovers ds x m ∧
    ∀ ds' x', ds' ≠ [] → (m = 0 → x' = 0) → Recovers ds' x' m → ds.length ≤ ds'.length := by
  classical
  have hex : ∃ n : ℕ, ∃ ds : List (Fin 10), ∃ x, ds.length = n ∧ ds ≠ [] ∧ (m = 0 → x = 0) ∧ Recovers ds x m := by
    obtain ⟨ds, x, h1, -, h2, h3⟩ := exists_recovers hm
    exact ⟨_, ds, x, rfl, h1, h2, h3⟩
  obtain ⟨ds, x, h0, h1, h2, h3⟩ := Nat.find_spec hex
  refine ⟨ds, x, h1, h2, h3, fun ds' x' h1' h2' h3' => ?_⟩
  rw [h0]
  exact Nat.find_min' hex ⟨ds', x', rfl, h1', h2', h3'⟩

/-- A function as ISO C++ wants `std::to_chars` to be. -/
theorem exists_toChars : ∃ tc, ToChars tc := by
  classical
  have key : ∀ (s : Bool) (m : ℚ), ∃ bs : List UInt8, Rep m → ∃ ds x t, ds ≠ [] ∧ (m = 0 → x = 0) ∧
      Recovers ds x m ∧
      (∀ ds' x', ds' ≠ [] → (m = 0 → x' = 0) → Recovers ds' x' m → ds.length ≤ ds'.length) ∧
      General (if s then .minus else .none) ds x t ∧ bs = t.text := by
    intro s m
    by_cases hm : Rep m
    · obtain ⟨ds, x, h1, h2, h3, h4⟩ := exists_shortest hm
      obtain ⟨t, ht⟩ := exists_general (if s then .minus else .none) ds x
      exact ⟨t.text, fun _ => ⟨ds, x, t, h1, h2, h3, h4, ht, rfl⟩⟩
    · exact ⟨[], fun h => absurd h hm⟩
  choose f hf using key
  exact ⟨fun d => match d with
    | .finite s m => f s m
    | .inf s => (if s then [45] else []) ++ [105, 110, 102]
    | .nan => [], ⟨hf, fun _ => rfl⟩⟩

theorem Rep.near {n : ℕ} (hn : n < 2 ^ 20) {j : ℤ} (hj : 0 ≤ (n : ℤ) * 2 ^ 32 + j) (h : j < 2 ^ 32) :
    Rep (n + j / 2 ^ 32) := by
  refine ⟨((n : ℤ) * 2 ^ 32 + j).toNat, -32, by omega, by norm_num, by norm_num, ?_⟩
  have e : ((((n : ℤ) * 2 ^ 32 + j).toNat : ℕ) : ℚ) = (n : ℚ) * 2 ^ 32 + j := by
    have := Int.toNat_of_nonneg hj
    exact_mod_cast this
  rw [e, zpow_neg, show (32 : ℤ) = ((32 : ℕ) : ℤ) from rfl, zpow_natCast]
  field_simp

/-- The shortest digits of a small integer are its own. -/
theorem shortest_integer {n : ℕ} (hn : n < 10 ^ 6) {ds : List (Fin 10)} {x : ℤ} (hd : ds ≠ [])
    (hl : ds.length ≤ 6) (h0 : (n : ℚ) = 0 → x = 0) (h : Recovers ds x n) : scientific ds x = n := by
  obtain ⟨-, hnear⟩ := Recovers.iff.1 h
  have hv0 := scientific_nonneg ds x
  have hup : scientific ds x ≤ n + 1 / 2 ^ 32 := by
    have h1 := hnear.2.1 _ (Rep.near (n := n) (j := 1) (by omega) (by omega) (by norm_num))
    push_cast at h1
    rcases abs_cases (scientific ds x - n) with h2 | h2 <;>
      rcases abs_cases (scientific ds x - (n + 1 / 2 ^ 32)) with h3 | h3 <;> linarith
  have hlo : (n : ℚ) - 1 / 2 ^ 32 ≤ scientific ds x := by
    rcases Nat.eq_zero_or_pos n with rfl | hpos
    · push_cast
      have : (0 : ℚ) ≤ 1 / 2 ^ 32 := by positivity
      linarith
    have h1 := hnear.2.1 _ (Rep.near (n := n) (j := -1) (by omega) (by omega) (by norm_num))
    push_cast at h1
    rcases abs_cases (scientific ds x - n) with h2 | h2 <;>
      rcases abs_cases (scientific ds x - (n + -1 / 2 ^ 32)) with h3 | h3 <;> linarith
  have hlen : 1 ≤ ds.length := List.length_pos_iff.2 hd
  have hN : digitsValue ds < 10 ^ 6 :=
    lt_of_lt_of_le (digitsValue_lt ds) (Nat.pow_le_pow_right (by norm_num) hl)
  -- the value is a multiple of a millionth
  obtain ⟨k, hk⟩ : ∃ k : ℤ, scientific ds x * 10 ^ 6 = k := by
    unfold scientific at *
    generalize hy : x - ((ds.length : ℤ) - 1) = y at *
    rcases le_or_gt 0 (y + 6) with hy0 | hy0
    · obtain ⟨z, hz⟩ := Int.eq_ofNat_of_zero_le hy0
      refine ⟨digitsValue ds * 10 ^ z, ?_⟩
      push_cast
      rw [mul_assoc, ← zpow_natCast (10 : ℚ) z, ← hz, zpow_add₀ (by norm_num)]
      norm_num
    · exfalso
      have h1 : (10 : ℚ) ^ y ≤ 10 ^ (-7 : ℤ) := zpow_le_zpow_right₀ (by norm_num) (by omega)
      have h2 : (digitsValue ds : ℚ) < 10 ^ 6 := by exact_mod_cast hN
      have h3 : (digitsValue ds : ℚ) * 10 ^ y ≤ 10 ^ 6 * 10 ^ (-7 : ℤ) :=
        mul_le_mul h2.le h1 (zpow_nonneg (by norm_num) _) (by norm_num)
      rcases Nat.eq_zero_or_pos n with rfl | hpos
      · have := h0 (by simp)
        omega
      · have h4 : (1 : ℚ) ≤ n := by exact_mod_cast hpos
        norm_num at h3 hlo
        linarith
  have hk1 : k = n * 10 ^ 6 := by
    have h1 : (k : ℚ) < (n * 10 ^ 6 + 1 : ℤ) := by
      rw [← hk]
      push_cast
      have : (1 : ℚ) / 2 ^ 32 * 10 ^ 6 < 1 := by norm_num
      linarith
    have h2 : ((n * 10 ^ 6 - 1 : ℤ) : ℚ) < k := by
      rw [← hk]
      push_cast
      have : (1 : ℚ) / 2 ^ 32 * 10 ^ 6 < 1 := by norm_num
      linarith
    have h3 : k < (n * 10 ^ 6 + 1 : ℤ) := by exact_mod_cast h1
    have h4 : (n * 10 ^ 6 - 1 : ℤ) < k := by exact_mod_cast h2
    omega
  rw [hk1] at hk
  push_cast at hk
  linarith

/-- A last digit zero is not needed. -/
theorem scientific_snoc_zero (ds : List (Fin 10)) (x : ℤ) : scientific (ds ++ [0]) x = scientific ds x := by
  have h1 : digitsValue (ds ++ [0]) = digitsValue ds * 10 := by
    rw [digitsValue_append]
    simp [digitsValue]
  unfold scientific
  rw [h1, List.length_append]
  push_cast
  rw [mul_assoc, List.length_singleton, ← zpow_one_add₀ (by norm_num)]
  congr 2
  push_cast
  ring

/-- A first digit zero is not needed. -/
theorem scientific_zero_cons (ds : List (Fin 10)) (x : ℤ) :
    scientific (0 :: ds) x = scientific ds (x - 1) := by
  unfold scientific
  rw [digitsValue_zero_cons, List.length_cons]
  congr 2
  push_cast
  ring

/-- The text of an integer below a million, written with as few digits as have its value. -/
theorem integer_text_of_value {n : ℕ} (hn : n < 10 ^ 6) {ds : List (Fin 10)} {x : ℤ} {sign : Sign} {t : Decimal}
    (hd : ds ≠ []) (h0 : (n : ℚ) = 0 → x = 0) (hv : scientific ds x = n)
    (hmin : ∀ ds' x', ds' ≠ [] → ((n : ℚ) = 0 → x' = 0) → scientific ds' x' = n → ds.length ≤ ds'.length)
    (hg : General sign ds x t) : t.sign = sign ∧ t.fraction = none ∧ t.exponent = none ∧ t.whole ≠ [] ∧
      digitsValue t.whole = n := by
  obtain ⟨hs, hp, hm⟩ := General.spec hd hg
  have hlen : 1 ≤ ds.length := List.length_pos_iff.2 hd
  have hx : 0 ≤ x ∧ x < 6 ∧ (ds.length : ℤ) ≤ x + 1 := by
    rcases Nat.eq_zero_or_pos n with rfl | hpos
    · have hx := h0 (by simp)
      have := hmin [0] 0 (by simp) (fun _ => rfl) (by simp [scientific, digitsValue])
      simp at this
      omega
    have hnz : (n : ℚ) ≠ 0 := by
      have : n ≠ 0 := by omega
      exact_mod_cast this
    have hx0 : 0 ≤ x := by
      by_contra hc
      have h1 : (digitsValue ds : ℚ) < 10 ^ ds.length := by exact_mod_cast digitsValue_lt ds
      have h2 : scientific ds x < 1 := by
        unfold scientific
        have hu : (0 : ℚ) < 10 ^ (x - ((ds.length : ℤ) - 1)) := zpow_pos (by norm_num) _
        calc (digitsValue ds : ℚ) * 10 ^ (x - ((ds.length : ℤ) - 1))
            < 10 ^ ds.length * 10 ^ (x - ((ds.length : ℤ) - 1)) := mul_lt_mul_of_pos_right h1 hu
          _ = (10 : ℚ) ^ (x + 1) := by
            rw [← zpow_natCast, ← zpow_add₀ (by norm_num)]
            congr 1
            ring
          _ ≤ 10 ^ (0 : ℤ) := zpow_le_zpow_right₀ (by norm_num) (by omega)
          _ = 1 := zpow_zero _
      rw [hv] at h2
      have : n < 1 := by exact_mod_cast h2
      omega
    refine ⟨hx0, ?_, ?_⟩
    · -- the first digit is not zero
      cases ds with
      | nil => exact absurd rfl hd
      | cons d ds =>
        by_cases hd0 : d = 0
        · subst hd0
          exfalso
          cases ds with
          | nil =>
            have : scientific [0] x = 0 := by simp [scientific, digitsValue]
            exact hnz (hv ▸ this)
          | cons d' ds =>
            have := hmin (d' :: ds) (x - 1) (by simp) (fun hz => absurd hz hnz)
              (by rw [← scientific_zero_cons]; exact hv)
            simp at this
        · by_contra hc
          have h1 : 10 ^ ds.length ≤ digitsValue (d :: ds) := by
            rw [digitsValue_cons]
            have : 1 ≤ d.val := by
              rcases Nat.eq_zero_or_pos d.val with h | h
              · exact absurd (Fin.ext h) hd0
              · exact h
            exact le_trans (Nat.le_mul_of_pos_left _ this) (Nat.le_add_right _ _)
          have h2 : (10 : ℚ) ^ ds.length ≤ digitsValue (d :: ds) := by exact_mod_cast h1
          have h3 : (10 : ℚ) ^ (6 : ℤ) ≤ scientific (d :: ds) x := by
            unfold scientific
            have hu : (0 : ℚ) < 10 ^ (x - (((d :: ds).length : ℤ) - 1)) := zpow_pos (by norm_num) _
            calc (10 : ℚ) ^ (6 : ℤ) ≤ 10 ^ x := zpow_le_zpow_right₀ (by norm_num) (by omega)
              _ = 10 ^ ds.length * 10 ^ (x - (((d :: ds).length : ℤ) - 1)) := by
                rw [← zpow_natCast, ← zpow_add₀ (by norm_num)]
                congr 1
                simp
              _ ≤ _ := mul_le_mul_of_nonneg_right h2 hu.le
          rw [hv] at h3
          have h4 : (n : ℚ) < 10 ^ 6 := by exact_mod_cast hn
          norm_num at h3 h4
          linarith
    · -- the last digit is not zero
      by_contra hc
      obtain ⟨ds', d, rfl⟩ := List.eq_nil_or_concat ds |>.resolve_left hd
      rw [List.concat_eq_append] at *
      rw [List.length_append, List.length_singleton] at hc hmin
      have hdv : d = 0 := by
        unfold scientific at hv
        rw [List.length_append, List.length_singleton, digitsValue_append] at hv
        obtain ⟨z, hz⟩ := Int.eq_ofNat_of_zero_le (show 0 ≤ (ds'.length : ℤ) - x - 1 by
          push_cast at hc
          omega)
        have e1 : x - (((ds'.length + 1 : ℕ) : ℤ) - 1) = -((z + 1 : ℕ) : ℤ) := by
          push_cast
          push_cast at hz
          omega
        rw [e1, zpow_neg, zpow_natCast] at hv
        have hp : (10 : ℚ) ^ (z + 1) ≠ 0 := by positivity
        rw [← div_eq_mul_inv, div_eq_iff hp] at hv
        have h1 : digitsValue ds' * 10 ^ List.length [d] + digitsValue [d] = n * 10 ^ (z + 1) := by
          exact_mod_cast hv
        have h2 : digitsValue [d] = d.val := by simp [digitsValue]
        rw [h2, List.length_singleton, pow_one, pow_succ, ← mul_assoc] at h1
        apply Fin.ext
        have := d.isLt
        show d.val = 0
        omega
      subst hdv
      cases ds' with
      | nil =>
        push_cast at hc
        simp at hc
        omega
      | cons d' ds' =>
        have := hmin (d' :: ds') x (by simp) (fun hz => absurd hz hnz)
          (by rw [← scientific_snoc_zero]; exact hv)
        omega
  obtain ⟨-, hg⟩ := hg
  rw [if_pos (by omega)] at hg
  obtain ⟨he, hg⟩ := hg
  rw [if_neg (by omega), if_pos hx.2.2] at hg
  obtain ⟨hw, hf⟩ := hg
  refine ⟨hs, hf, he, by rw [hw]; simp [hd], ?_⟩
  have h1 : t.magnitude = digitsValue t.whole := by
    rw [Decimal.magnitude, Decimal.significand, Decimal.fractionDigits, he, hf]
    simp [digitsValue]
  rw [hm, hv] at h1
  exact_mod_cast h1.symm

/-- A small integer is printed without a point and without an exponent part. -/
theorem integer_text {n : ℕ} (hn : n < 10 ^ 6) {ds : List (Fin 10)} {x : ℤ} {sign : Sign} {t : Decimal}
    (hd : ds ≠ []) (h0 : (n : ℚ) = 0 → x = 0) (h : Recovers ds x n)
    (hmin : ∀ ds' x', ds' ≠ [] → ((n : ℚ) = 0 → x' = 0) → Recovers ds' x' n → ds.length ≤ ds'.length)
    (hg : General sign ds x t) : t.sign = sign ∧ t.fraction = none ∧ t.exponent = none ∧ t.whole ≠ [] ∧
      digitsValue t.whole = n := by
  have hrep : Rep n := ⟨n, 0, by omega, by norm_num, by norm_num, by simp⟩
  have hl : ds.length ≤ 6 := by
    rcases Nat.eq_zero_or_pos n with rfl | hpos
    · have := hmin [0] 0 (by simp) (fun _ => rfl) (Recovers.of_eq hrep (by simp [scientific, digitsValue]))
      simp at this
      omega
    · obtain ⟨ds', h1, h2⟩ := exists_digits n 6 hn
      have := hmin ds' 5 (by rintro rfl; simp at h1) (fun hz => absurd hz (by
        have : n ≠ 0 := by omega
        exact_mod_cast this)) (Recovers.of_eq hrep (by rw [scientific, h1, h2]; norm_num))
      omega
  exact integer_text_of_value hn hd h0 (shortest_integer hn hd hl h0 h)
    (fun ds' x' h1 h2 h3 => hmin ds' x' h1 h2 (Recovers.of_eq hrep h3)) hg

end Meevax.Text
