import Verif.Model.SingleText
import Verif.Spec.SingleText
import Verif.Props.Single
import Verif.Props.InexactText

/-! C105: the text of numbers of single precision. -/

namespace Meevax.Text
open Meevax.Number (Flo Rep signed Nearest two_zpow_pos)

/-! ### Reading -/

theorem replaceMarker_append {as bs : List Byte} (h : ∀ b ∈ as, b ∉ allMarkers) :
    replaceMarker (as ++ bs) = as ++ replaceMarker bs := by
  induction as with
  | nil => rfl
  | cons a as ih =>
    have h1 : a ∉ ([68, 69, 70, 100, 101, 102] : List Byte) := h a (by simp)
    rw [List.cons_append, replaceMarker, if_neg h1, ih fun b hb => h b (by simp [hb])]
    rfl

theorem digits_plain (ds : List (Fin 10)) : ∀ b ∈ ds.map digitByte, b ∉ allMarkers := by
  intro b hb
  obtain ⟨d, _, rfl⟩ := List.mem_map.1 hb
  clear hb
  have h : ∀ d : Fin 10, digitByte d ∉ allMarkers := by decide
  exact h d

theorem sign_plain (s : Sign) : ∀ b ∈ s.text, b ∉ allMarkers := by
  cases s <;> decide

/-- The marker becomes an `e`. -/
theorem replaceMarker_text {t : Decimal} (h : t.Proper allMarkers) {e : Exponent} (he : t.exponent = some e) :
    replaceMarker t.text = Decimal.text { t with exponent := some { e with marker := 101 } } := by
  have hm : e.marker ∈ ([68, 69, 70, 100, 101, 102] : List Byte) := (h.exponent e he).1
  unfold Decimal.text
  rw [replaceMarker_append (sign_plain _), replaceMarker_append (digits_plain _), replaceMarker_append, he]
  · dsimp only
    rw [replaceMarker, if_pos hm]
  · cases hf : t.fraction with
    | none => simp
    | some f =>
      intro b hb
      rcases List.mem_cons.1 hb with rfl | hb
      · decide
      · exact digits_plain f b hb

theorem single_kind {t : Decimal} (h : t.Proper [70, 102]) {e : Exponent} (he : t.exponent = some e)
    (erange : ℚ → Bool) : realValue erange t.text = .inexact .single := by
  have ha : t.Proper allMarkers := Proper.weaken h (by decide)
  have hn := text_not_constant ha
  rw [realValue, makeNumber_text ha (Or.inr (by rw [he]; rfl))]
  dsimp only
  unfold literalValue
  rw [if_neg (by rintro e; rw [e] at hn; exact hn (by decide)),
    if_neg (by rintro e; rw [e] at hn; exact hn (by decide)),
    if_neg (by rintro (e | e) <;> rw [e] at hn <;> exact hn (by decide)), exponentMarker_text ha, he]
  have hm := (h.exponent e he).1
  dsimp only [Option.map_some]
  rw [if_pos]
  simpa using hm

theorem strtod_single {t : Decimal} (h : t.Proper [70, 102]) {e : Exponent} (he : t.exponent = some e) :
    strtod (replaceMarker t.text) = some (decide (t.sign = .minus), t.magnitude) := by
  have ha : t.Proper allMarkers := Proper.weaken h (by decide)
  have h' : Decimal.Proper { t with exponent := some { e with marker := 101 } } [69, 101] :=
    ⟨h.digits, fun e' he' => by
      cases he'
      exact ⟨by simp, (h.exponent e he).2⟩⟩
  rw [replaceMarker_text ha he, strtod_magnitude h']
  congr 2
  unfold Decimal.magnitude
  rw [he]
  rfl

/-- **C105 (literals).** A decimal number with an exponent part marked by `f`, whose magnitude is zero or
in the normal range of single precision, is read as the number of single precision that IEEE 754
prescribes for its value, with its sign. -/
theorem C105_literal_partial {erange erange' : ℚ → Bool} (hu : Underflow32 erange) {t : Decimal}
    (h : t.Proper [70, 102]) {e : Exponent} (he : t.exponent = some e)
    (h0 : t.magnitude = 0 ∨ 2 ^ (-126 : ℤ) ≤ t.magnitude) (ho : t.magnitude < 2 ^ 128 - 2 ^ 103) :
    realValue erange' t.text = .inexact .single ∧
    ∃ m, singleLiteral erange t.text = .single (.finite (decide (t.sign = .minus)) m) ∧
      Single.Rounds (.finite (decide (t.sign = .minus)) m) t.value := by
  refine ⟨single_kind h he _, ?_⟩
  have her : erange t.magnitude = false := by
    rw [Bool.eq_false_iff]
    intro hc
    obtain ⟨h1, h2⟩ := hu _ hc
    rcases h0 with h0 | h0
    · exact absurd h0 h1.ne'
    · exact absurd h2 (not_lt.2 h0)
  have hv : signed (decide (t.sign = .minus)) t.magnitude = t.value := by
    rw [Decimal.value, Sign.apply_signed]
  have hr := Single.roundEven_spec (decide (t.sign = .minus)) t.value
  rcases Single.roundEven_sign (s := decide (t.sign = .minus)) (magnitude_nonneg t) with hi | ⟨m, hm⟩
  · rw [hv] at hi
    rw [hi, Single.Rounds, ← hv, Single.signed_abs (magnitude_nonneg t), if_neg (not_le.2 ho)] at hr
    obtain ⟨_, _, hc, _⟩ := hr
    cases hc
  · refine ⟨m, ?_, ?_⟩
    · rw [singleLiteral, stof, strtod_single h he]
      dsimp only
      rw [hm]
      dsimp only
      rw [her, if_neg (by simp)]
    · rw [hv] at hm
      rwa [hm] at hr

/-- **C105 is false beyond the range**: the literal is an error, where the nearest number is an
infinity. -/
theorem C105_overflow_fails {erange : ℚ → Bool} {t : Decimal} (h : t.Proper [70, 102]) {e : Exponent}
    (he : t.exponent = some e) (ho : 2 ^ 128 - 2 ^ 103 ≤ t.magnitude) :
    singleLiteral erange t.text = .outOfRange := by
  have hr := Single.roundEven_spec (decide (t.sign = .minus)) (signed (decide (t.sign = .minus)) t.magnitude)
  rw [Single.Rounds, Single.signed_abs (magnitude_nonneg t), if_pos ho] at hr
  rw [singleLiteral, stof, strtod_single h he]
  dsimp only
  rw [hr]

/-- A witness: `-1.1f-2`. -/
example : let t : Decimal := ⟨.minus, [1], some [1], some ⟨102, .minus, [2]⟩⟩
    t.text = ascii "-1.1f-2" ∧ t.Proper [70, 102] ∧ 2 ^ (-126 : ℤ) ≤ t.magnitude ∧ t.magnitude < 2 ^ 128 - 2 ^ 103 := by
  refine ⟨by decide, ⟨by simp [Decimal.fractionDigits], fun e he => by cases he; simp⟩, ?_, ?_⟩ <;>
    norm_num [Decimal.magnitude, Decimal.significand, Decimal.fractionDigits, Exponent.value, digitsValue, Nat.ofDigits,
      zpow_neg]

/-- A witness for `C105_overflow_fails`: `1f39`. -/
example : let t : Decimal := ⟨.none, [1], none, some ⟨102, .none, [3, 9]⟩⟩
    t.text = ascii "1f39" ∧ t.Proper [70, 102] ∧ 2 ^ 128 - 2 ^ 103 ≤ t.magnitude := by
  refine ⟨by decide, ⟨by simp [Decimal.fractionDigits], fun e he => by cases he; simp⟩, ?_⟩
  norm_num [Decimal.magnitude, Decimal.significand, Decimal.fractionDigits, Exponent.value, digitsValue, Nat.ofDigits,
    Sign.apply]
  rw [if_neg (by decide)]
  norm_num

/-! ### Writing and reading back -/

theorem scientific_lt (ds : List (Fin 10)) (x : ℤ) : scientific ds x < 10 ^ (x + 1) := by
  have h := digitsValue_lt ds
  have h' : (digitsValue ds : ℚ) < 10 ^ ds.length := by exact_mod_cast h
  have hp : (0 : ℚ) < 10 ^ (x - (ds.length - 1 : ℤ)) := zpow_pos (by norm_num) _
  calc scientific ds x < 10 ^ ds.length * 10 ^ (x - (ds.length - 1 : ℤ)) := by
        unfold scientific
        exact mul_lt_mul_of_pos_right h' hp
    _ = 10 ^ (x + 1) := by
        rw [← zpow_natCast, ← zpow_add₀ (by norm_num)]
        congr 1
        ring

/-- Six digits are near. -/
theorem Six.near {m v : ℚ} (h : Six m v) (hm : 0 < m) : m / 2 ≤ v ∧ v ≤ 2 * m := by
  obtain ⟨y, i, h1, h2, h3, h4⟩ := h.2 hm
  have h5 : (10 : ℚ) ^ (y - 5) ≤ m := by
    refine le_trans ?_ h1
    exact zpow_le_zpow_right₀ (by norm_num) (by omega)
  rcases abs_cases (v - m) with h6 | h6 <;> constructor <;> linarith

/-- The text in the style of `%g` reads back as the nearest flonum, unless it is an integer below a million. -/
theorem general_reads {erange : ℚ → Bool} (he : Underflow erange) {s : Bool} {ds : List (Fin 10)} {x : ℤ} {t : Decimal}
    (h1 : ds ≠ []) (h5 : General (if s then .minus else .none) ds x t) (hn : ∀ n : ℕ, n < 10 ^ 6 → scientific ds x ≠ n)
    (hbig : 2 ^ (-1022 : ℤ) ≤ scientific ds x) (ho : scientific ds x < 2 ^ 1024 - 2 ^ 970) :
    ∃ w, realValue erange t.text = .inexact (.double (.finite s w)) ∧ Nearest (scientific ds x) w := by
  obtain ⟨hs, hp, hmag⟩ := General.spec h1 h5
  rw [← hmag] at hn hbig ho ⊢
  have hp' : t.Proper [69, 101] := Proper.weaken hp (by decide)
  have hi : t.Inexact := by
    by_contra hc
    unfold Decimal.Inexact at hc
    push Not at hc
    have hf : t.fraction = none := by simpa using hc.1
    have hex : t.exponent = none := by simpa using hc.2
    have hmag' : t.magnitude = digitsValue t.whole := by
      rw [Decimal.magnitude, Decimal.significand, Decimal.fractionDigits, hf, hex]
      simp [digitsValue]
    have hlt : digitsValue t.whole < 10 ^ 6 := by
      obtain ⟨-, hg⟩ := h5
      split at hg
      · rename_i hx
        have := scientific_lt ds x
        rw [← hmag, hmag'] at this
        have h10 : (10 : ℚ) ^ (x + 1) ≤ 10 ^ (6 : ℤ) := zpow_le_zpow_right₀ (by norm_num) (by omega)
        have h11 : (digitsValue t.whole : ℚ) < 10 ^ (6 : ℤ) := this.trans_le h10
        norm_num at h11
        have h12 : digitsValue t.whole < 1000000 := by exact_mod_cast h11
        omega
      · obtain ⟨-, -, es, -, hc⟩ := hg
        rw [hex] at hc
        cases hc
    exact hn _ hlt hmag'
  have her : erange t.magnitude = false := by
    rw [Bool.eq_false_iff]
    intro hc
    exact absurd (he _ hc).2 (not_lt.2 hbig)
  obtain ⟨v, e1, e2⟩ := stod_text hp' ho her
  refine ⟨v, ?_, e2⟩
  rw [realValue_text hp' hi, e1, hs]
  cases s <;> rfl

/-- A magnitude near one of single precision is in the normal range of flonums. -/
theorem near_normal {m v : ℚ} (hm : Single.Rep m) (hm0 : 0 < m) (hl : m / 2 ≤ v) (hu : v ≤ 2 * m) :
    2 ^ (-1022 : ℤ) ≤ v ∧ v < 2 ^ 1024 - 2 ^ 970 := by
  have hlow : (2 : ℚ) ^ (-149 : ℤ) ≤ m := by
    obtain ⟨k, e, k1, k2, k3, rfl⟩ := hm
    have hk : 1 ≤ k := by
      rcases Nat.eq_zero_or_pos k with rfl | hk
      · simp at hm0
      · exact hk
    have hk' : (1 : ℚ) ≤ k := by exact_mod_cast hk
    calc (2 : ℚ) ^ (-149 : ℤ) ≤ 2 ^ e := zpow_le_zpow_right₀ (by norm_num) k2
      _ = 1 * 2 ^ e := (one_mul _).symm
      _ ≤ k * 2 ^ e := mul_le_mul_of_nonneg_right hk' (two_zpow_pos e).le
  have hbig : 2 ^ (-1022 : ℤ) ≤ v := by
    have e1 : (2 : ℚ) ^ (-1022 : ℤ) ≤ 2 ^ (-150 : ℤ) := zpow_le_zpow_right₀ (by norm_num) (by norm_num)
    have e2 : (2 : ℚ) ^ (-150 : ℤ) = 2 ^ (-149 : ℤ) / 2 := by
      rw [show (-150 : ℤ) = -149 - 1 by norm_num, zpow_sub₀ (by norm_num), zpow_one]
    refine e1.trans (e2.le.trans (le_trans ?_ hl))
    exact div_le_div_of_nonneg_right hlow (by norm_num)
  have ho : v < 2 ^ 1024 - 2 ^ 970 := by
    have e1 : v < 2 ^ 129 := by
      have := hm.lt
      have e2 : (2 : ℚ) ^ 129 = 2 * 2 ^ 128 := by norm_num
      rw [e2]
      linarith
    have e3 : (2 : ℚ) ^ 129 < 2 ^ 970 := Number.two_pow_lt (by norm_num)
    have e4 : (2 : ℚ) ^ 970 ≤ 2 ^ 1024 - 2 ^ 970 := by
      have e5 : (2 : ℚ) ^ 971 ≤ 2 ^ 1024 := (Number.two_pow_lt (by norm_num)).le
      have e6 : (2 : ℚ) ^ 971 = 2 * 2 ^ 970 := by rw [pow_succ]; ring
      rw [e6] at e5
      generalize (2 : ℚ) ^ 970 = A at *
      generalize (2 : ℚ) ^ 1024 = B at *
      linarith
    exact e1.trans (e3.trans_le e4)
  exact ⟨hbig, ho⟩

/-- **C105 (`write`).** What `write` prints for a finite number of single precision is its value rounded to
six decimal digits: if these are not those of an integer below a million, it reads back as the flonum
nearest to that. Missing: integers below a million, which read back as exact integers (as in
C77). -/
theorem C105_write_partial {pf : Flo → List Byte} (hpf : Printf pf) {erange : ℚ → Bool} (he : Underflow erange)
    {s : Bool} {m : ℚ} (hm : Single.Rep m) :
    ∃ v, Six m v ∧ ((∀ n : ℕ, n < 10 ^ 6 → v ≠ n) →
      ∃ w, realValue erange (writeSingle pf (.finite s m)) = .inexact (.double (.finite s w)) ∧ Nearest v w) := by
  obtain ⟨ds, x, t, h1, h2, -, -, h5, h6⟩ := hpf s m hm
  refine ⟨_, h2, fun hn => ?_⟩
  have hm0 : 0 < m := by
    rcases hm.nonneg.lt_or_eq with h | h
    · exact h
    · exact absurd (h2.1 h.symm) (by simpa using hn 0 (by norm_num))
  obtain ⟨hl, hu⟩ := h2.near hm0
  obtain ⟨hbig, ho⟩ := near_normal hm hm0 hl hu
  show ∃ w, realValue erange (pf (.finite s m)) = _ ∧ _
  rw [h6]
  exact general_reads he h1 h5 hn hbig ho

/-- **C105 (`write` of short numbers).** A number of single precision that six digits suffice for, and that is
not an integer below a million, reads back as the flonum of the same value and sign. -/
theorem C105_write_short {pf : Flo → List Byte} (hpf : Printf pf) {erange : ℚ → Bool} (he : Underflow erange)
    {s : Bool} {m : ℚ} (hm : Single.Rep m) {y : ℤ} {i : ℕ} (h1 : (10 : ℚ) ^ y ≤ m) (h2 : m < 10 ^ (y + 1))
    (h3 : m = i * 10 ^ (y - 5)) (hn : ∀ n : ℕ, n < 10 ^ 6 → m ≠ n) :
    realValue erange (writeSingle pf (.finite s m)) = .inexact (.double (.finite s m)) := by
  obtain ⟨v, hv, h⟩ := C105_write_partial hpf he (s := s) hm
  have hm0 : 0 < m := lt_of_lt_of_le (zpow_pos (by norm_num) _) h1
  have hvm : v = m := by
    obtain ⟨y', j, k1, k2, k3, k4⟩ := hv.2 hm0
    have hyy : y' = y := by
      have a1 : y' < y + 1 := (zpow_lt_zpow_iff_right₀ (by norm_num : (1 : ℚ) < 10)).1 (k1.trans_lt h2)
      have a2 : y < y' + 1 := (zpow_lt_zpow_iff_right₀ (by norm_num : (1 : ℚ) < 10)).1 (h1.trans_lt k2)
      omega
    subst hyy
    have hp : (0 : ℚ) < 10 ^ (y' - 5) := zpow_pos (by norm_num) _
    rw [k3, h3, ← sub_mul, abs_mul, abs_of_pos hp] at k4
    have k5 : 2 * |(j : ℚ) - i| ≤ 1 := by
      by_contra hc
      push Not at hc
      nlinarith
    have k6 : 2 * |(j : ℤ) - i| ≤ 1 := by exact_mod_cast k5
    have k7 : |(j : ℤ) - i| = 0 := by
      have := abs_nonneg ((j : ℤ) - i)
      omega
    have k8 : (j : ℤ) = i := by
      have := abs_eq_zero.1 k7
      omega
    have k9 : j = i := by exact_mod_cast k8
    rw [k3, h3, k9]
  subst hvm
  obtain ⟨w, e1, e2⟩ := h hn
  rw [e1, e2.unique (Nearest.self hm.double)]

/-- A witness for `C105_write_short`: 2.5. -/
example : Single.Rep (5 / 2) ∧ (10 : ℚ) ^ (0 : ℤ) ≤ 5 / 2 ∧ (5 / 2 : ℚ) < 10 ^ ((0 : ℤ) + 1) ∧
    (5 / 2 : ℚ) = (250000 : ℕ) * 10 ^ ((0 : ℤ) - 5) ∧ ∀ n : ℕ, n < 10 ^ 6 → (5 / 2 : ℚ) ≠ n := by
  refine ⟨⟨5, -1, by norm_num, by norm_num, by norm_num, by norm_num⟩, by norm_num, by norm_num,
    by norm_num [zpow_neg], fun n _ h => ?_⟩
  have h' : (5 : ℚ) = 2 * n := by linarith
  have : 5 = 2 * n := by exact_mod_cast h'
  omega

/-- **C105 is false for `write`**: six digits are not enough. 16777216 of single precision is written as
a number that reads back as 16777200, for every way of rounding ties. -/
theorem C105_write_fails {pf : Flo → List Byte} (hpf : Printf pf) {erange : ℚ → Bool} (he : Underflow erange) :
    Single.Rep 16777216 ∧
    realValue erange (writeSingle pf (.finite false 16777216)) = .inexact (.double (.finite false 16777200)) := by
  have hr : Single.Rep 16777216 := ⟨2 ^ 23, 1, by norm_num, by norm_num, by norm_num, by norm_num⟩
  refine ⟨hr, ?_⟩
  obtain ⟨v, hv, h⟩ := C105_write_partial hpf he (s := false) hr
  have hv' : v = 16777200 := by
    obtain ⟨y, j, k1, k2, k3, k4⟩ := hv.2 (by norm_num)
    have hy : y = 7 := by
      have a1 : y < 8 := (zpow_lt_zpow_iff_right₀ (by norm_num : (1 : ℚ) < 10)).1
        (k1.trans_lt (by norm_num : (16777216 : ℚ) < 10 ^ (8 : ℤ)))
      have a2 : 7 < y + 1 := (zpow_lt_zpow_iff_right₀ (by norm_num : (1 : ℚ) < 10)).1
        ((by norm_num : (10 : ℚ) ^ (7 : ℤ) ≤ 16777216).trans_lt k2)
      omega
    subst hy
    have e100 : (10 : ℚ) ^ ((7 : ℤ) - 5) = 100 := by norm_num
    rw [e100] at k3 k4
    have k5 := abs_le.1 (show |v - 16777216| ≤ 50 by linarith)
    have k6 : (167771 : ℚ) < j := by linarith
    have k7 : (j : ℚ) < 167773 := by linarith
    have k8 : 167771 < j := by exact_mod_cast k6
    have k9 : j < 167773 := by exact_mod_cast k7
    have : j = 167772 := by omega
    rw [k3, this]
    norm_num
  subst hv'
  obtain ⟨w, e1, e2⟩ := h (fun n hn hc => by
    have : 16777200 = n := by exact_mod_cast hc
    omega)
  have hr' : Rep 16777200 := ⟨16777200, 0, by norm_num, by norm_num, by norm_num, by norm_num⟩
  rw [e1, e2.unique (Nearest.self hr')]

/-- **C105 is false for small integers**: integers of single precision below a million in magnitude are written without a
point and read back as exact integers. -/
theorem C105_write_integer_fails {pf : Flo → List Byte} (hpf : Printf pf) (erange : ℚ → Bool)
    {s : Bool} {m : ℚ} (hm : Single.Rep m) {n : ℕ} (hn : n < 10 ^ 6) (hmn : m = n) :
    realValue erange (writeSingle pf (.finite s m)) = .exact (.int (if s then -n else n)) := by
  obtain ⟨ds, x, t, h1, h2, h3, h4, h5, h6⟩ := hpf s m hm
  have hv : scientific ds x = n := by
    rw [← hmn]
    rcases hm.nonneg.lt_or_eq with h0 | h0
    · obtain ⟨y, j, k1, k2, k3, k4⟩ := h2.2 h0
      have hy : y ≤ 5 := by
        have hlt : (10 : ℚ) ^ y < 10 ^ (6 : ℤ) := k1.trans_lt (by
          rw [hmn]
          have : (n : ℚ) < 10 ^ 6 := by exact_mod_cast hn
          exact_mod_cast this)
        have := (zpow_lt_zpow_iff_right₀ (by norm_num : (1 : ℚ) < 10)).1 hlt
        omega
      obtain ⟨z, hz⟩ := Int.eq_ofNat_of_zero_le (show 0 ≤ 5 - y by omega)
      have hp : (0 : ℚ) < 10 ^ (y - 5) := zpow_pos (by norm_num) _
      have e1 : (n : ℚ) = (n * 10 ^ z : ℕ) * 10 ^ (y - 5) := by
        rw [show y - 5 = -(z : ℤ) by omega, zpow_neg, zpow_natCast]
        push_cast
        field_simp
      rw [k3, hmn] at k4 ⊢
      rw [e1, ← sub_mul, abs_mul, abs_of_pos hp] at k4
      have k5 : 2 * |(j : ℚ) - (n * 10 ^ z : ℕ)| ≤ 1 := by
        by_contra hc
        push Not at hc
        nlinarith
      have k6 : 2 * |(j : ℤ) - (n * 10 ^ z : ℕ)| ≤ 1 := by exact_mod_cast k5
      have k7 : |(j : ℤ) - (n * 10 ^ z : ℕ)| = 0 := by
        have := abs_nonneg ((j : ℤ) - (n * 10 ^ z : ℕ))
        omega
      have k9 : j = n * 10 ^ z := by
        have := abs_eq_zero.1 k7
        exact_mod_cast sub_eq_zero.1 this
      rw [e1, k9]
    · rw [← h0]
      exact h2.1 h0.symm
  obtain ⟨hs, hf, he, hw, hval⟩ := integer_text_of_value hn h1 (fun h => h3 (hmn.trans h)) hv
    (fun ds' x' k1 _ k3 => h4 ds' x' k1 (k3.trans hv.symm)) h5
  show realValue erange (pf (.finite s m)) = _
  rw [h6]
  exact realValue_integer erange hs hf he hw hval

/-- **C105 is false for infinities and NaN**: they are written without a sign or without `.0`, and what
is written is no number. -/
theorem C105_write_infinity_fails (pf : Flo → List Byte) (erange : ℚ → Bool) :
    (∀ s, realValue erange (writeSingle pf (.inf s)) = .notANumber) ∧
    realValue erange (writeSingle pf .nan) = .notANumber := by
  refine ⟨fun s => ?_, ?_⟩
  · cases s with
    | false =>
      have hn : makeNumber (ascii "inf") 10 = .invalid := by decide
      show realValue erange (ascii "inf") = _
      rw [realValue, hn]
    | true =>
      have hn : makeNumber (ascii "-inf") 10 = .invalid := by decide
      show realValue erange (ascii "-inf") = _
      rw [realValue, hn]
  · have hn : makeNumber (ascii "nan") 10 = .invalid := by decide
    show realValue erange (ascii "nan") = _
    rw [realValue, hn]

/-! ### `number->string` -/

theorem recovers32_iff {ds : List (Fin 10)} {x : ℤ} {m : ℚ} : Recovers32 ds x m ↔
    scientific ds x < 2 ^ 128 - 2 ^ 103 ∧ Single.Nearest (scientific ds x) m := by
  have h0 := scientific_nonneg ds x
  unfold Recovers32 Single.Rounds
  rw [abs_of_nonneg h0]
  constructor
  · intro h
    split at h
    · cases h
    · rename_i hc
      obtain ⟨s, v, e, -, -, h3⟩ := h
      cases e
      exact ⟨not_le.1 hc, h3⟩
  · rintro ⟨h1, h2⟩
    rw [if_neg (not_le.2 h1)]
    exact ⟨false, m, rfl, fun h => absurd h (not_lt.2 h0), fun _ => rfl, h2⟩

theorem recovers32_of_eq {ds : List (Fin 10)} {x : ℤ} {m : ℚ} (hm : Single.Rep m) (h : scientific ds x = m) :
    Recovers32 ds x m := by
  rw [recovers32_iff, h]
  exact ⟨not_le.1 hm.not_over, .self hm⟩

/-- What rounds to a number of single precision is near it. -/
theorem single_near {v m : ℚ} (h : Single.Nearest v m) (hv : 0 ≤ v) (hv' : v < 2 ^ 128 - 2 ^ 103) (hm0 : 0 < m) :
    m / 2 ≤ v ∧ v ≤ 2 * m := by
  constructor
  · have h1 := h.2.1 0 Single.Rep.zero
    rw [sub_zero, abs_of_nonneg hv] at h1
    have := (abs_le.1 h1).1
    linarith
  · by_contra hc
    push Not at hc
    have h2 : Single.Rep (2 * m) := by
      obtain ⟨k, e, k1, k2, k3, k4⟩ := h.1
      rcases lt_or_eq_of_le k3 with hlt | rfl
      · refine ⟨k, e + 1, k1, by omega, by omega, ?_⟩
        rw [k4, zpow_add₀ (by norm_num), zpow_one]
        ring
      · refine ⟨2 * k, 104, ?_, by norm_num, by norm_num, by rw [k4]; push_cast; ring⟩
        have h3 : 2 * m < 2 ^ 128 := by
          have : (0 : ℚ) < 2 ^ 103 := by positivity
          linarith
        have e1 : (2 : ℚ) ^ 128 = 2 ^ 24 * 2 ^ (104 : ℤ) := by norm_num
        rw [k4, e1, ← mul_assoc] at h3
        have h4 := lt_of_mul_lt_mul_right h3 (two_zpow_pos 104).le
        exact_mod_cast h4
    have h5 := h.2.1 _ h2
    rw [abs_of_pos (by linarith), abs_of_pos (by linarith)] at h5
    linarith

/-- **C105 (`number->string`).** The text of a positive or negative number of single precision in radix 10 stands
for a decimal number that identifies it among those of single precision; if that is not an integer below a
million, it reads back as the flonum nearest to it. -/
theorem C105_number_to_string {tc : Flo → List Byte} (htc : ToChars32 tc) {erange : ℚ → Bool} (he : Underflow erange)
    {s : Bool} {m : ℚ} (hm : Single.Rep m) (hm0 : 0 < m) :
    ∃ v, Single.Rounds (.finite false m) v ∧ ((∀ n : ℕ, n < 10 ^ 6 → v ≠ n) →
      ∃ w, realValue erange (singleToString tc (.finite s m)) = .inexact (.double (.finite s w)) ∧ Nearest v w) := by
  obtain ⟨ds, x, t, h1, -, h3, -, h5, h6⟩ := htc s m hm
  refine ⟨_, h3, fun hn => ?_⟩
  obtain ⟨h7, h8⟩ := recovers32_iff.1 h3
  obtain ⟨hl, hu⟩ := single_near h8 (scientific_nonneg ds x) h7 hm0
  obtain ⟨hbig, ho⟩ := near_normal hm hm0 hl hu
  rw [singleToString, h6]
  exact general_reads he h1 h5 hn hbig ho

/-- The number of single precision nearest to one tenth. -/
theorem tenth_nearest : Single.Nearest (1 / 10) (13421773 * 2 ^ (-27 : ℤ)) := by
  have hr : Single.Rep (13421773 * 2 ^ (-27 : ℤ)) := ⟨13421773, -27, by norm_num, by norm_num, by norm_num, by norm_num⟩
  have e : (2 : ℚ) ^ (-27 : ℤ) = 1 / 134217728 := by norm_num [zpow_neg]
  have key : ∀ w, Single.Rep w → w ≠ 13421773 * 2 ^ (-27 : ℤ) →
      |(1 / 10 : ℚ) - 13421773 * 2 ^ (-27 : ℤ)| < |1 / 10 - w| := by
    intro w hw hne
    rw [e, abs_of_neg (by norm_num)]
    rcases hw.onGrid (E := -27) with ⟨j, hj⟩ | ⟨hlt, -⟩
    · rw [e] at hj hne
      rcases lt_trichotomy j 13421773 with h | h | h
      · have h' : (j : ℚ) ≤ 13421772 := by exact_mod_cast (show j ≤ 13421772 by omega)
        rw [abs_of_pos (by rw [hj]; linarith), hj]
        linarith
      · rw [hj, h] at hne
        exact absurd (by push_cast; ring) hne
      · have h' : (13421774 : ℚ) ≤ j := by exact_mod_cast (show 13421774 ≤ j by omega)
        rw [abs_of_neg (by rw [hj]; linarith), hj]
        linarith
    · rw [e] at hlt
      norm_num at hlt
      rw [abs_of_pos (by linarith)]
      linarith
  refine ⟨hr, fun w hw => ?_, ?_⟩
  · by_cases hc : w = 13421773 * 2 ^ (-27 : ℤ)
    · rw [hc]
    · exact (key w hw hc).le
  · rintro ⟨w, h1, h2, h3⟩
    exact absurd h3.symm (key w h1 h2).ne

/-- **C105 is false for `number->string`**: one tenth in single precision becomes a text that reads back as the flonum
nearest to one tenth, which is another number. -/
theorem C105_number_to_string_fails {tc : Flo → List Byte} (htc : ToChars32 tc) {erange : ℚ → Bool}
    (he : Underflow erange) : Single.Rounds (.finite false (13421773 * 2 ^ (-27 : ℤ))) (1 / 10) ∧
    ∃ w, realValue erange (singleToString tc (.finite false (13421773 * 2 ^ (-27 : ℤ)))) =
      .inexact (.double (.finite false w)) ∧ Nearest (1 / 10) w ∧ w ≠ 13421773 * 2 ^ (-27 : ℤ) := by
  have ht := tenth_nearest
  have e : (2 : ℚ) ^ (-27 : ℤ) = 1 / 134217728 := by norm_num [zpow_neg]
  have hs1 : scientific [1] (-1) = 1 / 10 := by
    norm_num [scientific, digitsValue, zpow_neg]
  have hrec : Recovers32 [1] (-1) (13421773 * 2 ^ (-27 : ℤ)) := by
    rw [recovers32_iff, hs1]
    exact ⟨by norm_num, ht⟩
  refine ⟨hs1 ▸ hrec, ?_⟩
  obtain ⟨ds, x, t, h1, -, h3, h4, h5, h6⟩ := htc false _ ht.1
  have hlen := h4 [1] (-1) (by simp) (fun h => absurd h (by rw [e]; norm_num)) hrec
  have hv : scientific ds x = 1 / 10 := by
    obtain ⟨d, rfl⟩ : ∃ d, ds = [d] := by
      rw [← List.length_eq_one_iff]
      have := List.length_pos_iff.2 h1
      simp at hlen
      omega
    have hsc : scientific [d] x = d.val * 10 ^ x := by
      simp [scientific, digitsValue]
    obtain ⟨-, hn⟩ := recovers32_iff.1 h3
    have n1 := hn.2.1 (13421772 * 2 ^ (-27 : ℤ)) ⟨13421772, -27, by norm_num, by norm_num, by norm_num, by norm_num⟩
    have n2 := hn.2.1 (13421774 * 2 ^ (-27 : ℤ)) ⟨13421774, -27, by norm_num, by norm_num, by norm_num, by norm_num⟩
    rw [e] at n1 n2
    have lo : (999 / 10000 : ℚ) < scientific [d] x := by
      rcases abs_cases (scientific [d] x - 13421773 * (1 / 134217728)) with h | h <;>
      rcases abs_cases (scientific [d] x - 13421772 * (1 / 134217728)) with h' | h' <;> linarith
    have hi : scientific [d] x < 1001 / 10000 := by
      rcases abs_cases (scientific [d] x - 13421773 * (1 / 134217728)) with h | h <;>
      rcases abs_cases (scientific [d] x - 13421774 * (1 / 134217728)) with h' | h' <;> linarith
    have hup := scientific_lt [d] x
    have hx1 : -2 < x + 1 := (zpow_lt_zpow_iff_right₀ (by norm_num : (1 : ℚ) < 10)).1
      (lt_trans (by norm_num [zpow_neg]) (lo.trans hup))
    rw [hsc] at lo hi ⊢
    have hp : (0 : ℚ) < 10 ^ x := zpow_pos (by norm_num) _
    have hd1 : 1 ≤ d.val := by
      by_contra hc
      have h0 : d.val = 0 := by omega
      rw [h0] at lo
      norm_num at lo
    have hd1' : (1 : ℚ) ≤ d.val := by exact_mod_cast hd1
    have hd9 : (d.val : ℚ) ≤ 9 := by exact_mod_cast (show d.val ≤ 9 by omega)
    have hx2 : x < 0 := by
      refine (zpow_lt_zpow_iff_right₀ (by norm_num : (1 : ℚ) < 10)).1 ?_
      rw [zpow_zero]
      nlinarith
    obtain rfl | rfl : x = -1 ∨ x = -2 := by omega
    · rw [zpow_neg, zpow_one] at *
      have h2 : (d.val : ℚ) < 2 := by linarith
      have h2' : d.val < 2 := by exact_mod_cast h2
      have : d.val = 1 := by omega
      rw [this]
      norm_num
    · have e2 : (10 : ℚ) ^ (-2 : ℤ) = 1 / 100 := by norm_num [zpow_neg]
      rw [e2] at lo
      linarith
  have hbig : (2 : ℚ) ^ (-1022 : ℤ) ≤ 1 / 10 ∧ (1 / 10 : ℚ) < 2 ^ 1024 - 2 ^ 970 :=
    near_normal ht.1 (by rw [e]; norm_num) (by rw [e]; norm_num) (by rw [e]; norm_num)
  obtain ⟨w, w1, w2⟩ := general_reads he h1 h5 (fun n _ => by
    rw [hv]
    intro hc
    have h' : (1 : ℚ) = 10 * n := by linarith
    have : 1 = 10 * n := by exact_mod_cast h'
    omega) (hv ▸ hbig.1) (hv ▸ hbig.2)
  rw [hv] at w2
  refine ⟨w, by rw [singleToString, h6]; exact w1, w2, ?_⟩
  rintro rfl
  have := w2.2.1 (3602879701896397 * 2 ^ (-55 : ℤ)) ⟨3602879701896397, -55, by norm_num, by norm_num, by norm_num, by norm_num⟩
  rw [e, show (2 : ℚ) ^ (-55 : ℤ) = 1 / 36028797018963968 by norm_num [zpow_neg], abs_of_neg (by norm_num),
    abs_of_neg (by norm_num)] at this
  norm_num at this

/-- The hypothesis on `std::to_chars` is satisfiable. -/
theorem C105_to_chars_exists : ∃ tc, ToChars32 tc := by
  classical
  have key : ∀ (s : Bool) (m : ℚ), ∃ bs : List UInt8, Single.Rep m → ∃ ds x t, ds ≠ [] ∧ (m = 0 → x = 0) ∧
      Recovers32 ds x m ∧ (∀ ds' x', ds' ≠ [] → (m = 0 → x' = 0) → Recovers32 ds' x' m → ds.length ≤ ds'.length) ∧
      General (if s then .minus else .none) ds x t ∧ bs = t.text := by
    intro s m
    by_cases hm : Single.Rep m
    · have hex : ∃ n, ∃ ds x, ds ≠ [] ∧ (m = 0 → x = 0) ∧ Recovers32 ds x m ∧ ds.length = n := by
        by_cases h0 : m = 0
        · exact ⟨_, [0], 0, by simp, fun _ => rfl, recovers32_of_eq hm (by rw [h0]; simp [scientific, digitsValue]), rfl⟩
        -- a dyadic fraction is a decimal fraction
        obtain ⟨i, z, hiz⟩ : ∃ (i : ℕ) (z : ℤ), m = i * 10 ^ z := by
          obtain ⟨k, e, -, -, -, rfl⟩ := hm
          rcases Int.le_total 0 e with h | h
          · obtain ⟨a, rfl⟩ := Int.eq_ofNat_of_zero_le h
            exact ⟨k * 2 ^ a, 0, by push_cast; simp⟩
          · obtain ⟨a, ha⟩ := Int.eq_ofNat_of_zero_le (show 0 ≤ -e by omega)
            have : e = -(a : ℤ) := by omega
            subst this
            refine ⟨k * 5 ^ a, -(a : ℤ), ?_⟩
            rw [zpow_neg, zpow_neg, zpow_natCast, zpow_natCast, show (10 : ℚ) = 2 * 5 by norm_num, mul_pow]
            push_cast
            field_simp
        obtain ⟨ds, d1, d2⟩ := exists_digits i (i + 1)
          (lt_of_lt_of_le i.lt_succ_self (Nat.lt_pow_self (by norm_num)).le)
        refine ⟨_, ds, z + (ds.length - 1), by rintro rfl; simp at d1, fun h => absurd h h0,
          recovers32_of_eq hm ?_, rfl⟩
        rw [scientific, d2, hiz]
        congr 2
        ring
      obtain ⟨ds, x, g1, g2, g3, g4⟩ := Nat.find_spec hex
      obtain ⟨t, ht⟩ := exists_general (if s then .minus else .none) ds x
      exact ⟨t.text, fun _ => ⟨ds, x, t, g1, g2, g3, fun ds' x' k1 k2 k3 => by
        rw [g4]
        exact Nat.find_min' hex ⟨ds', x', k1, k2, k3, rfl⟩, ht, rfl⟩⟩
    · exact ⟨[], fun h => absurd h hm⟩
  choose f hf using key
  exact ⟨fun d => match d with
    | .finite s m => f s m
    | _ => [], hf⟩

/-- The hypothesis on `printf` is satisfiable. -/
theorem C105_printf_exists : ∃ pf, Printf pf := by
  classical
  have key : ∀ (s : Bool) (m : ℚ), ∃ bs : List UInt8, Single.Rep m → ∃ ds x t, ds ≠ [] ∧ Six m (scientific ds x) ∧
      (m = 0 → x = 0) ∧ (∀ ds' x', ds' ≠ [] → scientific ds' x' = scientific ds x → ds.length ≤ ds'.length) ∧
      General (if s then .minus else .none) ds x t ∧ bs = t.text := by
    intro s m
    by_cases hm : Single.Rep m
    · -- some digits
      obtain ⟨ds0, x0, h1, h2, h3⟩ : ∃ ds x, ds ≠ [] ∧ Six m (scientific ds x) ∧ (m = 0 → x = 0) := by
        rcases hm.nonneg.lt_or_eq with h0 | h0
        · have hlo : (10 : ℚ) ^ Int.log 10 m ≤ m := by
            exact_mod_cast Int.zpow_log_le_self (b := 10) (by norm_num) h0
          have hhi : m < (10 : ℚ) ^ (Int.log 10 m + 1) := by
            exact_mod_cast Int.lt_zpow_succ_log_self (b := 10) (by norm_num) m
          generalize Int.log 10 m = y at *
          have hp : (0 : ℚ) < 10 ^ (y - 5) := zpow_pos (by norm_num) _
          have hi0 : 0 ≤ round (m / 10 ^ (y - 5)) := by
            rw [round_eq]
            exact Int.floor_nonneg.2 (by positivity)
          obtain ⟨i, hi⟩ := Int.eq_ofNat_of_zero_le hi0
          have hr := abs_sub_round (m / (10 : ℚ) ^ (y - 5))
          rw [hi] at hr
          obtain ⟨ds, d1, d2⟩ := exists_digits i (i + 1) (by
            exact lt_of_lt_of_le i.lt_succ_self (Nat.lt_pow_self (by norm_num)).le)
          refine ⟨ds, (y - 5) + (ds.length - 1), ?_, ⟨fun h => absurd h h0.ne', fun _ => ⟨y, i, hlo, hhi, ?_, ?_⟩⟩,
            fun h => absurd h h0.ne'⟩
          · intro hc
            rw [hc] at d1
            simp at d1
          · rw [scientific, d2]
            congr 2
            ring
          · have : scientific ds ((y - 5) + (ds.length - 1)) = i * 10 ^ (y - 5) := by
              rw [scientific, d2]
              congr 2
              ring
            rw [this]
            have e : (i : ℚ) * 10 ^ (y - 5) - m = (i - m / 10 ^ (y - 5)) * 10 ^ (y - 5) := by
              field_simp
            rw [e, abs_mul, abs_of_pos hp, abs_sub_comm]
            push_cast at hr
            nlinarith
        · refine ⟨[0], 0, by simp, ⟨fun _ => by simp [scientific, digitsValue], fun h => absurd h0 h.ne⟩, fun _ => rfl⟩
      -- as few of them as have the value
      have hex : ∃ n, ∃ ds x, ds ≠ [] ∧ scientific ds x = scientific ds0 x0 ∧ (m = 0 → x = 0) ∧ ds.length = n :=
        ⟨_, ds0, x0, h1, rfl, h3, rfl⟩
      obtain ⟨ds, x, g1, g2, g3, g4⟩ := Nat.find_spec hex
      obtain ⟨t, ht⟩ := exists_general (if s then .minus else .none) ds x
      refine ⟨t.text, fun _ => ⟨ds, x, t, g1, by rw [g2]; exact h2, g3, fun ds' x' k1 k2 => ?_, ht, rfl⟩⟩
      by_cases hm0 : m = 0
      · have hle : ds.length ≤ 1 := by
          rw [g4]
          refine Nat.find_min' hex ⟨[0], 0, by simp, ?_, fun _ => rfl, rfl⟩
          rw [h2.1 hm0]
          simp [scientific, digitsValue]
        exact hle.trans (List.length_pos_iff.2 k1)
      · rw [g4]
        exact Nat.find_min' hex ⟨ds', x', k1, by rw [k2, g2], fun h => absurd h hm0, rfl⟩
    · exact ⟨[], fun h => absurd h hm⟩
  choose f hf using key
  exact ⟨fun d => match d with
    | .finite s m => f s m
    | _ => [], hf⟩

end Meevax.Text
