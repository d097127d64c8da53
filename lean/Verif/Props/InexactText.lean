import Verif.Lemmas.ToChars
import Verif.Props.Reader

/-! C77: the text of inexact numbers. -/

namespace Meevax.Text

open Meevax.Number

/-- The C library reports underflow only where there is underflow. -/
def Underflow (erange : ℚ → Bool) : Prop := ∀ x, erange x = true → 0 < x ∧ x < 2 ^ (-1022 : ℤ)

/-- The C library reports underflow as glibc does: whenever a literal in the subnormal range is not
exactly a binary64 number. -/
def Glibc (erange : ℚ → Bool) : Prop := Underflow erange ∧
  ∀ x, 0 < x → x ≤ 2 ^ (-1022 : ℤ) - 2 ^ (-1075 : ℤ) → ¬ Rep x → erange x = true

/-- Such a library exists. -/
theorem exists_glibc : ∃ erange, Glibc erange := by
  classical
  refine ⟨fun x => decide (0 < x ∧ x < 2 ^ (-1022 : ℤ) ∧ ¬ Rep x), ?_, ?_⟩
  · intro x h
    have := of_decide_eq_true h
    exact ⟨this.1, this.2.1⟩
  · intro x h1 h2 h3
    refine decide_eq_true ⟨h1, lt_of_le_of_lt h2 ?_, h3⟩
    have := two_zpow_pos (-1075)
    linarith

/-! ### Reading -/

/-- **C77, literals**: a decimal number with a point or with an exponent part `e`, whose magnitude is
zero or in the normal range of binary64, is read as the inexact number IEEE 754 prescribes for its
value, and keeps its sign even when it is zero. -/
theorem C77_literal_partial {erange : ℚ → Bool} (he : Underflow erange) {t : Decimal}
    (h : t.Proper [69, 101]) (hi : t.Inexact) (hu : t.magnitude = 0 ∨ 2 ^ (-1022 : ℤ) ≤ t.magnitude)
    (ho : t.magnitude < 2 ^ 1024 - 2 ^ 970) :
    ∃ m, realValue erange t.text = .inexact (.double (.finite (decide (t.sign = .minus)) m)) ∧
      (Flo.finite (decide (t.sign = .minus)) m).Rounds t.value := by
  have her : erange t.magnitude = false := by
    rw [Bool.eq_false_iff]
    intro hc
    obtain ⟨h1, h2⟩ := he _ hc
    rcases hu with hu | hu
    · exact absurd hu h1.ne'
    · exact absurd h2 (not_lt.2 hu)
  obtain ⟨v, h1, h2⟩ := stod_text h ho her
  refine ⟨v, by rw [realValue_text h hi, h1], ?_⟩
  rw [Decimal.value, Sign.apply_signed, Flo.Rounds, signed_abs (magnitude_nonneg t),
    if_neg (not_le.2 ho)]
  refine ⟨_, v, rfl, ?_, ?_, h2⟩
  · intro hlt
    by_contra hc
    have : decide (t.sign = .minus) = false := by simpa using hc
    rw [this] at hlt
    exact absurd hlt (not_lt.2 (by simpa [signed] using magnitude_nonneg t))
  · intro hlt
    by_contra hc
    have : decide (t.sign = .minus) = true := by simpa using hc
    rw [this] at hlt
    exact absurd hlt (not_lt.2 (by simpa [signed] using magnitude_nonneg t))

/-- `-6.02e+23` meets the hypotheses. -/
def avogadro : Decimal := ⟨.minus, [6], some [0, 2], some ⟨101, .plus, [2, 3]⟩⟩

example : avogadro.text = ascii "-6.02e+23" ∧ avogadro.Proper [69, 101] ∧ avogadro.Inexact ∧
    avogadro.magnitude = 602 * 10 ^ 21 := by
  refine ⟨by decide, ⟨by simp [avogadro], ?_⟩, Or.inl rfl, ?_⟩
  · intro e he
    cases he
    simp
  · simp only [Decimal.magnitude, Decimal.significand, avogadro, Decimal.fractionDigits, digitsValue,
      Exponent.value]
    rw [if_neg (by decide)]
    norm_num [Nat.ofDigits]

/-- **C77 is false for literals beyond the range**: reading them raises an error, where the nearest
inexact number is an infinity. -/
theorem C77_overflow_fails {erange : ℚ → Bool} {t : Decimal} (h : t.Proper [69, 101]) (hi : t.Inexact)
    (ho : 2 ^ 1024 - 2 ^ 970 ≤ t.magnitude) : realValue erange t.text = .inexact .outOfRange := by
  rw [realValue_text h hi, stod_over h ho]

/-- **C77 is false for the exponent marker `d`**: the exponent part is ignored. -/
theorem C77_d_exponent_fails {t : Decimal} (h : t.Proper [68, 100]) {e : Exponent}
    (he : t.exponent = some e) (erange : ℚ → Bool) :
    realValue erange t.text = .inexact (stod erange { t with exponent := none }.text) := by
  have h' : Decimal.Proper { t with exponent := none } allMarkers :=
    ⟨h.digits, fun e he => by cases he⟩
  rw [realValue, makeNumber_text (Proper.weaken h (by decide)) (Or.inr (by rw [he]; rfl))]
  dsimp only
  rw [literalValue_text (Proper.weaken h (by decide)), stod, stod,
    strtod_text (Proper.weaken h (by decide)), strtod_text h', he]
  have hm := (h.exponent e he).1
  have : ¬ (e.marker = 101 ∨ e.marker = 69) := by
    rintro (e1 | e1) <;> rw [e1] at hm <;> exact absurd hm (by decide)
  simp only [if_neg this]
  rfl

/-- `1d5` is read as one. -/
example (erange : ℚ → Bool) (he : Underflow erange) :
    ∃ m, realValue erange (ascii "1d5") = .inexact (.double (.finite false m)) ∧ m = 1 := by
  have h1 := C77_d_exponent_fails (t := ⟨.none, [1], none, some ⟨100, .none, [5]⟩⟩) ⟨by simp, by
    intro e he
    cases he
    simp⟩ rfl erange
  have hp : Decimal.Proper ⟨.none, [1], none, none⟩ [69, 101] := ⟨by simp, fun e he => by cases he⟩
  have hm : Decimal.magnitude ⟨.none, [1], none, none⟩ = 1 := by
    simp [Decimal.magnitude, Decimal.significand, Decimal.fractionDigits, digitsValue]
  have h1r : Rep 1 := ⟨1, 0, by norm_num, by norm_num, by norm_num, by norm_num⟩
  obtain ⟨v, h2, h3⟩ := stod_text (erange := erange) hp (by rw [hm]; exact not_le.1 h1r.not_over) (by
    rw [hm, Bool.eq_false_iff]
    intro hc
    have := (he _ hc).2
    have h4 : (2 : ℚ) ^ (-1022 : ℤ) ≤ 2 ^ (0 : ℤ) := zpow_le_zpow_right₀ (by norm_num) (by norm_num)
    rw [zpow_zero] at h4
    exact absurd this (not_lt.2 h4))
  rw [hm] at h3
  refine ⟨v, ?_, h3.unique (.self h1r)⟩
  rw [show ascii "1d5" = Decimal.text ⟨.none, [1], none, some ⟨100, .none, [5]⟩⟩ by decide, h1]
  exact congrArg RealValue.inexact h2

/-! ### Writing and reading back -/

/-- **C77, round trip**: what `write` prints for an inexact number reads back as the same inexact
number, if it is not an integer below a million in magnitude, nor in the subnormal range. Infinities
and NaN read back. -/
theorem C77_round_trip_partial {tc : Flo → List Byte} (htc : ToChars tc) {erange : ℚ → Bool}
    (he : Underflow erange) {d : Flo} (hv : d.Valid)
    (hd : ∀ s m, d = .finite s m → 2 ^ (-1022 : ℤ) < m ∧ ∀ n : ℕ, n < 10 ^ 6 → m ≠ n) :
    realValue erange (writeFlo tc d) = .inexact (.double d) := by
  cases d with
  | nan =>
    have hn : makeNumber (ascii "+nan.0") 10 = .number (.inexact (ascii "+nan.0")) := by decide
    show realValue erange (ascii "+nan.0") = _
    rw [realValue, hn]
    rfl
  | inf s =>
    cases s with
    | false =>
      have hn : makeNumber (ascii "+inf.0") 10 = .number (.inexact (ascii "+inf.0")) := by decide
      show realValue erange (ascii "+inf.0") = _
      rw [realValue, hn]
      rfl
    | true =>
      have hn : makeNumber (ascii "-inf.0") 10 = .number (.inexact (ascii "-inf.0")) := by decide
      show realValue erange (ascii "-inf.0") = _
      rw [realValue, hn]
      rfl
  | finite s m =>
    obtain ⟨hlo, hn⟩ := hd s m rfl
    obtain ⟨ds, x, t, h1, h2, h3, -, h5, h6⟩ := htc.finite s m hv
    obtain ⟨hs, hp, hm⟩ := General.spec h1 h5
    obtain ⟨ho, hnear⟩ := Recovers.iff.1 h3
    rw [← hm] at ho hnear
    have hp' : t.Proper [69, 101] := Proper.weaken hp (by decide)
    show realValue erange (tc (.finite s m)) = _
    rw [h6]
    have hlow : Rep (2 ^ (-1022 : ℤ)) := ⟨1, -1022, by norm_num, by norm_num, by norm_num, by simp⟩
    have hbig : 2 ^ (-1022 : ℤ) ≤ t.magnitude := by
      by_contra hc
      push Not at hc
      have := hnear.2.1 _ hlow
      rw [abs_of_neg (by linarith), abs_of_neg (by linarith)] at this
      linarith
    have hi : t.Inexact := by
      by_contra hc
      unfold Decimal.Inexact at hc
      push Not at hc
      have hf : t.fraction = none := by simpa using hc.1
      have hex : t.exponent = none := by simpa using hc.2
      have hmag : t.magnitude = digitsValue t.whole := by
        rw [Decimal.magnitude, Decimal.significand, Decimal.fractionDigits, hf, hex]
        simp [digitsValue]
      have hlt : digitsValue t.whole < 10 ^ 6 := by
        obtain ⟨-, hg⟩ := h5
        split at hg
        · rename_i hx
          obtain ⟨-, hg⟩ := hg
          split at hg
          · rw [hf] at hg
            cases hg.2
          · split at hg
            · rename_i hle
              refine lt_of_lt_of_le (digitsValue_lt t.whole) (Nat.pow_le_pow_right (by norm_num) ?_)
              rw [hg.1, List.length_append, List.length_replicate]
              omega
            · rw [hf] at hg
              cases hg.2
        · obtain ⟨-, -, es, -, hc⟩ := hg
          rw [hex] at hc
          cases hc
      have hr : Rep (digitsValue t.whole) :=
        ⟨digitsValue t.whole, 0, by omega, by norm_num, by norm_num, by simp⟩
      rw [hmag] at hnear
      exact hn _ hlt ((Nearest.unique hnear (.self hr)))
    have her : erange t.magnitude = false := by
      rw [Bool.eq_false_iff]
      intro hc
      exact absurd (he _ hc).2 (not_lt.2 hbig)
    obtain ⟨v, e1, e2⟩ := stod_text hp' ho her
    rw [realValue_text hp' hi, e1, e2.unique hnear, hs]
    cases s <;> rfl

/-- The hypothesis on `std::to_chars` is satisfiable: eighteen digits identify every magnitude, so
there are shortest digits that do. -/
theorem C77_to_chars_exists : ∃ tc, ToChars tc := exists_toChars

/-- One third and 2^100 meet the hypotheses on the number: they are in the normal range, the first is
not an integer, the second is not below a million. -/
example : (∀ n : ℕ, n < 10 ^ 6 → (6004799503160661 / 2 ^ 54 : ℚ) ≠ n) ∧
    Rep (6004799503160661 / 2 ^ 54) ∧ Rep (2 ^ 100) ∧ ∀ n : ℕ, n < 10 ^ 6 → (2 ^ 100 : ℚ) ≠ n := by
  refine ⟨fun n _ h => ?_, ⟨6004799503160661, -54, by norm_num, by norm_num, by norm_num, by norm_num⟩,
    ⟨1, 100, by norm_num, by norm_num, by norm_num, by norm_num⟩, fun n hn h => ?_⟩
  · rw [div_eq_iff (by norm_num)] at h
    have : 6004799503160661 = n * 2 ^ 54 := by exact_mod_cast h
    omega
  · have : 2 ^ 100 = n := by exact_mod_cast h
    omega

/-- The characters of decimal numbers continue a token. -/
theorem text_plain {t : Decimal} (h : t.Proper allMarkers) : PlainBytes t.text := by
  have hd : ∀ (ds : List (Fin 10)) (b : Byte), b ∈ ds.map digitByte →
      b.toNat ≤ 127 ∧ b ≠ 0 ∧ isSpecial b.toNat = false := by
    intro ds b hb
    obtain ⟨d, -, rfl⟩ := List.mem_map.1 hb
    exact digitByte_plain d
  have hs : ∀ (s : Sign) (b : Byte), b ∈ s.text → b.toNat ≤ 127 ∧ b ≠ 0 ∧ isSpecial b.toNat = false := by
    intro s
    cases s <;> decide
  intro b hb
  rw [Decimal.text_eq, List.mem_append, List.mem_append] at hb
  rcases hb with hb | hb | hb
  · exact hs _ _ hb
  · exact hd _ _ hb
  · unfold Decimal.tail at hb
    rcases List.mem_append.1 hb with hb | hb
    · cases hf : t.fraction with
      | none => rw [hf] at hb; simp at hb
      | some f =>
        rw [hf] at hb
        rcases List.mem_cons.1 hb with rfl | hb
        · decide
        · exact hd _ _ hb
    · cases he : t.exponent with
      | none => rw [he] at hb; simp at hb
      | some e =>
        rw [he] at hb
        rcases List.mem_cons.1 hb with rfl | hb
        · have := marker_props _ (h.exponent e he).1
          exact this.2.2.2.2.2.2.2
        · rcases List.mem_append.1 hb with hb | hb
          · exact hs _ _ hb
          · exact hd _ _ hb

/-- **C77, reading from a port**: `read` on the text of a literal, followed by the end of the input or
a delimiter, gives the literal's number and leaves exactly what follows. -/
theorem C77_read {t : Decimal} (h : t.Proper allMarkers) (hi : t.Inexact) {rest : List Byte}
    (d : Delimited rest) :
    ∃ p, read 0 { rest := t.text ++ rest } = some (.datum (.num (.inexact t.text)), p) ∧ Ends rest p := by
  have hm := makeNumber_text h hi
  have hp := text_plain h
  cases ht : t.text with
  | nil => rw [ht] at hm; exact absurd hm (by decide)
  | cons b bs =>
    rw [ht] at hp hm
    obtain ⟨p, ends, e⟩ := read_ascii_token hp d
    refine ⟨p, ?_, ends⟩
    rw [e, if_neg, hm]
    intro hc
    rw [hc] at hm
    exact absurd hm (by decide)

/-! ### Where reading back fails -/

theorem digitChar_digitByte : ∀ d : Fin 10, d.val < 10 ∧ DigitChar d.val (digitByte d) := by
  intro d
  refine ⟨d.isLt, ?_⟩
  unfold DigitChar
  rw [digitByte_toNat]
  have := d.isLt
  omega

/-- The text of digits without point and exponent part is read as an exact integer. -/
theorem realValue_integer (erange : ℚ → Bool) {s : Bool} {n : ℕ} {t : Decimal}
    (hs : t.sign = if s then .minus else .none) (hf : t.fraction = none) (he : t.exponent = none) (hw : t.whole ≠ [])
    (hval : digitsValue t.whole = n) : realValue erange t.text = .exact (.int (if s then -n else n)) := by
  have ht : t.text = t.sign.text ++ t.whole.map digitByte := by
    rw [Decimal.text, hf, he]
    simp
  have hfa : List.Forall₂ (fun v b => v < 10 ∧ DigitChar v b) (t.whole.map Fin.val)
      (t.whole.map digitByte) := by
    rw [List.forall₂_map_left_iff, List.forall₂_map_right_iff]
    exact List.forall₂_same.2 fun d _ => digitChar_digitByte d
  obtain ⟨i1, i2⟩ := C61_integer_partial (by norm_num) hfa (by simpa using hw)
  rw [← List.map_reverse] at i1 i2
  change makeNumber _ 10 = .number (.int ((digitsValue t.whole : ℕ) : Int)) at i1
  change makeNumber _ 10 = .number (.int (-((digitsValue t.whole : ℕ) : Int))) at i2
  rw [hval] at i1 i2
  rw [ht, hs]
  cases s with
  | false =>
    show realValue erange (t.whole.map digitByte) = _
    rw [realValue, i1]
    rfl
  | true =>
    show realValue erange (45 :: t.whole.map digitByte) = _
    rw [realValue, i2]
    rfl

/-- **C77 is false for small integers**: the inexact integers below a million in magnitude are written
without a point and read back as exact integers. -/
theorem C77_integer_fails {tc : Flo → List Byte} (htc : ToChars tc) (erange : ℚ → Bool) (s : Bool)
    {n : ℕ} (hn : n < 10 ^ 6) :
    realValue erange (writeFlo tc (.finite s n)) = .exact (.int (if s then -n else n)) := by
  have hrep : Rep n := ⟨n, 0, by omega, by norm_num, by norm_num, by simp⟩
  obtain ⟨ds, x, t, h1, h2, h3, h4, h5, h6⟩ := htc.finite s n hrep
  obtain ⟨hs, hf, he, hw, hval⟩ := integer_text hn h1 h2 h3 h4 h5
  show realValue erange (tc (.finite s n)) = _
  rw [h6]
  exact realValue_integer erange hs hf he hw hval

/-- Negative zero is written `-0` and reads back as the exact zero. -/
theorem C77_negative_zero_fails {tc : Flo → List Byte} (htc : ToChars tc) (erange : ℚ → Bool) :
    realValue erange (writeFlo tc (.finite true 0)) = .exact (.int 0) := by
  have := C77_integer_fails htc erange true (n := 0) (by norm_num)
  simpa using this

/-- **C77 is false for subnormal numbers**: with glibc, reading back the text of any of them raises an
error. -/
theorem C77_subnormal_fails {tc : Flo → List Byte} (htc : ToChars tc) {erange : ℚ → Bool}
    (he : Glibc erange) (s : Bool) {m : ℚ} (hm : Rep m) (h0 : 0 < m) (hlt : m < 2 ^ (-1022 : ℤ)) :
    realValue erange (writeFlo tc (.finite s m)) = .inexact .outOfRange := by
  obtain ⟨ds, x, t, h1, h2, h3, h4, h5, h6⟩ := htc.finite s m hm
  obtain ⟨hs, hp, hmag⟩ := General.spec h1 h5
  obtain ⟨ho, hnear⟩ := Recovers.iff.1 h3
  have hl : ds.length ≤ 18 := by
    obtain ⟨ds', x', i1, i2, i3, i4⟩ := exists_recovers hm
    exact (h4 ds' x' i1 i3 i4).trans i2
  have hp' : t.Proper [69, 101] := Proper.weaken hp (by decide)
  have hlow : Rep (2 ^ (-1022 : ℤ)) := ⟨1, -1022, by norm_num, by norm_num, by norm_num, by simp⟩
  have hq := two_zpow_pos (-1074)
  have e22 : (2 : ℚ) ^ (-1022 : ℤ) = 2 ^ 52 * 2 ^ (-1074 : ℤ) := by
    rw [← zpow_natCast, ← zpow_add₀ (by norm_num)]
    norm_num
  have e75 : (2 : ℚ) ^ (-1074 : ℤ) = 2 * 2 ^ (-1075 : ℤ) := by
    rw [← zpow_one_add₀ (by norm_num)]
    norm_num
  have hsmall : (2 : ℚ) ^ (-1022 : ℤ) < 1 / 10 ^ 25 := by
    have h7 : (2 : ℚ) ^ (-1022 : ℤ) ≤ 2 ^ (-100 : ℤ) := zpow_le_zpow_right₀ (by norm_num) (by norm_num)
    refine lt_of_le_of_lt h7 ?_
    norm_num
  -- the magnitude is on the grid
  obtain ⟨j, hj⟩ : ∃ j : ℤ, m = 2 ^ (-1074 : ℤ) * j := by
    rcases Rep.onGrid (E := -1074) hm with h | h
    · exact h
    · exact absurd h.2 (by norm_num)
  have hj0 : 0 < j := by
    rw [hj] at h0
    have := (pos_iff_pos_of_mul_pos h0).1 hq
    exact_mod_cast this
  have hj1 : j ≤ 2 ^ 52 - 1 := by
    rw [hj, e22, mul_comm] at hlt
    have : (j : ℚ) < 2 ^ 52 := lt_of_mul_lt_mul_right hlt hq.le
    have : j < 2 ^ 52 := by exact_mod_cast this
    omega
  have hmle : m ≤ 2 ^ (-1022 : ℤ) - 2 ^ (-1074 : ℤ) := by
    have h7 : (j : ℚ) ≤ 2 ^ 52 - 1 := by exact_mod_cast hj1
    have := mul_le_mul_of_nonneg_left h7 hq.le
    rw [← hj] at this
    rw [e22]
    linarith
  have hv0 : 0 < scientific ds x := by
    rcases (scientific_nonneg ds x).lt_or_eq with h | h
    · exact h
    · rw [← h] at hnear
      exact absurd (hnear.unique (.self Rep.zero)) h0.ne'
  have hvle : scientific ds x ≤ 2 ^ (-1022 : ℤ) - 2 ^ (-1075 : ℤ) := by
    have h7 := hnear.2.1 _ hlow
    generalize (2 : ℚ) ^ (-1022 : ℤ) = A at *
    generalize (2 : ℚ) ^ (-1074 : ℤ) = B at *
    generalize (2 : ℚ) ^ (-1075 : ℤ) = C at *
    rcases abs_cases (scientific ds x - m) with h8 | h8 <;>
      rcases abs_cases (scientific ds x - A) with h9 | h9 <;> linarith
  have hvs : scientific ds x < 1 / 10 ^ 25 := by
    have := two_zpow_pos (-1075)
    linarith
  have hnr : ¬ Rep (scientific ds x) := by
    intro hr
    have hvm := hnear.unique (.self hr)
    have hN0 : 0 < digitsValue ds := by
      rcases Nat.eq_zero_or_pos (digitsValue ds) with h | h
      · rw [scientific, h] at hv0
        simp at hv0
      · exact h
    have hN1 : (1 : ℚ) ≤ digitsValue ds := by exact_mod_cast hN0
    have hN2 : digitsValue ds < 10 ^ 18 :=
      lt_of_lt_of_le (digitsValue_lt ds) (Nat.pow_le_pow_right (by norm_num) hl)
    unfold scientific at *
    generalize x - ((ds.length : ℤ) - 1) = y at *
    have hy : y < -25 := by
      by_contra hc
      have h7 : (10 : ℚ) ^ (-25 : ℤ) ≤ 10 ^ y := zpow_le_zpow_right₀ (by norm_num) (by omega)
      have h8 : 1 * (10 : ℚ) ^ (-25 : ℤ) ≤ digitsValue ds * 10 ^ y :=
        mul_le_mul hN1 h7 (zpow_nonneg (by norm_num) _) (by linarith)
      norm_num at h8 hvs
      linarith
    obtain ⟨z, hz⟩ := Int.eq_ofNat_of_zero_le (show 0 ≤ -y by omega)
    have hyz : y = -(z : ℤ) := by omega
    rw [hyz, zpow_neg, zpow_natCast, hj, zpow_neg, show (1074 : ℤ) = ((1074 : ℕ) : ℤ) from rfl,
      zpow_natCast] at hvm
    have hp10 : (10 : ℚ) ^ z ≠ 0 := by positivity
    have hp2 : (2 : ℚ) ^ 1074 ≠ 0 := by positivity
    obtain ⟨i, rfl⟩ := Int.eq_ofNat_of_zero_le hj0.le
    have key : digitsValue ds * 2 ^ 1074 = i * 10 ^ z := by
      have : (digitsValue ds : ℚ) * 2 ^ 1074 = i * 10 ^ z := by
        push_cast at hvm
        generalize (2 : ℚ) ^ 1074 = A at *
        have h7 : A⁻¹ * i * (A * 10 ^ z) = digitsValue ds * (10 ^ z)⁻¹ * (A * 10 ^ z) := by rw [hvm]
        have h8 : A⁻¹ * i * (A * 10 ^ z) = i * 10 ^ z := by field_simp
        have h9 : (digitsValue ds : ℚ) * (10 ^ z)⁻¹ * (A * 10 ^ z) = digitsValue ds * A := by field_simp
        linarith
      exact_mod_cast this
    have hdvd : 5 ^ z ∣ digitsValue ds := by
      have h7 : 5 ^ z ∣ digitsValue ds * 2 ^ 1074 := by
        rw [key]
        refine Dvd.dvd.mul_left ?_ i
        rw [show 10 = 5 * 2 from rfl, mul_pow]
        exact Dvd.intro _ rfl
      exact Nat.Coprime.dvd_of_dvd_mul_right (Nat.Coprime.pow z 1074 (by decide : Nat.Coprime 5 2)) h7
    have h7 := Nat.le_of_dvd hN0 hdvd
    have h8 : 5 ^ 26 ≤ 5 ^ z := Nat.pow_le_pow_right (by norm_num) (by omega)
    have h9 : 10 ^ 18 < 5 ^ 26 := by norm_num
    omega
  have hi : t.Inexact := by
    by_contra hc
    unfold Decimal.Inexact at hc
    push Not at hc
    have hf : t.fraction = none := by simpa using hc.1
    have hex : t.exponent = none := by simpa using hc.2
    have hm1 : t.magnitude = digitsValue t.whole := by
      rw [Decimal.magnitude, Decimal.significand, Decimal.fractionDigits, hf, hex]
      simp [digitsValue]
    rw [← hmag, hm1] at hv0 hvs
    have h7 : 0 < digitsValue t.whole := by exact_mod_cast hv0
    have h8 : (1 : ℚ) ≤ digitsValue t.whole := by exact_mod_cast h7
    norm_num at hvs
    linarith
  have her := he.2 _ hv0 hvle hnr
  rw [← hmag] at her ho
  show realValue erange (tc (.finite s m)) = _
  rw [h6, realValue_text hp' hi, stod, strtod_magnitude hp']
  dsimp only
  obtain ⟨v, e1, -⟩ := roundEven_signed (neg := decide (t.sign = .minus)) (magnitude_nonneg t) ho
  rw [e1]
  dsimp only
  rw [her, if_pos rfl]

/-- **C77 is false for `number->string` of an infinity**: the text is not a number. -/
theorem C77_number_to_string_fails {tc : Flo → List Byte} (htc : ToChars tc) (erange : ℚ → Bool)
    (s : Bool) : realValue erange (floToString tc (.inf s)) = .notANumber := by
  unfold floToString
  rw [htc.infinite]
  cases s with
  | false =>
    have hn : makeNumber (ascii "inf") 10 = .invalid := by decide
    show realValue erange (ascii "inf") = _
    rw [realValue, hn]
  | true =>
    have hn : makeNumber (ascii "-inf") 10 = .invalid := by decide
    show realValue erange (ascii "-inf") = _
    rw [realValue, hn]

/-- For finite numbers `number->string` gives what `write` prints. -/
theorem C77_number_to_string_partial (tc : Flo → List Byte) (s : Bool) (m : ℚ) :
    floToString tc (.finite s m) = writeFlo tc (.finite s m) := rfl

end Meevax.Text

namespace Meevax.Number

/-- **C74, the prescribed result is unique**: IEEE 754 prescribes one datum for an operation whose
exact result is not zero, so the theorems on rounding determine the results. -/
theorem C74_prescribed_unique {d e : Flo} {x : ℚ} (hx : x ≠ 0) (h : d.Rounds x) (h' : e.Rounds x) :
    d = e := h.unique hx h'

end Meevax.Number
