import Verif.Model.InexactText
import Verif.Spec.InexactText
import Verif.Lemmas.NumberSyntax
import Verif.Lemmas.Nearest
import Verif.Lemmas.RoundTrip
import Mathlib.Tactic.LinearCombination
import Mathlib.Tactic.FieldSimp

/-! The text of inexact numbers. -/

namespace Meevax.Text

open Meevax.Number

theorem isDigitByte_digitByte : ∀ d : Fin 10, isDigitByte (digitByte d) = true := by decide

theorem digitByte_toNat : ∀ d : Fin 10, (digitByte d).toNat = 48 + d.val := by decide

theorem digitByte_plain : ∀ d : Fin 10, (digitByte d).toNat ≤ 127 ∧ digitByte d ≠ 0 ∧
    isSpecial (digitByte d).toNat = false := by decide

theorem digitByte_ne : ∀ d : Fin 10, digitByte d ≠ 43 ∧ digitByte d ≠ 45 ∧ digitByte d ≠ 46 := by decide

theorem digitsValue_nil : digitsValue [] = 0 := rfl

theorem digitsValue_append (as bs : List (Fin 10)) :
    digitsValue (as ++ bs) = digitsValue as * 10 ^ bs.length + digitsValue bs := by
  unfold digitsValue
  rw [List.reverse_append, List.map_append, Nat.ofDigits_append, List.length_map,
    List.length_reverse]
  ring

theorem digitsValue_zeros (n : Nat) : digitsValue (List.replicate n 0) = 0 := by
  unfold digitsValue
  rw [List.reverse_replicate, List.map_replicate]
  exact Nat.ofDigits_replicate_zero

theorem digitsValue_lt (ds : List (Fin 10)) : digitsValue ds < 10 ^ ds.length := by
  unfold digitsValue
  have := Nat.ofDigits_lt_base_pow_length (b := 10) (l := ds.reverse.map Fin.val) (by omega) (by
    intro x hx
    obtain ⟨d, -, rfl⟩ := List.mem_map.1 hx
    exact d.isLt)
  simpa using this

theorem natOf_snoc (bs : List Byte) (b : Byte) : natOf (bs ++ [b]) = 10 * natOf bs + (b.toNat - 48) := by
  unfold natOf
  rw [List.foldl_append]
  rfl

theorem natOf_digits (ds : List (Fin 10)) : natOf (ds.map digitByte) = digitsValue ds := by
  induction ds using List.reverseRecOn with
  | nil => rfl
  | append_singleton ds d ih =>
    rw [List.map_append, List.map_singleton, natOf_snoc, ih, digitsValue_append, digitByte_toNat]
    have : digitsValue [d] = d.val := by simp [digitsValue]
    rw [this]
    simp
    omega

theorem takeWhile_digits (ds : List (Fin 10)) {rest : List Byte}
    (h : ∀ b, rest.head? = some b → isDigitByte b = false) :
    (ds.map digitByte ++ rest).takeWhile isDigitByte = ds.map digitByte ∧
    (ds.map digitByte ++ rest).dropWhile isDigitByte = rest := by
  induction ds with
  | nil =>
    cases rest with
    | nil => exact ⟨rfl, rfl⟩
    | cons b bs =>
      have := h b rfl
      simp [this]
  | cons d ds ih =>
    rw [List.map_cons, List.cons_append, List.takeWhile_cons_of_pos (isDigitByte_digitByte d),
      List.dropWhile_cons_of_pos (isDigitByte_digitByte d)]
    exact ⟨by rw [ih.1], ih.2⟩

theorem takeSign_text (s : Sign) {bs : List Byte} (h : ∀ b, bs.head? = some b → b ≠ 43 ∧ b ≠ 45) :
    takeSign (s.text ++ bs) = (decide (s = .minus), bs) := by
  cases s with
  | none =>
    cases bs with
    | nil => rfl
    | cons b bs =>
      obtain ⟨h1, h2⟩ := h b rfl
      simp [Sign.text, takeSign, h1, h2]
  | plus => rfl
  | minus => rfl

theorem dropSign_text (s : Sign) {bs : List Byte} (h : ∀ b, bs.head? = some b → b ≠ 43 ∧ b ≠ 45) :
    dropSign (s.text ++ bs) = bs := by
  cases s with
  | none =>
    cases bs with
    | nil => rfl
    | cons b bs =>
      obtain ⟨h1, h2⟩ := h b rfl
      simp [Sign.text, dropSign, h1, h2]
  | plus => rfl
  | minus => rfl

theorem head_digits {ds : List (Fin 10)} {b : Byte} (h : (ds.map digitByte).head? = some b) :
    b ≠ 43 ∧ b ≠ 45 := by
  cases ds with
  | nil => simp at h
  | cons d ds =>
    simp only [List.map_cons, List.head?_cons, Option.some.injEq] at h
    subst h
    exact ⟨(digitByte_ne d).1, (digitByte_ne d).2.1⟩

def allMarkers : List Byte := [68, 69, 70, 100, 101, 102]

theorem marker_props : ∀ m ∈ allMarkers, isDigitByte m = false ∧ m ≠ 43 ∧ m ≠ 45 ∧ m ≠ 46 ∧
    digitIn 10 m = none ∧ isSpaceByte m = false ∧ m ≠ 47 ∧ m.toNat ≤ 127 ∧ m ≠ 0 ∧
    isSpecial m.toNat = false := by decide

/-- The characters after the whole part. -/
def Decimal.tail (t : Decimal) : List Byte := (match t.fraction with
    | none => []
    | some f => 46 :: f.map digitByte) ++ match t.exponent with
    | none => []
    | some e => e.marker :: (e.sign.text ++ e.digits.map digitByte)

/-- The characters of the exponent part. -/
def Decimal.exponentText (t : Decimal) : List Byte :=
  match t.exponent with
    | none => []
    | some e => e.marker :: (e.sign.text ++ e.digits.map digitByte)

theorem Decimal.text_eq (t : Decimal) : t.text = t.sign.text ++ (t.whole.map digitByte ++ t.tail) := rfl

theorem exponentText_head {t : Decimal} (h : t.Proper allMarkers) {b : Byte}
    (hb : t.exponentText.head? = some b) : b ∈ allMarkers := by
  unfold Decimal.exponentText at hb
  cases he : t.exponent with
  | none => rw [he] at hb; simp at hb
  | some e =>
    rw [he] at hb
    simp only [List.head?_cons, Option.some.injEq] at hb
    subst hb
    exact (h.exponent e he).1

theorem tail_head {t : Decimal} (h : t.Proper allMarkers) {b : Byte} (hb : t.tail.head? = some b) :
    isDigitByte b = false ∧ b ≠ 43 ∧ b ≠ 45 := by
  unfold Decimal.tail at hb
  cases hf : t.fraction with
  | none =>
    rw [hf] at hb
    have := marker_props b (exponentText_head h hb)
    exact ⟨this.1, this.2.1, this.2.2.1⟩
  | some f =>
    rw [hf] at hb
    simp only [List.cons_append, List.head?_cons, Option.some.injEq] at hb
    subst hb
    decide

theorem body_head {t : Decimal} (h : t.Proper allMarkers) {b : Byte}
    (hb : (t.whole.map digitByte ++ t.tail).head? = some b) : b ≠ 43 ∧ b ≠ 45 := by
  cases hw : t.whole with
  | nil =>
    rw [hw] at hb
    exact (tail_head h hb).2
  | cons d ds =>
    rw [hw] at hb
    exact head_digits (ds := d :: ds) (by simpa using hb)

/-- The digits after the point, and the exponent part. -/
theorem takeFraction_tail {t : Decimal} (h : t.Proper allMarkers) :
    takeFraction t.tail = (t.fractionDigits.map digitByte, t.exponentText) := by
  unfold Decimal.tail Decimal.fractionDigits
  cases hf : t.fraction with
  | none =>
    show takeFraction t.exponentText = ([], t.exponentText)
    cases he : t.exponentText with
    | nil => rfl
    | cons b bs =>
      have := marker_props b (exponentText_head h (by rw [he]; rfl))
      rw [takeFraction, if_neg this.2.2.2.1]
  | some f =>
    show takeFraction (46 :: (f.map digitByte ++ t.exponentText)) = _
    rw [takeFraction, if_pos rfl, List.span_eq_takeWhile_dropWhile]
    obtain ⟨h1, h2⟩ := takeWhile_digits f (rest := t.exponentText) fun b hb =>
      (marker_props b (exponentText_head h hb)).1
    rw [h1, h2]
    rfl

/-- The power of ten that `strtod` makes of the exponent part. -/
theorem strtodExponent_text {t : Decimal} : strtodExponent t.exponentText =
    match t.exponent with
    | none => 0
    | some e => if e.marker = 101 ∨ e.marker = 69 then e.value else 0 := by
  unfold Decimal.exponentText
  cases t.exponent with
  | none => rfl
  | some e =>
    dsimp only
    rw [strtodExponent]
    split
    · rw [takeSign_text e.sign fun b => head_digits]
      dsimp only
      obtain ⟨h1, -⟩ := takeWhile_digits e.digits (rest := []) (by simp)
      rw [List.append_nil] at h1
      rw [h1, natOf_digits, Exponent.value]
      simp
    · rfl

/-- The significand of a decimal number from all its digits. -/
theorem significand_eq (t : Decimal) : t.significand =
    digitsValue (t.whole ++ t.fractionDigits) * (10 : ℚ) ^ (-(t.fractionDigits.length : ℤ)) := by
  rw [Decimal.significand, digitsValue_append]
  push_cast
  rw [zpow_neg, zpow_natCast]
  field_simp

/-- What `strtod` makes of a decimal number. -/
theorem strtod_text {t : Decimal} (h : t.Proper allMarkers) : strtod t.text =
    some (decide (t.sign = .minus), t.significand * 10 ^ (match t.exponent with
      | none => 0
      | some e => if e.marker = 101 ∨ e.marker = 69 then e.value else 0)) := by
  rw [Decimal.text_eq, strtod, takeSign_text t.sign fun b => body_head h]
  dsimp only
  obtain ⟨h1, h2⟩ := takeWhile_digits t.whole (rest := t.tail) fun b hb => (tail_head h hb).1
  rw [h1, h2, takeFraction_tail h]
  dsimp only
  rw [if_neg, ← List.map_append, natOf_digits, strtodExponent_text, List.length_map, significand_eq,
    mul_assoc, ← zpow_add₀ (by norm_num)]
  · congr 4
    ring
  · rintro ⟨e1, e2⟩
    rw [List.map_eq_nil_iff] at e1 e2
    exact h.digits (by rw [e1, e2]; rfl)

/-- The regular expression matches a decimal number. -/
theorem isDecimal_text {t : Decimal} (h : t.Proper allMarkers) : isDecimal t.text = true := by
  have he : exponentPart t.exponentText = true := by
    unfold Decimal.exponentText
    cases ht : t.exponent with
    | none => rfl
    | some e =>
      obtain ⟨h1, h2⟩ := h.exponent e ht
      dsimp only
      rw [exponentPart, if_pos (show e.marker ∈ [68, 69, 70, 100, 101, 102] from h1), dropSign_text e.sign fun b => head_digits]
      simp only [Bool.and_eq_true, Bool.not_eq_true', List.isEmpty_eq_false_iff, List.all_eq_true]
      refine ⟨by simpa using h2, ?_⟩
      intro b hb
      obtain ⟨d, -, rfl⟩ := List.mem_map.1 hb
      exact isDigitByte_digitByte d
  rw [Decimal.text_eq, isDecimal, dropSign_text t.sign fun b => body_head h, isUnsignedDecimal,
    List.span_eq_takeWhile_dropWhile]
  obtain ⟨h1, h2⟩ := takeWhile_digits t.whole (rest := t.tail) fun b hb => (tail_head h hb).1
  rw [h1, h2]
  have hd := h.digits
  unfold Decimal.fractionDigits at hd
  cases hf : t.fraction with
  | none =>
    rw [hf] at hd
    have hw : t.whole ≠ [] := by simpa using hd
    have ht : t.tail = t.exponentText := by
      unfold Decimal.tail
      rw [hf]
      rfl
    rw [ht]
    cases hx : t.exponentText with
    | nil => simpa using hw
    | cons c rest =>
      have := marker_props c (exponentText_head h (by rw [hx]; rfl))
      dsimp only
      rw [if_neg this.2.2.2.1, ← hx, he]
      simpa using hw
  | some f =>
    rw [hf] at hd
    have ht : t.tail = 46 :: (f.map digitByte ++ t.exponentText) := by
      unfold Decimal.tail
      rw [hf]
      rfl
    rw [ht]
    dsimp only
    rw [if_pos rfl, List.span_eq_takeWhile_dropWhile]
    obtain ⟨h1, h2⟩ := takeWhile_digits f (rest := t.exponentText) fun b hb =>
      (marker_props b (exponentText_head h hb)).1
    rw [h1, h2]
    dsimp only
    rw [he, Bool.and_true, Bool.or_eq_true]
    simp only [Bool.not_eq_true', List.isEmpty_eq_false_iff, ne_eq, List.map_eq_nil_iff]
    by_contra hc
    push Not at hc
    exact hd (by simp [hc.1, hc.2])

/-- A decimal number with a point or an exponent part is not an exact number. -/
theorem makeNumber_text {t : Decimal} (h : t.Proper allMarkers) (hi : t.Inexact) :
    makeNumber t.text 10 = .number (.inexact t.text) := by
  have key : ∃ c ∈ t.text, digitIn 10 c = none ∧ c ≠ 45 ∧ c ≠ 43 ∧ c ≠ 47 ∧ isSpaceByte c = false := by
    rcases hi with hi | hi
    · obtain ⟨f, hf⟩ := Option.isSome_iff_exists.1 hi
      refine ⟨46, ?_, by decide⟩
      unfold Decimal.text
      rw [hf]
      simp
    · obtain ⟨e, he⟩ := Option.isSome_iff_exists.1 hi
      obtain ⟨h1, -⟩ := h.exponent e he
      obtain ⟨-, p1, p2, -, p3, p4, p5, -⟩ := marker_props _ h1
      refine ⟨e.marker, ?_, p3, p2, p1, p5, p4⟩
      unfold Decimal.text
      rw [he]
      simp
  obtain ⟨c, hc, h1, h2, h3, h4, h5⟩ := key
  rw [makeNumber, makeReal, makeInteger_stays h1 h2 h3 h5 hc]
  dsimp only
  rw [makeRatio_stays h1 h2 h4 h5 hc]
  dsimp only
  rw [if_pos (Or.inr (isDecimal_text h))]

/-- The exponent marker of a decimal number. -/
theorem exponentMarker_text {t : Decimal} (h : t.Proper allMarkers) :
    exponentMarker t.text = t.exponent.map Exponent.marker := by
  have hd : ∀ ds : List (Fin 10), (ds.map digitByte).find?
      (fun b => decide (b ∈ ([68, 69, 70, 100, 101, 102] : List Byte))) = none := by
    intro ds
    rw [List.find?_eq_none]
    intro b hb
    obtain ⟨d, -, rfl⟩ := List.mem_map.1 hb
    clear hb
    revert d
    decide
  have hs : t.sign.text.find?
      (fun b => decide (b ∈ ([68, 69, 70, 100, 101, 102] : List Byte))) = none := by
    cases t.sign <;> decide
  have ht : t.tail.find? (fun b => decide (b ∈ ([68, 69, 70, 100, 101, 102] : List Byte))) =
      t.exponentText.find? (fun b => decide (b ∈ ([68, 69, 70, 100, 101, 102] : List Byte))) := by
    show ((match t.fraction with
      | none => []
      | some f => 46 :: f.map digitByte) ++ t.exponentText).find? _ = _
    rw [List.find?_append]
    cases t.fraction with
    | none => rfl
    | some f =>
      rw [List.find?_cons_of_neg (by decide), hd f]
      rfl
  unfold exponentMarker
  rw [Decimal.text_eq, List.find?_append, hs, Option.none_or, List.find?_append, hd, Option.none_or,
    ht]
  unfold Decimal.exponentText
  cases he : t.exponent with
  | none => rfl
  | some e =>
    obtain ⟨h1, -⟩ := h.exponent e he
    dsimp only
    rw [List.find?_cons_of_pos (by simpa [allMarkers] using h1)]
    rfl

/-- A decimal number is not a constant: it has no `n`. -/
theorem text_not_constant {t : Decimal} (h : t.Proper allMarkers) : (110 : Byte) ∉ t.text := by
  have hd : ∀ ds : List (Fin 10), (110 : Byte) ∉ ds.map digitByte := by
    intro ds hm
    obtain ⟨d, -, e⟩ := List.mem_map.1 hm
    revert d
    decide
  have hs : ∀ s : Sign, (110 : Byte) ∉ s.text := by
    intro s
    cases s <;> decide
  intro hm
  rw [Decimal.text_eq, List.mem_append, List.mem_append] at hm
  rcases hm with hm | hm | hm
  · exact hs _ hm
  · exact hd _ hm
  · unfold Decimal.tail at hm
    rw [List.mem_append] at hm
    rcases hm with hm | hm
    · cases hf : t.fraction with
      | none => rw [hf] at hm; simp at hm
      | some f =>
        rw [hf] at hm
        rcases List.mem_cons.1 hm with hm | hm
        · exact absurd hm (by decide)
        · exact hd _ hm
    · cases he : t.exponent with
      | none => rw [he] at hm; simp at hm
      | some e =>
        rw [he] at hm
        rcases List.mem_cons.1 hm with hm | hm
        · have := (h.exponent e he).1
          rw [← hm] at this
          exact absurd this (by decide)
        · rcases List.mem_append.1 hm with hm | hm
          · exact hs _ hm
          · exact hd _ hm

theorem Sign.apply_signed (s : Sign) (x : ℚ) : s.apply x = signed (decide (s = .minus)) x := by
  simp [Sign.apply, signed]

theorem significand_nonneg (t : Decimal) : 0 ≤ t.significand := by
  unfold Decimal.significand
  positivity

/-- The value of a decimal number as a literal, if it has no exponent marker `f`. -/
theorem literalValue_text {erange : ℚ → Bool} {t : Decimal}
    (h : t.Proper [68, 69, 100, 101]) : literalValue erange t.text = stod erange t.text := by
  have ha : t.Proper allMarkers := ⟨h.digits, fun e he => ⟨by
    have := (h.exponent e he).1
    revert this
    simp only [allMarkers, List.mem_cons, List.not_mem_nil, or_false]
    tauto, (h.exponent e he).2⟩⟩
  have hn := text_not_constant ha
  unfold literalValue
  rw [if_neg (by rintro e; rw [e] at hn; exact hn (by decide)),
    if_neg (by rintro e; rw [e] at hn; exact hn (by decide)),
    if_neg (by rintro (e | e) <;> rw [e] at hn <;> exact hn (by decide)), exponentMarker_text ha]
  cases he : t.exponent with
  | none => rfl
  | some e =>
    have := (h.exponent e he).1
    dsimp only [Option.map_some]
    rw [if_neg]
    rintro (e' | e') <;> rw [e'] at this <;> exact absurd this (by decide)

theorem Proper.weaken {t : Decimal} {as bs : List Byte} (h : t.Proper as) (hs : ∀ b ∈ as, b ∈ bs) :
    t.Proper bs := ⟨h.digits, fun e he => ⟨hs _ (h.exponent e he).1, (h.exponent e he).2⟩⟩

theorem magnitude_nonneg (t : Decimal) : 0 ≤ t.magnitude :=
  mul_nonneg (significand_nonneg t) (zpow_nonneg (by norm_num) _)

/-- What `strtod` makes of a decimal number with the marker `e`. -/
theorem strtod_magnitude {t : Decimal} (h : t.Proper [69, 101]) :
    strtod t.text = some (decide (t.sign = .minus), t.magnitude) := by
  rw [strtod_text (Proper.weaken h (by decide)), Decimal.magnitude]
  cases he : t.exponent with
  | none => rfl
  | some e =>
    have := (h.exponent e he).1
    dsimp only
    rw [if_pos]
    simp only [List.mem_cons, List.not_mem_nil, or_false] at this
    tauto

/-- Rounding a number with a sign. -/
theorem roundEven_signed {neg : Bool} {x : ℚ} (hx : 0 ≤ x) (h : x < 2 ^ 1024 - 2 ^ 970) :
    ∃ v, roundEven neg (signed neg x) = .finite neg v ∧ Nearest x v := by
  have habs : |signed neg x| = x := by
    unfold signed
    split
    · rw [abs_neg, abs_of_nonneg hx]
    · exact abs_of_nonneg hx
  have := roundEven_spec neg (signed neg x)
  rw [Flo.Rounds, habs, if_neg (not_le.2 h)] at this
  obtain ⟨s, v, e, h1, h2, h3⟩ := this
  refine ⟨v, ?_, h3⟩
  rcases hx.lt_or_eq with hx | hx
  · rw [e]
    cases neg with
    | false => rw [h2 (by simpa [signed] using hx)]
    | true => rw [h1 (by simpa [signed] using hx)]
  · subst hx
    have e0 : signed neg 0 = 0 := by simp [signed]
    rw [e0] at e ⊢
    rw [roundEven, if_pos rfl] at e ⊢
    cases e
    rfl

/-- `std::stod` of a decimal number in range. -/
theorem stod_text {erange : ℚ → Bool} {t : Decimal} (h : t.Proper [69, 101])
    (hm : t.magnitude < 2 ^ 1024 - 2 ^ 970) (he : erange t.magnitude = false) :
    ∃ v, stod erange t.text = .double (.finite (decide (t.sign = .minus)) v) ∧
      Nearest t.magnitude v := by
  obtain ⟨v, h1, h2⟩ := roundEven_signed (neg := decide (t.sign = .minus)) (magnitude_nonneg t) hm
  refine ⟨v, ?_, h2⟩
  rw [stod, strtod_magnitude h]
  dsimp only
  rw [h1]
  dsimp only
  rw [he, if_neg (by simp)]

theorem signed_abs {neg : Bool} {x : ℚ} (hx : 0 ≤ x) : |signed neg x| = x := by
  unfold signed
  split
  · rw [abs_neg, abs_of_nonneg hx]
  · exact abs_of_nonneg hx

/-- `std::stod` of a decimal number out of range. -/
theorem stod_over {erange : ℚ → Bool} {t : Decimal} (h : t.Proper [69, 101])
    (hm : 2 ^ 1024 - 2 ^ 970 ≤ t.magnitude) : stod erange t.text = .outOfRange := by
  rw [stod, strtod_magnitude h]
  dsimp only
  have := roundEven_spec (decide (t.sign = .minus)) (signed (decide (t.sign = .minus)) t.magnitude)
  rw [Flo.Rounds, signed_abs (magnitude_nonneg t), if_pos hm] at this
  rw [this]

/-- The number that a literal with a point or an exponent part is read as. -/
theorem realValue_text {erange : ℚ → Bool} {t : Decimal} (h : t.Proper [69, 101]) (hi : t.Inexact) :
    realValue erange t.text = .inexact (stod erange t.text) := by
  rw [realValue, makeNumber_text (Proper.weaken h (by decide)) hi]
  dsimp only
  rw [literalValue_text (Proper.weaken h (by decide))]

theorem digitsValue_zero_cons (ds : List (Fin 10)) : digitsValue (0 :: ds) = digitsValue ds := by
  have := digitsValue_append [0] ds
  rw [List.singleton_append] at this
  rw [this]
  simp [digitsValue]

/-- The text in the style of `%g` has the value of the digits and the power. -/
theorem General.spec {sign : Sign} {ds : List (Fin 10)} {x : ℤ} {t : Decimal} (hd : ds ≠ [])
    (h : General sign ds x t) : t.sign = sign ∧ t.Proper [101] ∧ t.magnitude = scientific ds x := by
  obtain ⟨hs, h⟩ := h
  refine ⟨hs, ?_⟩
  have hlen : 1 ≤ ds.length := List.length_pos_iff.2 hd
  split at h
  · rename_i hx
    obtain ⟨he, h⟩ := h
    have hm : t.magnitude = t.significand := by
      rw [Decimal.magnitude, he]
      simp
    have hp : ∀ e, t.exponent = some e → e.marker ∈ ([101] : List Byte) ∧ e.digits ≠ [] := by
      intro e h'
      rw [he] at h'
      cases h'
    rw [hm, significand_eq, scientific]
    unfold Decimal.fractionDigits
    split at h
    · rename_i hneg
      obtain ⟨h1, h2⟩ := h
      refine ⟨⟨by rw [h1]; simp, hp⟩, ?_⟩
      rw [h1, h2]
      dsimp only [Option.getD_some]
      rw [List.singleton_append, digitsValue_zero_cons, digitsValue_append, digitsValue_zeros, zero_mul,
        zero_add, List.length_append, List.length_replicate]
      congr 2
      omega
    · rename_i hneg
      split at h
      · rename_i hle
        obtain ⟨h1, h2⟩ := h
        refine ⟨⟨by rw [h1]; simp [hd], hp⟩, ?_⟩
        rw [h1, h2]
        dsimp only [Option.getD_none]
        rw [List.append_nil, digitsValue_append, digitsValue_zeros, List.length_replicate]
        have e0 : (-((List.length ([] : List (Fin 10)) : ℕ) : ℤ)) = 0 := rfl
        rw [e0, zpow_zero, mul_one, add_zero, Nat.cast_mul, Nat.cast_pow, ← zpow_natCast]
        push_cast
        congr 2
        omega
      · rename_i hgt
        obtain ⟨h1, h2⟩ := h
        refine ⟨⟨by
          rw [h1]
          unfold Decimal.fractionDigits
          rw [h2]
          simpa using hd, hp⟩, ?_⟩
        rw [h1, h2]
        dsimp only [Option.getD_some]
        rw [List.take_append_drop, List.length_drop]
        congr 2
        omega
  · obtain ⟨h1, h2, es, ⟨h3, h4, -⟩, h5⟩ := h
    have hdig : t.whole ++ t.fractionDigits = ds := by
      unfold Decimal.fractionDigits
      rw [h1, h2]
      split
      · rename_i hl
        dsimp only [Option.getD_none]
        rw [List.append_nil]
        exact List.take_of_length_le (by omega)
      · exact List.take_append_drop _ _
    refine ⟨⟨by rw [hdig]; exact hd, ?_⟩, ?_⟩
    · intro e he
      rw [h5] at he
      cases he
      exact ⟨by simp, by rintro rfl; simp at h4⟩
    · have hfl : t.fractionDigits.length = ds.length - 1 := by
        unfold Decimal.fractionDigits
        rw [h2]
        split
        · rename_i hl
          simp [hl]
        · simp
      rw [Decimal.magnitude, significand_eq, hdig, h5, scientific, hfl, mul_assoc,
        ← zpow_add₀ (by norm_num)]
      congr 2
      dsimp only [Exponent.value]
      by_cases hx0 : x < 0
      · rw [if_pos hx0, if_pos rfl, h3]
        omega
      · rw [if_neg hx0, if_neg (by decide), h3]
        omega

end Meevax.Text
