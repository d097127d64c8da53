import Verif.Lemmas.Fixnum
import Verif.Props.Bits
import Verif.Props.Roots

/-
C93: the fixnum procedures of (srfi 143). They are the general procedures under other names, so the
question is whether the results of fixnums are fixnums again, as `fixnum?` sees them.
-/

namespace Meevax.Number

/-- **C93**: the sum, difference, negation, product, absolute value and square of fixnums are the
mathematical ones, and `fixnum?` tells whether they are in the range. -/
theorem C93_arithmetic {a b : Int} (ha : InFx a) (hb : InFx b) :
    FxGives (fxPlus (.small a) (.small b)) (a + b) ∧
    FxGives (fxMinus (.small a) (.small b)) (a - b) ∧
    FxGives (fxNeg (.small a)) (-a) ∧
    FxGives (fxTimes (.small a) (.small b)) (a * b) ∧
    FxGives (fxAbs (.small a)) |a| ∧
    FxGives (fxSquare (.small a)) (a * a) := by
  refine ⟨fxGives_iff.2 (plus_small ha hb), fxGives_iff.2 (minus_small ha hb),
    fxGives_iff.2 (neg_small ha), fxGives_iff.2 (times_small ha hb), fxGives_iff.2 ?_,
    fxGives_iff.2 (times_small ha ha)⟩
  show (widen |a| >>= fun i => pure (canonicalizeInteger i)) = _
  have h1 := ha.1
  have h2 := ha.2
  have h3 := abs_nonneg a
  have h4 : |a| ≤ 2 ^ 31 := abs_le.2 ⟨h1, h2.le⟩
  rw [widen_fits (by omega) (by omega), bind_value, pure_eq]

/-- A case on either side of the end of the range. -/
example : FxReturns (fxPlus (.small (2 ^ 31 - 2)) (.small 1)) (2 ^ 31 - 1) ∧
    ¬ InFx ((2 ^ 31 - 1) + 1) :=
  ⟨⟨(C93_arithmetic (a := 2 ^ 31 - 2) (b := 1) ⟨by norm_num, by norm_num⟩ inFx_one).1,
    by norm_num, by norm_num⟩, fun h => by have := h.2; norm_num at this⟩

/-- **C93**: the remainder of fixnums is a fixnum: that of truncating division. -/
theorem C93_remainder {a b : Int} (ha : InFx a) (hb : InFx b) (h0 : b ≠ 0) :
    ∃ r, FxReturns (fxRemainder (.small a) (.small b)) r ∧ b ∣ a - r ∧ |r| < |b| ∧ 0 ≤ r * a := by
  have hr := tmod_range a h0
  refine ⟨_, ⟨fxGives_iff.2 (rem_small ha hb h0), ?_⟩, ?_, hr⟩
  · have h1 : |b| ≤ 2 ^ 31 := abs_le.2 ⟨hb.1, hb.2.le⟩
    have h2 := abs_lt.1 (hr.1.trans_le h1)
    exact ⟨h2.1.le, h2.2⟩
  · have := Int.mul_tdiv_add_tmod a b
    exact ⟨Int.tdiv a b, by linarith⟩

/-- **C93**: `fxmax` and `fxmin` of fixnums are fixnums. -/
theorem C93_extrema {a b : Int} :
    fxMax (.small a) (.small b) = some (.small (Max.max a b)) ∧
    fxMin (.small a) (.small b) = some (.small (Min.min a b)) := by
  simp only [fxMax, fxMin, max, min, maxLoop, minLoop, lessThan, decide_eq_true_eq]
  constructor
  · split
    · rw [max_eq_right (by omega)]
    · rw [max_eq_left (by omega)]
  · split
    · rw [min_eq_right (by omega)]
    · rw [min_eq_left (by omega)]

/-- **C93**: the bitwise operations give fixnums, with these bits. -/
theorem C93_bitwise {a b c : Int} (ha : InFx a) (hb : InFx b) (hc : InFx c) :
    (∃ z, FxReturns (fxNot (.small a)) z ∧ ∀ i, bit z i = !bit a i) ∧
    (∃ z, FxReturns (fxAnd (.small a) (.small b)) z ∧ ∀ i, bit z i = (bit a i && bit b i)) ∧
    (∃ z, FxReturns (fxIor (.small a) (.small b)) z ∧ ∀ i, bit z i = (bit a i || bit b i)) ∧
    (∃ z, FxReturns (fxXor (.small a) (.small b)) z ∧ ∀ i, bit z i = (bit a i ^^ bit b i)) ∧
    (∃ z, FxReturns (fxIf (.small a) (.small b) (.small c)) z ∧
      ∀ i, bit z i = if bit a i then bit b i else bit c i) := by
  refine ⟨⟨_, fxReturns_iff.2 ⟨not_small ha, inFx_not ha⟩, bit_complement a⟩,
    ⟨_, fxReturns_iff.2 ⟨and_small ha hb, inFx_land ha hb⟩, bit_land a b⟩,
    ⟨_, fxReturns_iff.2 ⟨ior_small ha hb, inFx_lor ha hb⟩, bit_lor a b⟩,
    ⟨_, fxReturns_iff.2 ⟨xor_small ha hb, inFx_xor ha hb⟩, bit_xor a b⟩,
    ⟨_, fxReturns_iff.2 ⟨?_, inFx_lor (inFx_land ha hb) (inFx_land (inFx_not ha) hc)⟩, bit_if a b c⟩⟩
  unfold fxIf bitwiseIf
  rw [and_small ha hb, bind_value, not_small ha, bind_value, and_small (inFx_not ha) hc, bind_value,
    ior_small (inFx_land ha hb) (inFx_land (inFx_not ha) hc)]

/-- **C93**: `fxarithmetic-shift` multiplies by a power of two and rounds down, for the shifts
(srfi 143) allows. -/
theorem C93_shift {a c : Int} (ha : InFx a) (h1 : -32 < c) (h2 : c < 32) :
    FxGives (fxShift (.small a) (.small c)) ⌊(a : ℚ) * 2 ^ c⌋ := by
  rw [← shifted_eq_floor]
  exact fxGives_iff.2 (shift_small ha (by omega) (by omega))

theorem isLength_inFx {a : Int} {w : Nat} (ha : InFx a) (h : IsLength a w) : w ≤ 31 := h.2 ha

theorem bitCount_small (x : Num) {y : Num} (h : bitCount x = .value y) : ∃ n, y = .small n ∧ InFx n := by
  have key : ∀ i : Int, InFx (narrow i) := fun i => by
    unfold InFx narrow
    omega
  cases x with
  | small a =>
    simp only [bitCount, Outcome.value.injEq] at h
    exact ⟨_, h.symm, key _⟩
  | large a =>
    simp only [bitCount] at h
    split at h
    · exact ⟨_, (Outcome.value.inj h).symm, key _⟩
    · exact ⟨_, (Outcome.value.inj h).symm, key _⟩
  | ratio q => exact nomatch h

/-- **C93**: `fxbit-count` gives the number of bits that differ from the sign, and `fxlength` the
number of bits needed besides the sign, both as fixnums. -/
theorem C93_count_length {a : Int} (ha : InFx a) :
    FxReturns (fxBitCount (.small a)) (marked a).ncard ∧
    ∃ w : Nat, FxReturns (fxLength (.small a)) w ∧ IsLength a w := by
  constructor
  · obtain ⟨h1, h2⟩ := C29_count_partial ha.isInt
    obtain ⟨x, e, hx⟩ := h1 (h2 ⟨a, rfl⟩)
    obtain ⟨n, rfl, hn⟩ := bitCount_small _ e
    have := hn.isInt.unique hx
    exact fxReturns_iff.2 ⟨by unfold fxBitCount; rw [e, this], this ▸ hn⟩
  · obtain ⟨w, ⟨x, e, hx⟩, hw⟩ := bitWidth_int (x := .small a) ha.isInt (fun h => nomatch h)
    have hle := isLength_inFx ha hw
    refine ⟨w, ?_, hw⟩
    have key : ∃ v, bitWidth (.small a) = .value (canonicalizeInteger v) := by
      unfold bitWidth
      simp only
      split
      · exact ⟨_, rfl⟩
      · split
        · exact ⟨_, rfl⟩
        · exact ⟨_, rfl⟩
    obtain ⟨v, hv⟩ := key
    exact ⟨.of hv ⟨x, e, hx⟩, by unfold InFx; omega⟩

/-- **C93**: `fxfirst-set-bit` gives the position of the lowest one as a fixnum, -1 if there is
none. -/
theorem C93_first_set_bit {a : Int} (ha : InFx a) :
    (a = 0 → FxReturns (fxFirstSetBit (.small a)) (-1)) ∧
    (a ≠ 0 → ∃ p : Nat, IsLeast {i | bit a i = true} p ∧ FxReturns (fxFirstSetBit (.small a)) p) := by
  have key : ∀ z, Gives (fxFirstSetBit (.small a)) z → InFx z → FxReturns (fxFirstSetBit (.small a)) z := by
    intro z hg hz
    refine ⟨?_, hz⟩
    obtain ⟨y, e1, hy⟩ := minus_two ha.isInt small_one
    obtain ⟨w, e2, hw⟩ := xor_two ha.isInt hy
    obtain ⟨x, e, hx⟩ := hg
    have e' : fxFirstSetBit (.small a) = (bitCount w >>= fun c => minus [c, .small 1]) := by
      unfold fxFirstSetBit firstSetBit
      rw [e1, bind_value, e2, bind_value]
    cases h : bitCount w with
    | raised => rw [e', h] at e; exact nomatch e
    | undefined => rw [e', h] at e; exact nomatch e
    | value c =>
      obtain ⟨n, rfl, hn⟩ := bitCount_small _ h
      refine .of (w := n - 1) ?_ ⟨x, e, hx⟩
      rw [e', h, bind_value, minus_small hn inFx_one]
  constructor
  · rintro rfl
    exact key _ (firstSetBit_zero inFx_zero.isInt) inFx_neg_one
  · intro h0
    have hex : ∃ i, bit a i = true := by
      by_contra hn
      exact h0 (bit_nonneg_iff.2 fun i => by
        by_contra hi
        exact hn ⟨i, by simpa using hi⟩)
    classical
    have h1 := Nat.find_spec hex
    have hlow : ∀ j < Nat.find hex, bit a j = false := fun j hj => by
      simpa using Nat.find_min hex hj
    have hle : Nat.find hex ≤ 31 := by
      by_contra hgt
      have h2 := hlow 31 (by omega)
      rw [small_bit ha.1 ha.2 (le_refl 31)] at h2
      rw [small_bit ha.1 ha.2 (by omega), h2] at h1
      exact nomatch h1
    refine ⟨_, ⟨h1, fun i hi => Nat.find_min' hex hi⟩, ?_⟩
    exact key _ (firstSetBit_int ha.isInt h1 hlow (by omega)) (by unfold InFx; omega)

/-- The lowest one of the least fixnum is its sign. -/
example : InFx (-2 ^ 31) ∧ (-2 ^ 31 : Int) ≠ 0 := ⟨⟨le_refl _, by norm_num⟩, by norm_num⟩

/-! ### Fields -/

theorem shl_small {a : Int} {c : Nat} (ha : InFx a) (hc : c < 64) (h : InFx (a * 2 ^ c)) :
    arithmeticShift (.small a) (.small c) = .value (.small (a * 2 ^ c)) := by
  rw [shift_small ha (by omega) (by omega)]
  unfold shifted
  rw [if_neg (by omega), Int.toNat_natCast, canon_in h]

theorem inFx_div {a : Int} (ha : InFx a) (c : Nat) : InFx (a / 2 ^ c) := by
  obtain ⟨b, hb⟩ := (inFx_iff_bits a).1 ha
  exact (inFx_iff_bits _).2 ⟨b, fun i hi => by rw [bit_div_two_pow]; exact hb _ (by omega)⟩

theorem shr_small {a : Int} {c : Nat} (ha : InFx a) (hc : c < 64) :
    arithmeticShift (.small a) (.small (-(c : Int))) = .value (.small (a / 2 ^ c)) := by
  rw [shift_small ha (by omega) (by omega)]
  have h : shifted a (-(c : Int)) = a / 2 ^ c := by
    unfold shifted
    split
    · rw [neg_neg, Int.toNat_natCast]
    · obtain rfl : c = 0 := by omega
      simp
  rw [h, canon_in (inFx_div ha c)]

theorem two_pow_le_31 {w : Nat} (h : w ≤ 31) : (2 : Int) ^ w ≤ 2 ^ 31 :=
  pow_le_pow_right₀ (by norm_num) h

theorem inFx_nat {c : Nat} (h : c ≤ 64) : InFx c := by
  unfold InFx
  omega

theorem inFx_mask {w : Nat} (h : w ≤ 31) : InFx (maskOf w) := by
  have h1 := two_pow_le_31 h
  have h2 := two_pow_pos w
  unfold InFx maskOf
  omega

/-- Values that end below a bit. -/
theorem inFx_of_bits {z : Int} (h : ∀ i, 31 ≤ i → bit z i = false) : InFx z :=
  (inFx_iff_bits z).2 ⟨false, h⟩

theorem shiftMinusOne {w : Nat} (h : w ≤ 31) :
    arithmeticShift (.small (-1)) (.small w) = .value (.small (-1 * 2 ^ w)) := by
  have h1 := two_pow_le_31 h
  have h2 := two_pow_pos w
  exact shl_small inFx_neg_one (by omega) (by unfold InFx; omega)

theorem notShift {w : Nat} (h : w ≤ 31) :
    bitwiseNot (.small (-1 * 2 ^ w)) = .value (.small (maskOf w)) := by
  have h1 := two_pow_le_31 h
  have h2 := two_pow_pos w
  rw [not_small (by unfold InFx; omega)]
  unfold maskOf
  congr 2
  ring

theorem mask_small {s e : Nat} (hse : s ≤ e) (h : e ≤ s + 31) (he : e ≤ 64) :
    mask (.small s) (.small e) = .value (.small (maskOf (e - s))) := by
  unfold mask
  rw [minus_small (inFx_nat he) (inFx_nat (by omega)), bind_value,
    show (e : Int) - s = ((e - s : Nat) : Int) by omega, canon_in (inFx_nat (by omega)),
    shiftMinusOne (by omega), bind_value, notShift (by omega)]

theorem negate_small {s : Nat} (hs : s ≤ 64) : negate (.small s) = .value (.small (-(s : Int))) := by
  unfold negate
  rw [neg_small (inFx_nat hs), canon_in (by unfold InFx; omega)]

/-- **C93, partially**: `fxcopy-bit` changes the one bit. Missing: the highest index, 31. -/
theorem C93_copy_bit_partial {a : Int} (ha : InFx a) {j : Nat} (hj : j < 31) (b : Bool) :
    ∃ z, FxReturns (fxCopyBit (.small j) (.small a) b) z ∧ ∀ i, bit z i = if i = j then b else bit a i := by
  have h1 := two_pow_le_31 (show j + 1 ≤ 31 by omega)
  have h2 := two_pow_pos j
  rw [pow_succ] at h1
  have hp : InFx (1 * 2 ^ j) := by unfold InFx; omega
  refine ⟨setBit a j b, fxReturns_iff.2 ?_, bit_setBit a j b⟩
  unfold fxCopyBit copyBit setBit
  rw [shl_small inFx_one (by omega) hp]
  cases b
  · simp only [Bool.false_eq_true, if_false, bind_value, not_small hp]
    exact ⟨and_small ha (inFx_not hp), inFx_land ha (inFx_not hp)⟩
  · simp only [if_true, bind_value]
    exact ⟨ior_small ha hp, inFx_lor ha hp⟩

theorem ior_large {a b : Int} (ha : InFx a) :
    bitwiseIor [.small a, .large b] = .value (.large (Int.lor a b)) := by
  simp only [bitwiseIor, foldLeft]
  have h1 : ior2 (.small 0) (.small a) = .value (.small a) :=
    bitwise_small (by have := ior2_int inFx_zero.isInt ha.isInt; rwa [lor_zero] at this) ha
  rw [h1]
  rfl

theorem and_large {a b : Int} (ha : InFx a) :
    bitwiseAnd [.small a, .large b] = .value (.large (Int.land a b)) := by
  simp only [bitwiseAnd, foldLeft]
  have h1 : and2 (.small (-1)) (.small a) = .value (.small a) :=
    bitwise_small (by have := and2_int inFx_neg_one.isInt ha.isInt; rwa [land_neg_one] at this) ha
  rw [h1]
  rfl

/-- **C93 is false for the sign bit**: setting it in a negative fixnum, which has it already, gives
the same integer, but not a fixnum. -/
theorem C93_copy_bit_fails : fxCopyBit (.small 31) (.small (-1)) true = .value (.large (-1)) := by
  have e : arithmeticShift (.small 1) (.small 31) = .value (.large (2 ^ 31)) := by
    rw [shift_small inFx_one (by norm_num) (by norm_num), canon_out]
    · rfl
    · rintro ⟨_, h⟩
      revert h
      decide
  unfold fxCopyBit copyBit
  rw [if_pos rfl, e, bind_value, ior_large inFx_neg_one]
  congr 2
  apply bit_ext
  intro i
  rw [bit_lor, bit_neg_one, Bool.true_or]

/-- **C93, partially**: `fxbit-field` extracts the field as a fixnum. Missing: the whole word. -/
theorem C93_bit_field_partial {a : Int} (ha : InFx a) {s e : Nat} (hse : s ≤ e) (he : e ≤ 32)
    (hw : e - s ≠ 32) :
    ∃ z, FxReturns (fxBitField (.small a) (.small s) (.small e)) z ∧
      ∀ i, bit z i = (decide (i < e - s) && bit a (s + i)) := by
  refine ⟨fieldOf a s (e - s), fxReturns_iff.2 ⟨?_, ?_⟩, fun i => by rw [bit_fieldOf, Nat.add_comm]⟩
  · unfold fxBitField bitField
    rw [mask_small hse (by omega) (by omega), bind_value, negate_small (by omega), bind_value,
      shr_small ha (by omega), bind_value, and_small (inFx_mask (by omega)) (inFx_div ha s)]
    rfl
  · exact inFx_land (inFx_mask (by omega)) (inFx_div ha s)

/-- **C93 is false for the field that is the whole word**: the result is the fixnum itself if it is
not negative, but as a big integer. -/
theorem C93_bit_field_fails : fxBitField (.small 5) (.small 0) (.small 32) = .value (.large 5) := by
  have e : arithmeticShift (.small (-1)) (.small 32) = .value (.large (-2 ^ 32)) := by
    rw [shift_small inFx_neg_one (by norm_num) (by norm_num), canon_out]
    · rfl
    · rintro ⟨h, _⟩
      revert h
      decide
  unfold fxBitField bitField mask
  rw [minus_small (a := 32) (b := 0) ⟨by norm_num, by norm_num⟩ inFx_zero, bind_value,
    show (32 : Int) - 0 = 32 by norm_num, canon_in ⟨by norm_num, by norm_num⟩, e, bind_value]
  have h5 : InFx 5 := ⟨by norm_num, by norm_num⟩
  have e2 : bitwiseNot (.large (-2 ^ 32)) = .value (.large (maskOf 32)) := by
    show Outcome.value (Num.large (Int.lnot (-2 ^ 32))) = _
    rw [lnot_eq]
    rfl
  have e3 : negate (.small 0) = .value (.small (-((0 : Nat) : Int))) := negate_small (s := 0) (by norm_num)
  rw [e2, bind_value, e3, bind_value, shr_small h5 (by norm_num), bind_value, and2_large (inFx_div h5 0).isInt]
  rfl

theorem rotated_bits {a : Int} {s c w : Nat} (hc : c < w) (hw : w ≤ 31) :
    InFx (rotated (fieldOf a s w) c w) :=
  inFx_of_bits fun i hi => by
    rw [bit_rotated hc]
    simp
    omega

theorem inFx_shifted {f : Int} {s w : Nat} (hf : ∀ i, w ≤ i → bit f i = false) (h : s + w ≤ 31) :
    InFx (f * 2 ^ s) :=
  inFx_of_bits fun i hi => by
    rw [bit_mul_two_pow, hf _ (by omega), Bool.and_false]

theorem bits_mask (w i : Nat) (h : w ≤ i) : bit (maskOf w) i = false := by
  rw [bit_maskOf]
  simp
  omega

theorem bits_field (a : Int) (s w i : Nat) (h : w ≤ i) : bit (fieldOf a s w) i = false := by
  rw [bit_fieldOf]
  simp
  omega

/-- **C93, partially**: `fxbit-field-rotate` rotates the field. Missing: fields wider than 16 bits,
and those that reach to the sign. -/
theorem C93_rotate_partial {a count : Int} (ha : InFx a) (hcount : InFx count) {s e : Nat} (hse : s < e)
    (he : e ≤ 31) (hw : e - s ≤ 16) :
    ∃ z, FxReturns (fxBitFieldRotate (.small a) (.small count) (.small s) (.small e)) z ∧
      FieldIs z a s e fun i => bit a (s + ((i - count) % (e - s : Int)).toNat) := by
  obtain ⟨z, hz, hf⟩ := C30_rotate_partial (x := .small a) (xc := .small count) (xs := .small s)
    (xe := .small e) ha.isInt hcount.isInt (inFx_nat (by omega)).isInt (inFx_nat (by omega)).isInt hse
    ⟨by omega, by omega, fun _ _ => by omega⟩
  refine ⟨z, ?_, hf⟩
  have hzin : InFx z := by
    obtain ⟨b, hb⟩ := (inFx_iff_bits a).1 ha
    exact (inFx_iff_bits z).2 ⟨b, fun i hi => by rw [hf i, if_neg (by omega), hb i hi]⟩
  have h0 := Int.emod_nonneg count (show ((e - s : Nat) : Int) ≠ 0 by omega)
  have h1 := Int.emod_lt_of_pos count (show 0 < ((e - s : Nat) : Int) by omega)
  obtain ⟨c, hc⟩ : ∃ c : Nat, count % ((e - s : Nat) : Int) = c := ⟨_, (Int.toNat_of_nonneg h0).symm⟩
  rw [hc] at h1
  have hcw : c < e - s := by omega
  have hmod : modulo (.small count) (.small ((e - s : Nat) : Int)) = .value (.small c) := by
    have hwin : InFx ((e - s : Nat) : Int) := inFx_nat (by omega)
    have hne : ((e - s : Nat) : Int) ≠ 0 := by omega
    have hr := tmod_range count hne
    rw [abs_of_nonneg (show (0 : Int) ≤ ((e - s : Nat) : Int) by omega)] at hr
    have hr' := abs_lt.1 hr.1
    have hrin : InFx (count.tmod ((e - s : Nat) : Int)) := by unfold InFx; omega
    have hsin : InFx (count.tmod ((e - s : Nat) : Int) + ((e - s : Nat) : Int)) := by unfold InFx; omega
    have hg := modulo_int hcount.isInt hwin.isInt hne
    rw [Int.fmod_eq_emod_of_nonneg _ (by omega), hc] at hg
    unfold modulo at hg ⊢
    rw [rem_small hcount hwin hne, bind_value, canon_in hrin, add_small hrin hwin, bind_value,
      canon_in hsin, rem_small hsin hwin hne] at hg ⊢
    exact returns_of_gives rfl hg (inFx_nat (by omega))
  have hm : InFx (maskOf (e - s)) := inFx_mask (by omega)
  have hfold : Int.land (maskOf (e - s)) (a / 2 ^ s) = fieldOf a s (e - s) := rfl
  have hmf : InFx (fieldOf a s (e - s)) := inFx_land hm (inFx_div ha s)
  have hz1 : InFx (fieldOf a s (e - s) * 2 ^ c) := inFx_shifted (bits_field a s (e - s)) (by omega)
  have hrot : InFx (rotated (fieldOf a s (e - s)) c (e - s)) := rotated_bits hcw (by omega)
  have hrs : InFx (rotated (fieldOf a s (e - s)) c (e - s) * 2 ^ s) :=
    inFx_shifted (w := e - s) (fun i hi => by rw [bit_rotated hcw]; simp; omega) (by omega)
  have hms : InFx (maskOf (e - s) * 2 ^ s) := inFx_shifted (bits_mask (e - s)) (by omega)
  obtain ⟨x, e1, hx⟩ := hz
  refine fxReturns_iff.2 ⟨?_, hzin⟩
  have key : fxBitFieldRotate (.small a) (.small count) (.small s) (.small e) =
      .value (.small (Int.lor (rotated (fieldOf a s (e - s)) c (e - s) * 2 ^ s)
        (Int.land (-1 - maskOf (e - s) * 2 ^ s) a))) := by
    unfold fxBitFieldRotate bitFieldRotate
    rw [minus_small (inFx_nat (by omega)) (inFx_nat (by omega)), bind_value,
      show (e : Int) - s = ((e - s : Nat) : Int) by omega, canon_in (inFx_nat (by omega)), hmod,
      bind_value, shiftMinusOne (by omega), bind_value, notShift (by omega), bind_value,
      negate_small (by omega), bind_value, shr_small ha (by omega), bind_value,
      and_small hm (inFx_div ha s), bind_value, hfold, shl_small hmf (by omega) hz1, bind_value, and_small hm hz1, bind_value,
      minus_small (inFx_nat (by omega)) (inFx_nat (by omega)), bind_value,
      show (c : Int) - ((e - s : Nat) : Int) = -((e - s - c : Nat) : Int) by omega,
      canon_in (by unfold InFx; omega), shr_small hmf (by omega), bind_value,
      ior_small (inFx_land hm hz1) (inFx_div hmf _), bind_value]
    show (arithmeticShift (.small (rotated (fieldOf a s (e - s)) c (e - s))) (.small s) >>= _) = _
    rw [shl_small hrot (by omega) hrs, bind_value, shl_small hm (by omega) hms, bind_value,
      not_small hms, bind_value, and_small (inFx_not hms) ha, bind_value,
      ior_small hrs (inFx_land (inFx_not hms) ha)]
  have e1' : fxBitFieldRotate (.small a) (.small count) (.small s) (.small e) = .value x := e1
  rw [key] at e1'
  have hx' : x = .small _ := (Outcome.value.inj e1').symm
  rw [hx'] at hx
  have hlor := inFx_lor hrs (inFx_land (inFx_not hms) ha)
  rw [key, hlor.isInt.unique hx]

/-- **C93 is false for wide fields**: rotating 31 bits by one place, the carried bit leaves a big
integer behind. -/
theorem C93_rotate_fails :
    ∃ z, fxBitFieldRotate (.small (2 ^ 30)) (.small 1) (.small 0) (.small 31) = .value (.large z) ∧ InFx z := by
  have ha : InFx (2 ^ 30) := ⟨by norm_num, by norm_num⟩
  obtain ⟨z, ⟨x, e1, hx⟩, hf⟩ := C30_rotate_partial (x := .small (2 ^ 30)) (xc := .small 1)
    (xs := .small 0) (xe := .small 31) (s := 0) (e := 31) ha.isInt inFx_one.isInt inFx_zero.isInt
    (inFx_nat (by norm_num)).isInt (by norm_num) ⟨by norm_num, by norm_num, fun _ _ => by norm_num⟩
  have hzin : InFx z := by
    obtain ⟨b, hb⟩ := (inFx_iff_bits (2 ^ 30)).1 ha
    exact (inFx_iff_bits z).2 ⟨b, fun i hi => by rw [hf i, if_neg (by omega), hb i hi]⟩
  have h31 : InFx 31 := ⟨by norm_num, by norm_num⟩
  have hm := inFx_mask (le_refl 31)
  have hmod : modulo (.small 1) (.small 31) = .value (.small 1) := by
    unfold modulo
    rw [rem_small inFx_one h31 (by norm_num), bind_value]
    rfl
  have hzn : bitwiseAnd [.small (maskOf 31), .small (2 ^ 30)] = .value (.small (2 ^ 30)) := by
    rw [and_small hm ha]
    rfl
  have hsh : arithmeticShift (.small (2 ^ 30)) (.small 1) = .value (.large (2 ^ 31)) := by
    rw [shift_small ha (by norm_num) (by norm_num), canon_out]
    · rfl
    · rintro ⟨_, h⟩
      revert h
      decide
  have e31 : arithmeticShift (.small (-1)) (.small 31) = .value (.small (-1 * 2 ^ 31)) :=
    shiftMinusOne (w := 31) (le_refl _)
  have e0 : negate (.small 0) = .value (.small (-((0 : Nat) : Int))) := negate_small (s := 0) (by norm_num)
  have hms : InFx (maskOf 31 * 2 ^ 0) := by rw [pow_zero, mul_one]; exact hm
  have em : arithmeticShift (.small (maskOf 31)) (.small 0) = .value (.small (maskOf 31 * 2 ^ 0)) :=
    shl_small (c := 0) hm (by norm_num) hms
  have hout := inFx_land (inFx_not hms) ha
  have key : ∃ w, fxBitFieldRotate (.small (2 ^ 30)) (.small 1) (.small 0) (.small 31) = .value (.large w) := by
    unfold fxBitFieldRotate bitFieldRotate
    rw [minus_small h31 inFx_zero, bind_value, show (31 : Int) - 0 = 31 by norm_num, canon_in h31, hmod,
      bind_value, e31, bind_value, notShift (le_refl 31), bind_value, e0, bind_value,
      shr_small ha (by norm_num), bind_value, pow_zero, Int.ediv_one, hzn, bind_value, hsh, bind_value,
      and_large hm, bind_value, minus_small inFx_one h31, bind_value,
      show (1 : Int) - 31 = -((30 : Nat) : Int) by norm_num, canon_in ⟨by norm_num, by norm_num⟩,
      shr_small ha (by norm_num), bind_value]
    have e4 : ∀ p q : Int, bitwiseIor [.large p, .small q] = .value (.large (Int.lor (Int.lor 0 p) q)) :=
      fun _ _ => rfl
    have e5 : ∀ p : Int, arithmeticShift (.large p) (.small 0) = .value (.large p) := fun _ => rfl
    rw [e4, bind_value, e5, bind_value, em, bind_value, not_small hms, bind_value,
      and_small (inFx_not hms) ha, bind_value, e4]
    exact ⟨_, rfl⟩
  obtain ⟨w, hw⟩ := key
  have e1' : fxBitFieldRotate (.small (2 ^ 30)) (.small 1) (.small 0) (.small 31) = .value x := e1
  rw [hw] at e1'
  cases e1'
  exact ⟨w, hw, by rw [(IsInt.large w).unique hx]; exact hzin⟩

theorem reversed_inFx {z r : Int} {t : Nat} (h : IsReversed z t r) (ht : t ≤ 31) : InFx r :=
  inFx_of_bits fun i hi => by
    rw [h i]
    simp
    omega

theorem reverseLoop_small {z : Int} {w : Nat} (hw : w ≤ 31) : ∀ (fuel t : Nat) {m r : Int} {v : Num},
    InFx m → m = z / 2 ^ t → InFx r → IsReversed z t r → t ≤ w →
    reverseLoop fuel (.small m) (.small ((w : Int) - 1 - t)) (.small r) = .value v →
    ∃ r', v = .small r' ∧ IsReversed z w r'
  | 0, _, _, _, _, _, _, _, _, _, h => nomatch h
  | fuel + 1, t, m, r, v, hm, hmz, hr, hi, ht, h => by
    have hk : InFx ((w : Int) - 1 - t) := by unfold InFx; omega
    unfold reverseLoop at h
    split at h
    · rename_i hn
      rw [hk.isInt.isNegative] at hn
      obtain rfl : t = w := by omega
      exact ⟨r, (Outcome.value.inj h).symm, hi⟩
    · rename_i hn
      rw [hk.isInt.isNegative] at hn
      have hb : ∀ i, bit (Int.lor (r * 2 ^ 1) (Int.land 1 m)) i =
          (decide (i < t + 1) && bit z (t + 1 - 1 - i)) := by
        intro i
        rw [bit_lor, bit_mul_two_pow, bit_land, bit_one, hmz, bit_div_two_pow, hi]
        cases i with
        | zero => simp
        | succ i =>
          simp only [Nat.le_add_left, decide_true, Bool.true_and, Nat.add_sub_cancel,
            Nat.add_lt_add_iff_right, Nat.add_one_ne_zero, decide_false, Bool.false_and, Bool.or_false]
          congr 2
          omega
      have hr1 : InFx (r * 2 ^ 1) := inFx_shifted (w := t) (fun i hi' => by rw [hi i]; simp; omega) (by omega)
      have e1 : arithmeticShift (.small m) (.small (-1)) = .value (.small (m / 2 ^ 1)) :=
        shr_small (c := 1) hm (by norm_num)
      have e2 : arithmeticShift (.small r) (.small 1) = .value (.small (r * 2 ^ 1)) :=
        shl_small (c := 1) hr (by norm_num) hr1
      have hk' : InFx (-1 + ((w : Int) - 1 - t)) := by unfold InFx; omega
      rw [e1, bind_value, plus_small inFx_neg_one hk, bind_value, canon_in hk', e2, bind_value,
        and_small inFx_one hm, bind_value, ior_small hr1 (inFx_land inFx_one hm), bind_value,
        show -1 + ((w : Int) - 1 - t) = (w : Int) - 1 - ((t + 1 : Nat) : Int) by push_cast; ring] at h
      exact reverseLoop_small hw fuel (t + 1) (inFx_div hm 1)
        (by rw [hmz, pow_one, pow_succ, ← Int.ediv_ediv_of_nonneg (two_pow_pos t).le])
        (inFx_lor hr1 (inFx_land inFx_one hm)) hb (by omega) h

/-- **C93, partially**: `fxbit-field-reverse` reverses the field. Missing: fields that reach to the
sign. -/
theorem C93_reverse_partial {a : Int} (ha : InFx a) {s e : Nat} (hse : s ≤ e) (he : e ≤ 31) :
    ∃ z, FxReturns (fxBitFieldReverse (.small a) (.small s) (.small e)) z ∧
      FieldIs z a s e fun i => bit a (e - 1 - i) := by
  obtain ⟨z, ⟨x, e1, hx⟩, hf⟩ := C30_reverse_partial (x := .small a) (xs := .small s) (xe := .small e)
    ha.isInt (inFx_nat (by omega)).isInt (inFx_nat (by omega)).isInt ⟨hse, by omega, fun _ _ => by omega⟩
  refine ⟨z, ?_, hf⟩
  have hzin : InFx z := by
    obtain ⟨b, hb⟩ := (inFx_iff_bits a).1 ha
    exact (inFx_iff_bits z).2 ⟨b, fun i hi => by rw [hf i, if_neg (by omega), hb i hi]⟩
  have hm : InFx (maskOf (e - s)) := inFx_mask (by omega)
  have hms : InFx (maskOf (e - s) * 2 ^ s) := inFx_shifted (bits_mask (e - s)) (by omega)
  have hfold : Int.land (maskOf (e - s)) (a / 2 ^ s) = fieldOf a s (e - s) := rfl
  have hmf : InFx (fieldOf a s (e - s)) := inFx_land hm (inFx_div ha s)
  have hn : isNegative (.small (fieldOf a s (e - s))) = false := by
    rw [← Bool.not_eq_true, hmf.isInt.isNegative]
    have := fieldOf_nonneg a s (e - s)
    omega
  obtain ⟨r, ⟨v, er, hv⟩, hr⟩ := bitReverse_int (xw := .small ((e - s : Nat) : Int))
    (inFx_nat (by omega)).isInt hmf.isInt (fieldOf_nonneg a s (e - s))
  have hvr : v = .small r := by
    have er' := er
    unfold bitReverse at er'
    rw [hn] at er'
    simp only [Bool.false_eq_true, if_false, pure_eq, bind_value] at er'
    rw [plus_small inFx_neg_one (inFx_nat (by omega)), bind_value, canon_in (by unfold InFx; omega),
      show -1 + ((e - s : Nat) : Int) = ((e - s : Nat) : Int) - 1 - (0 : Nat) by push_cast; ring] at er'
    cases hl : reverseLoop (magnitude (.small ((e - s : Nat) : Int)) + 2) (.small (fieldOf a s (e - s)))
        (.small (((e - s : Nat) : Int) - 1 - (0 : Nat))) (.small 0) with
    | raised => rw [hl] at er'; exact nomatch er'
    | undefined => rw [hl] at er'; exact nomatch er'
    | value u =>
      rw [hl] at er'
      cases er'
      obtain ⟨r', rfl, _⟩ := reverseLoop_small (z := fieldOf a s (e - s)) (by omega) _ 0 hmf (by simp)
        inFx_zero (fun i => by simp [bit_zero]) (Nat.zero_le _) hl
      rcases hv with ⟨h, _⟩ | h
      · exact h
      · exact nomatch h
  subst hvr
  have hrin := reversed_inFx hr (by omega)
  have hrs : InFx (r * 2 ^ s) :=
    inFx_shifted (w := e - s) (fun i hi => by rw [hr i]; simp; omega) (by omega)
  refine fxReturns_iff.2 ⟨?_, hzin⟩
  have key : fxBitFieldReverse (.small a) (.small s) (.small e) =
      .value (.small (Int.lor (r * 2 ^ s) (Int.land (-1 - maskOf (e - s) * 2 ^ s) a))) := by
    unfold fxBitFieldReverse bitFieldReverse
    rw [minus_small (inFx_nat (by omega)) (inFx_nat (by omega)), bind_value,
      show (e : Int) - s = ((e - s : Nat) : Int) by omega, canon_in (inFx_nat (by omega)),
      shiftMinusOne (by omega), bind_value, notShift (by omega), bind_value,
      negate_small (by omega), bind_value, shr_small ha (by omega), bind_value,
      and_small hm (inFx_div ha s), bind_value, hfold, er, bind_value, shl_small hrin (by omega) hrs,
      bind_value, shl_small hm (by omega) hms, bind_value,
      not_small hms, bind_value, and_small (inFx_not hms) ha, bind_value,
      ior_small hrs (inFx_land (inFx_not hms) ha)]
  have e1' : fxBitFieldReverse (.small a) (.small s) (.small e) = .value x := e1
  rw [key] at e1'
  have hx' : x = .small _ := (Outcome.value.inj e1').symm
  rw [hx'] at hx
  rw [key, (inFx_lor hrs (inFx_land (inFx_not hms) ha)).isInt.unique hx]

/-! ### Division and roots -/

/-- **C93, partially**: `fxquotient` gives the integer part of the quotient. Missing: it is not a
fixnum. -/
theorem C93_quotient_partial {a b : Int} (ha : InFx a) (hb : InFx b) (h0 : b ≠ 0) :
    ∃ q r, Gives (fxQuotient (.small a) (.small b)) q ∧ a = b * q + r ∧ |r| < |b| ∧ 0 ≤ r * a := by
  have h1 : |a| ≤ 2 ^ 31 := abs_le.2 ⟨ha.1, ha.2.le⟩
  have h2 : 1 ≤ |b| := Int.one_le_abs h0
  exact ⟨_, _, quotient_int ha.isInt hb.isInt h0 (Or.inr (by omega)), (Int.mul_tdiv_add_tmod a b).symm,
    tmod_range a h0⟩

/-- **C93 is false for `fxquotient`**: no quotient of fixnums is a fixnum, although `fixnum?` should
hold of all of them but one. -/
theorem C93_quotient_fails {a b : Int} (ha : InFx a) (hb : InFx b) (h0 : b ≠ 0) :
    ∃ x q, fxQuotient (.small a) (.small b) = .value x ∧ isFixnum x = false ∧ IsInt x q ∧
      (InFx q ∨ a = -2 ^ 31 ∧ b = -1) := by
  have h1 : |a| ≤ 2 ^ 31 := abs_le.2 ⟨ha.1, ha.2.le⟩
  have h2 : 1 ≤ |b| := Int.one_le_abs h0
  obtain ⟨x, e, hx⟩ := quotient_int ha.isInt hb.isInt h0 (Or.inr (by omega))
  refine ⟨x, _, e, ?_, hx, ?_⟩
  · unfold quotient at e
    cases hd : Mpq.make a b with
    | raised =>
      have : div (.small a) (.small b) = .raised := by show (Mpq.make a b >>= _) = _; rw [hd]; rfl
      rw [this] at e
      exact nomatch e
    | undefined =>
      have : div (.small a) (.small b) = .undefined := by show (Mpq.make a b >>= _) = _; rw [hd]; rfl
      rw [this] at e
      exact nomatch e
    | value q =>
      have : div (.small a) (.small b) = .value (.ratio q) := by show (Mpq.make a b >>= _) = _; rw [hd]; rfl
      rw [this, bind_value] at e
      unfold truncate nearest at e
      simp only at e
      split at e
      · cases e
        rfl
      · exact nomatch e
  · by_cases hq : InFx (a.tdiv b)
    · exact Or.inl hq
    · right
      have h3 := Int.natAbs_tdiv_le_natAbs a b
      have h4 := Int.mul_tdiv_add_tmod a b
      have h5 := tmod_range a h0
      have h7 := ha.1
      have h8 := ha.2
      unfold InFx at hq
      have h6 : a.tdiv b = 2 ^ 31 := by omega
      rw [h6] at h4
      have h9 := abs_lt.1 h5.1
      have h10 := hb.1
      have h11 := hb.2
      rcases abs_cases b with ⟨hb1, hb2⟩ | ⟨hb1, hb2⟩ <;> constructor <;> omega

/-- **C93, partially**: `fxsqrt` of the square of a fixnum is the root. Missing: it should give two
values, the root and the remainder, for every fixnum that is not negative. -/
theorem C93_sqrt_partial {m : Libm} (hm : m.SqrtExact) {k : Nat} (hk : InFx (k * k)) :
    fxSqrt m (.small (k * k)) = .value (.exact (.small k)) := by
  have h1 := hk.1
  have h2 := hk.2
  have e : (k : Int) * k = ((k * k : Nat) : Int) := by push_cast; rfl
  rw [e] at h1 h2 ⊢
  unfold fxSqrt sqrt
  simp only
  rw [if_neg (by omega), sqrtSmall_square hm (by omega)]

/-- **C93 is false for `fxsqrt`**: of a fixnum that is not a square it is inexact. The double square
root is required to be less than `2 ^ 15.5`. -/
theorem C93_sqrt_fails (m : Libm) {a : Int} (h0 : 0 ≤ a) (hn : ¬ IsSquare a) {d : ℚ}
    (hd : m.sqrt a = some d) (hp : 0 ≤ d) (hlt : d < 46341) :
    fxSqrt m (.small a) = .value (.inexact (some d)) := by
  have ht : stdTrunc d = ⌊d⌋ := by
    unfold stdTrunc
    rw [if_neg (by linarith), abs_of_nonneg hp]
  have h1 : 0 ≤ ⌊d⌋ := Int.floor_nonneg.2 hp
  have h2 : ⌊d⌋ < 46341 := Int.floor_lt.2 (by exact_mod_cast hlt)
  have h3 : ⌊d⌋ * ⌊d⌋ ≤ 46340 * 46340 := mul_le_mul (by omega) (by omega) h1 (by norm_num)
  have h4 : 0 ≤ ⌊d⌋ * ⌊d⌋ := mul_nonneg h1 h1
  unfold fxSqrt sqrt sqrtSmall
  simp only [hd, ht]
  rw [if_neg (by omega), if_pos ⟨⟨by omega, by omega⟩, ⟨by omega, by omega⟩⟩, if_neg]
  intro h
  exact hn ⟨⌊d⌋, h.symm⟩

/-- The least fixnum that is not a square. -/
example : ¬ IsSquare (2 : Int) := by
  rintro ⟨r, hr⟩
  have h1 : r < 2 := by nlinarith
  have h2 : -2 < r := by nlinarith
  obtain rfl | rfl | rfl : r = -1 ∨ r = 0 ∨ r = 1 := by omega
  all_goals omega

/-! ### The range -/

/-- **C93, partially**: what `fixnum?` accepts lies between `fx-least` and `fx-greatest`, and these
are fixnums. Missing: the converse. -/
theorem C93_range_partial :
    (∀ {x : Num} {z : Int}, IsInt x z → isFixnum x = true → numLe [fxLeast, x, fxGreatest] = true) ∧
    isFixnum fxLeast = true ∧ isFixnum fxGreatest = true := by
  refine ⟨?_, rfl, rfl⟩
  rintro x z (⟨rfl, h1, h2⟩ | rfl) h
  · simp only [numLe, noAdjacent, fxLeast, fxGreatest, greaterThan]
    simp
    omega
  · exact nomatch h

/-- **C93 is false for the results of `quotient` and others**: an integer in the range need not be a
fixnum. -/
theorem C93_range_fails :
    fxQuotient (.small 7) (.small 2) = .value (.large 3) ∧
    numLe [fxLeast, .large 3, fxGreatest] = true ∧ isFixnum (.large 3) = false := by
  refine ⟨?_, by decide, rfl⟩
  obtain ⟨x, q, e, hf, hx, _⟩ := C93_quotient_fails (a := 7) (b := 2) ⟨by norm_num, by norm_num⟩
    ⟨by norm_num, by norm_num⟩ (by norm_num)
  obtain ⟨y, e', hy⟩ := quotient_int (x := .small 7) (y := .small 2) (.small (by norm_num) (by norm_num))
    (.small (by norm_num) (by norm_num)) (by norm_num) (Or.inr (by norm_num))
  have e'' : fxQuotient (.small 7) (.small 2) = .value y := e'
  rw [e] at e''
  cases e''
  rw [e]
  rcases hy with ⟨rfl, _⟩ | rfl
  · exact nomatch hf
  · rfl

end Meevax.Number
