import Verif.Model.Bits
import Verif.Lemmas.NumberBits
import Verif.Lemmas.Division

namespace Meevax.Number

theorem land_neg_one (a : Int) : Int.land (-1) a = a := by
  apply bit_ext
  intro i
  rw [bit_land, bit_neg_one, Bool.true_and]

theorem lor_zero (a : Int) : Int.lor 0 a = a := by
  apply bit_ext
  intro i
  rw [bit_lor, bit_zero, Bool.false_or]

theorem xor_zero (a : Int) : Int.xor 0 a = a := by
  apply bit_ext
  intro i
  rw [bit_xor, bit_zero, Bool.false_xor]

theorem and_two {x y : Num} {a b : Int} (hx : IsInt x a) (hy : IsInt y b) :
    Gives (bitwiseAnd [x, y]) (Int.land a b) := by
  have := bitwiseAnd_int (.cons hx (.cons hy .nil))
  simpa [land_neg_one] using this

theorem ior_two {x y : Num} {a b : Int} (hx : IsInt x a) (hy : IsInt y b) :
    Gives (bitwiseIor [x, y]) (Int.lor a b) := by
  have := bitwiseIor_int (.cons hx (.cons hy .nil))
  simpa [lor_zero] using this

theorem xor_two {x y : Num} {a b : Int} (hx : IsInt x a) (hy : IsInt y b) :
    Gives (bitwiseXor [x, y]) (Int.xor a b) := by
  have := bitwiseXor_int (.cons hx (.cons hy .nil))
  simpa [xor_zero] using this

theorem small_one : IsInt (.small 1) 1 := .small (by norm_num) (by norm_num)
theorem small_neg_one : IsInt (.small (-1)) (-1) := .small (by norm_num) (by norm_num)

/-- Shifting left by a natural number. -/
theorem shift_left {x k : Num} {a : Int} {c : Nat} (hx : IsInt x a) (hk : IsInt k c) (hc : c < 2 ^ 31) :
    Gives (arithmeticShift x k) (a * 2 ^ c) := by
  have := arithmeticShift_int hx hk (by omega) (by omega) (fun _ _ => by omega)
  unfold shifted at this
  rwa [if_neg (by omega), Int.toNat_natCast] at this

/-- Shifting right by a natural number. -/
theorem shift_right {x k : Num} {a : Int} {c : Nat} (hx : IsInt x a) (hk : IsInt k (-(c : Int)))
    (hc : c < 2 ^ 31) (hd : ∀ b, x = .small b → c < 64) :
    Gives (arithmeticShift x k) (a / 2 ^ c) := by
  have := arithmeticShift_int hx hk (by omega) (by omega) (fun b hb => by have := hd b hb; omega)
  unfold shifted at this
  split at this
  · rwa [show (-(-(c : Int))).toNat = c by omega] at this
  · obtain rfl : c = 0 := by omega
    simpa using this

theorem shift_one_right {x : Num} {a : Int} (hx : IsInt x a) :
    Gives (arithmeticShift x (.small (-1))) (a / 2) := by
  have := shift_right (c := 1) hx (k := .small (-1)) small_neg_one (by norm_num) (fun _ _ => by norm_num)
  simpa using this

/-! ### Masks -/

/-- The mask of the given width. -/
def maskOf (w : Nat) : Int := 2 ^ w - 1

theorem bit_maskOf (w i : Nat) : bit (maskOf w) i = decide (i < w) := by
  unfold maskOf
  rw [show (2 : Int) ^ w - 1 = -1 - (-1) * 2 ^ w by ring, bit_complement, bit_mul_two_pow, bit_neg_one,
    Bool.and_true]
  by_cases hi : i < w
  · simp [hi]
  · simp [hi, not_lt.1 hi]

theorem maskOf_nonneg (w : Nat) : 0 ≤ maskOf w := by
  have := two_pow_pos w
  unfold maskOf
  omega

/-- The complement of the shifted -1; it is a big integer when it is wider than 63 bits. -/
theorem widthMask_int {xw : Num} {w : Nat} (hw : IsInt xw w) (h : w < 2 ^ 31) :
    ∃ x, (do bitwiseNot (← arithmeticShift (.small (-1)) xw)) = .value x ∧ IsInt x (maskOf w) ∧
      (64 ≤ w → x = .large (maskOf w)) := by
  obtain ⟨y, e, hy⟩ := shift_left small_neg_one hw h
  obtain ⟨x, e2, hx⟩ := bitwiseNot_int hy
  rw [show -1 - -1 * (2 : Int) ^ w = maskOf w by unfold maskOf; ring] at hx
  refine ⟨x, by rw [e, bind_value, e2], hx, fun h64 => ?_⟩
  have hl : y = .large (-1 * 2 ^ w) := by
    unfold arithmeticShift at e
    rw [castSmall_int hw (by omega) (by omega), bind_value] at e
    unfold bitShift at e
    simp only at e
    rw [if_neg (by omega), if_neg (by omega), if_pos (Or.inl (by omega))] at e
    have := Outcome.value.inj e
    rw [← this, Int.toNat_natCast]
  subst hl
  simp only [bitwiseNot, Outcome.value.injEq] at e2
  rw [← e2, lnot_eq]
  unfold maskOf
  congr 1
  ring

theorem mask_int {xs xe : Num} {s e : Nat} (hs : IsInt xs s) (he : IsInt xe e) (hse : s ≤ e)
    (h : e < 2 ^ 31) : Gives (mask xs xe) (maskOf (e - s)) := by
  unfold mask
  refine (minus_two he hs).bind fun xw hw => ?_
  rw [show (e : Int) - s = ((e - s : Nat) : Int) by omega] at hw
  obtain ⟨x, e1, hx, _⟩ := widthMask_int hw (by omega)
  exact ⟨x, e1, hx⟩

theorem bit_nonneg_iff {z : Int} : z = 0 ↔ ∀ i, bit z i = false := by
  constructor
  · rintro rfl i
    exact bit_zero i
  · intro h
    exact bit_ext fun i => by rw [h i, bit_zero]

/-- An integer all of whose high bits are clear is not negative. -/
theorem nonneg_of_bits {z : Int} {n : Nat} (h : ∀ i, n ≤ i → bit z i = false) : 0 ≤ z := by
  by_contra hn
  have h1 : -2 ^ z.natAbs ≤ z := by
    have : z.natAbs < 2 ^ z.natAbs := Nat.lt_two_pow_self
    have : (z.natAbs : Int) < 2 ^ z.natAbs := by exact_mod_cast this
    omega
  have h2 : z < 2 ^ z.natAbs := by
    have := two_pow_pos z.natAbs
    omega
  have h3 : -2 ^ (z.natAbs + n) ≤ z := by
    have : (2 : Int) ^ z.natAbs ≤ 2 ^ (z.natAbs + n) := pow_le_pow_right₀ (by norm_num) (by omega)
    omega
  have h4 : z < 2 ^ (z.natAbs + n) := by
    have := two_pow_pos (z.natAbs + n)
    omega
  have h5 := bit_of_range h3 h4 (le_refl _)
  rw [h (z.natAbs + n) (by omega)] at h5
  simp at h5
  omega

theorem not_isZero {x : Num} {z : Int} (hx : IsInt x z) : (!isZero x) = true ↔ ∃ i, bit z i = true := by
  rw [Bool.not_eq_true', ← Bool.not_eq_true, hx.isZero, bit_nonneg_iff]
  simp

theorem bit_one (i : Nat) : bit 1 i = decide (i = 0) := by
  have := bit_maskOf 1 i
  unfold maskOf at this
  norm_num at this
  simpa using this

/-- `2 ^ j` has one bit. -/
theorem bit_two_pow (j i : Nat) : bit (1 * 2 ^ j) i = decide (i = j) := by
  rw [bit_mul_two_pow, bit_one]
  by_cases h : j ≤ i
  · by_cases h2 : i = j
    · simp [h2]
    · simp [h, h2, show i - j ≠ 0 by omega]
  · simp [h, show i ≠ j by omega]

theorem bitSet_int {x y : Num} {j : Nat} {n : Int} (hx : IsInt x j) (hy : IsInt y n) (hj : j < 2 ^ 31) :
    bitSet x y = .value (bit n j) := by
  obtain ⟨p, e1, hp⟩ := shift_left small_one hx hj
  obtain ⟨q, e2, hq⟩ := and_two hp hy
  unfold bitSet
  rw [e1, bind_value, e2, bind_value, pure_eq]
  congr 1
  rw [Bool.eq_iff_iff, not_isZero hq]
  constructor
  · rintro ⟨i, hi⟩
    rw [bit_land, bit_two_pow] at hi
    simp only [Bool.and_eq_true, decide_eq_true_eq] at hi
    rw [← hi.1]
    exact hi.2
  · intro h
    refine ⟨j, ?_⟩
    rw [bit_land, bit_two_pow]
    simp [h]

/-- What `copy-bit` returns. -/
def setBit (z : Int) (j : Nat) (b : Bool) : Int :=
  if b then Int.lor z (1 * 2 ^ j) else Int.land z (-1 - 1 * 2 ^ j)

theorem bit_setBit (z : Int) (j : Nat) (b : Bool) (i : Nat) :
    bit (setBit z j b) i = if i = j then b else bit z i := by
  unfold setBit
  cases b <;>
    simp only [Bool.false_eq_true, if_false, if_true, bit_lor, bit_land, bit_complement, bit_two_pow] <;>
    by_cases h : i = j <;> simp [h]

theorem copyBit_int {x y : Num} {j : Nat} {n : Int} (hx : IsInt x j) (hy : IsInt y n) (hj : j < 2 ^ 31)
    (b : Bool) : Gives (copyBit x y b) (setBit n j b) := by
  unfold copyBit setBit
  split
  · exact (shift_left small_one hx hj).bind fun p hp => ior_two hy hp
  · exact (shift_left small_one hx hj).bind fun p hp => (bitwiseNot_int hp).bind fun q hq => and_two hy hq

/-! ### Fields -/

/-- The bits of `n` in a field, moved to position 0. -/
def fieldOf (n : Int) (s w : Nat) : Int := Int.land (maskOf w) (n / 2 ^ s)

theorem bit_fieldOf (n : Int) (s w i : Nat) :
    bit (fieldOf n s w) i = (decide (i < w) && bit n (i + s)) := by
  unfold fieldOf
  rw [bit_land, bit_maskOf, bit_div_two_pow]

theorem land_comm (a b : Int) : Int.land a b = Int.land b a := by
  apply bit_ext
  intro i
  rw [bit_land, bit_land, Bool.and_comm]

/-- The outside of a field. -/
def outside (n : Int) (s w : Nat) : Int := Int.land n (-1 - maskOf w * 2 ^ s)

theorem bit_outside (n : Int) (s w i : Nat) :
    bit (outside n s w) i = (bit n i && !(decide (s ≤ i) && decide (i < s + w))) := by
  unfold outside
  rw [bit_land, bit_complement, bit_mul_two_pow, bit_maskOf]
  by_cases h : s ≤ i
  · simp only [h, decide_true, Bool.true_and]
    simp only [show (i - s < w) ↔ i < s + w by omega]
  · simp [h]

/-- Putting a field in. -/
def insert (n f : Int) (s w : Nat) : Int := Int.lor (f * 2 ^ s) (outside n s w)

/-- Inside the field the bits of `f`, outside those of `n`. -/
theorem bit_insert {n f : Int} {s w : Nat} (hf : ∀ i, w ≤ i → bit f i = false) (i : Nat) :
    bit (insert n f s w) i = if s ≤ i ∧ i < s + w then bit f (i - s) else bit n i := by
  unfold insert
  rw [bit_lor, bit_mul_two_pow, bit_outside]
  by_cases h1 : s ≤ i
  · by_cases h2 : i < s + w
    · simp [h1, h2]
    · simp [h1, h2, hf (i - s) (by omega)]
  · simp [h1]

theorem lor_comm (a b : Int) : Int.lor a b = Int.lor b a := by
  apply bit_ext
  intro i
  rw [bit_lor, bit_lor, Bool.or_comm]

/-- A field within `n` that the code can shift to position 0. -/
structure Field (x : Num) (s e : Nat) : Prop where
  ordered : s ≤ e
  bounded : e < 2 ^ 31
  shift : ∀ a, x = .small a → s < 64

theorem shift_start {x xs : Num} {n : Int} {s e : Nat} (hx : IsInt x n) (hs : IsInt xs s)
    (h : Field x s e) :
    ∃ z y, negate xs = .value z ∧ arithmeticShift x z = .value y ∧ IsInt y (n / 2 ^ s) := by
  obtain ⟨z, e1, hz⟩ := minus_one hs
  obtain ⟨y, e2, hy⟩ := shift_right hx hz (by have := h.ordered; have := h.bounded; omega) h.shift
  exact ⟨z, y, e1, e2, hy⟩

theorem bitField_int {x xs xe : Num} {n : Int} {s e : Nat} (hx : IsInt x n) (hs : IsInt xs s)
    (he : IsInt xe e) (h : Field x s e) : Gives (bitField x xs xe) (fieldOf n s (e - s)) := by
  obtain ⟨m, e1, hm⟩ := mask_int hs he h.ordered h.bounded
  obtain ⟨z, y, e2, e3, hy⟩ := shift_start hx hs h
  unfold bitField
  rw [e1, bind_value, e2, bind_value, e3, bind_value]
  exact and_two hm hy

theorem bitFieldAny_int {x xs xe : Num} {n : Int} {s e : Nat} (hx : IsInt x n) (hs : IsInt xs s)
    (he : IsInt xe e) (h : Field x s e) :
    ∃ b, bitFieldAny x xs xe = .value b ∧ (b = true ↔ ∃ i, bit (fieldOf n s (e - s)) i = true) := by
  obtain ⟨m, e1, hm⟩ := mask_int hs he h.ordered h.bounded
  obtain ⟨z, y, e2, e3, hy⟩ := shift_start hx hs h
  obtain ⟨w, e4, hw⟩ := and_two hy hm
  unfold bitFieldAny
  rw [e2, bind_value, e3, bind_value, e1, bind_value, e4, bind_value]
  refine ⟨_, rfl, ?_⟩
  rw [not_isZero hw, land_comm]
  rfl

theorem eqvIntegers_iff {x y : Num} {a b : Int} (hx : IsInt x a) (hy : IsInt y b) :
    eqvIntegers x y = true ↔ a = b := by
  have h : eqvIntegers x y = equals x y := by
    rcases hx with ⟨rfl, _⟩ | rfl <;> rcases hy with ⟨rfl, _⟩ | rfl <;> rfl
  rw [h, equals_iff hx.valid hy.valid, hx.val, hy.val]
  norm_cast

theorem bitFieldEvery_int {x xs xe : Num} {n : Int} {s e : Nat} (hx : IsInt x n) (hs : IsInt xs s)
    (he : IsInt xe e) (h : Field x s e) :
    ∃ b, bitFieldEvery x xs xe = .value b ∧ (b = true ↔ maskOf (e - s) = fieldOf n s (e - s)) := by
  obtain ⟨m, e1, hm⟩ := mask_int hs he h.ordered h.bounded
  obtain ⟨z, y, e2, e3, hy⟩ := shift_start hx hs h
  obtain ⟨w, e4, hw⟩ := and_two hy hm
  unfold bitFieldEvery
  rw [e1, bind_value, e2, bind_value, e3, bind_value, e4, bind_value]
  refine ⟨_, rfl, ?_⟩
  rw [eqvIntegers_iff hm hw, land_comm]
  rfl

theorem bitFieldReplace_int {x y xs xe : Num} {n f : Int} {s e : Nat} (hx : IsInt x n)
    (hy : IsInt y f) (hs : IsInt xs s) (he : IsInt xe e) (hse : s ≤ e) (h : e < 2 ^ 31) :
    Gives (bitFieldReplace x y xs xe) (insert n (Int.land f (maskOf (e - s))) s (e - s)) := by
  obtain ⟨m, e1, hm⟩ := mask_int hs he hse h
  unfold bitFieldReplace insert
  rw [e1, bind_value, lor_comm]
  exact (shift_left hm hs (by omega)).bind fun p hp => (bitwiseNot_int hp).bind fun q hq =>
    (and_two hx hq).bind fun r hr => (and_two hy hm).bind fun t ht =>
      (shift_left ht hs (by omega)).bind fun u hu => ior_two hr hu

theorem bitwiseIf_int {x y z : Num} {m a b : Int} (hx : IsInt x m) (hy : IsInt y a) (hz : IsInt z b) :
    Gives (bitwiseIf x y z) (Int.lor (Int.land m a) (Int.land (-1 - m) b)) :=
  (and_two hx hy).bind fun p hp => (bitwiseNot_int hx).bind fun q hq =>
    (and_two hq hz).bind fun r hr => ior_two hp hr

theorem bit_if (m a b : Int) (i : Nat) :
    bit (Int.lor (Int.land m a) (Int.land (-1 - m) b)) i = if bit m i then bit a i else bit b i := by
  rw [bit_lor, bit_land, bit_land, bit_complement]
  cases bit m i <;> simp

theorem bitFieldReplaceSame_int {x y xs xe : Num} {n f : Int} {s e : Nat} (hx : IsInt x n)
    (hy : IsInt y f) (hs : IsInt xs s) (he : IsInt xe e) (hse : s ≤ e) (h : e < 2 ^ 31) :
    Gives (bitFieldReplaceSame x y xs xe)
      (Int.lor (Int.land (maskOf (e - s) * 2 ^ s) f) (Int.land (-1 - maskOf (e - s) * 2 ^ s) n)) :=
  (mask_int hs he hse h).bind fun _ hm => (shift_left hm hs (by omega)).bind fun _ hp =>
    bitwiseIf_int hp hy hx

/-! ### Rotation -/

theorem and2_large {a b : Int} {y : Num} (hy : IsInt y b) :
    bitwiseAnd [.large a, y] = .value (.large (Int.land a b)) := by
  rcases hy with ⟨rfl, _⟩ | rfl <;>
    simp [bitwiseAnd, foldLeft, and2, bitwise, land_neg_one]

/-- The field as `bit-field-rotate` and `bit-field-reverse` extract it: it is a big integer when it
is wider than 63 bits. -/
theorem extract_int {m y : Num} {n : Int} {s w : Nat} (hm : IsInt m (maskOf w))
    (hl : 64 ≤ w → m = .large (maskOf w)) (hy : IsInt y (n / 2 ^ s)) :
    ∃ z, bitwiseAnd [m, y] = .value z ∧ IsInt z (fieldOf n s w) ∧
      ∀ a, z = .small a → w < 64 := by
  obtain ⟨z, e, hz⟩ := and_two hm hy
  refine ⟨z, e, hz, fun a ha => ?_⟩
  by_contra h
  rw [hl (by omega), and2_large hy] at e
  cases e
  exact nomatch ha

/-- The rotated field. -/
def rotated (z : Int) (c w : Nat) : Int :=
  Int.lor (Int.land (maskOf w) (z * 2 ^ c)) (z / 2 ^ (w - c))

theorem bit_rotated {n : Int} {s c w : Nat} (hc : c < w) (i : Nat) :
    bit (rotated (fieldOf n s w) c w) i =
      (decide (i < w) && bit n (s + (if c ≤ i then i - c else i + (w - c)))) := by
  unfold rotated
  rw [bit_lor, bit_land, bit_maskOf, bit_mul_two_pow, bit_div_two_pow, bit_fieldOf, bit_fieldOf]
  by_cases h1 : i < w
  · by_cases h2 : c ≤ i
    · simp only [h1, h2, decide_true, Bool.true_and, show i - c < w by omega,
        show ¬ (i + (w - c) < w) by omega, decide_false, Bool.false_and, Bool.or_false, if_true]
      rw [Nat.add_comm]
    · simp only [h1, h2, decide_true, Bool.true_and, decide_false, Bool.false_and, Bool.false_or,
        show i + (w - c) < w by omega, if_false]
      rw [Nat.add_comm]
  · simp [h1, show ¬ (i + (w - c) < w) by omega]

theorem bitFieldRotate_int {x xc xs xe : Num} {n count : Int} {s e : Nat} (hx : IsInt x n)
    (hc : IsInt xc count) (hs : IsInt xs s) (he : IsInt xe e) (hse : s < e) (h : Field x s e) :
    Gives (bitFieldRotate x xc xs xe)
      (insert n (rotated (fieldOf n s (e - s)) (count % (e - s : Nat)).toNat (e - s)) s (e - s)) := by
  have hb := h.bounded
  obtain ⟨xw, e1, hw⟩ := minus_two he hs
  rw [show (e : Int) - s = ((e - s : Nat) : Int) by omega] at hw
  obtain ⟨xc', e2, hc'⟩ := modulo_int hc hw (by omega)
  rw [Int.fmod_eq_emod_of_nonneg _ (by omega)] at hc'
  have hr1 := Int.emod_nonneg count (show ((e - s : Nat) : Int) ≠ 0 by omega)
  have hr2 := Int.emod_lt_of_pos count (show 0 < ((e - s : Nat) : Int) by omega)
  obtain ⟨c, hcc⟩ : ∃ c : Nat, count % ((e - s : Nat) : Int) = c := ⟨_, (Int.toNat_of_nonneg hr1).symm⟩
  rw [hcc] at hc' hr2 ⊢
  rw [Int.toNat_natCast]
  obtain ⟨m, e3, hm, hl⟩ := widthMask_int hw (by omega)
  obtain ⟨z, y, e4, e5, hy⟩ := shift_start hx hs h
  obtain ⟨zn, e6, hz, hzl⟩ := extract_int hm hl hy
  obtain ⟨p1, e7, h7⟩ := shift_left hz hc' (by omega)
  obtain ⟨p2, e8, h8⟩ := and_two hm h7
  obtain ⟨p3, e9, h9⟩ := minus_two hc' hw
  rw [show (c : Int) - ((e - s : Nat) : Int) = -((e - s - c : Nat) : Int) by omega] at h9
  obtain ⟨p4, e10, h10⟩ := shift_right hz h9 (by omega) (fun a ha => by have := hzl a ha; omega)
  obtain ⟨p5, e11, h11⟩ := ior_two h8 h10
  obtain ⟨p6, e12, h12⟩ := shift_left h11 hs (by omega)
  obtain ⟨p7, e13, h13⟩ := shift_left hm hs (by omega)
  obtain ⟨p8, e14, h14⟩ := bitwiseNot_int h13
  obtain ⟨p9, e15, h15⟩ := and_two h14 hx
  obtain ⟨p10, e16, h16⟩ := ior_two h12 h15
  unfold bitFieldRotate
  cases e3' : arithmeticShift (.small (-1)) xw with
  | raised => rw [e3'] at e3; exact nomatch e3
  | undefined => rw [e3'] at e3; exact nomatch e3
  | value v =>
    rw [e3', bind_value] at e3
    simp only [e1, e2, e3', e3, e4, e5, e6, e7, e8, e9, e10, e11, e12, e13, e14, e15, e16, bind_value]
    refine ⟨p10, rfl, ?_⟩
    unfold insert outside rotated
    rw [land_comm n]
    exact h16

/-! ### Reversal -/

/-- The `t` low bits of `z`, in reverse. -/
def IsReversed (z : Int) (t : Nat) (r : Int) : Prop :=
  ∀ i, bit r i = (decide (i < t) && bit z (t - 1 - i))

theorem reverseLoop_int {z : Int} {w : Nat} : ∀ (fuel t : Nat) {m k rvs : Num} {r : Int},
    IsInt m (z / 2 ^ t) → IsInt k ((w : Int) - 1 - t) → IsInt rvs r → IsReversed z t r → t ≤ w →
    w - t < fuel → ∃ r', Gives (reverseLoop fuel m k rvs) r' ∧ IsReversed z w r'
  | 0, _, _, _, _, _, _, _, _, _, _, h => absurd h (Nat.not_lt_zero _)
  | fuel + 1, t, m, k, rvs, r, hm, hk, hr, hi, ht, hf => by
    unfold reverseLoop
    split
    · rename_i hn
      rw [hk.isNegative] at hn
      obtain rfl : t = w := by omega
      exact ⟨r, ⟨rvs, rfl, hr⟩, hi⟩
    · rename_i hn
      rw [hk.isNegative] at hn
      obtain ⟨m', e1, hm'⟩ := shift_one_right hm
      obtain ⟨k', e2, hk'⟩ := plus_two small_neg_one hk
      obtain ⟨p, e3, hp⟩ := shift_left (c := 1) hr (k := .small 1) small_one (by norm_num)
      obtain ⟨q, e4, hq⟩ := and_two small_one hm
      obtain ⟨rvs', e5, hr'⟩ := ior_two hp hq
      rw [e1, e2, e3, e4]
      simp only [bind_value]
      rw [e5, bind_value]
      refine reverseLoop_int fuel (t + 1) (r := _) ?_ ?_ hr' ?_ (by omega) (by omega)
      · rw [pow_succ, ← Int.ediv_ediv_of_nonneg (two_pow_pos t).le]
        exact hm'
      · refine Eq.subst (motive := IsInt k') ?_ hk'
        push_cast
        ring
      · intro i
        rw [bit_lor, bit_mul_two_pow, bit_land, bit_one, bit_div_two_pow, hi]
        cases i with
        | zero => simp
        | succ i =>
          simp only [Nat.le_add_left, decide_true, Bool.true_and, Nat.add_sub_cancel,
            Nat.add_lt_add_iff_right, Nat.add_one_ne_zero, decide_false, Bool.false_and, Bool.or_false]
          congr 2
          omega

theorem bitReverse_int {xw x : Num} {z : Int} {w : Nat} (hw : IsInt xw w) (hx : IsInt x z)
    (hz : 0 ≤ z) : ∃ r, Gives (bitReverse xw x) r ∧ IsReversed z w r := by
  have hn : isNegative x = false := by
    rw [← Bool.not_eq_true, hx.isNegative]
    omega
  obtain ⟨k, e1, hk⟩ := plus_two small_neg_one hw
  obtain ⟨r, ⟨y, e2, hy⟩, hr⟩ := reverseLoop_int (z := z) (w := w) (magnitude xw + 2) 0 (m := x) (k := k)
    (rvs := .small 0) (r := 0) (by simpa using hx)
    (by
      refine Eq.subst (motive := IsInt k) ?_ hk
      push_cast
      ring)
    small_zero (fun i => by simp [bit_zero]) (Nat.zero_le _)
    (by rw [magnitude_int hw]; simp)
  refine ⟨r, ⟨y, ?_, hy⟩, hr⟩
  unfold bitReverse
  simp only [hn, Bool.false_eq_true, if_false, pure_eq, bind_value, e1, e2]

theorem fieldOf_nonneg (n : Int) (s w : Nat) : 0 ≤ fieldOf n s w :=
  nonneg_of_bits (n := w) fun i hi => by rw [bit_fieldOf]; simp; omega

theorem bitFieldReverse_int {x xs xe : Num} {n : Int} {s e : Nat} (hx : IsInt x n)
    (hs : IsInt xs s) (he : IsInt xe e) (h : Field x s e) :
    ∃ r, Gives (bitFieldReverse x xs xe) (insert n r s (e - s)) ∧
      IsReversed (fieldOf n s (e - s)) (e - s) r := by
  have hb := h.bounded
  have ho := h.ordered
  obtain ⟨xw, e1, hw⟩ := minus_two he hs
  rw [show (e : Int) - s = ((e - s : Nat) : Int) by omega] at hw
  obtain ⟨m, e3, hm, hl⟩ := widthMask_int hw (by omega)
  obtain ⟨z, y, e4, e5, hy⟩ := shift_start hx hs h
  obtain ⟨zn, e6, hz, hzl⟩ := extract_int hm hl hy
  obtain ⟨r, ⟨xr, e7, h7⟩, hr⟩ := bitReverse_int hw hz (fieldOf_nonneg _ _ _)
  obtain ⟨p6, e12, h12⟩ := shift_left h7 hs (by omega)
  obtain ⟨p7, e13, h13⟩ := shift_left hm hs (by omega)
  obtain ⟨p8, e14, h14⟩ := bitwiseNot_int h13
  obtain ⟨p9, e15, h15⟩ := and_two h14 hx
  obtain ⟨p10, e16, h16⟩ := ior_two h12 h15
  refine ⟨r, ⟨p10, ?_, ?_⟩, hr⟩
  · unfold bitFieldReverse
    cases e3' : arithmeticShift (.small (-1)) xw with
    | raised => rw [e3'] at e3; exact nomatch e3
    | undefined => rw [e3'] at e3; exact nomatch e3
    | value v =>
      rw [e3', bind_value] at e3
      simp only [e1, e3', e3, e4, e5, e6, e7, e12, e13, e14, e15, e16, bind_value]
  · unfold insert outside
    rw [land_comm n]
    exact h16

/-! ### Lists of bits -/

theorem isOdd_int {x : Num} {z : Int} (hx : IsInt x z) : isOdd x = .value (bit z 0) := by
  obtain ⟨r, e, hr⟩ := rem_int hx (y := .small 2) (b := 2) (.small (by norm_num) (by norm_num)) (by norm_num)
  unfold isOdd isEven remainder
  rw [e]
  simp only [bind_value, pure_eq]
  congr 1
  rw [Bool.eq_iff_iff, Bool.not_eq_true', ← Bool.not_eq_true, hr.isZero]
  unfold bit
  rw [decide_eq_true_eq, pow_zero, Int.ediv_one, ← Int.dvd_iff_tmod_eq_zero]
  omega

theorem range_succ_map (f : Nat → Bool) (t : Nat) :
    f t :: ((List.range t).map f).reverse = ((List.range (t + 1)).map f).reverse := by
  rw [List.range_succ, List.map_append, List.reverse_append]
  rfl

theorem half_step (z : Int) (t : Nat) : z / 2 ^ t / 2 = z / 2 ^ (t + 1) := by
  rw [pow_succ, Int.ediv_ediv_of_nonneg (two_pow_pos t).le]

theorem bitsLoop_int {z : Int} (hz : 0 ≤ z) : ∀ (fuel t : Nat) {k : Num},
    IsInt k (z / 2 ^ t) → (∀ n < t, (2 : Int) ^ n ≤ z) → z / 2 ^ t < fuel →
    ∃ L, IsLength z L ∧
      bitsLoop fuel k ((List.range t).map (bit z)).reverse = .value ((List.range L).map (bit z))
  | 0, t, _, _, _, h => by
    have := Int.ediv_nonneg hz (two_pow_pos t).le
    omega
  | fuel + 1, t, k, hk, hb, hf => by
    have h0 : numLe [k, .small 0] = true ↔ z / 2 ^ t ≤ 0 := by
      rw [numLe_two hk.valid small_zero.valid, hk.val, small_zero.val]
      norm_cast
    unfold bitsLoop
    split
    · rename_i h
      rw [h0] at h
      replace h : z < 2 ^ t := by
        by_contra hlt
        have := Int.ediv_le_ediv (two_pow_pos t) (not_lt.1 hlt)
        rw [Int.ediv_self (two_pow_pos t).ne'] at this
        omega
      refine ⟨t, ⟨⟨by have := two_pow_pos t; omega, h⟩, fun n hn => ?_⟩, by rw [List.reverse_reverse]⟩
      by_contra hlt
      have := hb n (by omega)
      have := hn.2
      omega
    · rename_i h
      rw [h0] at h
      have hle : (2 : Int) ^ t ≤ z := by
        by_contra hlt
        rw [Int.ediv_eq_zero_of_lt hz (by omega)] at h
        omega
      obtain ⟨k', e1, hk'⟩ := shift_one_right hk
      rw [half_step] at hk'
      rw [e1, bind_value, isOdd_int hk, bind_value, bit_div_two_pow, Nat.zero_add, range_succ_map]
      refine bitsLoop_int hz fuel (t + 1) hk' (fun n hn => ?_) ?_
      · rcases Nat.lt_succ_iff_lt_or_eq.1 hn with h1 | rfl
        · exact hb n h1
        · exact hle
      · rw [← half_step]
        omega

theorem bitsLoopLen_int {z : Int} {w : Nat} : ∀ (fuel t : Nat) {k idx : Num},
    IsInt k (z / 2 ^ t) → IsInt idx ((w : Int) - 1 - t) → t ≤ w → w - t < fuel →
    bitsLoopLen fuel idx k ((List.range t).map (bit z)).reverse = .value ((List.range w).map (bit z))
  | 0, _, _, _, _, _, _, h => absurd h (Nat.not_lt_zero _)
  | fuel + 1, t, k, idx, hk, hi, ht, hf => by
    unfold bitsLoopLen
    split
    · rename_i h
      rw [hi.isNegative] at h
      obtain rfl : t = w := by omega
      rw [List.reverse_reverse]
    · rename_i h
      rw [hi.isNegative] at h
      obtain ⟨k', e1, hk'⟩ := shift_one_right hk
      rw [half_step] at hk'
      obtain ⟨i', e2, hi'⟩ := plus_two small_neg_one hi
      rw [e2, bind_value, e1, bind_value, isOdd_int hk, bind_value, bit_div_two_pow, Nat.zero_add,
        range_succ_map]
      refine bitsLoopLen_int fuel (t + 1) hk' ?_ (by omega) (by omega)
      refine Eq.subst (motive := IsInt i') ?_ hi'
      push_cast
      ring

/-- The integer with the given bits, the lowest first. -/
def ofBits : List Bool → Int
  | [] => 0
  | b :: bs => (if b then 1 else 0) + 2 * ofBits bs

theorem bit_ofBits : ∀ (l : List Bool) (j : Nat), bit (ofBits l) j = l.getD j false
  | [], j => bit_zero j
  | b :: bs, 0 => by
    unfold bit ofBits
    rw [pow_zero, Int.ediv_one]
    cases b <;> simp <;> omega
  | b :: bs, j + 1 => by
    rw [List.getD_cons_succ, ← bit_ofBits bs j]
    unfold bit
    rw [show ofBits (b :: bs) / 2 ^ (j + 1) = ofBits bs / 2 ^ j by
      rw [pow_succ', ← Int.ediv_ediv_of_nonneg (by norm_num)]
      congr 1
      rw [ofBits]
      cases b <;> simp <;> omega]

theorem listLoop_int : ∀ (bs : List Bool) {acc : Num} {l : List Bool}, IsInt acc (ofBits l) →
    Gives (listLoop acc bs) (ofBits (bs.reverse ++ l))
  | [], acc, l, h => ⟨acc, rfl, h⟩
  | b :: bs, acc, l, h => by
    unfold listLoop
    have hb : IsInt (if b then Num.small 1 else .small 0) (if b then 1 else 0) := by
      cases b
      · exact small_zero
      · exact small_one
    have h3 := foldLeft_int (fun _ _ _ _ => add_int) [acc, acc, if b then Num.small 1 else .small 0]
      [ofBits l, ofBits l, if b then 1 else 0] _ 0 small_zero (.cons h (.cons h (.cons hb .nil)))
    refine Gives.bind h3 fun x hx => ?_
    rw [List.reverse_cons, List.append_assoc]
    refine listLoop_int bs (l := b :: l) ?_
    refine Eq.subst (motive := IsInt x) ?_ hx
    simp only [List.foldl, ofBits]
    ring

theorem listToBits_int (l : List Bool) : Gives (listToBits l) (ofBits l) := by
  have := listLoop_int l.reverse (acc := .small 0) (l := []) small_zero
  rwa [List.reverse_reverse, List.append_nil] at this

/-! ### Folding -/

theorem numEq_two {x y : Num} {a b : Int} (hx : IsInt x a) (hy : IsInt y b) :
    numEq [x, y] = true ↔ a = b := by
  simp only [numEq, noAdjacent, Bool.and_true, Bool.not_eq_true', ← Bool.not_eq_true,
    notEquals_iff hx.valid hy.valid, hx.val, hy.val, not_not]
  norm_cast

theorem foldLoop_int {σ : Type} (proc : Bool → σ → σ) {x len : Num} {z : Int} {L : Nat} (hx : IsInt x z)
    (hl : IsInt len L) (hL : L < 2 ^ 31) : ∀ (fuel t : Nat) {n : Num} (r : σ), IsInt n t → t ≤ L →
    L - t < fuel →
    foldLoop proc x len fuel n r =
      .value ((List.range' t (L - t)).foldl (fun r j => proc (bit z j) r) r)
  | 0, _, _, _, _, _, h => absurd h (Nat.not_lt_zero _)
  | fuel + 1, t, n, r, hn, ht, hf => by
    unfold foldLoop
    split
    · rename_i h
      rw [numEq_two hn hl] at h
      obtain rfl : t = L := by omega
      rw [Nat.sub_self]
      rfl
    · rename_i h
      rw [numEq_two hn hl] at h
      obtain ⟨n', e1, hn'⟩ := plus_two hn small_one
      rw [bitSet_int hn hx (by omega), bind_value, e1, bind_value,
        foldLoop_int proc hx hl hL fuel (t + 1) _ (by exact_mod_cast hn') (by omega) (by omega),
        show L - t = (L - (t + 1)) + 1 by omega, List.range'_succ, List.foldl_cons]

theorem numLt_nat {x y : Num} {a b : Nat} (hx : IsInt x a) (hy : IsInt y b) :
    numLt [x, y] = true ↔ a < b := by
  rw [numLt_two hx.valid hy.valid, hx.val, hy.val]
  norm_cast

theorem forEachLoop_int {x len : Num} {z : Int} {L : Nat} (hx : IsInt x z)
    (hl : IsInt len L) (hL : L < 2 ^ 31) : ∀ (fuel t : Nat) {n : Num}, IsInt n t → t ≤ L →
    L - t < fuel →
    forEachLoop x len fuel n = .value ((List.range' t (L - t)).map (bit z))
  | 0, _, _, _, _, h => absurd h (Nat.not_lt_zero _)
  | fuel + 1, t, n, hn, ht, hf => by
    unfold forEachLoop
    split
    · rename_i h
      rw [numLt_nat hn hl] at h
      obtain ⟨n', e1, hn'⟩ := plus_two hn small_one
      rw [bitSet_int hn hx (by omega), bind_value, e1, bind_value,
        forEachLoop_int hx hl hL fuel (t + 1) (by exact_mod_cast hn') (by omega) (by omega),
        show L - t = (L - (t + 1)) + 1 by omega, List.range'_succ, List.map_cons]
      rfl
    · rename_i h
      rw [numLt_nat hn hl] at h
      obtain rfl : t = L := by omega
      rw [Nat.sub_self]
      rfl

theorem unfoldLoop_int {σ : Type} (stop mapper : σ → Bool) (successor : σ → σ) (seed : σ) {N : Nat}
    (hN : N < 2 ^ 31) (h1 : ∀ j < N, stop (successor^[j] seed) = false)
    (h2 : stop (successor^[N] seed) = true) : ∀ (fuel t : Nat) {n r : Num} {z : Int}, IsInt n t →
    IsInt r z → (∀ j, bit z j = (decide (j < t) && mapper (successor^[j] seed))) → t ≤ N →
    N - t < fuel →
    ∃ z', Gives (unfoldLoop stop mapper successor fuel n r (successor^[t] seed)) z' ∧
      ∀ j, bit z' j = (decide (j < N) && mapper (successor^[j] seed))
  | 0, _, _, _, _, _, _, _, _, h => absurd h (Nat.not_lt_zero _)
  | fuel + 1, t, n, r, z, hn, hr, hz, ht, hf => by
    unfold unfoldLoop
    split
    · rename_i h
      have : t = N := by
        by_contra hne
        rw [h1 t (by omega)] at h
        exact nomatch h
      subst this
      exact ⟨z, ⟨r, rfl, hr⟩, hz⟩
    · rename_i h
      have : t ≠ N := by
        rintro rfl
        exact h h2
      obtain ⟨n', e1, hn'⟩ := plus_two hn small_one
      obtain ⟨r', e2, hr'⟩ := copyBit_int hn hr (by omega) (mapper (successor^[t] seed))
      rw [e1, bind_value, e2, bind_value, ← Function.iterate_succ_apply' successor]
      refine unfoldLoop_int stop mapper successor seed hN h1 h2 fuel (t + 1) (by exact_mod_cast hn') hr'
        (fun j => ?_) (by omega) (by omega)
      rw [bit_setBit, hz]
      by_cases hj : j = t
      · subst hj
        simp
      · rw [if_neg hj]
        congr 1
        rw [decide_eq_decide]
        omega

theorem generate_int : ∀ (count t : Nat) {x : Num} {z : Int}, IsInt x (z / 2 ^ t) →
    generate count x = .value ((List.range' t count).map (bit z))
  | 0, _, _, _, _ => rfl
  | count + 1, t, x, z, hx => by
    obtain ⟨y, e, hy⟩ := shift_one_right hx
    rw [half_step] at hy
    unfold generate generatorStep
    rw [bitSet_int (j := 0) small_zero hx (by norm_num), bind_value, e]
    simp only [bind_value, pure_eq]
    rw [generate_int count (t + 1) hy, bind_value, bit_div_two_pow, Nat.zero_add, List.range'_succ,
      List.map_cons]

/-! ### The lowest set bit -/

theorem bit_add_low {a r : Int} {p : Nat} (h0 : 0 ≤ r) (h1 : r < 2 ^ p) (j : Nat) :
    bit (a * 2 ^ p + r) j = if j < p then bit r j else bit a (j - p) := by
  split
  · rename_i h
    unfold bit
    rw [decide_eq_decide, show (2 : Int) ^ p = 2 * 2 ^ (p - 1 - j) * 2 ^ j by
        rw [mul_assoc, ← pow_add, ← pow_succ']; congr 1; omega,
      show a * (2 * 2 ^ (p - 1 - j) * 2 ^ j) + r = r + (2 * (a * 2 ^ (p - 1 - j))) * 2 ^ j by ring,
      Int.add_mul_ediv_right _ _ (two_pow_pos j).ne']
    omega
  · rename_i h
    rw [show j = (j - p) + p by omega, ← bit_div_two_pow, Int.add_comm,
      Int.add_mul_ediv_right _ _ (two_pow_pos p).ne', Int.ediv_eq_zero_of_lt h0 h1, Int.zero_add]
    congr 1
    omega

theorem xor_pred {z : Int} {p : Nat} (h1 : bit z p = true) (h2 : ∀ j < p, bit z j = false) :
    Int.xor z (z - 1) = maskOf (p + 1) := by
  have hz : z = z / 2 ^ p * 2 ^ p := by
    have : z % 2 ^ p = 0 % 2 ^ p := emod_eq_of_bits fun i hi => by rw [h2 i hi, bit_zero]
    rw [Int.zero_emod] at this
    exact (Int.ediv_mul_cancel (Int.dvd_of_emod_eq_zero this)).symm
  have hodd : z / 2 ^ p % 2 = 1 := by
    unfold bit at h1
    exact of_decide_eq_true h1
  have e : z - 1 = (2 * (z / 2 ^ p / 2)) * 2 ^ p + maskOf p := by
    have : 2 * (z / 2 ^ p / 2) = z / 2 ^ p - 1 := by omega
    rw [this]
    unfold maskOf
    linarith
  apply bit_ext
  intro j
  rw [bit_xor, bit_maskOf, e, bit_add_low (maskOf_nonneg p) (by unfold maskOf; omega)]
  by_cases hj : j < p
  · rw [if_pos hj, bit_maskOf, h2 j hj]
    simp [hj]
    omega
  · rw [if_neg hj]
    by_cases hj2 : j = p
    · subst hj2
      rw [h1, Nat.sub_self]
      unfold bit
      simp
    · rw [show 2 * (z / 2 ^ p / 2) = z / 2 ^ p / 2 * 2 ^ 1 by rw [pow_one]; ring, bit_mul_two_pow,
        half_step, bit_div_two_pow, show j - p - 1 + (p + 1) = j by omega]
      simp [show 1 ≤ j - p by omega, show ¬ j < p + 1 by omega]

theorem marked_maskOf (w : Nat) : (marked (maskOf w)).ncard = w := by
  have e : marked (maskOf w) = ((Finset.range w : Finset Nat) : Set Nat) := by
    ext i
    have := maskOf_nonneg w
    simp [marked, bit_maskOf, show ¬ maskOf w < 0 by omega]
  rw [e, Set.ncard_coe_finset, Finset.card_range]

theorem firstSetBit_int {x : Num} {z : Int} {p : Nat} (hx : IsInt x z) (h1 : bit z p = true)
    (h2 : ∀ j < p, bit z j = false) (hp : p + 1 < 2 ^ 31) : Gives (firstSetBit x) p := by
  refine (minus_two hx small_one).bind fun y hy => (xor_two hx hy).bind fun w hw => ?_
  rw [xor_pred h1 h2] at hw
  refine (bitCount_int hw (by rw [marked_maskOf]; exact hp)).bind fun c hc => ?_
  rw [marked_maskOf] at hc
  have := minus_two hc small_one
  rwa [show ((p + 1 : Nat) : Int) - 1 = p by omega] at this

theorem firstSetBit_zero {x : Num} (hx : IsInt x 0) : Gives (firstSetBit x) (-1) := by
  refine (minus_two hx small_one).bind fun y hy => (xor_two hx hy).bind fun w hw => ?_
  rw [xor_zero] at hw
  have h0 : (marked (0 - 1)).ncard = 0 := by
    have : marked (0 - 1) = ∅ := by
      ext i
      have := bit_neg_one i
      simp [marked, this]
    rw [this, Set.ncard_empty]
  refine (bitCount_int hw (by rw [h0]; norm_num)).bind fun c hc => ?_
  rw [h0] at hc
  exact minus_two hc small_one

/-! ### Derived operations -/

theorem eqvLoop_int {xs : List Num} {zs : List Int} (h : List.Forall₂ IsInt xs zs) :
    ∀ {acc : Num} {a : Int}, IsInt acc a → ∃ z, Gives (eqvLoop acc xs) z ∧
      ∀ i, bit z i = zs.foldl (fun b c => b == bit c i) (bit a i) := by
  induction h with
  | nil => exact fun {acc a} h => ⟨a, ⟨acc, rfl, h⟩, fun _ => rfl⟩
  | @cons x z xs zs hx _ ih =>
    intro acc a h
    obtain ⟨y, e1, hy⟩ := xor_two h hx
    obtain ⟨w, e2, hw⟩ := bitwiseNot_int hy
    obtain ⟨r, h1, h2⟩ := ih hw
    refine ⟨r, ?_, fun i => ?_⟩
    · unfold eqvLoop
      rw [e1, bind_value, e2, bind_value]
      exact h1
    · rw [h2, bit_complement, bit_xor, List.foldl_cons]
      congr 1
      cases bit a i <;> cases bit z i <;> rfl

end Meevax.Number
