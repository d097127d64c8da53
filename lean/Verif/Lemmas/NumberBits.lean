import Verif.Lemmas.NumberDiv

/-
Bitwise operations, shifts, bit counts and lengths.
-/

namespace Meevax.Number

/-! ### Bits of integers -/

theorem bit_true {z : Int} {i : Nat} : bit z i = true ↔ z / 2 ^ i % 2 = 1 := by
  simp [bit]

theorem bit_false {z : Int} {i : Nat} : bit z i = false ↔ z / 2 ^ i % 2 = 0 := by
  rw [← Bool.not_eq_true, bit_true]
  omega

theorem two_pow_pos (i : Nat) : (0 : Int) < 2 ^ i := by positivity

theorem two_pow_split {i j : Nat} (h : i ≤ j) : (2 : Int) ^ j = 2 ^ i * 2 ^ (j - i) := by
  rw [← pow_add]
  congr 1
  omega

/-- Shifting left. -/
theorem bit_mul_two_pow (z : Int) (k i : Nat) :
    bit (z * 2 ^ k) i = (decide (k ≤ i) && bit z (i - k)) := by
  by_cases h : k ≤ i
  · obtain ⟨j, rfl⟩ : ∃ j, i = k + j := ⟨i - k, by omega⟩
    simp only [h, decide_true, Bool.true_and, Nat.add_sub_cancel_left]
    unfold bit
    rw [pow_add, mul_comm z, Int.mul_ediv_mul_of_pos _ _ (two_pow_pos k)]
  · obtain ⟨j, rfl⟩ : ∃ j, k = i + j + 1 := ⟨k - i - 1, by omega⟩
    simp only [h, decide_false, Bool.false_and]
    rw [bit_false, show z * 2 ^ (i + j + 1) = 2 ^ i * (2 * (z * 2 ^ j)) by ring,
      Int.mul_ediv_cancel_left _ (two_pow_pos i).ne']
    simp

/-- Shifting right. -/
theorem bit_div_two_pow (z : Int) (k i : Nat) : bit (z / 2 ^ k) i = bit z (i + k) := by
  unfold bit
  rw [Int.ediv_ediv_of_nonneg (two_pow_pos k).le, ← pow_add, Nat.add_comm]

theorem bit_zero (i : Nat) : bit 0 i = false := by simp [bit]

theorem complement_div (z : Int) (i : Nat) : (-1 - z) / 2 ^ i = -1 - z / 2 ^ i := by
  have hp := two_pow_pos i
  have h1 := Int.emod_nonneg z hp.ne'
  have h2 := Int.emod_lt_of_pos z hp
  have h3 := Int.mul_ediv_add_emod z (2 ^ i)
  have e : (-1 - z) = (2 ^ i - 1 - z % 2 ^ i) + 2 ^ i * (-1 - z / 2 ^ i) := by
    rw [mul_sub]
    omega
  rw [e, Int.add_mul_ediv_left _ _ hp.ne', Int.ediv_eq_zero_of_lt (by omega) (by omega), zero_add]

theorem bit_complement (z : Int) (i : Nat) : bit (-1 - z) i = !bit z i := by
  cases h : bit z i
  · rw [bit_false] at h
    rw [Bool.not_false, bit_true, complement_div]
    omega
  · rw [bit_true] at h
    rw [Bool.not_true, bit_false, complement_div]
    omega

theorem bit_neg_one (i : Nat) : bit (-1) i = true := by
  have := bit_complement 0 i
  rw [bit_zero] at this
  simpa using this

theorem lnot_eq (z : Int) : Int.lnot z = -1 - z := by
  cases z with
  | ofNat n => show Int.negSucc n = _; rw [Int.negSucc_eq]; simp; omega
  | negSucc n => show (n : Int) = _; rw [Int.negSucc_eq]; omega

theorem emod_two_pow_succ (z : Int) (n : Nat) :
    z % 2 ^ (n + 1) = z % 2 ^ n + 2 ^ n * (z / 2 ^ n % 2) := by
  have hp := two_pow_pos n
  have h1 := Int.emod_nonneg z hp.ne'
  have h2 := Int.emod_lt_of_pos z hp
  have h3 := Int.mul_ediv_add_emod z (2 ^ n)
  have h4 := Int.mul_ediv_add_emod (z / 2 ^ n) 2
  have e : z = (z % 2 ^ n + 2 ^ n * (z / 2 ^ n % 2)) + 2 ^ (n + 1) * (z / 2 ^ n / 2) := by
    conv_lhs => rw [← h3, ← h4]
    ring
  conv_lhs => rw [e]
  rw [Int.add_mul_emod_self_left]
  apply Int.emod_eq_of_lt
  · have : 0 ≤ z / 2 ^ n % 2 := by omega
    positivity
  · rw [pow_succ]
    rcases Int.emod_two_eq_zero_or_one (z / 2 ^ n) with h | h <;> rw [h] <;> omega

theorem emod_eq_of_bits {a b : Int} {n : Nat} (h : ∀ i, i < n → bit a i = bit b i) :
    a % 2 ^ n = b % 2 ^ n := by
  induction n with
  | zero => simp
  | succ n ih =>
    rw [emod_two_pow_succ, emod_two_pow_succ, ih fun i hi => h i (by omega)]
    have := h n (by omega)
    cases hb : bit b n
    · rw [hb] at this
      rw [bit_false.1 this, bit_false.1 hb]
    · rw [hb] at this
      rw [bit_true.1 this, bit_true.1 hb]

/-- An integer is determined by its bits. -/
theorem bit_ext {a b : Int} (h : ∀ i, bit a i = bit b i) : a = b := by
  obtain ⟨n, hn⟩ : ∃ n : Nat, |a - b| < 2 ^ n := by
    refine ⟨(a - b).natAbs, ?_⟩
    have : (a - b).natAbs < 2 ^ (a - b).natAbs := Nat.lt_two_pow_self
    have h2 : ((a - b).natAbs : Int) < ((2 ^ (a - b).natAbs : Nat) : Int) := by exact Int.ofNat_lt.2 this
    rw [Int.natCast_natAbs] at h2
    push_cast at h2
    exact h2
  have hd : (2 ^ n : Int) ∣ a - b := Int.dvd_of_emod_eq_zero (Int.emod_eq_emod_iff_emod_sub_eq_zero.1 (emod_eq_of_bits fun i _ => h i))
  have := Int.eq_zero_of_abs_lt_dvd hd hn
  omega

theorem bit_congr {a b : Int} {n i : Nat} (h : a % 2 ^ n = b % 2 ^ n) (hi : i < n) :
    bit a i = bit b i := by
  have e : ∀ z : Int, z / 2 ^ i % 2 = z % 2 ^ n / 2 ^ i % 2 := by
    intro z
    have h3 := Int.mul_ediv_add_emod z (2 ^ n)
    conv_lhs => rw [← h3, two_pow_split (show i ≤ n by omega), add_comm, mul_assoc]
    rw [Int.add_mul_ediv_left _ _ (two_pow_pos i).ne', two_pow_split (show 1 ≤ n - i by omega), pow_one,
      mul_assoc, Int.add_mul_emod_self_left, ← pow_succ', show n - i - 1 + 1 = n - i by omega,
      ← two_pow_split (show i ≤ n by omega)]
  unfold bit
  rw [e a, e b, h]

theorem div_of_range {z : Int} {n i : Nat} (h1 : -2 ^ n ≤ z) (h2 : z < 2 ^ n) (hi : n ≤ i) :
    z / 2 ^ i = if z < 0 then -1 else 0 := by
  have hle : (2 : Int) ^ n ≤ 2 ^ i := pow_le_pow_right₀ (by norm_num) hi
  split
  · rw [show z = (2 ^ i + z) + 2 ^ i * -1 by ring, Int.add_mul_ediv_left _ _ (two_pow_pos i).ne',
      Int.ediv_eq_zero_of_lt (by omega) (by omega)]
    rfl
  · exact Int.ediv_eq_zero_of_lt (by omega) (by omega)

/-- The high bits are the sign. -/
theorem bit_of_range {z : Int} {n i : Nat} (h1 : -2 ^ n ≤ z) (h2 : z < 2 ^ n) (hi : n ≤ i) :
    bit z i = decide (z < 0) := by
  unfold bit
  rw [div_of_range h1 h2 hi]
  split <;> simp [*]

theorem bit_eq_testBit (z : Int) (i : Nat) : bit z i = Int.testBit z i := by
  cases z with
  | ofNat n =>
    show bit (n : Int) i = n.testBit i
    rw [Nat.testBit_eq_decide_div_mod_eq]
    unfold bit
    norm_cast
  | negSucc n =>
    show _ = !n.testBit i
    rw [Nat.testBit_eq_decide_div_mod_eq, show Int.negSucc n = -1 - (n : Int) by rw [Int.negSucc_eq]; omega,
      bit_complement]
    unfold bit
    norm_cast

/-! ### Words -/

theorem getLsbD_ofInt (a : Int) {i : Nat} (hi : i < 64) : (BitVec.ofInt 64 a).getLsbD i = bit a i := by
  rw [show (BitVec.ofInt 64 a).getLsbD i = (BitVec.ofInt 64 a).toNat.testBit i from rfl,
    show (BitVec.ofInt 64 a).toNat.testBit i = Int.testBit ((BitVec.ofInt 64 a).toNat : Int) i from rfl,
    ← bit_eq_testBit]
  refine bit_congr (n := 64) ?_ hi
  rw [BitVec.toNat_ofInt, Int.toNat_of_nonneg (Int.emod_nonneg _ (by norm_num))]
  exact Int.emod_emod _ _

theorem bit_toInt (w : BitVec 64) {i : Nat} (hi : i < 64) : bit w.toInt i = w.getLsbD i := by
  conv_rhs => rw [← BitVec.ofInt_toInt (x := w)]
  rw [getLsbD_ofInt _ hi]

theorem toInt_range (w : BitVec 64) : -2 ^ 63 ≤ w.toInt ∧ w.toInt < 2 ^ 63 :=
  ⟨BitVec.le_toInt w, BitVec.toInt_lt⟩

theorem small_bit {a : Int} (h1 : -2 ^ 31 ≤ a) (h2 : a < 2 ^ 31) {i : Nat} (hi : 31 ≤ i) :
    bit a i = decide (a < 0) := bit_of_range h1 h2 hi

/-! ### Complement and the binary operations -/

theorem word_ext {a b : Int} (ha : -2 ^ 63 ≤ a ∧ a < 2 ^ 63) (hb : -2 ^ 63 ≤ b ∧ b < 2 ^ 63)
    (h : ∀ i, i < 64 → bit a i = bit b i) : a = b := by
  apply bit_ext
  intro i
  rcases Nat.lt_or_ge i 64 with hi | hi
  · exact h i hi
  · rw [bit_of_range ha.1 ha.2 (show 63 ≤ i by omega), bit_of_range hb.1 hb.2 (show 63 ≤ i by omega),
      ← bit_of_range ha.1 ha.2 (le_refl 63), ← bit_of_range hb.1 hb.2 (le_refl 63), h 63 (by omega)]

theorem not_toInt {a : Int} (h1 : -2 ^ 31 ≤ a) (h2 : a < 2 ^ 31) :
    (~~~ BitVec.ofInt 64 a).toInt = -1 - a := by
  refine word_ext (toInt_range _) (by omega) fun i hi => ?_
  rw [bit_complement, bit_toInt _ hi, BitVec.getLsbD_not, getLsbD_ofInt _ hi]
  simp [hi]

theorem ofInt_toNat {a : Int} (h1 : 0 ≤ a) (h2 : a < 2 ^ 31) : (BitVec.ofInt 64 a).toNat = a.toNat := by
  rw [BitVec.toNat_ofInt, Int.emod_eq_of_lt h1 (by norm_num; omega)]

theorem not_toNat {a : Int} (h1 : -2 ^ 31 ≤ a) (h2 : a < 0) :
    (~~~ BitVec.ofInt 64 a).toNat = (-1 - a).toNat := by
  have h := not_toInt h1 (show a < 2 ^ 31 by omega)
  rw [BitVec.toInt_eq_toNat_cond] at h
  have := (~~~ BitVec.ofInt 64 a).isLt
  split at h <;> omega

theorem bitwiseNot_int {x : Num} {a : Int} (hx : IsInt x a) : Gives (bitwiseNot x) (-1 - a) := by
  rcases hx with ⟨rfl, h1, h2⟩ | rfl
  · simp only [bitwiseNot, not_toInt h1 h2]
    exact .canonicalize _
  · simp only [bitwiseNot, lnot_eq]
    exact .large _

/-- A word operation that acts bit by bit acts so on the integers, too. -/
theorem onWord_bit {f : BitVec 64 → BitVec 64 → BitVec 64} {g : Bool → Bool → Bool}
    (hf : ∀ v w i, i < 64 → (f v w).getLsbD i = g (v.getLsbD i) (w.getLsbD i)) {a b : Int}
    (h1 : -2 ^ 31 ≤ a) (h2 : a < 2 ^ 31) (h3 : -2 ^ 31 ≤ b) (h4 : b < 2 ^ 31) (i : Nat) :
    bit (onWord f a b) i = g (bit a i) (bit b i) := by
  unfold onWord
  rcases Nat.lt_or_ge i 64 with h | h
  · rw [bit_toInt _ h, hf _ _ _ h, getLsbD_ofInt _ h, getLsbD_ofInt _ h]
  · have hr := toInt_range (f (BitVec.ofInt 64 a) (BitVec.ofInt 64 b))
    rw [bit_of_range hr.1 hr.2 (show 63 ≤ i by omega), ← bit_of_range hr.1 hr.2 (le_refl 63),
      bit_toInt _ (by omega), hf _ _ _ (by omega), getLsbD_ofInt _ (by omega),
      getLsbD_ofInt _ (by omega), small_bit h1 h2 (by omega), small_bit h3 h4 (by omega),
      small_bit h1 h2 (by omega), small_bit h3 h4 (by omega)]

theorem bitwise_int {f : BitVec 64 → BitVec 64 → BitVec 64} {m : Int → Int → Int}
    {g : Bool → Bool → Bool}
    (hf : ∀ v w i, i < 64 → (f v w).getLsbD i = g (v.getLsbD i) (w.getLsbD i))
    (hm : ∀ a b i, bit (m a b) i = g (bit a i) (bit b i)) {x y : Num} {a b : Int}
    (hx : IsInt x a) (hy : IsInt y b) : Gives (bitwise f m x y) (m a b) := by
  rcases hx with ⟨rfl, h1, h2⟩ | rfl <;> rcases hy with ⟨rfl, h3, h4⟩ | rfl
  · have e : onWord f a b = m a b := by
      apply bit_ext
      intro i
      rw [onWord_bit hf h1 h2 h3 h4, hm]
    simp only [bitwise, e]
    exact .canonicalize _
  all_goals exact .large _

theorem bit_land (a b : Int) (i : Nat) : bit (Int.land a b) i = (bit a i && bit b i) := by
  simp only [bit_eq_testBit, Int.testBit_land]

theorem bit_lor (a b : Int) (i : Nat) : bit (Int.lor a b) i = (bit a i || bit b i) := by
  simp only [bit_eq_testBit, Int.testBit_lor]

theorem bit_xor (a b : Int) (i : Nat) : bit (Int.xor a b) i = (bit a i ^^ bit b i) := by
  simp only [bit_eq_testBit, Int.testBit_lxor]

theorem and2_int {x y : Num} {a b : Int} (hx : IsInt x a) (hy : IsInt y b) :
    Gives (and2 x y) (Int.land a b) :=
  bitwise_int (g := and) (fun _ _ _ _ => by simp) bit_land hx hy

theorem ior2_int {x y : Num} {a b : Int} (hx : IsInt x a) (hy : IsInt y b) :
    Gives (ior2 x y) (Int.lor a b) :=
  bitwise_int (g := or) (fun _ _ _ _ => by simp) bit_lor hx hy

theorem xor2_int {x y : Num} {a b : Int} (hx : IsInt x a) (hy : IsInt y b) :
    Gives (xor2 x y) (Int.xor a b) :=
  bitwise_int (g := xor) (fun _ _ _ _ => by simp) bit_xor hx hy

theorem bitwiseAnd_int {xs : List Num} {zs : List Int} (h : List.Forall₂ IsInt xs zs) :
    Gives (bitwiseAnd xs) (zs.foldl Int.land (-1)) :=
  foldLeft_int (fun _ _ _ _ => and2_int) xs zs _ _ (.small (by norm_num) (by norm_num)) h

theorem bitwiseIor_int {xs : List Num} {zs : List Int} (h : List.Forall₂ IsInt xs zs) :
    Gives (bitwiseIor xs) (zs.foldl Int.lor 0) :=
  foldLeft_int (fun _ _ _ _ => ior2_int) xs zs _ _ (.small (by norm_num) (by norm_num)) h

theorem bitwiseXor_int {xs : List Num} {zs : List Int} (h : List.Forall₂ IsInt xs zs) :
    Gives (bitwiseXor xs) (zs.foldl Int.xor 0) :=
  foldLeft_int (fun _ _ _ _ => xor2_int) xs zs _ _ (.small (by norm_num) (by norm_num)) h

theorem bit_foldl {m : Int → Int → Int} {g : Bool → Bool → Bool}
    (hm : ∀ a b i, bit (m a b) i = g (bit a i) (bit b i)) (zs : List Int) (z : Int) (i : Nat) :
    bit (zs.foldl m z) i = (zs.map (bit · i)).foldl g (bit z i) := by
  induction zs generalizing z with
  | nil => rfl
  | cons w zs ih => rw [List.foldl_cons, ih, hm]; rfl

/-! ### Shifts -/

/-- `floor (a * 2 ^ c)`. -/
def shifted (a c : Int) : Int := if c < 0 then a / 2 ^ (-c).toNat else a * 2 ^ c.toNat

theorem shifted_eq_floor (a c : Int) : shifted a c = ⌊(a : ℚ) * (2 : ℚ) ^ c⌋ := by
  unfold shifted
  split
  · rename_i h
    obtain ⟨n, rfl⟩ : ∃ n : Nat, c = -(n : Int) := ⟨(-c).toNat, by omega⟩
    rw [zpow_neg, zpow_natCast, ← div_eq_mul_inv, neg_neg, Int.toNat_natCast]
    have := Rat.floor_intCast_div_natCast a (2 ^ n)
    push_cast at this
    rw [this]
  · rename_i h
    obtain ⟨n, rfl⟩ : ∃ n : Nat, c = (n : Int) := ⟨c.toNat, by omega⟩
    rw [zpow_natCast, Int.toNat_natCast,
      show (a : ℚ) * 2 ^ n = ((a * 2 ^ n : Int) : ℚ) by push_cast; rfl, Int.floor_intCast]

/-- The executions of a shift that are defined: a right shift of a fixnum is by less than 64. -/
def ShiftDefined (x : Num) (c : Int) : Prop := ∀ a, x = .small a → -64 < c

theorem shiftLeft_fits {a : Int} {n : Nat} (h1 : (-2 ^ 63 : Int) / 2 ^ n ≤ a)
    (h2 : a ≤ (2 ^ 63 - 1) / 2 ^ n) (hn : n < 64) : -2 ^ 63 ≤ a * 2 ^ n ∧ a * 2 ^ n < 2 ^ 63 := by
  constructor
  · have h3 : (-2 ^ 63 : Int) / 2 ^ n * 2 ^ n = -2 ^ 63 :=
      Int.ediv_mul_cancel (Dvd.dvd.neg_right ⟨_, two_pow_split (show n ≤ 63 by omega)⟩)
    rw [← h3]
    exact Int.mul_le_mul_of_nonneg_right h1 (two_pow_pos n).le
  · have := (Int.le_ediv_iff_mul_le (two_pow_pos n)).1 h2
    omega

theorem bitShift_int {x : Num} {a c : Int} (hx : IsInt x a) (hc1 : -2 ^ 31 < c)
    (hd : ShiftDefined x c) : Gives (bitShift x c) (shifted a c) := by
  rcases hx with ⟨rfl, h1, h2⟩ | rfl
  · have hd := hd a rfl
    unfold bitShift shifted
    simp only
    split
    · rw [if_pos (by omega)]
      exact .canonicalize _
    · split
      · rename_i h
        subst h
        simpa using Gives.canonicalize a
      · split
        · exact .large _
        · rename_i h
          simp only [not_or, not_lt, not_le] at h
          have hf := shiftLeft_fits (n := c.toNat) h.2.1 h.2.2 (by omega)
          have e : (BitVec.ofInt 64 a <<< c.toNat).toInt = a * 2 ^ c.toNat := by
            refine word_ext (toInt_range _) hf fun i hi => ?_
            rw [bit_toInt _ hi, BitVec.getLsbD_shiftLeft, bit_mul_two_pow]
            by_cases hci : c.toNat ≤ i
            · simp [hi, hci, show ¬ i < c.toNat by omega, getLsbD_ofInt a (show i - c.toNat < 64 by omega)]
            · simp [hi, hci, show i < c.toNat by omega]
          rw [e]
          exact .canonicalize _
  · unfold bitShift shifted
    simp only
    split
    · rw [if_pos (by omega)]
      exact .large _
    · split
      · rename_i h
        subst h
        simpa using Gives.large a
      · exact .large _

theorem narrow_small {a : Int} (h1 : -2 ^ 31 ≤ a) (h2 : a < 2 ^ 31) : narrow a = a := by
  unfold narrow
  omega

theorem castSmall_int {x : Num} {a : Int} (hx : IsInt x a) (h1 : -2 ^ 31 ≤ a) (h2 : a < 2 ^ 31) :
    castSmall x = .value a := by
  rcases hx with ⟨rfl, _⟩ | rfl
  · rfl
  · simp only [castSmall, narrow_small h1 h2]

theorem arithmeticShift_int {x k : Num} {a c : Int} (hx : IsInt x a) (hk : IsInt k c)
    (hc1 : -2 ^ 31 < c) (hc2 : c < 2 ^ 31) (hd : ShiftDefined x c) :
    Gives (arithmeticShift x k) (shifted a c) := by
  unfold arithmeticShift
  rw [castSmall_int hk (by omega) hc2]
  exact bitShift_int hx hc1 hd

/-! ### Counting -/

theorem bits_finite (n : Nat) : {i | bit (n : Int) i = true}.Finite := by
  refine (Set.finite_lt_nat n).subset fun i hi => ?_
  show i < n
  by_contra h
  have h1 : (n : Int) < 2 ^ n := by exact_mod_cast Nat.lt_two_pow_self
  have := bit_of_range (z := n) (n := n) (i := i) (by have := two_pow_pos n; omega) h1 (by omega)
  rw [Set.mem_ofPred_eq, this] at hi
  simp at hi
  omega

theorem popcount_eq (n : Nat) : popcount n = {i | bit (n : Int) i = true}.ncard := by
  induction n using Nat.strong_induction_on with
  | _ n ih =>
    rcases Nat.eq_zero_or_pos n with rfl | hn
    · simp [popcount, bit_zero]
    · have h1 : popcount n = n % 2 + popcount (n / 2) := by
        unfold popcount
        rw [Nat.digits_def' (by norm_num) hn, List.sum_cons]
      have hs : ∀ i, bit (n : Int) (i + 1) = bit ((n / 2 : Nat) : Int) i := by
        intro i
        have := bit_div_two_pow (n : Int) 1 i
        rw [← this]
        norm_num
      have h0 : bit (n : Int) 0 = decide (n % 2 = 1) := by
        unfold bit
        norm_num
        omega
      have e : {i | bit (n : Int) i = true} =
          (if n % 2 = 1 then {0} else ∅) ∪ Nat.succ '' {i | bit ((n / 2 : Nat) : Int) i = true} := by
        ext i
        cases i with
        | zero => 
          simp only [Set.mem_ofPred_eq, h0]
          split <;> simp [*]
        | succ i => 
          simp only [Set.mem_ofPred_eq, hs]
          split <;> simp
      rw [h1, ih _ (Nat.div_lt_self hn (by norm_num)), e, Set.ncard_union_eq ?_ ?_ ?_,
        Set.ncard_image_of_injective _ Nat.succ_injective]
      · congr 1
        split
        · simp [*]
        · simp; omega
      · rw [Set.disjoint_left]
        intro i h1 h2
        obtain ⟨j, _, rfl⟩ := h2
        split at h1 <;> simp at h1
      · split <;> simp
      · exact (bits_finite _).image _

theorem marked_nonneg {z : Int} (h : 0 ≤ z) : (marked z).ncard = popcount z.toNat := by
  obtain ⟨n, rfl⟩ := Int.eq_ofNat_of_zero_le h
  rw [Int.toNat_natCast, popcount_eq]
  congr 1
  ext i
  simp [marked, show ¬ (n : Int) < 0 by omega]

theorem marked_neg {z : Int} (h : z < 0) : (marked z).ncard = popcount (-1 - z).toNat := by
  rw [← marked_nonneg (show 0 ≤ -1 - z by omega)]
  congr 1
  ext i
  simp [marked, h, bit_complement, show ¬ -1 - z < 0 by omega]

theorem marked_small {a : Int} (h1 : -2 ^ 31 ≤ a) (h2 : a < 2 ^ 31) : (marked a).ncard < 2 ^ 31 := by
  have hs : marked a ⊆ {i | i < 31} := by
    intro i hi
    show i < 31
    by_contra h
    exact hi (small_bit h1 h2 (by omega))
  have := Set.ncard_le_ncard hs (Set.finite_lt_nat 31)
  have h3 : {i : Nat | i < 31}.ncard = 31 := by
    rw [show {i : Nat | i < 31} = ((Finset.range 31 : Finset Nat) : Set Nat) by ext; simp,
      Set.ncard_coe_finset, Finset.card_range]
  omega

theorem Gives.narrowed {n : Nat} (h : n < 2 ^ 31) : Gives (.value (.small (narrow n))) n := by
  rw [narrow_small (by omega) (by omega)]
  exact ⟨_, rfl, .small (by omega) (by omega)⟩

theorem bitCount_int {x : Num} {a : Int} (hx : IsInt x a) (h : (marked a).ncard < 2 ^ 31) :
    Gives (bitCount x) (marked a).ncard := by
  rcases hx with ⟨rfl, h1, h2⟩ | rfl
  · unfold bitCount
    simp only
    split
    · rename_i hn
      rw [not_toNat h1 hn, ← marked_neg hn]
      exact .narrowed h
    · rename_i hn
      rw [ofInt_toNat (by omega) h2, ← marked_nonneg (by omega)]
      exact .narrowed h
  · unfold bitCount
    simp only
    split
    · rename_i hn
      rw [lnot_eq, ← marked_neg hn]
      exact .narrowed h
    · rw [← marked_nonneg (by omega)]
      exact .narrowed h

/-! ### Lengths -/

theorem isLength_of {z : Int} {m : Nat} (hm : ∀ n : Nat, (-2 ^ n ≤ z ∧ z < 2 ^ n) ↔ m < 2 ^ n) :
    IsLength z (if m = 0 then 0 else Nat.log 2 m + 1) := by
  constructor
  · show _ ∧ _
    rw [hm]
    split
    · simp [*]
    · exact Nat.lt_pow_succ_log_self (by norm_num) m
  · intro n hn
    have hn := (hm n).1 hn
    split
    · omega
    · rename_i h0
      have := Nat.pow_log_le_self 2 h0
      exact (Nat.pow_lt_pow_iff_right (by norm_num)).1 (lt_of_le_of_lt this hn)

theorem isLength_nonneg {z : Int} (h : 0 ≤ z) :
    IsLength z (if z.toNat = 0 then 0 else Nat.log 2 z.toNat + 1) := by
  refine isLength_of fun n => ?_
  have := two_pow_pos n
  have e : ((2 ^ n : Nat) : Int) = 2 ^ n := by push_cast; rfl
  omega

theorem isLength_neg {z : Int} (h : z < 0) :
    IsLength z (if (-1 - z).toNat = 0 then 0 else Nat.log 2 (-1 - z).toNat + 1) := by
  refine isLength_of fun n => ?_
  have := two_pow_pos n
  have e : ((2 ^ n : Nat) : Int) = 2 ^ n := by push_cast; rfl
  omega

theorem bitWidth_int {x : Num} {a : Int} (hx : IsInt x a) (h : x ≠ .large (-1)) :
    ∃ n : Nat, Gives (bitWidth x) n ∧ IsLength a n := by
  rcases hx with ⟨rfl, h1, h2⟩ | rfl
  · unfold bitWidth
    simp only
    split
    · rename_i hn
      have := isLength_neg hn
      rw [← not_toNat h1 hn] at this
      exact ⟨_, .canonicalize _, this⟩
    · split
      · rename_i h0
        subst h0
        exact ⟨0, .canonicalize 0, by simpa using isLength_nonneg (le_refl (0 : Int))⟩
      · have := isLength_nonneg (show 0 ≤ a by omega)
        rw [← ofInt_toNat (by omega) h2] at this
        exact ⟨_, .canonicalize _, this⟩
  · unfold bitWidth
    simp only
    split
    · rename_i hn
      have := isLength_neg hn
      have h0 : (-1 - a).toNat ≠ 0 := by
        intro h0
        exact h (by rw [show a = -1 by omega])
      rw [if_neg h0] at this
      refine ⟨_, .canonicalize _, ?_⟩
      unfold mpzSizeinbase2
      rw [lnot_eq, if_neg h0]
      exact this
    · split
      · rename_i h0
        subst h0
        exact ⟨0, .canonicalize 0, by simpa using isLength_nonneg (le_refl (0 : Int))⟩
      · have := isLength_nonneg (show 0 ≤ a by omega)
        rw [if_neg (by omega)] at this
        refine ⟨_, .canonicalize _, ?_⟩
        unfold mpzSizeinbase2
        rw [if_neg (by omega)]
        exact this

end Meevax.Number
