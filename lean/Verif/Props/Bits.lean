import Verif.Lemmas.Bits
import Verif.Props.Number

/-
C30: the derived operations of SRFI 151, bit by bit. `bit z i` is bit `i` of the infinite two's
complement expansion of `z` (Spec/Number.lean); by `C28_determines` the bits determine the integer.

A bit field `[s, e)` is given by `Field`: `s ≤ e < 2 ^ 31`, and `s < 64` when the integer it is taken
from is an immediate one, because the shift is a C++ shift of a 64-bit integer then.
-/

namespace Meevax.Number

/-- **C30**: `bitwise-nand`, `bitwise-nor`, `bitwise-andc1`, `bitwise-andc2`, `bitwise-orc1` and
`bitwise-orc2` are the connectives they are named after, bit by bit. -/
theorem C30_connectives {x y : Num} {a b : Int} (hx : IsInt x a) (hy : IsInt y b) :
    (∃ z, Gives (bitwiseNand x y) z ∧ ∀ i, bit z i = !(bit a i && bit b i)) ∧
    (∃ z, Gives (bitwiseNor x y) z ∧ ∀ i, bit z i = !(bit a i || bit b i)) ∧
    (∃ z, Gives (bitwiseAndc1 x y) z ∧ ∀ i, bit z i = (!bit a i && bit b i)) ∧
    (∃ z, Gives (bitwiseAndc2 x y) z ∧ ∀ i, bit z i = (bit a i && !bit b i)) ∧
    (∃ z, Gives (bitwiseOrc1 x y) z ∧ ∀ i, bit z i = (!bit a i || bit b i)) ∧
    (∃ z, Gives (bitwiseOrc2 x y) z ∧ ∀ i, bit z i = (bit a i || !bit b i)) := by
  refine ⟨⟨_, (and_two hx hy).bind fun _ h => bitwiseNot_int h, fun i => ?_⟩,
    ⟨_, (ior_two hx hy).bind fun _ h => bitwiseNot_int h, fun i => ?_⟩,
    ⟨_, (bitwiseNot_int hx).bind fun _ h => and_two h hy, fun i => ?_⟩,
    ⟨_, (bitwiseNot_int hy).bind fun _ h => and_two hx h, fun i => ?_⟩,
    ⟨_, (bitwiseNot_int hx).bind fun _ h => ior_two h hy, fun i => ?_⟩,
    ⟨_, (bitwiseNot_int hy).bind fun _ h => ior_two hx h, fun i => ?_⟩⟩ <;>
    simp only [bit_complement, bit_land, bit_lor]

/-- **C30**: a bit of `bitwise-eqv` is set just if an even number of the arguments have it clear. -/
theorem C30_eqv {xs : List Num} {zs : List Int} (h : List.Forall₂ IsInt xs zs) :
    ∃ z, Gives (bitwiseEqv xs) z ∧ ∀ i, bit z i = decide (Even (zs.countP fun c => !bit c i)) := by
  obtain ⟨z, h1, h2⟩ := eqvLoop_int h small_neg_one
  refine ⟨z, h1, fun i => ?_⟩
  rw [h2, bit_neg_one]
  have key : ∀ (zs : List Int) (b : Bool), zs.foldl (fun b c => b == bit c i) b =
      (b == decide (Even (zs.countP fun c => !bit c i))) := by
    intro zs
    induction zs with
    | nil => intro b; simp
    | cons c zs ih =>
      intro b
      rw [List.foldl_cons, ih, List.countP_cons]
      cases b <;> cases hc : bit c i <;>
        by_cases h : Even (List.countP (fun c => !bit c i) zs) <;> simp [h, Nat.even_add_one]
  rw [key]
  simp

/-- **C30**: `bitwise-if` takes each bit from the second or the third argument, as the first says. -/
theorem C30_if {x y z : Num} {m a b : Int} (hx : IsInt x m) (hy : IsInt y a) (hz : IsInt z b) :
    ∃ r, Gives (bitwiseIf x y z) r ∧ ∀ i, bit r i = if bit m i then bit a i else bit b i :=
  ⟨_, bitwiseIf_int hx hy hz, bit_if m a b⟩

/-- **C30**: `bit-set?` tells the bit, `copy-bit` changes that bit and no other, and `bit-swap`
exchanges two bits; the indices are below `2 ^ 31`. -/
theorem C30_single {x y n : Num} {i j : Nat} {z : Int} (hx : IsInt x i) (hy : IsInt y j) (hn : IsInt n z)
    (hi : i < 2 ^ 31) (hj : j < 2 ^ 31) :
    bitSet x n = .value (bit z i) ∧
    (∀ b, ∃ r, Gives (copyBit x n b) r ∧ ∀ k, bit r k = if k = i then b else bit z k) ∧
    (∃ r, Gives (bitSwap x y n) r ∧ ∀ k, bit r k = bit z (Equiv.swap i j k)) := by
  refine ⟨bitSet_int hx hn hi, fun b => ⟨_, copyBit_int hx hn hi b, bit_setBit z i b⟩, ?_⟩
  obtain ⟨p, e1, hp⟩ := copyBit_int hx hn hi (bit z j)
  refine ⟨setBit (setBit z i (bit z j)) j (bit z i), ?_, fun k => ?_⟩
  · unfold bitSwap
    rw [bitSet_int hx hn hi, bitSet_int hy hn hj]
    simp only [bind_value]
    rw [e1, bind_value]
    exact copyBit_int hy hp hj _
  · rw [bit_setBit, bit_setBit, Equiv.swap_apply_def]
    by_cases h1 : k = j <;> by_cases h2 : k = i
    · rw [if_pos h1, if_pos h2, ← h1, h2]
    · rw [if_pos h1, if_neg h2, if_pos h1]
    · rw [if_neg h1, if_pos h2, if_pos h2]
    · rw [if_neg h1, if_neg h2, if_neg h2, if_neg h1]

/-- **C30**: `any-bit-set?` and `every-bit-set?`. -/
theorem C30_any_every {x y : Num} {t z : Int} (hx : IsInt x t) (hy : IsInt y z) :
    (∃ b, anyBitSet x y = .value b ∧ (b = true ↔ ∃ i, bit t i = true ∧ bit z i = true)) ∧
    (∃ b, everyBitSet x y = .value b ∧ (b = true ↔ ∀ i, bit t i = true → bit z i = true)) := by
  obtain ⟨w, e, hw⟩ := and_two hx hy
  constructor
  · refine ⟨!isZero w, by unfold anyBitSet; rw [e]; rfl, ?_⟩
    rw [not_isZero hw]
    simp [bit_land]
  · refine ⟨numEq [x, w], by unfold everyBitSet; rw [e]; rfl, ?_⟩
    rw [numEq_two hx hw]
    constructor
    · intro h i hi
      rw [h, bit_land] at hi
      simp at hi
      exact hi.2
    · intro h
      apply bit_ext
      intro i
      rw [bit_land]
      have := h i
      cases h1 : bit t i <;> simp_all

/-- **C30, partially**: `bit-field` is the field, moved to position 0; `bit-field-any?` and
`bit-field-every?` tell whether some bit of it is set, or all. Missing: fields of immediate integers
that begin at 64 or above (`C30_field_fails`). -/
theorem C30_field_partial {x xs xe : Num} {n : Int} {s e : Nat} (hx : IsInt x n) (hs : IsInt xs s)
    (he : IsInt xe e) (h : Field x s e) :
    (∃ z, Gives (bitField x xs xe) z ∧ ∀ i, bit z i = (decide (i < e - s) && bit n (s + i))) ∧
    (∃ b, bitFieldAny x xs xe = .value b ∧ (b = true ↔ ∃ i, s ≤ i ∧ i < e ∧ bit n i = true)) ∧
    (∃ b, bitFieldEvery x xs xe = .value b ∧ (b = true ↔ ∀ i, s ≤ i → i < e → bit n i = true)) := by
  refine ⟨⟨_, bitField_int hx hs he h, fun i => by rw [bit_fieldOf, Nat.add_comm]⟩, ?_, ?_⟩
  · obtain ⟨b, h1, h2⟩ := bitFieldAny_int hx hs he h
    refine ⟨b, h1, h2.trans ⟨?_, ?_⟩⟩
    · rintro ⟨i, hi⟩
      rw [bit_fieldOf] at hi
      simp only [Bool.and_eq_true, decide_eq_true_eq] at hi
      exact ⟨i + s, by omega, by omega, hi.2⟩
    · rintro ⟨i, h3, h4, h5⟩
      refine ⟨i - s, ?_⟩
      rw [bit_fieldOf, show i - s + s = i by omega, h5]
      simp
      omega
  · obtain ⟨b, h1, h2⟩ := bitFieldEvery_int hx hs he h
    refine ⟨b, h1, h2.trans ⟨?_, ?_⟩⟩
    · intro h3 i h4 h5
      have := bit_maskOf (e - s) (i - s)
      rw [h3, bit_fieldOf, show i - s + s = i by omega] at this
      simpa [show i - s < e - s by omega] using this
    · intro h3
      apply bit_ext
      intro i
      rw [bit_maskOf, bit_fieldOf]
      by_cases hi : i < e - s
      · simp [hi, h3 (i + s) (by omega) (by omega)]
      · simp [hi]

/-- **C30 is false for fields of immediate integers that begin at 64 or above**:
`(bit-field 1 64 65)` shifts a 64-bit integer by 64, which C++ does not define. -/
theorem C30_field_fails : bitField (.small 1) (.small 64) (.small 65) = .undefined := by
  have h1 : Gives (mask (.small 64) (.small 65)) (maskOf (65 - 64)) :=
    mask_int (.small (by norm_num) (by norm_num)) (.small (by norm_num) (by norm_num)) (by norm_num)
      (by norm_num)
  obtain ⟨m, e1, _⟩ := h1
  unfold bitField
  rw [e1]
  rfl

/-- The bits of a field are replaced by those `f` tells, the others stay. -/
def FieldIs (r n : Int) (s e : Nat) (f : Nat → Bool) : Prop :=
  ∀ i, bit r i = if s ≤ i ∧ i < e then f (i - s) else bit n i

theorem fieldIs_insert {n f : Int} {s e : Nat} (hse : s ≤ e) (hf : ∀ i, e - s ≤ i → bit f i = false) :
    FieldIs (insert n f s (e - s)) n s e (bit f) := by
  intro i
  rw [bit_insert hf]
  by_cases h1 : s ≤ i
  · by_cases h2 : i < e
    · simp [h1, h2, show i < s + (e - s) by omega]
    · simp [h1, h2, show ¬ i < s + (e - s) by omega]
  · simp [h1]

/-- **C30**: `bit-field-replace` puts the low bits of the new field into the field, `bit-field-set`
ones, `bit-field-clear` zeros, and `bit-field-replace-same` the bits at the same places of another
integer. All other bits stay. -/
theorem C30_replace {x y xs xe : Num} {n f : Int} {s e : Nat} (hx : IsInt x n) (hy : IsInt y f)
    (hs : IsInt xs s) (he : IsInt xe e) (hse : s ≤ e) (h : e < 2 ^ 31) :
    (∃ r, Gives (bitFieldReplace x y xs xe) r ∧ FieldIs r n s e (bit f)) ∧
    (∃ r, Gives (bitFieldSet x xs xe) r ∧ FieldIs r n s e fun _ => true) ∧
    (∃ r, Gives (bitFieldClear x xs xe) r ∧ FieldIs r n s e fun _ => false) ∧
    (∃ r, Gives (bitFieldReplaceSame x y xs xe) r ∧ FieldIs r n s e fun i => bit f (s + i)) := by
  have key : ∀ {y f}, IsInt y f → ∃ r, Gives (bitFieldReplace x y xs xe) r ∧ FieldIs r n s e (bit f) := by
    intro y f hy
    refine ⟨_, bitFieldReplace_int hx hy hs he hse h, fun i => ?_⟩
    rw [fieldIs_insert hse (fun i hi => by rw [bit_land, bit_maskOf]; simp; omega)]
    split
    · rename_i hi
      rw [bit_land, bit_maskOf]
      simp [show i - s < e - s by omega]
    · rfl
  refine ⟨key hy, ?_, ?_, ?_⟩
  · obtain ⟨r, h1, h2⟩ := key small_neg_one
    exact ⟨r, h1, fun i => by rw [h2 i, bit_neg_one]⟩
  · obtain ⟨r, h1, h2⟩ := key small_zero
    exact ⟨r, h1, fun i => by rw [h2 i, bit_zero]⟩
  · refine ⟨_, bitFieldReplaceSame_int hx hy hs he hse h, fun i => ?_⟩
    rw [bit_if, bit_mul_two_pow, bit_maskOf]
    by_cases h1 : s ≤ i
    · by_cases h2 : i < e
      · simp [h1, h2, show i - s < e - s by omega]
      · simp [h1, h2, show ¬ i - s < e - s by omega]
    · simp [h1]

/-- **C30, partially**: `bit-field-rotate` rotates the field left by `count` places, modulo its width.
Missing: the empty field (`C30_rotate_fails`), and fields of immediate integers that begin at 64 or
above. -/
theorem C30_rotate_partial {x xc xs xe : Num} {n count : Int} {s e : Nat} (hx : IsInt x n)
    (hc : IsInt xc count) (hs : IsInt xs s) (he : IsInt xe e) (hse : s < e) (h : Field x s e) :
    ∃ r, Gives (bitFieldRotate x xc xs xe) r ∧
      FieldIs r n s e fun i => bit n (s + ((i - count) % (e - s : Int)).toNat) := by
  refine ⟨_, bitFieldRotate_int hx hc hs he hse h, fun i => ?_⟩
  have h0 := Int.emod_nonneg count (show ((e - s : Nat) : Int) ≠ 0 by omega)
  have h1 := Int.emod_lt_of_pos count (show 0 < ((e - s : Nat) : Int) by omega)
  obtain ⟨c, hc'⟩ : ∃ c : Nat, count % ((e - s : Nat) : Int) = c := ⟨_, (Int.toNat_of_nonneg h0).symm⟩
  rw [hc', Int.toNat_natCast]
  rw [hc'] at h1
  rw [fieldIs_insert hse.le (fun i hi => by rw [bit_rotated (by omega)]; simp; omega)]
  split
  · rename_i hi
    rw [bit_rotated (by omega)]
    simp only [show i - s < e - s by omega, decide_true, Bool.true_and]
    congr 2
    have e1 : (e : Int) - s = ((e - s : Nat) : Int) := by omega
    rw [e1]
    have e2 : (((i - s : Nat) : Int) - count) % ((e - s : Nat) : Int) =
        (((i - s : Nat) : Int) - c) % ((e - s : Nat) : Int) := by
      rw [← hc', Int.sub_emod_emod]
    rw [e2]
    split
    · rw [Int.emod_eq_of_lt (by omega) (by omega)]
      omega
    · rw [← Int.add_emod_right, Int.emod_eq_of_lt (by omega) (by omega)]
      omega
  · rfl

/-- **C30 is false for the empty field**: `(bit-field-rotate 5 1 2 2)` should be 5, but the count is
reduced modulo the width, 0, and division by zero is not defined. -/
theorem C30_rotate_fails :
    bitFieldRotate (.small 5) (.small 1) (.small 2) (.small 2) = .undefined := by
  rfl

/-- **C30, partially**: `bit-field-reverse` reverses the field. Missing: fields of immediate integers
that begin at 64 or above. -/
theorem C30_reverse_partial {x xs xe : Num} {n : Int} {s e : Nat} (hx : IsInt x n) (hs : IsInt xs s)
    (he : IsInt xe e) (h : Field x s e) :
    ∃ r, Gives (bitFieldReverse x xs xe) r ∧ FieldIs r n s e fun i => bit n (e - 1 - i) := by
  obtain ⟨r, h1, h2⟩ := bitFieldReverse_int hx hs he h
  refine ⟨_, h1, fun i => ?_⟩
  rw [fieldIs_insert h.ordered (fun i hi => by rw [h2 i]; simp; omega)]
  split
  · rename_i hi
    rw [h2, bit_fieldOf]
    simp only [show i - s < e - s by omega, show e - s - 1 - (i - s) < e - s by omega, decide_true,
      Bool.true_and]
    congr 1
    omega
  · rfl

/-- **C30**: `first-set-bit` is the least index of a set bit, and -1 of zero. -/
theorem C30_first {x : Num} {z : Int} (hx : IsInt x z) :
    (z = 0 → Gives (firstSetBit x) (-1)) ∧
    ∀ p, IsLeast {i | bit z i = true} p → p + 1 < 2 ^ 31 → Gives (firstSetBit x) p := by
  constructor
  · rintro rfl
    exact firstSetBit_zero hx
  · rintro p ⟨h1, h2⟩ hp
    refine firstSetBit_int hx h1 (fun j hj => ?_) hp
    by_contra h
    have := h2 (show bit z j = true by simpa using h)
    omega

/-- Every integer but zero has a least set bit. -/
theorem C30_first_exists {z : Int} (h : z ≠ 0) : ∃ p, IsLeast {i | bit z i = true} p := by
  have : ∃ i, bit z i = true := by
    by_contra hn
    apply h
    rw [bit_nonneg_iff]
    intro i
    by_contra hi
    exact hn ⟨i, by simpa using hi⟩
  exact ⟨Nat.find this, Nat.find_spec this, fun i hi => Nat.find_min' this hi⟩

/-- **C30**: `(bits->list k)` lists the bits of a natural number, as many as it has, and
`(bits->list k len)` the given number of bits of any integer. -/
theorem C30_bits_to_list {x xl : Num} {z : Int} {len : Nat} (hx : IsInt x z) (hl : IsInt xl len) :
    (0 ≤ z → ∃ L, IsLength z L ∧ bitsToList x = .value ((List.range L).map (bit z))) ∧
    bitsToListLen x xl = .value ((List.range len).map (bit z)) := by
  constructor
  · intro hz
    refine bitsLoop_int hz _ 0 (by simpa using hx) (fun n hn => absurd hn (Nat.not_lt_zero _)) ?_
    rw [magnitude_int hx, pow_zero, Int.ediv_one]
    omega
  · obtain ⟨i, e, hi⟩ := plus_two small_neg_one hl
    unfold bitsToListLen
    rw [e, bind_value]
    refine bitsLoopLen_int _ 0 (by simpa using hx) ?_ (Nat.zero_le _) (by rw [magnitude_int hl]; simp)
    refine Eq.subst (motive := IsInt i) ?_ hi
    push_cast
    ring

/-- **C30**: bit `i` of `(list->bits l)` is element `i` of the list. -/
theorem C30_list_to_bits (l : List Bool) :
    ∃ z, Gives (listToBits l) z ∧ ∀ i, bit z i = l.getD i false :=
  ⟨_, listToBits_int l, bit_ofBits l⟩

/-- **C30**: `list->bits` inverts `bits->list` on the natural numbers. -/
theorem C30_list_round_trip {x : Num} {z : Int} (hx : IsInt x z) (h : 0 ≤ z) :
    ∃ l, bitsToList x = .value l ∧ Gives (listToBits l) z := by
  obtain ⟨L, hL, e⟩ := (C30_bits_to_list hx (xl := .small 0) (len := 0) small_zero).1 h
  refine ⟨_, e, ?_⟩
  have hz : ofBits ((List.range L).map (bit z)) = z := by
    apply bit_ext
    intro i
    rw [bit_ofBits]
    by_cases hi : i < L
    · simp [List.getD_eq_getElem?_getD, hi]
    · have := bit_of_range hL.1.1 hL.1.2 (not_lt.1 hi)
      rw [this]
      simp [List.getD_eq_getElem?_getD, hi]
      omega
  have := listToBits_int ((List.range L).map (bit z))
  rwa [hz] at this

/-- **C30**: `bits->vector` and `vector->bits`: element `i` of the vector is bit `i` of the integer, and
`vector->bits` inverts `bits->vector` on the natural numbers. -/
theorem C30_vector {x xl : Num} {z : Int} {len : Nat} (hx : IsInt x z) (hl : IsInt xl len) :
    (0 ≤ z → ∃ v L, bitsToVector x = .value v ∧ IsLength z L ∧ v.size = L ∧ (∀ i < L, v[i]? = some (bit z i)) ∧
      Gives (vectorToBits v) z) ∧
    (∃ v, bitsToVectorLen x xl = .value v ∧ v.size = len ∧ ∀ i < len, v[i]? = some (bit z i)) ∧
    (∀ v : Array Bool, ∃ w, Gives (vectorToBits v) w ∧ ∀ i, bit w i = v[i]?.getD false) := by
  obtain ⟨h1, h2⟩ := C30_bits_to_list hx hl
  refine ⟨fun hz => ?_, ?_, fun v => ?_⟩
  · obtain ⟨L, hL, e⟩ := h1 hz
    obtain ⟨l, e', g⟩ := C30_list_round_trip hx hz
    obtain rfl : (List.range L).map (bit z) = l := by
      rw [e] at e'
      cases e'
      rfl
    refine ⟨((List.range L).map (bit z)).toArray, L, ?_, hL, by simp, fun i hi => by simp [hi], g⟩
    rw [bitsToVector, e]
    rfl
  · refine ⟨((List.range len).map (bit z)).toArray, ?_, by simp, fun i hi => by simp [hi]⟩
    rw [bitsToVectorLen, h2]
    rfl
  · obtain ⟨w, h, hb⟩ := C30_list_to_bits v.toList
    exact ⟨w, h, fun i => by rw [hb, List.getD_eq_getElem?_getD, Array.getElem?_toList]⟩

/-- `(bits->vector 6)` and back. -/
example : ∃ v L, bitsToVector (.small 6) = .value v ∧ IsLength 6 L ∧ v.size = L ∧ (∀ i < L, v[i]? = some (bit 6 i)) ∧
    Gives (vectorToBits v) 6 :=
  (C30_vector (.small (by norm_num) (by norm_num)) small_zero (len := 0)).1 (by norm_num)

/-- **C30**: `bitwise-fold` combines the bits from the lowest up, as many as `integer-length` tells;
`bitwise-for-each` calls its procedure with them in the same order. -/
theorem C30_fold {σ : Type} (proc : Bool → σ → σ) (seed : σ) {x : Num} {z : Int} {L : Nat}
    (hx : IsInt x z) (h : x ≠ .large (-1)) (hl : IsLength z L) (hL : L < 2 ^ 31) :
    bitwiseFold proc seed x = .value (((List.range L).map (bit z)).foldl (fun r b => proc b r) seed) ∧
    bitwiseForEach x = .value ((List.range L).map (bit z)) := by
  obtain ⟨n, ⟨len, e, hlen⟩, hn⟩ := bitWidth_int hx h
  obtain rfl : n = L := hn.unique hl
  constructor
  · unfold bitwiseFold
    rw [e, bind_value, foldLoop_int proc hx hlen hL _ 0 seed small_zero (Nat.zero_le _)
      (by rw [magnitude_int hlen]; simp), List.foldl_map, List.range_eq_range']
    simp
  · unfold bitwiseForEach
    rw [e, bind_value, forEachLoop_int hx hlen hL _ 0 small_zero (Nat.zero_le _)
      (by rw [magnitude_int hlen]; simp), List.range_eq_range']
    simp

/-- **C30**: `bitwise-unfold` sets bit `j` as the mapper tells of the `j`-th state, until the first
state that stops. -/
theorem C30_unfold {σ : Type} (stop mapper : σ → Bool) (successor : σ → σ) (seed : σ) {N : Nat}
    (hN : IsLeast {j | stop (successor^[j] seed) = true} N) (h : N < 2 ^ 31) :
    ∃ z, Gives (unfoldLoop stop mapper successor (N + 1) (.small 0) (.small 0) seed) z ∧
      ∀ j, bit z j = (decide (j < N) && mapper (successor^[j] seed)) := by
  refine unfoldLoop_int stop mapper successor seed h (fun j hj => ?_) hN.1 _ 0 (z := 0) small_zero
    small_zero (fun j => by rw [bit_zero]; simp) (Nat.zero_le _) (by omega)
  by_contra hs
  have := hN.2 (show stop (successor^[j] seed) = true by simpa using hs)
  omega

/-- **C30**: a bitwise generator delivers the bits from the lowest up, without end. -/
theorem C30_generator {x : Num} {z : Int} (hx : IsInt x z) (count : Nat) :
    generate count x = .value ((List.range count).map (bit z)) := by
  rw [generate_int count 0 (by simpa using hx), List.range_eq_range']

/-! ### Cases -/

/-- A field of a big integer that spans the 64-bit words. -/
example : Field (.large (2 ^ 100 + 5)) 60 90 := ⟨by norm_num, by norm_num, fun _ h => nomatch h⟩

/-- A field of a negative immediate integer. -/
example : Field (.small (-4)) 1 40 := ⟨by norm_num, by norm_num, fun _ _ => by norm_num⟩

/-- Rotating `#b110` in the field `[0, 3)` by one gives `#b101`. -/
example : ∃ r, Gives (bitFieldRotate (.small 6) (.small 1) (.small 0) (.small 3)) r ∧
    FieldIs r 6 0 3 fun i => bit 6 (0 + ((i - 1) % (3 - 0 : Int)).toNat) := by
  have := C30_rotate_partial (x := .small 6) (xc := .small 1) (xs := .small 0) (xe := .small 3)
    (n := 6) (count := 1) (s := 0) (e := 3) (.small (by norm_num) (by norm_num)) small_one small_zero
    (.small (by norm_num) (by norm_num)) (by norm_num)
    ⟨by norm_num, by norm_num, fun _ _ => by norm_num⟩
  exact_mod_cast this

/-- The least set bit of 12 is bit 2. -/
example : Gives (firstSetBit (.small 12)) 2 := by
  refine (C30_first (.small (by norm_num) (by norm_num))).2 2 ⟨?_, ?_⟩ (by norm_num)
  · show bit 12 2 = true
    decide
  · intro i hi
    by_contra h
    rcases (by omega : i = 0 ∨ i = 1) with rfl | rfl <;> exact absurd hi (by decide)

end Meevax.Number
