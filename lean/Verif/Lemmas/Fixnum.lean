import Verif.Spec.Fixnum
import Verif.Lemmas.Bits
import Verif.Props.Number

namespace Meevax.Number

theorem canon_in {z : Int} (h : InFx z) : canonicalizeInteger z = .small z := by
  unfold canonicalizeInteger
  rw [if_pos ⟨h.1, by have := h.2; omega⟩]

theorem canon_out {z : Int} (h : ¬ InFx z) : canonicalizeInteger z = .large z := by
  unfold canonicalizeInteger
  rw [if_neg]
  rintro ⟨h1, h2⟩
  exact h ⟨h1, by omega⟩

theorem fxGives_iff {o : Outcome Num} {z : Int} : FxGives o z ↔ o = .value (canonicalizeInteger z) := by
  constructor
  · rintro ⟨x, rfl, (⟨rfl, h1, h2⟩ | rfl), h⟩
    · rw [canon_in ⟨h1, h2⟩]
    · rw [canon_out]
      intro hz
      exact nomatch h.2 hz
  · rintro rfl
    refine ⟨_, rfl, .canonicalize z, ?_⟩
    by_cases h : InFx z
    · rw [canon_in h]
      simp [isFixnum, h]
    · rw [canon_out h]
      simp [isFixnum, h]

theorem fxReturns_iff {o : Outcome Num} {z : Int} : FxReturns o z ↔ o = .value (.small z) ∧ InFx z := by
  unfold FxReturns
  rw [fxGives_iff]
  constructor
  · rintro ⟨h, hz⟩
    exact ⟨by rw [h, canon_in hz], hz⟩
  · rintro ⟨h, hz⟩
    exact ⟨by rw [h, canon_in hz], hz⟩

theorem IsInt.unique {x : Num} {a b : Int} (h1 : IsInt x a) (h2 : IsInt x b) : a = b := by
  have e1 := h1.val
  have e2 := h2.val
  rw [e1] at e2
  exact_mod_cast e2

/-- A canonical result that is `z`. -/
theorem FxGives.of {o : Outcome Num} {w z : Int} (h : o = .value (canonicalizeInteger w))
    (hg : Gives o z) : FxGives o z := by
  obtain ⟨x, e, hx⟩ := hg
  rw [h] at e
  cases e
  rw [fxGives_iff, h, (IsInt.canonicalize w).unique hx]

theorem InFx.isInt {z : Int} (h : InFx z) : IsInt (.small z) z := .small h.1 h.2

/-- The range by the bits: those from the 31st on are equal. -/
theorem inFx_iff_bits (z : Int) : InFx z ↔ ∃ b, ∀ i, 31 ≤ i → bit z i = b := by
  constructor
  · intro h
    exact ⟨_, fun i hi => small_bit h.1 h.2 hi⟩
  · rintro ⟨b, hb⟩
    have key : ∀ i, bit (z / 2 ^ 31) i = b := fun i => by
      rw [bit_div_two_pow]
      exact hb _ (by omega)
    unfold InFx
    cases b with
    | false =>
      have : z / 2 ^ 31 = 0 := bit_ext fun i => by rw [key, bit_zero]
      omega
    | true =>
      have : z / 2 ^ 31 = -1 := bit_ext fun i => by rw [key, bit_neg_one]
      omega

/-- An operation that acts on the bits one by one stays in the range. -/
theorem inFx_bitwise {a b z : Int} {g : Bool → Bool → Bool} (ha : InFx a) (hb : InFx b)
    (h : ∀ i, bit z i = g (bit a i) (bit b i)) : InFx z := by
  obtain ⟨p, hp⟩ := (inFx_iff_bits a).1 ha
  obtain ⟨q, hq⟩ := (inFx_iff_bits b).1 hb
  exact (inFx_iff_bits z).2 ⟨g p q, fun i hi => by rw [h, hp i hi, hq i hi]⟩

theorem inFx_land {a b : Int} (ha : InFx a) (hb : InFx b) : InFx (Int.land a b) :=
  inFx_bitwise ha hb (bit_land a b)
theorem inFx_lor {a b : Int} (ha : InFx a) (hb : InFx b) : InFx (Int.lor a b) :=
  inFx_bitwise ha hb (bit_lor a b)
theorem inFx_xor {a b : Int} (ha : InFx a) (hb : InFx b) : InFx (Int.xor a b) :=
  inFx_bitwise ha hb (bit_xor a b)
theorem inFx_not {a : Int} (ha : InFx a) : InFx (-1 - a) := by
  unfold InFx at *
  omega

theorem inFx_zero : InFx 0 := by unfold InFx; omega
theorem inFx_one : InFx 1 := by unfold InFx; omega
theorem inFx_neg_one : InFx (-1) := by unfold InFx; omega

theorem returns_of_gives {o : Outcome Num} {w z : Int} (h : o = .value (canonicalizeInteger w))
    (hg : Gives o z) (hz : InFx z) : o = .value (.small z) :=
  (fxReturns_iff.1 ⟨.of h hg, hz⟩).1

/-! ### Arithmetic -/

theorem add_small {a b : Int} (ha : InFx a) (hb : InFx b) :
    add (.small a) (.small b) = .value (canonicalizeInteger (a + b)) := by
  have h1 := ha.1; have h2 := ha.2; have h3 := hb.1; have h4 := hb.2
  show (widen (a + b) >>= fun i => pure (canonicalizeInteger i)) = _
  rw [widen_fits (by omega) (by omega), bind_value, pure_eq]

theorem sub_small {a b : Int} (ha : InFx a) (hb : InFx b) :
    sub (.small a) (.small b) = .value (canonicalizeInteger (a - b)) := by
  have h1 := ha.1; have h2 := ha.2; have h3 := hb.1; have h4 := hb.2
  show (widen (a - b) >>= fun i => pure (canonicalizeInteger i)) = _
  rw [widen_fits (by omega) (by omega), bind_value, pure_eq]

theorem mul_small {a b : Int} (ha : InFx a) (hb : InFx b) :
    mul (.small a) (.small b) = .value (canonicalizeInteger (a * b)) := by
  obtain ⟨h5, h6⟩ := mul_bounds ha.1 ha.2 hb.1 hb.2
  show (widen (a * b) >>= fun i => pure (canonicalizeInteger i)) = _
  rw [widen_fits (by omega) (by omega), bind_value, pure_eq]

theorem plus_small {a b : Int} (ha : InFx a) (hb : InFx b) :
    plus [.small a, .small b] = .value (canonicalizeInteger (a + b)) := by
  simp only [plus, foldLeft]
  rw [add_small inFx_zero ha, bind_value, zero_add, canon_in ha, add_small ha hb, bind_value]

theorem times_small {a b : Int} (ha : InFx a) (hb : InFx b) :
    times [.small a, .small b] = .value (canonicalizeInteger (a * b)) := by
  simp only [times, foldLeft]
  rw [mul_small inFx_one ha, bind_value, one_mul, canon_in ha, mul_small ha hb, bind_value]

theorem minus_small {a b : Int} (ha : InFx a) (hb : InFx b) :
    minus [.small a, .small b] = .value (canonicalizeInteger (a - b)) := by
  simp only [minus, foldLeft]
  rw [sub_small ha hb, bind_value]

theorem neg_small {a : Int} (ha : InFx a) :
    minus [.small a] = .value (canonicalizeInteger (-a)) := by
  simp only [minus]
  rw [sub_small inFx_zero ha, zero_sub]

theorem rem_small {a b : Int} (ha : InFx a) (hb : InFx b) (h0 : b ≠ 0) :
    rem (.small a) (.small b) = .value (canonicalizeInteger (Int.tmod a b)) := by
  refine fxGives_iff.1 ?_
  obtain ⟨x, e, hx⟩ := rem_int ha.isInt hb.isInt h0
  have e' : (widenRem a b >>= fun i => pure (canonicalizeInteger i)) = .value x := e
  cases h : widenRem a b with
  | raised => rw [h] at e'; exact nomatch e'
  | undefined => rw [h] at e'; exact nomatch e'
  | value w =>
    exact .of (w := w) (by
      show (widenRem a b >>= fun i => pure (canonicalizeInteger i)) = _
      rw [h]; rfl) ⟨x, e, hx⟩

/-! ### Bits -/

theorem bitwise_small {f : BitVec 64 → BitVec 64 → BitVec 64} {m : Int → Int → Int} {a b z : Int}
    (hg : Gives (bitwise f m (.small a) (.small b)) z) (hz : InFx z) :
    bitwise f m (.small a) (.small b) = .value (.small z) :=
  returns_of_gives (w := onWord f a b) rfl hg hz

theorem and_small {a b : Int} (ha : InFx a) (hb : InFx b) :
    bitwiseAnd [.small a, .small b] = .value (.small (Int.land a b)) := by
  simp only [bitwiseAnd, foldLeft]
  have h1 : and2 (.small (-1)) (.small a) = .value (.small a) :=
    bitwise_small (by have := and2_int inFx_neg_one.isInt ha.isInt; rwa [land_neg_one] at this) ha
  have h2 : and2 (.small a) (.small b) = .value (.small (Int.land a b)) :=
    bitwise_small (and2_int ha.isInt hb.isInt) (inFx_land ha hb)
  rw [h1, bind_value, h2, bind_value]

theorem ior_small {a b : Int} (ha : InFx a) (hb : InFx b) :
    bitwiseIor [.small a, .small b] = .value (.small (Int.lor a b)) := by
  simp only [bitwiseIor, foldLeft]
  have h1 : ior2 (.small 0) (.small a) = .value (.small a) :=
    bitwise_small (by have := ior2_int inFx_zero.isInt ha.isInt; rwa [lor_zero] at this) ha
  have h2 : ior2 (.small a) (.small b) = .value (.small (Int.lor a b)) :=
    bitwise_small (ior2_int ha.isInt hb.isInt) (inFx_lor ha hb)
  rw [h1, bind_value, h2, bind_value]

theorem xor_small {a b : Int} (ha : InFx a) (hb : InFx b) :
    bitwiseXor [.small a, .small b] = .value (.small (Int.xor a b)) := by
  simp only [bitwiseXor, foldLeft]
  have h1 : xor2 (.small 0) (.small a) = .value (.small a) :=
    bitwise_small (by have := xor2_int inFx_zero.isInt ha.isInt; rwa [xor_zero] at this) ha
  have h2 : xor2 (.small a) (.small b) = .value (.small (Int.xor a b)) :=
    bitwise_small (xor2_int ha.isInt hb.isInt) (inFx_xor ha hb)
  rw [h1, bind_value, h2, bind_value]

theorem not_small {a : Int} (ha : InFx a) : bitwiseNot (.small a) = .value (.small (-1 - a)) :=
  returns_of_gives (w := (~~~ BitVec.ofInt 64 a).toInt) rfl (bitwiseNot_int ha.isInt) (inFx_not ha)

theorem shift_small {a c : Int} (ha : InFx a) (h1 : -64 < c) (h2 : c < 64) :
    arithmeticShift (.small a) (.small c) = .value (canonicalizeInteger (shifted a c)) := by
  have hg := arithmeticShift_int (x := .small a) (k := .small c) ha.isInt
    (.small (by omega) (by omega)) (by omega) (by omega) (fun _ _ => h1)
  refine fxGives_iff.1 ?_
  by_cases h3 : c < 0
  · exact .of (w := a / 2 ^ (-c).toNat)
      (by simp only [arithmeticShift, castSmall, bind_value, bitShift]
          rw [if_pos h3, if_pos (by omega)]) hg
  · by_cases h4 : c = 0
    · exact .of (w := a)
        (by simp only [arithmeticShift, castSmall, bind_value, bitShift]
            rw [if_neg h3, if_pos h4]) hg
    · by_cases h5 : 64 ≤ c ∨ a < (-2 ^ 63) / 2 ^ c.toNat ∨ (2 ^ 63 - 1) / 2 ^ c.toNat < a
      · have e : arithmeticShift (.small a) (.small c) = .value (.large (a * 2 ^ c.toNat)) := by
          simp only [arithmeticShift, castSmall, bind_value, bitShift]
          rw [if_neg h3, if_neg h4, if_pos h5]
        have hs : shifted a c = a * 2 ^ c.toNat := by
          unfold shifted
          rw [if_neg h3]
        rw [fxGives_iff, e, hs, canon_out]
        intro hz
        have hp := two_pow_pos c.toNat
        rcases h5 with h5 | h5 | h5
        · omega
        · have h6 := Int.mul_ediv_self_le (x := (-2 ^ 63 : Int)) hp.ne'
          have h7 := mul_le_mul_of_nonneg_left (show a + 1 ≤ (-2 ^ 63 : Int) / 2 ^ c.toNat from h5) hp.le
          have := hz.1
          rw [mul_add, mul_one, mul_comm _ a] at h7
          omega
        · have h6 := Int.lt_mul_ediv_self_add (x := (2 ^ 63 - 1 : Int)) hp
          have h7 := mul_le_mul_of_nonneg_left (show (2 ^ 63 - 1 : Int) / 2 ^ c.toNat + 1 ≤ a from h5) hp.le
          have := hz.2
          rw [mul_add, mul_one, mul_comm _ a] at h7
          omega
      · exact .of (w := (BitVec.ofInt 64 a <<< c.toNat).toInt)
          (by simp only [arithmeticShift, castSmall, bind_value, bitShift]
              rw [if_neg h3, if_neg h4, if_neg h5]) hg

end Meevax.Number
