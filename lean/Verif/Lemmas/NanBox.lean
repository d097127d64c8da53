import Verif.Spec.NanBox
/-! Bit-vector lemmas for the NaN-boxing proofs. -/
namespace Meevax.NanBox
open Spec

theorem setWidth32_and_sig (x : BitVec 32) : x.setWidth 64 &&& maskSignature = 0#64 := by
  apply BitVec.eq_of_getLsbD_eq
  intro i hi
  have h : ∀ i : Fin 64, i.val < 32 → maskSignature.getLsbD i.val = false := by decide
  rw [BitVec.getLsbD_and, BitVec.getLsbD_setWidth]
  by_cases h32 : i < 32
  · simp [h ⟨i, hi⟩ h32]
  · simp [BitVec.getLsbD_of_ge x i (by omega)]

theorem setWidth32_and_payload (x : BitVec 32) : x.setWidth 64 &&& maskPayload = x.setWidth 64 := by
  apply BitVec.eq_of_getLsbD_eq
  intro i hi
  have h : ∀ i : Fin 64, i.val < 32 → maskPayload.getLsbD i.val = true := by decide
  rw [BitVec.getLsbD_and, BitVec.getLsbD_setWidth]
  by_cases h32 : i < 32
  · simp [h ⟨i, hi⟩ h32]
  · simp [BitVec.getLsbD_of_ge x i (by omega)]

theorem ptr_and_sig (x : BitVec 64) (hx : x.toNat < 2 ^ 48) : x &&& maskSignature = 0#64 := by
  apply BitVec.eq_of_getLsbD_eq
  intro i hi
  have h : ∀ i : Fin 64, i.val < 48 → maskSignature.getLsbD i.val = false := by decide
  rw [BitVec.getLsbD_and]
  by_cases h48 : i < 48
  · simp [h ⟨i, hi⟩ h48]
  · have : x.getLsbD i = false := by
      rw [BitVec.getLsbD, Nat.testBit_lt_two_pow]
      exact Nat.lt_of_lt_of_le hx (Nat.pow_le_pow_right (by omega) (by omega))
    simp [this]

theorem ptr_and_payload (x : BitVec 64) (hx : x.toNat < 2 ^ 48) : x &&& maskPayload = x := by
  apply BitVec.eq_of_getLsbD_eq
  intro i hi
  have h : ∀ i : Fin 64, i.val < 48 → maskPayload.getLsbD i.val = true := by decide
  rw [BitVec.getLsbD_and]
  by_cases h48 : i < 48
  · simp [h ⟨i, hi⟩ h48]
  · have : x.getLsbD i = false := by
      rw [BitVec.getLsbD, Nat.testBit_lt_two_pow]
      exact Nat.lt_of_lt_of_le hx (Nat.pow_le_pow_right (by omega) (by omega))
    simp [this]

theorem and_or_distrib (a b c : BitVec 64) : (a ||| b) &&& c = (a &&& c) ||| (b &&& c) := by
  apply BitVec.eq_of_getLsbD_eq
  intro i _
  simp [Bool.and_or_distrib_right]

theorem bool_and_sig (b : Bool) : (BitVec.ofBool b).setWidth 64 &&& maskSignature = 0#64 := by
  cases b <;> decide

theorem bool_and_payload (b : Bool) :
    (BitVec.ofBool b).setWidth 64 &&& maskPayload = (BitVec.ofBool b).setWidth 64 := by
  cases b <;> decide

/-- A word whose signature is one of the tagged ones has an all-ones exponent. -/
theorem sig_exponent (w : Word) : w &&& maskExponent = signature w &&& maskExponent := by
  unfold signature
  rw [BitVec.and_assoc]
  congr 1

theorem sig_fraction (w : Word) (h : signature w &&& maskFraction ≠ 0#64) : w &&& maskFraction ≠ 0#64 := by
  intro h0
  apply h
  unfold signature
  rw [BitVec.and_assoc, BitVec.and_comm maskSignature, ← BitVec.and_assoc, h0]
  simp

theorem isNaN_of_sig (w : Word) (h1 : signature w &&& maskExponent = maskExponent)
    (h2 : signature w &&& maskFraction ≠ 0#64) : isNaN w = true := by
  unfold isNaN
  rw [sig_exponent, h1]
  simp [sig_fraction w h2]

theorem type_double_iff (w : Word) : type w = .double ↔
    ∀ k, k ≠ Kind.double → signature w ≠ signatureOf k := by
  unfold type
  constructor
  · intro h k hk
    cases k <;> (intro hs; revert h; simp only [hs]; simp_all [signatureOf])
  · intro h
    simp [h _ (show Kind.boolean ≠ .double by decide), h _ (show Kind.smallInteger ≠ .double by decide),
      h _ (show Kind.float ≠ .double by decide), h _ (show Kind.character ≠ .double by decide),
      h _ (show Kind.instruction ≠ .double by decide), h _ (show Kind.pointer ≠ .double by decide),
      h _ (show Kind.null ≠ .double by decide)]

theorem not_nan_type (w : Word) (h : isNaN w = false) : type w = .double := by
  rw [type_double_iff]
  intro k hk hs
  have := isNaN_of_sig w (by rw [hs]; cases k <;> first | decide | exact absurd rfl hk)
    (by rw [hs]; cases k <;> first | decide | exact absurd rfl hk)
  simp [this] at h

theorem type_canonicalize (b : BitVec 64) : type (canonicalize b) = .double := by
  unfold canonicalize
  split
  · decide
  · rename_i h; exact not_nan_type b (by simpa using h)

theorem type_of_signature (w : Word) (k : Kind) (hk : k ≠ .double) (h : signature w = signatureOf k) :
    type w = k := by
  unfold type
  simp only [h]
  cases k <;> first | (exact absurd rfl hk) | decide

theorem signature_box (v : Val) (hv : Storable v) (hd : v.kind ≠ .double) :
    signature (box v) = signatureOf v.kind := by
  cases v <;> simp only [Val.kind, box, signature, ne_eq, reduceCtorEq, not_true_eq_false] at *
  all_goals try rw [and_or_distrib]
  · rw [bool_and_sig]; decide
  · rw [setWidth32_and_sig]; decide
  · rw [setWidth32_and_sig]; decide
  · rw [setWidth32_and_sig]; decide
  · rw [setWidth32_and_sig]; decide
  · rw [ptr_and_sig _ hv.2]; decide
  · decide

theorem type_box (v : Val) (hv : Storable v) : type (box v) = v.kind := by
  by_cases hd : v.kind = .double
  · cases v <;> simp [Val.kind] at hd
    exact type_canonicalize _
  · exact type_of_signature _ _ hd (signature_box v hv hd)

theorem setWidth_setWidth32 (x : BitVec 32) : (x.setWidth 64).setWidth 32 = x := by
  apply BitVec.eq_of_getLsbD_eq
  intro i hi
  simp

theorem payload_sig (k : Kind) : signatureOf k &&& maskPayload = 0#64 := by cases k <;> decide

theorem zero_or64 (x : BitVec 64) : 0#64 ||| x = x := by simp

theorem as32_tag (k : Kind) (x : BitVec 32) : as32 (signatureOf k ||| x.setWidth 64) = x := by
  unfold as32 payload
  rw [and_or_distrib, payload_sig, zero_or64, setWidth32_and_payload, setWidth_setWidth32]

theorem asBool_tag (b : Bool) : asBool (box (.boolean b)) = some b := by cases b <;> decide

theorem unsafeGet_tag (a : BitVec 64) (h : a.toNat < 2 ^ 48) : unsafeGet (box (.pointer a)) = a := by
  unfold unsafeGet payload box
  rw [and_or_distrib, payload_sig, zero_or64, ptr_and_payload a h]

/-- The observable value after a store: NaNs become the quiet NaN. -/
theorem unbox_box (v : Val) (hv : Storable v) :
    unbox (box v) = some (match v with | .double b => .double (canonicalize b) | v => v) := by
  unfold unbox
  rw [type_box v hv]
  cases v with
  | double b => simp [Val.kind, asDouble, box]
  | boolean b => simp only [Val.kind]; rw [asBool_tag]; rfl
  | smallInteger n => simp only [Val.kind, box]; rw [as32_tag]
  | float n => simp only [Val.kind, box]; rw [as32_tag]
  | character n => simp only [Val.kind, box]; rw [as32_tag]
  | instruction n => simp only [Val.kind, box]; rw [as32_tag]
  | pointer a => simp only [Val.kind]; rw [unsafeGet_tag a hv.2]
  | null => simp [Val.kind]

theorem and_ofNat_mask_toNat (w : BitVec 64) : (w &&& maskFraction).toNat = w.toNat % 2 ^ 52 := by
  rw [BitVec.toNat_and]
  have : maskFraction.toNat = 2 ^ 52 - 1 := by decide
  rw [this, Nat.and_two_pow_sub_one_eq_mod]

theorem isNaN_iff (w : BitVec 64) : isNaN w = true ↔ IsNaN w := by
  unfold isNaN IsNaN
  have h1 : (w &&& maskExponent = maskExponent) ↔ (w.toNat / 2 ^ 52) % 2 ^ 11 = 2 ^ 11 - 1 := by
    constructor
    · intro h
      apply Nat.eq_of_testBit_eq
      intro i
      rw [Nat.testBit_mod_two_pow, Nat.testBit_div_two_pow, Nat.testBit_two_pow_sub_one]
      by_cases hi : i < 11
      · have := congrArg (fun v : BitVec 64 => v.getLsbD (52 + i)) h
        simp only [BitVec.getLsbD_and] at this
        have hm : maskExponent.getLsbD (52 + i) = true := by
          have : ∀ i : Fin 11, maskExponent.getLsbD (52 + i.val) = true := by decide
          exact this ⟨i, hi⟩
        rw [hm] at this
        have h2 : w.toNat.testBit (52 + i) = true := by simpa [BitVec.getLsbD] using this
        simp [hi, Nat.add_comm i 52, h2]
      · simp [hi]
    · intro h
      apply BitVec.eq_of_getLsbD_eq
      intro i hi
      rw [BitVec.getLsbD_and]
      by_cases hm : maskExponent.getLsbD i = true
      · have hr : 52 ≤ i ∧ i < 63 := by
          have : ∀ i : Fin 64, maskExponent.getLsbD i.val = true → 52 ≤ i.val ∧ i.val < 63 := by decide
          exact this ⟨i, hi⟩ hm
        have := congrArg (fun n : Nat => n.testBit (i - 52)) h
        simp only [Nat.testBit_mod_two_pow, Nat.testBit_div_two_pow, Nat.testBit_two_pow_sub_one] at this
        have h2 : w.toNat.testBit i = true := by
          have e : i - 52 + 52 = i := by omega
          rw [e] at this
          simpa [show i - 52 < 11 by omega] using this
        simp [BitVec.getLsbD, h2]
      · simp [hm]
  have h2 : (w &&& maskFraction ≠ 0#64) ↔ w.toNat % 2 ^ 52 ≠ 0 := by
    rw [← and_ofNat_mask_toNat]
    constructor
    · intro h h0; exact h (BitVec.eq_of_toNat_eq (by simpa using h0))
    · intro h h0; exact h (by rw [h0]; rfl)
  simp only [Bool.and_eq_true, beq_iff_eq, bne_iff_ne]
  rw [h1, h2]

end Meevax.NanBox
