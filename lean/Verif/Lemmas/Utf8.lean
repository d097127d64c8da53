import Verif.Model.Utf8
import Mathlib.Tactic.IntervalCases

/-! UTF-8 on string ports. -/

namespace Meevax.Text

theorem or_add {k a b : Nat} (h : b < 2 ^ k) : (2 ^ k * a) ||| b = 2 ^ k * a + b :=
  (Nat.two_pow_add_eq_or_of_lt h a).symm

theorem and_mask (c k : Nat) : c &&& (2 ^ k - 1) = c % 2 ^ k := Nat.and_two_pow_sub_one_eq_mod c k

/-- `character::utf8` in terms of division and remainder. -/
theorem utf8_arith {c : Nat} (h0 : c ≠ 0) (hmax : c ≤ 0x10FFFF) :
    utf8 c =
      if c ≤ 0x7F then [.ofNat c]
      else if c ≤ 0x7FF then [.ofNat (c / 64 % 32 + 0xC0), .ofNat (c % 64 + 0x80)]
      else if c ≤ 0xFFFF then
        [.ofNat (c / 4096 % 16 + 0xE0), .ofNat (c / 64 % 64 + 0x80), .ofNat (c % 64 + 0x80)]
      else
        [.ofNat (c / 262144 % 8 + 0xF0), .ofNat (c / 4096 % 64 + 0x80),
          .ofNat (c / 64 % 64 + 0x80), .ofNat (c % 64 + 0x80)] := by
  have m3 : ∀ x, x &&& 0x07 = x % 8 := fun x => and_mask x 3
  have m4 : ∀ x, x &&& 0x0F = x % 16 := fun x => and_mask x 4
  have m5 : ∀ x, x &&& 0x1F = x % 32 := fun x => and_mask x 5
  have m6 : ∀ x, x &&& 0x3F = x % 64 := fun x => and_mask x 6
  have m7 : ∀ x, x &&& 0x7F = x % 128 := fun x => and_mask x 7
  have o6 : ∀ x, 0x80 ||| x % 64 = x % 64 + 0x80 := by
    intro x
    have := or_add (k := 6) (a := 2) (b := x % 64) (by omega)
    simp only [Nat.reducePow, Nat.reduceMul] at this
    omega
  have oC : ∀ x, 0xC0 ||| x % 32 = x % 32 + 0xC0 := by
    intro x
    have := or_add (k := 5) (a := 6) (b := x % 32) (by omega)
    simp only [Nat.reducePow, Nat.reduceMul] at this
    omega
  have oE : ∀ x, 0xE0 ||| x % 16 = x % 16 + 0xE0 := by
    intro x
    have := or_add (k := 4) (a := 14) (b := x % 16) (by omega)
    simp only [Nat.reducePow, Nat.reduceMul] at this
    omega
  have oF : ∀ x, 0xF0 ||| x % 8 = x % 8 + 0xF0 := by
    intro x
    have := or_add (k := 3) (a := 30) (b := x % 8) (by omega)
    simp only [Nat.reducePow, Nat.reduceMul] at this
    omega
  have nz : ∀ {n}, 0 < n → n < 256 → UInt8.ofNat n ≠ 0 := by
    intro n h1 h2 e
    have := congrArg UInt8.toNat e
    simp at this
    omega
  unfold utf8
  simp only [Nat.shiftRight_eq_div_pow, Nat.reducePow, m3, m4, m5, m6, m7, o6, oC, oE, oF]
  split
  · have : c % 128 = c := by omega
    rw [this, untilNul, if_neg (nz (by omega) (by omega)), untilNul]
  · split
    · simp only [untilNul]
      rw [if_neg (nz (by omega) (by omega)), if_neg (nz (by omega) (by omega))]
    · split
      · simp only [untilNul]
        rw [if_neg (nz (by omega) (by omega)), if_neg (nz (by omega) (by omega)),
          if_neg (nz (by omega) (by omega))]
      · simp only [untilNul]
        rw [if_neg (nz (by omega) (by omega)), if_neg (nz (by omega) (by omega)),
          if_neg (nz (by omega) (by omega)), if_neg (nz (by omega) (by omega))]

theorem char_le (c : Char) : c.toNat ≤ 0x10FFFF := by
  have := c.valid
  simp only [UInt32.isValidChar, Nat.isValidChar] at this
  have e : c.toNat = c.val.toNat := rfl
  omega

/-- `character::utf8` is the UTF-8 encoding, except for NUL. -/
theorem utf8_char {c : Char} (h : c ≠ '\x00') : utf8 c.toNat = String.utf8EncodeChar c := by
  have h0 : c.toNat ≠ 0 := by
    intro e
    apply h
    apply Char.ext
    apply UInt32.toNat_inj.1
    exact e
  rw [utf8_arith h0 (char_le c)]
  rfl

/-- `take_character` on a port that starts with the encoding of `c`. -/
theorem take_encoded (c : Char) (rest : List Byte) :
    Port.take { rest := String.utf8EncodeChar c ++ rest } = (.char c.toNat, { rest := rest }) := by
  have hmax := char_le c
  have m3 : ∀ x, x &&& 0x07 = x % 8 := fun x => and_mask x 3
  have m4 : ∀ x, x &&& 0x0F = x % 16 := fun x => and_mask x 4
  have m5 : ∀ x, x &&& 0x1F = x % 32 := fun x => and_mask x 5
  have m6 : ∀ x, x &&& 0x3F = x % 64 := fun x => and_mask x 6
  have m8 : ∀ x, x &&& 0xFF = x % 256 := fun x => and_mask x 8
  have e : c.val.toNat = c.toNat := rfl
  generalize hn : c.toNat = n at *
  unfold String.utf8EncodeChar
  simp only [e]
  split
  · have e1 : (UInt8.ofNat n).toNat = n := by simp; omega
    have k : n ≤ 127 := by assumption
    simp only [Port.take, Port.peekByte, Port.getByte, Port.good, masked, e1, m8, k,
      List.cons_append, List.nil_append, Bool.not_false, Bool.and_self, if_true]
    refine Prod.ext (congrArg Take.char ?_) rfl
    exact Nat.mod_eq_of_lt (by omega)
  · split
    · have e1 : (UInt8.ofNat (n / 64 % 32 + 0xC0)).toNat = n / 64 % 32 + 0xC0 := by simp; omega
      have e2 : (UInt8.ofNat (n % 64 + 0x80)).toNat = n % 64 + 0x80 := by simp; omega
      have k1 : ¬ n / 64 % 32 + 0xC0 ≤ 0x7F := by omega
      have k2 : 0xC2 ≤ n / 64 % 32 + 0xC0 ∧ n / 64 % 32 + 0xC0 ≤ 0xDF := by omega
      simp only [Port.take, Port.peekByte, Port.getByte, Port.good, masked, e1, e2, m5, m6, k1, k2,
        List.cons_append, List.nil_append, Bool.not_false, Bool.and_self, if_true, if_false, and_self,
        Nat.shiftLeft_eq]
      have := or_add (k := 6) (a := (n / 64 % 32 + 0xC0) % 32) (b := (n % 64 + 0x80) % 64) (by omega)
      rw [Nat.mul_comm] at this
      rw [this]
      refine Prod.ext (congrArg Take.char ?_) rfl
      omega
    · split
      · have e1 : (UInt8.ofNat (n / 4096 % 16 + 0xE0)).toNat = n / 4096 % 16 + 0xE0 := by
          simp; omega
        have e2 : (UInt8.ofNat (n / 64 % 64 + 0x80)).toNat = n / 64 % 64 + 0x80 := by simp; omega
        have e3 : (UInt8.ofNat (n % 64 + 0x80)).toNat = n % 64 + 0x80 := by simp; omega
        have k1 : ¬ n / 4096 % 16 + 0xE0 ≤ 0x7F := by omega
        have k2 : ¬ (0xC2 ≤ n / 4096 % 16 + 0xE0 ∧ n / 4096 % 16 + 0xE0 ≤ 0xDF) := by omega
        have k3 : 0xE0 ≤ n / 4096 % 16 + 0xE0 ∧ n / 4096 % 16 + 0xE0 ≤ 0xEF := by omega
        simp only [Port.take, Port.peekByte, Port.getByte, Port.good, masked, e1, e2, e3, m4, m6, k1,
          k2, k3, List.cons_append, List.nil_append, Bool.not_false, Bool.and_self, if_true, if_false,
          and_self, Nat.shiftLeft_eq]
        have t1 := or_add (k := 12) (a := (n / 4096 % 16 + 0xE0) % 16)
          (b := (n / 64 % 64 + 0x80) % 64 * 2 ^ 6) (by omega)
        have t2 := or_add (k := 6)
          (a := 2 ^ 6 * ((n / 4096 % 16 + 0xE0) % 16) + (n / 64 % 64 + 0x80) % 64)
          (b := (n % 64 + 0x80) % 64) (by omega)
        rw [Nat.mul_comm] at t1
        rw [t1]
        have : (n / 4096 % 16 + 0xE0) % 16 * 2 ^ 12 + (n / 64 % 64 + 0x80) % 64 * 2 ^ 6 =
          2 ^ 6 * (2 ^ 6 * ((n / 4096 % 16 + 0xE0) % 16) + (n / 64 % 64 + 0x80) % 64) := by omega
        rw [this, t2]
        refine Prod.ext (congrArg Take.char ?_) rfl
        omega
      · have e1 : (UInt8.ofNat (n / 262144 % 8 + 0xF0)).toNat = n / 262144 % 8 + 0xF0 := by
          simp; omega
        have e2 : (UInt8.ofNat (n / 4096 % 64 + 0x80)).toNat = n / 4096 % 64 + 0x80 := by
          simp; omega
        have e3 : (UInt8.ofNat (n / 64 % 64 + 0x80)).toNat = n / 64 % 64 + 0x80 := by simp; omega
        have e4 : (UInt8.ofNat (n % 64 + 0x80)).toNat = n % 64 + 0x80 := by simp; omega
        have k1 : ¬ n / 262144 % 8 + 0xF0 ≤ 0x7F := by omega
        have k2 : ¬ (0xC2 ≤ n / 262144 % 8 + 0xF0 ∧ n / 262144 % 8 + 0xF0 ≤ 0xDF) := by omega
        have k3 : ¬ (0xE0 ≤ n / 262144 % 8 + 0xF0 ∧ n / 262144 % 8 + 0xF0 ≤ 0xEF) := by omega
        have k4 : 0xF0 ≤ n / 262144 % 8 + 0xF0 ∧ n / 262144 % 8 + 0xF0 ≤ 0xF4 := by omega
        simp only [Port.take, Port.peekByte, Port.getByte, Port.good, masked, e1, e2, e3, e4, m3, m6,
          k1, k2, k3, k4, List.cons_append, List.nil_append, Bool.not_false, Bool.and_self, if_true,
          if_false, and_self, Nat.shiftLeft_eq]
        have t1 := or_add (k := 18) (a := (n / 262144 % 8 + 0xF0) % 8)
          (b := (n / 4096 % 64 + 0x80) % 64 * 2 ^ 12) (by omega)
        have t2 := or_add (k := 12)
          (a := 2 ^ 6 * ((n / 262144 % 8 + 0xF0) % 8) + (n / 4096 % 64 + 0x80) % 64)
          (b := (n / 64 % 64 + 0x80) % 64 * 2 ^ 6) (by omega)
        have t3 := or_add (k := 6)
          (a := 2 ^ 6 * (2 ^ 6 * ((n / 262144 % 8 + 0xF0) % 8) + (n / 4096 % 64 + 0x80) % 64) +
            (n / 64 % 64 + 0x80) % 64)
          (b := (n % 64 + 0x80) % 64) (by omega)
        rw [Nat.mul_comm] at t1
        rw [t1]
        have : (n / 262144 % 8 + 0xF0) % 8 * 2 ^ 18 + (n / 4096 % 64 + 0x80) % 64 * 2 ^ 12 =
          2 ^ 12 * (2 ^ 6 * ((n / 262144 % 8 + 0xF0) % 8) + (n / 4096 % 64 + 0x80) % 64) := by omega
        rw [this, t2]
        have : 2 ^ 12 * (2 ^ 6 * ((n / 262144 % 8 + 0xF0) % 8) + (n / 4096 % 64 + 0x80) % 64) +
            (n / 64 % 64 + 0x80) % 64 * 2 ^ 6 =
          2 ^ 6 * (2 ^ 6 * (2 ^ 6 * ((n / 262144 % 8 + 0xF0) % 8) + (n / 4096 % 64 + 0x80) % 64) +
            (n / 64 % 64 + 0x80) % 64) := by omega
        rw [this, t3]
        refine Prod.ext (congrArg Take.char ?_) rfl
        omega

end Meevax.Text

namespace Meevax.Text

theorem putback_own (l : List Byte) : ∀ (before r : List Byte),
    putback (l ++ before) l { rest := r } = { rest := l.reverse ++ r } := by
  induction l with
  | nil => intro before r; rfl
  | cons b l ih =>
    intro before r
    simp only [List.cons_append, putback, Bool.false_eq_true, if_false, if_true]
    rw [ih]
    simp

theorem encode_ne_nil (c : Char) : String.utf8EncodeChar c ≠ [] := by
  unfold String.utf8EncodeChar
  dsimp only
  split
  · simp
  · split
    · simp
    · split <;> simp

/-- `peek_character` on a port that starts with the encoding of a character other than NUL. -/
theorem peek_encoded {c : Char} (h : c ≠ '\x00') (rest : List Byte) :
    Port.peek { rest := String.utf8EncodeChar c ++ rest } =
      (.char c.toNat, { rest := String.utf8EncodeChar c ++ rest }) := by
  rw [Port.peek, take_encoded]
  simp only [List.length_append, Nat.add_sub_cancel, List.take_left, utf8_char h]
  have := putback_own (String.utf8EncodeChar c).reverse [] rest
  simp only [List.append_nil, List.reverse_reverse] at this
  rw [this]

/-- A port at the end of its bytes. -/
theorem take_end : Port.take { rest := [] } = (.eof, { rest := [], eof := true, fail := true }) := rfl

theorem peek_end : Port.peek { rest := [] } = (.eof, { rest := [], eof := false, fail := true }) :=
  rfl

theorem take_failed {p : Port} (h : p.fail = true) : p.take = (.eof, p) := by
  obtain ⟨r, e, f⟩ := p
  cases h
  simp [Port.take, Port.peekByte, Port.getByte, Port.good]

theorem peek_failed {p : Port} (h : p.fail = true) : p.peek = (.eof, { p with eof := false }) := by
  rw [Port.peek, take_failed h]
  obtain ⟨r, e, f⟩ := p
  cases h
  simp [putback, utf8Eof]

/-- A code point written as UTF-8, any scalar value but NUL. -/
theorem utf8String_chars {cs : List Char} (h : ∀ c ∈ cs, c ≠ '\x00') :
    utf8String (cs.map Char.toNat) = cs.flatMap String.utf8EncodeChar := by
  induction cs with
  | nil => rfl
  | cons c cs ih =>
    simp only [utf8String, List.map_cons, List.flatMap_cons] at ih ⊢
    rw [utf8_char (h c (by simp)), ih fun c hc => h c (by simp [hc])]

theorem decode_chars (cs : List Char) :
    decode { rest := cs.flatMap String.utf8EncodeChar } = some (cs.map Char.toNat) := by
  induction cs with
  | nil => rw [decode]; rfl
  | cons c cs ih =>
    rw [decode, List.flatMap_cons, take_encoded]
    simp [ih]

end Meevax.Text
