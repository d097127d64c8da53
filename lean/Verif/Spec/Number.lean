import Verif.Model.Number
import Mathlib.Data.Set.Card

/-
What exact numbers stand for, and the vocabulary of the number properties: mathematical rationals,
integers, and the infinite two's complement expansion of an integer.
-/

namespace Meevax.Number

/-- The rational number an object stands for. -/
def Num.val : Num → ℚ
  | .small i => i
  | .large z => z
  | .ratio q => (q.num : ℚ) / (q.den : ℚ)

/-- Lowest terms and a positive denominator. -/
def Mpq.Canonical (q : Mpq) : Prop := 0 < q.den ∧ Int.gcd q.num q.den = 1

/-- The objects that occur: an immediate integer has 32 bits, a ratio is in lowest terms. -/
def Num.Valid : Num → Prop
  | .small i => -2 ^ 31 ≤ i ∧ i < 2 ^ 31
  | .large _ => True
  | .ratio q => q.Canonical

/-- `x` is an exact integer object, in either representation, and stands for `z`. -/
def IsInt (x : Num) (z : Int) : Prop :=
  (x = .small z ∧ -2 ^ 31 ≤ z ∧ z < 2 ^ 31) ∨ x = .large z

/-- The call returns the exact number `v`. -/
def Yields (o : Outcome Num) (v : ℚ) : Prop := ∃ x, o = .value x ∧ x.Valid ∧ x.val = v

/-- The call returns the exact integer `z`, as an exact integer object. -/
def Gives (o : Outcome Num) (z : Int) : Prop := ∃ x, o = .value x ∧ IsInt x z

/-- Bit `i` of the infinite two's complement expansion of `z`. -/
def bit (z : Int) (i : Nat) : Bool := decide (z / 2 ^ i % 2 = 1)

/-- The positions at which `z` differs from its sign. -/
def marked (z : Int) : Set Nat := {i | bit z i ≠ decide (z < 0)}

/-- `n` bits besides the sign are enough for `z`, and no less. -/
def IsLength (z : Int) (n : Nat) : Prop := IsLeast {n : Nat | -2 ^ n ≤ z ∧ z < 2 ^ n} n

/-- The integer part: the integer between `0` and `q` that is nearest to `q`. -/
def IsTrunc (q : ℚ) (z : Int) : Prop := |(z : ℚ)| ≤ |q| ∧ |q| < |(z : ℚ)| + 1 ∧ 0 ≤ (z : ℚ) * q

end Meevax.Number
