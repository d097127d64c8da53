import Verif.Spec.Inexact

/-
What SRFI 144 says about flonums, on the extended number line.
-/

namespace Meevax.Number

/-- `d` is the flonum next to `x` in the direction of `y`: strictly on that side, and no flonum is
strictly between. The places of `x`, `y` and `d` are `a`, `b` and `c`. -/
def Adjacent (a b c : WithBot (WithTop ℚ)) : Prop :=
  (a = b → c = b) ∧
  (a < b → a < c ∧ ∀ z : Flo, z.Valid → ∀ p, z.place = some p → a < p → c ≤ p) ∧
  (b < a → c < a ∧ ∀ z : Flo, z.Valid → ∀ p, z.place = some p → p < a → p ≤ c)

/-- A magnitude with a significand of exactly 53 bits. -/
def Normalized (v : ℚ) : Prop :=
  ∃ (k : ℕ) (e : ℤ), 2 ^ 52 ≤ k ∧ k < 2 ^ 53 ∧ -1074 ≤ e ∧ e ≤ 971 ∧ v = k * 2 ^ e

end Meevax.Number
