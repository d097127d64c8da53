import Verif.Model.Fixnum
import Verif.Spec.Number

/-
The vocabulary of the fixnum property: the range, and what a call should return.
-/

namespace Meevax.Number

/-- `z` is in the range of the fixnums, which have 32 bits. -/
def InFx (z : Int) : Prop := -2 ^ 31 ≤ z ∧ z < 2 ^ 31

/-- The call returns the exact integer `z`, and `fixnum?` says of it whether it is in the range. -/
def FxGives (o : Outcome Num) (z : Int) : Prop :=
  ∃ x, o = .value x ∧ IsInt x z ∧ (isFixnum x = true ↔ InFx z)

/-- The call returns the fixnum `z`. -/
def FxReturns (o : Outcome Num) (z : Int) : Prop := FxGives o z ∧ InFx z

end Meevax.Number
