import Verif.Model.Complex
import Verif.Spec.Number
import Mathlib.Analysis.SpecialFunctions.Complex.Arg

/-
What exact complex numbers stand for: the complex numbers of mathematics.
-/

namespace Meevax.Number

/-- The complex number an object stands for. -/
noncomputable def CNum.val : CNum → ℂ
  | .real x => ⟨(x.val : ℝ), 0⟩
  | .rect x y => ⟨(x.val : ℝ), (y.val : ℝ)⟩

/-- The parts are objects that occur. -/
def CNum.Valid : CNum → Prop
  | .real x => x.Valid
  | .rect x y => x.Valid ∧ y.Valid

/-- A real number is not a `complex` object. -/
def CNum.Proper (z : CNum) : Prop := z.val.im = 0 → ∃ x, z = .real x

/-- The call returns the exact number `v`; if that is real, as a real number object. -/
def CYields (o : Outcome CNum) (v : ℂ) : Prop :=
  ∃ z, o = .value z ∧ z.Valid ∧ z.Proper ∧ z.val = v

end Meevax.Number
