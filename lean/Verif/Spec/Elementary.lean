import Verif.Model.Elementary
import Verif.Spec.Constants
import Verif.Spec.Single

/-
The value of a real number object, and what is asked of the C library.
-/

namespace Meevax.Elementary

open Meevax.Number (Flo Num Outcome Rep)
open Meevax.Single (Wide)

/-- The object `x`, of any representation, has the value `v`. -/
def Stands : Wide → ℚ → Prop
  | .real (.exact n), v => n.Valid ∧ n.val = v
  | .real (.flo d), v => d.Valid ∧ d.Is v
  | .single d, v => Single.Valid d ∧ d.Is v

/-- The object is exact. -/
def Exact (x : Wide) : Prop := ∃ n, x = .real (.exact n)

/-- A logarithm that is rounded to nearest, on numbers above one. -/
def LogRounds (f : Flo → Flo) : Prop :=
  ∀ v : ℚ, Rep v → 1 < v → Constants.Approximates (f (.finite false v)) (Real.log v)

end Meevax.Elementary
