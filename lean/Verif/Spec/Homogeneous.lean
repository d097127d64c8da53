import Verif.Spec.Inexact
import Verif.Spec.Number

/-
What SRFI 4 says about the elements of homogeneous vectors.
-/

namespace Meevax.Homogeneous
open Meevax.Number

/-- The types of SRFI 4: signed and unsigned integers of 8, 16, 32 and 64 bits. -/
def Width (bits : Nat) : Prop := bits = 8 ∨ bits = 16 ∨ bits = 32 ∨ bits = 64

/-- The integers a vector of the type can hold. -/
def Fits (signed : Bool) (bits : Nat) (z : Int) : Prop :=
  if signed then -2 ^ (bits - 1) ≤ z ∧ z < 2 ^ (bits - 1) else 0 ≤ z ∧ z < 2 ^ bits

/-- `x` is an exact integer object that stands for `z`. -/
def Stands (x : Real) (z : Int) : Prop := ∃ n, x = .exact n ∧ IsInt n z

end Meevax.Homogeneous
