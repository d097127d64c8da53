import Verif.Model.Constants
import Verif.Spec.Inexact
import Mathlib.Analysis.SpecialFunctions.Pow.Real
import Mathlib.NumberTheory.Real.GoldenRatio

/-
The closest flonum to a real number, and what is asked of the platform.
-/

namespace Meevax.Constants

open Meevax.Number (Flo Outcome Rep)

/-- No magnitude of binary64 is closer to `x` than `v`. -/
def Closest (v : ℚ) (x : ℝ) : Prop := Rep v ∧ ∀ w, Rep w → |x - v| ≤ |x - w|

/-- A datum that is as close to the positive number `x` as possible. -/
def Approximates (d : Flo) (x : ℝ) : Prop := ∃ v, d = .finite false v ∧ Closest v x

/-- The expression gives a flonum that is as close to the positive number `x` as possible. -/
def Gives (r : Outcome Number.Real) (x : ℝ) : Prop := ∃ d, r = .value (.flo d) ∧ Approximates d x

/-- The constants of the header `numbers` are as close as possible (ISO C++ [math.constants]), and the
square root is rounded to nearest (IEEE 754). -/
structure Standard (p : Platform) : Prop where
  e : Approximates p.e (Real.exp 1)
  pi : Approximates p.pi Real.pi
  phi : Approximates p.phi Real.goldenRatio
  sqrt : ∀ v : ℚ, Rep v → 0 < v → Approximates (p.sqrt (.finite false v)) (√(v : ℝ))

/-- The logarithm of a number above one is rounded to nearest. Not every C library does it. -/
def LogRounds (p : Platform) : Prop :=
  ∀ v : ℚ, Rep v → 1 < v → Approximates (p.log (.finite false v)) (Real.log v)

/-- Powers of numbers between one and four, with exponents between zero and two, are rounded to nearest. Not
every C library does it. -/
def PowRounds (p : Platform) : Prop :=
  ∀ v w : ℚ, Rep v → 1 < v → v ≤ 4 → Rep w → 0 < w → w ≤ 2 →
    Approximates (p.pow (.finite false v) (.finite false w)) ((v : ℝ) ^ (w : ℝ))

end Meevax.Constants
