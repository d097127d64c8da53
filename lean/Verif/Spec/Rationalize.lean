import Mathlib.Data.Rat.Floor

/-
What R7RS 6.2.6 says of `rationalize`: "the simplest rational number differing from x by no more
than y. A rational number r1 is simpler than another rational number r2 if r1 = p1/q1 and
r2 = p2/q2 (in lowest terms) and |p1| ≤ |p2| and |q1| ≤ |q2|".
-/

namespace Meevax.Number

/-- `v` is simpler than `r`, or as simple. -/
def Simpler (v r : ℚ) : Prop := |v.num| ≤ |r.num| ∧ v.den ≤ r.den

/-- `v` is the simplest rational that differs from `x` by no more than `e`. -/
def Simplest (x e v : ℚ) : Prop := |v - x| ≤ |e| ∧ ∀ r : ℚ, |r - x| ≤ |e| → Simpler v r

end Meevax.Number
