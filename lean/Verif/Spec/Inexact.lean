import Verif.Model.Inexact
import Verif.Spec.Number
import Mathlib.Order.WithBot

/-
What inexact reals stand for: the values of binary64, the extended number line, and rounding to the
nearest value.
-/

namespace Meevax.Number

/-- A magnitude binary64 can represent: a significand of 53 bits and an exponent in range. -/
def Rep (v : ℚ) : Prop :=
  ∃ (m : ℕ) (e : ℤ), m < 2 ^ 53 ∧ -1074 ≤ e ∧ e ≤ 971 ∧ v = m * 2 ^ e

/-- The data that occur. -/
def Flo.Valid : Flo → Prop
  | .finite _ m => Rep m
  | _ => True

/-- The objects that occur. -/
def Real.Valid : Real → Prop
  | .exact n => n.Valid
  | .flo d => d.Valid

/-- `d` is a finite datum with the value `v`. -/
def Flo.Is (d : Flo) (v : ℚ) : Prop := ∃ s m, d = .finite s m ∧ (if s then -m else m) = v

/-- The place of a number on the extended number line; NaN has none. -/
def Flo.place : Flo → Option (WithBot (WithTop ℚ))
  | .finite s m => some ((if s then -m else m : ℚ) : WithTop ℚ)
  | .inf true => some ⊥
  | .inf false => some ((⊤ : WithTop ℚ) : WithBot (WithTop ℚ))
  | .nan => none

/-- The place of a number on the extended number line; NaN has none. -/
def Real.place : Real → Option (WithBot (WithTop ℚ))
  | .exact n => some ((n.val : ℚ) : WithTop ℚ)
  | .flo d => d.place

/-- It is not the case that one is a ratio and the other is inexact. -/
def Plain (x y : Real) : Prop :=
  (∀ q, x = .exact (.ratio q) → ∃ n, y = .exact n) ∧
  (∀ q, y = .exact (.ratio q) → ∃ n, x = .exact n)

/-- The pairs on which `=` is exact: one of the two is exact, and no ratio is beside an inexact
number; or one of them is infinite; or both are at least 2 in magnitude. -/
def Exactly (x y : Real) : Prop :=
  Plain x y ∧ ∀ d e v w, x = .flo d → y = .flo e → d.Is v → e.Is w → 2 ≤ |v| ∧ 2 ≤ |w|

/-- The number `x` has the value `v`, and an inexact number has it too. -/
def Real.Has (x : Real) (v : ℚ) : Prop :=
  (∃ n : Num, x = .exact n ∧ n.Valid ∧ n.val = v ∧ Rep |v|) ∨ (∃ d : Flo, x = .flo d ∧ d.Is v)

/-- A fixnum or a finite inexact number, of value `v`. -/
def Real.Plainly (x : Real) (v : ℚ) : Prop :=
  (∃ i : Int, x = .exact (.small i) ∧ -2 ^ 31 ≤ i ∧ i < 2 ^ 31 ∧ v = i) ∨
  (∃ d : Flo, x = .flo d ∧ d.Valid ∧ d.Is v)

/-- `v` is the last binary64 magnitude that is not beyond the magnitude `x`. -/
def Truncates (x v : ℚ) : Prop := Rep v ∧ v ≤ x ∧ ∀ w, Rep w → w ≤ x → w ≤ v

/-- A magnitude whose significand, written with as many bits as possible, is even. -/
def EvenSignificand (v : ℚ) : Prop :=
  ∃ (k : ℕ) (e : ℤ), v = (2 * k : ℕ) * 2 ^ e ∧ 2 * k ≤ 2 ^ 53 ∧ -1074 ≤ e ∧
    (2 ^ 52 ≤ 2 * k ∨ e = -1074)

/-- `v` is the binary64 magnitude nearest to the magnitude `x`, the even one of two. -/
def Nearest (x v : ℚ) : Prop :=
  Rep v ∧ (∀ w, Rep w → |x - v| ≤ |x - w|) ∧
    ((∃ w, Rep w ∧ w ≠ v ∧ |x - w| = |x - v|) → EvenSignificand v)

/-- `d` is the result IEEE 754 prescribes for an operation with the exact result `x`: the nearest
datum of the same sign, or an infinity from the middle between the greatest datum and `2 ^ 1024`
on. -/
def Flo.Rounds (d : Flo) (x : ℚ) : Prop :=
  if 2 ^ 1024 - 2 ^ 970 ≤ |x| then d = .inf (decide (x < 0))
  else ∃ s v, d = .finite s v ∧ (x < 0 → s = true) ∧ (0 < x → s = false) ∧ Nearest |x| v

end Meevax.Number
