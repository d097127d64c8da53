import Verif.Spec.Homogeneous
import Verif.Model.Single

/-
What numbers of single precision stand for: the values of binary32, and rounding to the nearest one.
-/

namespace Meevax.Single
open Meevax.Number (Flo signed)

/-- A magnitude binary32 can represent: a significand of 24 bits and an exponent in range. -/
def Rep (v : ℚ) : Prop :=
  ∃ (m : ℕ) (e : ℤ), m < 2 ^ 24 ∧ -149 ≤ e ∧ e ≤ 104 ∧ v = m * 2 ^ e

/-- The data that occur. -/
def Valid : Flo → Prop
  | .finite _ m => Rep m
  | _ => True

/-- A magnitude whose significand, written with as many bits as possible, is even. -/
def EvenSignificand (v : ℚ) : Prop :=
  ∃ (k : ℕ) (e : ℤ), v = (2 * k : ℕ) * 2 ^ e ∧ 2 * k ≤ 2 ^ 24 ∧ -149 ≤ e ∧
    (2 ^ 23 ≤ 2 * k ∨ e = -149)

/-- `v` is the binary32 magnitude nearest to the magnitude `x`, the even one of two. -/
def Nearest (x v : ℚ) : Prop :=
  Rep v ∧ (∀ w, Rep w → |x - v| ≤ |x - w|) ∧
    ((∃ w, Rep w ∧ w ≠ v ∧ |x - w| = |x - v|) → EvenSignificand v)

/-- `d` is the datum of single precision IEEE 754 prescribes for the exact number `x`: the nearest
one of the same sign, or an infinity from the middle between the greatest datum and `2 ^ 128` on. -/
def Rounds (d : Flo) (x : ℚ) : Prop :=
  if 2 ^ 128 - 2 ^ 103 ≤ |x| then d = .inf (decide (x < 0))
  else ∃ s v, d = .finite s v ∧ (x < 0 → s = true) ∧ (0 < x → s = false) ∧ Nearest |x| v

/-- The place of a number on the extended number line; NaN has none. -/
def Wide.place : Wide → Option (WithBot (WithTop ℚ))
  | .real x => x.place
  | .single d => d.place

/-- What an f32vector has to hold for the number `x`. -/
def Holds (x : Wide) (d : Flo) : Prop :=
  match x with
  | .single e => d = e
  | .real (.exact n) => Rounds d n.val
  | .real (.flo (.finite s m)) => Rounds d (if s then -m else m)
  | .real (.flo e) => d = e

/-- The numbers an f32vector holds rightly: those that are not ratios, nor large integers of more than
53 bits. -/
def Storable (x : Wide) : Prop :=
  (∀ q, x ≠ .real (.exact (.ratio q))) ∧ (∀ z, x = .real (.exact (.large z)) → |z| < 2 ^ 53)

/-- A finite number of single precision of value `v`. -/
def Wide.Singly (x : Wide) (v : ℚ) : Prop := ∃ d : Flo, x = .single d ∧ d.Is v

/-- A number of single precision of value `v`, or a fixnum of no more than 24 bits. -/
def Wide.Plainly (x : Wide) (v : ℚ) : Prop :=
  x.Singly v ∨ ∃ i : Int, x = .real (.exact (.small i)) ∧ |i| ≤ 2 ^ 24 ∧ v = i

/-- A finite number of value `v` that is inexact or a fixnum. -/
def Wide.Finite (x : Wide) (v : ℚ) : Prop :=
  (∃ d : Flo, x = .single d ∧ Valid d ∧ d.Is v) ∨ ∃ r : Number.Real, x = .real r ∧ r.Plainly v

/-- An inexact number of value `v`: of single precision if `s`, else a flonum. -/
def Wide.Inexactly (s : Bool) (x : Wide) (v : ℚ) : Prop :=
  ∃ d : Flo, d.Is v ∧ if s then x = .single d ∧ Valid d else x = .real (.flo d) ∧ d.Valid

/-- No ratio, and a fixnum only of no more than 24 bits. -/
def Wide.Comparable (x : Wide) : Prop :=
  (∀ q, x ≠ .real (.exact (.ratio q))) ∧ (∀ i, x = .real (.exact (.small i)) → |i| ≤ 2 ^ 24)

/-- One of the two is of single precision. -/
def SomeSingle (x y : Wide) : Prop := (∃ d, x = .single d) ∨ (∃ d, y = .single d)

end Meevax.Single
