import Verif.Model.Number

/-
Model of exact complex numbers: `complex` (complex.hpp L24-L37), its operators (number.cpp L56-L61,
L123-L128, L190-L195, L259-L278, L294-L299), and the procedures of boot.cpp L185-L211 and L241-L246 on
them.

Not modelled: inexact parts, and parts that are not real numbers (`make-rectangular` does not check its
arguments).
-/

namespace Meevax.Number

/-- An exact number object: a real one, or a heap `complex`, which is a pair of two objects
(include/meevax/kernel/complex.hpp L24-L37). -/
inductive CNum where
  | real (x : Num)
  | rect (re im : Num)
  deriving DecidableEq, Repr

namespace CNum

/-- `make-rectangular` (boot.cpp L241): `make<complex>`, whatever the imaginary part is. -/
def makeRectangular (x y : Num) : CNum := .rect x y

/-- `canonicalize` of a `complex` (number.hpp L444-L453): a complex number whose imaginary part equals
zero becomes its real part. -/
def canonicalize (x y : Num) : CNum := if equals y (.small 0) then .real x else .rect x y

/-- An operand of the operators on `complex`: a real number gets the imaginary part `e0`
(number.cpp L56-L61, L123-L128, L190-L195, L259-L278). -/
def parts : CNum → Num × Num
  | .real x => (x, .small 0)
  | .rect x y => (x, y)

/-- `operator +(object const&, object const&)` (number.cpp L301-L305); complex operands: L294. -/
def add : CNum → CNum → Outcome CNum
  | .real x, .real y => do pure (.real (← Number.add x y))
  | z, w => do
    let x ← Number.add z.parts.1 w.parts.1
    let y ← Number.add z.parts.2 w.parts.2
    pure (canonicalize x y)

/-- `operator -(object const&, object const&)` (number.cpp L307-L311); complex operands: L295. -/
def sub : CNum → CNum → Outcome CNum
  | .real x, .real y => do pure (.real (← Number.sub x y))
  | z, w => do
    let x ← Number.sub z.parts.1 w.parts.1
    let y ← Number.sub z.parts.2 w.parts.2
    pure (canonicalize x y)

/-- `operator *(object const&, object const&)` (number.cpp L313-L317); complex operands: L296. -/
def mul : CNum → CNum → Outcome CNum
  | .real x, .real y => do pure (.real (← Number.mul x y))
  | z, w => do
    let (a, b) := z.parts
    let (c, d) := w.parts
    let x ← Number.sub (← Number.mul a c) (← Number.mul b d)
    let y ← Number.add (← Number.mul b c) (← Number.mul a d)
    pure (canonicalize x y)

/-- `operator /(object const&, object const&)` (number.cpp L319-L338); complex operands: L297. -/
def div : CNum → CNum → Outcome CNum
  | .real x, .real y => do pure (.real (← Number.div x y))
  | z, w => do
    let (a, b) := z.parts
    let (c, d) := w.parts
    let x ← Number.add (← Number.mul a c) (← Number.mul b d)
    let y ← Number.sub (← Number.mul b c) (← Number.mul a d)
    let n ← Number.add (← Number.mul c c) (← Number.mul d d)
    pure (canonicalize (← Number.div x n) (← Number.div y n))

/-- `equals` (number.cpp L499-L502); complex operands: L298. -/
def equals : CNum → CNum → Bool
  | .real x, .real y => Number.equals x y
  | z, w => Number.equals z.parts.1 w.parts.1 && Number.equals z.parts.2 w.parts.2

/-- `less_than` (number.cpp L514-L517): `test<real_numbers>` is false unless both operands are real
number objects (number.hpp L563-L585). -/
def lessThan : CNum → CNum → Bool
  | .real x, .real y => Number.lessThan x y
  | _, _ => false

/-- `greater_than` (number.cpp L524-L527). -/
def greaterThan : CNum → CNum → Bool
  | .real x, .real y => Number.greaterThan x y
  | _, _ => false

/-- `std::ranges::adjacent_find(xs, p) == std::ranges::end(xs)` (boot.cpp L196-L200). -/
def noAdjacent (p : CNum → CNum → Bool) : List CNum → Bool
  | [] => true
  | [_] => true
  | x :: y :: rest => !p x y && noAdjacent p (y :: rest)

/-- `=` (boot.cpp L196). -/
def numEq (xs : List CNum) : Bool := noAdjacent (fun x y => !equals x y) xs
/-- `<` (boot.cpp L197): no neighbours are `greater_than_or_equals`, which is `not less_than`
(number.cpp L529-L532). -/
def numLt (xs : List CNum) : Bool := noAdjacent (fun x y => !lessThan x y) xs
/-- `<=` (boot.cpp L198). -/
def numLe (xs : List CNum) : Bool := noAdjacent greaterThan xs
/-- `>` (boot.cpp L199): `less_than_or_equals` is `not greater_than` (number.cpp L519-L522). -/
def numGt (xs : List CNum) : Bool := noAdjacent (fun x y => !greaterThan x y) xs
/-- `>=` (boot.cpp L200). -/
def numGe (xs : List CNum) : Bool := noAdjacent lessThan xs

/-- `fold_left(xs, init, f)` (boot.cpp L208-L211). -/
def foldLeft (f : CNum → CNum → Outcome CNum) (init : CNum) : List CNum → Outcome CNum
  | [] => .value init
  | x :: xs => do foldLeft f (← f init x) xs

/-- `+` (boot.cpp L208). -/
def plus (xs : List CNum) : Outcome CNum := foldLeft add (.real (.small 0)) xs
/-- `*` (boot.cpp L209). -/
def times (xs : List CNum) : Outcome CNum := foldLeft mul (.real (.small 1)) xs
/-- `-` (boot.cpp L210). -/
def minus : List CNum → Outcome CNum
  | [] => .raised
  | [x] => sub (.real (.small 0)) x
  | x :: y :: rest => foldLeft sub x (y :: rest)
/-- `/` (boot.cpp L211). -/
def divide : List CNum → Outcome CNum
  | [] => .raised
  | [x] => div (.real (.small 1)) x
  | x :: y :: rest => foldLeft div x (y :: rest)

/-- `is_complex` (number.cpp L574-L582). -/
def isComplex (_ : CNum) : Bool := true

/-- `is_real` (number.cpp L584-L599). -/
def isReal : CNum → Bool
  | .real _ => true
  | .rect _ y => Number.equals y (.small 0)

/-- `is_rational` (number.cpp L601-L619): no `complex` is. -/
def isRational : CNum → Bool
  | .real _ => true
  | .rect _ _ => false

/-- `is_integer` (number.cpp L621-L644). -/
def isInteger : CNum → Bool
  | .real x => Number.isInteger x
  | .rect x y => Number.equals y (.small 0) && Number.isInteger x

/-- `is_zero` (number.cpp L728-L731). -/
def isZero (z : CNum) : Bool := equals z (.real (.small 0))

/-- `real-part` (boot.cpp L243, number.cpp L809-L824). `canonicalize` leaves an object as it is, but
makes a new object of a real number: a ratio with denominator 1 becomes an integer. -/
def realPart : CNum → Num
  | .real (.ratio q) => canonicalizeRatio q
  | .real x => x
  | .rect x _ => x

/-- `imag-part` (boot.cpp L244, number.cpp L826-L841). -/
def imagPart : CNum → Num
  | .real _ => .small 0
  | .rect _ y => y

/-- `magnitude` (boot.cpp L245, number.cpp L843-L858); `sqrt` as in Model/Number.lean. -/
def magnitude (m : Libm) : CNum → Outcome Root
  | .real (.ratio q) => .value (.exact (canonicalizeRatio q))
  | .real x => .value (.exact x)
  | .rect x y => do sqrt m (← Number.add (← Number.mul x x) (← Number.mul y y))

/-- The arguments `angle` passes to `atan2` (boot.cpp L246, number.cpp L860-L863). -/
def angleArguments (z : CNum) : Num × Num := (realPart z, imagPart z)

end CNum

end Meevax.Number
