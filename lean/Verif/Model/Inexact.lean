import Verif.Model.Number

/-
Model of the inexact reals: the `double` operands of the operators of number.cpp L32-L297, the
comparisons (number.hpp L315-L338, number.cpp L499-L532), `exact` and `inexact` (number.cpp
L534-L572), the predicates (L589-L726), rounding (number/nearest_integer.cpp), integer division
(L784-L797), `max` and `min` (boot.cpp L206-L207).

A `double` is a binary64 datum and its arithmetic is that of IEEE 754, rounding to nearest, ties to
even. Not modelled: `float` operands, `complex` operands, the payload and the sign of a NaN.
-/

namespace Meevax.Number

/-- A binary64 datum: a sign and a magnitude, an infinity, or a NaN. The magnitudes that occur are
those of `Flo.Valid` (Spec/Inexact)
(include/meevax/memory/nan_boxing_pointer.hpp L55: the `double` an object may be). -/
inductive Flo where
  | finite (neg : Bool) (mag : ℚ)
  | inf (neg : Bool)
  | nan
  deriving DecidableEq

/-- A real number object: exact, or a `double` (number.hpp L591). -/
inductive Real where
  | exact (n : Num)
  | flo (d : Flo)
  deriving DecidableEq

/-! ### The processor -/

/-- The value of a sign and a magnitude (auxiliary to src/kernel/number.cpp L32-L297). -/
def signed (neg : Bool) (mag : ℚ) : ℚ := if neg then -mag else mag

/-- Rounding to nearest, ties to even. `zero` is the sign of an exact zero
(the arithmetic of src/kernel/number.cpp L111-L114, L228-L231). -/
def roundEven (zero : Bool) (x : ℚ) : Flo :=
  if x = 0 then .finite zero 0
  else
    let n := ⌊|x| / ulp x⌋
    let r := |x| / ulp x - n
    let m := if r < 1 / 2 ∨ (r = 1 / 2 ∧ n % 2 = 0) then n else n + 1
    if 2 ^ 1024 ≤ ulp x * m then .inf (decide (x < 0)) else .finite (decide (x < 0)) (ulp x * m)

/-- `-x` (`-` on `double`s, src/kernel/number.cpp L307-L311). -/
def Flo.neg : Flo → Flo
  | .finite s m => .finite (!s) m
  | .inf s => .inf (!s)
  | .nan => .nan

/-- `std::fabs` (src/kernel/number.cpp L765). -/
def Flo.abs : Flo → Flo
  | .finite _ m => .finite false m
  | .inf _ => .inf false
  | .nan => .nan

/-- `x + y`. A zero sum is negative when both operands are (src/kernel/number.cpp L111, L301-L305). -/
def Flo.add : Flo → Flo → Flo
  | .finite s m, .finite t n => roundEven (s && t) (signed s m + signed t n)
  | .finite _ _, .inf t => .inf t
  | .inf s, .finite _ _ => .inf s
  | .inf s, .inf t => if s = t then .inf s else .nan
  | .nan, _ => .nan
  | _, .nan => .nan

/-- `x - y` (src/kernel/number.cpp L112, L307-L311). -/
def Flo.sub (x y : Flo) : Flo := x.add y.neg

/-- `x * y` (src/kernel/number.cpp L113, L313-L317). -/
def Flo.mul : Flo → Flo → Flo
  | .finite s m, .finite t n => roundEven (s != t) (signed s m * signed t n)
  | .finite s m, .inf t => if m = 0 then .nan else .inf (s != t)
  | .inf s, .finite t n => if n = 0 then .nan else .inf (s != t)
  | .inf s, .inf t => .inf (s != t)
  | .nan, _ => .nan
  | _, .nan => .nan

/-- `x / y` (src/kernel/number.cpp L114, L319-L338). -/
def Flo.div : Flo → Flo → Flo
  | .finite s m, .finite t n =>
    if n = 0 then (if m = 0 then .nan else .inf (s != t))
    else roundEven (s != t) (signed s m / signed t n)
  | .finite s _, .inf t => .finite (s != t) 0
  | .inf s, .finite t _ => .inf (s != t)
  | .inf _, .inf _ => .nan
  | .nan, _ => .nan
  | _, .nan => .nan

/-- `x == y` (src/kernel/number.cpp L116, L499-L532). -/
def Flo.eq : Flo → Flo → Bool
  | .finite s m, .finite t n => signed s m == signed t n
  | .inf s, .inf t => s == t
  | _, _ => false

/-- `x < y` (src/kernel/number.cpp L118). -/
def Flo.lt : Flo → Flo → Bool
  | .finite s m, .finite t n => decide (signed s m < signed t n)
  | .finite _ _, .inf t => !t
  | .inf s, .finite _ _ => s
  | .inf s, .inf t => s && !t
  | .nan, _ => false
  | _, .nan => false

/-- `x <= y` (src/kernel/number.cpp L119). -/
def Flo.le (x y : Flo) : Bool := x.lt y || x.eq y

/-- `std::fmod`: the part of `x` left over by the whole multiples of `y`, with the sign of `x`
(src/kernel/number.cpp L349). -/
def Flo.fmod : Flo → Flo → Flo
  | .finite s m, .finite _ n => if n = 0 then .nan else .finite s (m - n * ⌊m / n⌋)
  | .finite s m, .inf _ => .finite s m
  | .inf _, _ => .nan
  | .nan, _ => .nan
  | _, .nan => .nan

/-- The integer nearest to a nonnegative rational, ties to even (auxiliary to src/kernel/number.cpp L115). -/
def nearestEven (q : ℚ) : Int :=
  if q - ⌊q⌋ < 1 / 2 ∨ (q - ⌊q⌋ = 1 / 2 ∧ ⌊q⌋ % 2 = 0) then ⌊q⌋ else ⌊q⌋ + 1

/-- `std::remainder`: what is left of `x` by the multiple of `y` nearest to it; a zero has the sign
of `x` (src/kernel/number.cpp L115, L182, L232, L244). -/
def Flo.remainder : Flo → Flo → Flo
  | .finite s m, .finite _ n =>
    if n = 0 then .nan
    else
      let r := m - n * nearestEven (m / n)
      .finite (if r < 0 then !s else s) |r|
  | .finite s m, .inf _ => .finite s m
  | .inf _, _ => .nan
  | .nan, _ => .nan
  | _, .nan => .nan

/-- `std::isnan` (src/kernel/number.cpp L607, L717). -/
def Flo.isNan : Flo → Bool
  | .nan => true
  | _ => false

/-- `std::isinf` (src/kernel/number.cpp L608, L695). -/
def Flo.isInf : Flo → Bool
  | .inf _ => true
  | _ => false

/-- `std::floor`, `std::ceil`, `std::trunc` and `std::round` of a `double`: an integral value with
the sign of the operand; infinities and NaN are unchanged (src/kernel/number/nearest_integer.cpp L21-L46). -/
def Flo.nearest (f : Double → Int) : Flo → Flo
  | .finite s m => .finite s |(f (signed s m) : ℚ)|
  | .inf s => .inf s
  | .nan => .nan

/-! ### Conversion -/

/-- `static_cast<double>` of a `widen_integer` (src/kernel/number.cpp L301-L358: mixed operands). -/
def castFixnum (i : Int) : Flo := roundEven false i

/-- `static_cast<double>` of a `ratio` (ratio.hpp L50-L54). An underflow gives a positive zero. -/
def castRatio (q : Mpq) : Flo :=
  match mpqGetD q with
  | some v => .finite (decide (v < 0)) |v|
  | none => .inf (decide (q.val < 0))

/-- `static_cast<double>` of a `large_integer` (large_integer.hpp L69-L84): `mpz_get_d` truncates
like `mpq_get_d`. -/
def castLarge (z : Int) : Flo := castRatio (Mpq.ofInteger z)

/-- `static_cast<double>` of an exact number (src/kernel/number.cpp L111-L114). -/
def Num.cast : Num → Flo
  | .small i => castFixnum i
  | .large z => castLarge z
  | .ratio q => castRatio q

/-- `inexact` (number.cpp L556-L572). -/
def Real.inexact : Real → Real
  | .exact n => .flo n.cast
  | .flo d => .flo d

/-- `ratio(x)` for a `double` (ratio.cpp L62-L66) and the conversion of its result to an object
(number.hpp L455-L465): `mpq_set_d` is exact, and kills the process when its operand is not
finite. -/
def exactFlo : Flo → Outcome Num
  | .finite s m => .value (canonicalizeRatio ⟨(signed s m).num, (signed s m).den⟩)
  | .inf _ => .undefined
  | .nan => .undefined

/-- `exact` (number.cpp L534-L554): exact numbers are copied. -/
def Real.toExact : Real → Outcome Real
  | .exact (.small i) => .value (.exact (canonicalizeInteger i))
  | .exact (.large z) => .value (.exact (.large z))
  | .exact (.ratio q) => .value (.exact (canonicalizeRatio q))
  | .flo d => do pure (.exact (← exactFlo d))

/-! ### Comparison -/

/-- `inexact_equals` of two `double`s (number.hpp L315-L332): the tolerance is
`std::numeric_limits<double>::epsilon()`. -/
def inexactEquals (x y : Flo) : Bool :=
  if x.isNan && y.isNan then true
  else if x.isInf || y.isInf then x.eq y
  else (x.sub y).abs.le (.finite false (1 / 2 ^ 52))

/-- `mpz_cmp_d`: the sign of the difference, undefined for a NaN (src/kernel/number.cpp L116-L121, L233-L238). -/
def mpzCmpD (z : Int) : Flo → Outcome Int
  | .finite s m =>
    .value (if (z : ℚ) < signed s m then -1 else if (z : ℚ) = signed s m then 0 else 1)
  | .inf s => .value (if s then 1 else -1)
  | .nan => .undefined

/-- `equals` (number.cpp L499-L502; `==` of number.cpp L116, L183, L233, L245, and of the language
for a `widen_integer` and a `double`). -/
def Real.equals : Real → Real → Outcome Bool
  | .exact x, .exact y => .value (Number.equals x y)
  | .exact (.small a), .flo y => .value ((castFixnum a).eq y)
  | .exact (.large a), .flo y => do pure (decide ((← mpzCmpD a y) = 0))
  | .exact (.ratio a), .flo y => .value (inexactEquals (castRatio a) y)
  | .flo x, .exact (.small b) => .value (x.eq (castFixnum b))
  | .flo x, .exact (.large b) => do pure (decide (0 = (← mpzCmpD b x)))
  | .flo x, .exact (.ratio b) => .value (inexactEquals x (castRatio b))
  | .flo x, .flo y => .value (inexactEquals x y)

/-- `less_than` (number.cpp L514-L517; `<` of L118, L185, L235, L247). -/
def Real.lessThan : Real → Real → Outcome Bool
  | .exact x, .exact y => .value (Number.lessThan x y)
  | .exact (.small a), .flo y => .value ((castFixnum a).lt y)
  | .exact (.large a), .flo y => do pure (decide ((← mpzCmpD a y) < 0))
  | .exact (.ratio a), .flo y => .value ((castRatio a).lt y)
  | .flo x, .exact (.small b) => .value (x.lt (castFixnum b))
  | .flo x, .exact (.large b) => do pure (decide (0 < (← mpzCmpD b x)))
  | .flo x, .exact (.ratio b) => .value (x.lt (castRatio b))
  | .flo x, .flo y => .value (x.lt y)

/-- `greater_than` (number.cpp L524-L527; `>` of L120, L187, L237, L249). -/
def Real.greaterThan : Real → Real → Outcome Bool
  | .exact x, .exact y => .value (Number.greaterThan x y)
  | .exact (.small a), .flo y => .value (y.lt (castFixnum a))
  | .exact (.large a), .flo y => do pure (decide ((← mpzCmpD a y) > 0))
  | .exact (.ratio a), .flo y => .value (y.lt (castRatio a))
  | .flo x, .exact (.small b) => .value ((castFixnum b).lt x)
  | .flo x, .exact (.large b) => do pure (decide (0 > (← mpzCmpD b x)))
  | .flo x, .exact (.ratio b) => .value ((castRatio b).lt x)
  | .flo x, .flo y => .value (y.lt x)

/-- `not_equals` (number.cpp L509-L512). -/
def Real.notEquals (x y : Real) : Outcome Bool := do pure (!(← x.equals y))
/-- `less_than_or_equals` (number.cpp L519-L522). -/
def Real.lessThanOrEquals (x y : Real) : Outcome Bool := do pure (!(← x.greaterThan y))
/-- `greater_than_or_equals` (number.cpp L529-L532). -/
def Real.greaterThanOrEquals (x y : Real) : Outcome Bool := do pure (!(← x.lessThan y))

/-- `std::ranges::adjacent_find(xs, p) == std::ranges::end(xs)` (boot.cpp L196-L200). -/
def Real.noAdjacent (p : Real → Real → Outcome Bool) : List Real → Outcome Bool
  | [] => .value true
  | [_] => .value true
  | x :: y :: rest => do if ← p x y then pure false else Real.noAdjacent p (y :: rest)

/-- `=` (boot.cpp L196). -/
def Real.numEq (xs : List Real) : Outcome Bool := Real.noAdjacent Real.notEquals xs
/-- `<` (boot.cpp L197). -/
def Real.numLt (xs : List Real) : Outcome Bool := Real.noAdjacent Real.greaterThanOrEquals xs
/-- `<=` (boot.cpp L198). -/
def Real.numLe (xs : List Real) : Outcome Bool := Real.noAdjacent Real.greaterThan xs
/-- `>` (boot.cpp L199). -/
def Real.numGt (xs : List Real) : Outcome Bool := Real.noAdjacent Real.lessThanOrEquals xs
/-- `>=` (boot.cpp L200). -/
def Real.numGe (xs : List Real) : Outcome Bool := Real.noAdjacent Real.lessThan xs

/-- `is_zero` (number.cpp L728-L731). -/
def Real.isZero (x : Real) : Outcome Bool := x.equals (.exact (.small 0))
/-- `is_positive` (number.cpp L733-L736). -/
def Real.isPositive (x : Real) : Outcome Bool := Real.lessThan (.exact (.small 0)) x
/-- `is_negative` (number.cpp L738-L741). -/
def Real.isNegative (x : Real) : Outcome Bool := x.lessThan (.exact (.small 0))

/-! ### Predicates -/

/-- `is_exact` (number.cpp L646-L661). -/
def Real.isExact : Real → Bool
  | .exact _ => true
  | .flo _ => false

/-- `is_inexact` (number.cpp L663-L666). -/
def Real.isInexact (x : Real) : Bool := !x.isExact

/-- `is_rational` (number.cpp L601-L619). -/
def Real.isRational : Real → Bool
  | .exact _ => true
  | .flo d => !d.isNan && !d.isInf

/-- `is_integer` (number.cpp L621-L644): `x == std::trunc(x)`. -/
def Real.isInteger : Real → Bool
  | .exact n => Number.isInteger n
  | .flo d => d.eq (d.nearest stdTrunc)

/-- `is_infinite` (number.cpp L684-L704). -/
def Real.isInfinite : Real → Bool
  | .exact _ => false
  | .flo d => d.isInf

/-- `is_finite` (number.cpp L679-L682). -/
def Real.isFinite (x : Real) : Bool := !x.isInfinite

/-- `is_nan` (number.cpp L706-L726). -/
def Real.isNan : Real → Bool
  | .exact _ => false
  | .flo d => d.isNan

/-! ### Arithmetic -/

/-- `apply_to<complex_numbers>` (number.hpp L517-L538) with an operator on exact numbers and the same
operator on `double`s: with a `double` operand the other one is cast (number.cpp L111-L114,
L178-L181, L228-L231, L240-L243). -/
def Real.lift (f : Num → Num → Outcome Num) (g : Flo → Flo → Flo) : Real → Real → Outcome Real
  | .exact x, .exact y => do pure (.exact (← f x y))
  | .exact x, .flo y => .value (.flo (g x.cast y))
  | .flo x, .exact y => .value (.flo (g x y.cast))
  | .flo x, .flo y => .value (.flo (g x y))

/-- `+` of two numbers (number.cpp L301-L305). -/
def Real.add : Real → Real → Outcome Real := Real.lift Number.add Flo.add
/-- `-` of two numbers (number.cpp L307-L311). -/
def Real.sub : Real → Real → Outcome Real := Real.lift Number.sub Flo.sub
/-- `*` of two numbers (number.cpp L313-L317). -/
def Real.mul : Real → Real → Outcome Real := Real.lift Number.mul Flo.mul
/-- `/` of two numbers (number.cpp L319-L338). -/
def Real.div : Real → Real → Outcome Real := Real.lift Number.div Flo.div

/-- `%` (number.cpp L340-L358): `std::fmod` for two arithmetic types, else the operators of L115,
L182, L232 and L244. -/
def Real.rem : Real → Real → Outcome Real
  | .exact x, .exact y => do pure (.exact (← Number.rem x y))
  | .exact (.small a), .flo y => .value (.flo ((castFixnum a).fmod y))
  | .exact (.large a), .flo y => .value (.flo ((castLarge a).remainder y))
  | .exact (.ratio a), .flo y => .value (.flo ((castRatio a).remainder y))
  | .flo x, .exact (.small b) => .value (.flo (x.fmod (castFixnum b)))
  | .flo x, .exact (.large b) => .value (.flo (x.remainder (castLarge b)))
  | .flo x, .exact (.ratio b) => .value (.flo (x.remainder (castRatio b)))
  | .flo x, .flo y => .value (.flo (x.fmod y))

/-- `floor`, `ceiling`, `truncate`, `round` (number/nearest_integer.cpp L21-L46). -/
def Real.nearest (f : Double → Int) : Real → Outcome Real
  | .exact n => do pure (.exact (← Number.nearest f n))
  | .flo d => .value (.flo (d.nearest f))

/-- nearest_integer.cpp L48. -/
def Real.floor : Real → Outcome Real := Real.nearest stdFloor
/-- nearest_integer.cpp L49. -/
def Real.ceiling : Real → Outcome Real := Real.nearest stdCeil
/-- nearest_integer.cpp L50. -/
def Real.truncate : Real → Outcome Real := Real.nearest stdTrunc
/-- nearest_integer.cpp L51. -/
def Real.round : Real → Outcome Real := Real.nearest stdRound

/-- `abs` (number.cpp L753-L782). -/
def Real.abs : Real → Outcome Real
  | .exact n => do pure (.exact (← Number.abs n))
  | .flo d => .value (.flo d.abs)

/-- `quotient` (number.cpp L784-L787). -/
def Real.quotient (x y : Real) : Outcome Real := do Real.truncate (← x.div y)
/-- `remainder` (number.cpp L789-L792). -/
def Real.remainder (x y : Real) : Outcome Real := x.rem y
/-- `modulo` (number.cpp L794-L797). -/
def Real.modulo (x y : Real) : Outcome Real := do Real.rem (← Real.add (← x.rem y) y) y

/-- `numerator` (number.cpp L865-L879). -/
def Real.numerator : Real → Outcome Real
  | .exact n => .value (.exact (Number.numerator n))
  | .flo d => do pure (Real.inexact (.exact (Number.numerator (← exactFlo d))))

/-- `denominator` (number.cpp L881-L899). -/
def Real.denominator : Real → Outcome Real
  | .exact n => .value (.exact (Number.denominator n))
  | .flo d =>
    if (Real.flo d).isInteger then .value (.flo (.finite false 1))
    else do pure (Real.inexact (.exact (Number.denominator (← exactFlo d))))

/-- The loop of `std::ranges::max_element` (src/kernel/boot.cpp L206). -/
def Real.maxLoop (best : Real) : List Real → Outcome Real
  | [] => .value best
  | y :: ys => do Real.maxLoop (if ← best.lessThan y then y else best) ys

/-- The loop of `std::ranges::min_element` (src/kernel/boot.cpp L207). -/
def Real.minLoop (best : Real) : List Real → Outcome Real
  | [] => .value best
  | y :: ys => do Real.minLoop (if ← y.lessThan best then y else best) ys

/-- `max` of at least one number (boot.cpp L206): made inexact when any argument is. -/
def Real.max (x : Real) (xs : List Real) : Outcome Real := do
  let m ← Real.maxLoop x xs
  pure (if (x :: xs).any Real.isInexact then m.inexact else m)

/-- `min` of at least one number (boot.cpp L207). -/
def Real.min (x : Real) (xs : List Real) : Outcome Real := do
  let m ← Real.minLoop x xs
  pure (if (x :: xs).any Real.isInexact then m.inexact else m)

end Meevax.Number
