import Verif.Model.Inexact

/-
Model of the flonum procedures of SRFI 144: library/srfi-144.ss on top of the `binary64-` procedures
(boot.cpp L67-L80, L448-L466) and of number/floating_point_manipulation.cpp.

The functions of `<cmath>` are given by what ISO C (annex F) says about them. Not modelled: the
transcendental functions, the constants made with them, operands that are not flonums (other than
the second operand of `make-flonum`; `as<double>` of another object is an exception).
-/

namespace Meevax.Number

/-! ### `<cmath>` -/

/-- `std::signbit`. The sign of a NaN is not modelled; `none` stands for either answer (src/kernel/boot.cpp L74). -/
def Flo.signbit : Flo → Option Bool
  | .finite s _ => some s
  | .inf s => some s
  | .nan => none

/-- `std::copysign` with the sign of the second operand; `none` as in `Flo.signbit`
(src/kernel/boot.cpp L257; src/kernel/number/floating_point_manipulation.cpp L34). -/
def Flo.copysign (x y : Flo) : Option Flo :=
  match y.signbit with
  | none => none
  | some t => some (match x with
    | .finite _ m => .finite t m
    | .inf _ => .inf t
    | .nan => .nan)

/-- The integral part `std::modf` stores (src/kernel/boot.cpp L68). -/
def Flo.modfWhole (x : Flo) : Flo := x.nearest stdTrunc

/-- The fractional part `std::modf` returns, with the sign of its operand (src/kernel/boot.cpp L69). -/
def Flo.modf : Flo → Flo
  | .finite s m => .finite s (m - ⌊m⌋)
  | .inf s => .finite s 0
  | .nan => .nan

/-- `std::logb`: the exponent of the operand, as a `double` (src/kernel/boot.cpp L70). -/
def Flo.logb : Flo → Flo
  | .finite _ m =>
    if m = 0 then .inf true
    else .finite (decide (Int.log 2 m < 0)) |(Int.log 2 m : ℚ)|
  | .inf _ => .inf false
  | .nan => .nan

/-- `FP_ILOGB0` of glibc, `INT_MIN` (src/kernel/boot.cpp L71). -/
def fpIlogb0 : Int := -2 ^ 31
/-- `FP_ILOGBNAN` of glibc on x86, `INT_MIN` (src/kernel/boot.cpp L71). -/
def fpIlogbNan : Int := -2 ^ 31

/-- `std::ilogb`: the exponent of the operand, as an `int` (src/kernel/boot.cpp L71). -/
def Flo.ilogb : Flo → Int
  | .finite _ m => if m = 0 then fpIlogb0 else Int.log 2 m
  | .inf _ => 2 ^ 31 - 1
  | .nan => fpIlogbNan

/-- The fraction `std::frexp` returns (src/kernel/boot.cpp L72). -/
def Flo.frexp : Flo → Flo
  | .finite s m => if m = 0 then .finite s 0 else .finite s (m / 2 ^ (Int.log 2 m + 1))
  | .inf s => .inf s
  | .nan => .nan

/-- The exponent `std::frexp` stores; `junk` for an infinity or a NaN, where it is unspecified
(src/kernel/boot.cpp L73). -/
def Flo.frexpExponent (junk : Int) : Flo → Int
  | .finite _ m => if m = 0 then 0 else Int.log 2 m + 1
  | .inf _ => junk
  | .nan => junk

/-- `std::ldexp`: the product with a power of two, rounded once
(src/kernel/number/floating_point_manipulation.cpp L25). -/
def Flo.ldexp : Flo → Int → Flo
  | .finite s m, n => roundEven s (signed s m * 2 ^ n)
  | .inf s, _ => .inf s
  | .nan, _ => .nan

/-- The next magnitude up; beyond the greatest one is the infinity
(auxiliary to src/kernel/number/floating_point_manipulation.cpp L32). -/
def nextUp (s : Bool) (m : ℚ) : Flo :=
  if m = 0 then .finite s (1 / 2 ^ 1074)
  else if 2 ^ 1024 ≤ m + ulp m then .inf s
  else .finite s (m + ulp m)

/-- The next magnitude down from a magnitude that is not zero. Below a power of two the spacing is
half of that above, unless it is the least already
(auxiliary to src/kernel/number/floating_point_manipulation.cpp L32). -/
def nextDown (s : Bool) (m : ℚ) : Flo :=
  if m = 2 ^ Int.log 2 m ∧ -1074 < Int.log 2 m - 52 then .finite s (m - ulp m / 2)
  else .finite s (m - ulp m)

/-- `std::nextafter`: the next datum in the direction of the second operand
(src/kernel/number/floating_point_manipulation.cpp L32). -/
def Flo.nextafter (x y : Flo) : Flo :=
  match x, y with
  | .nan, _ => .nan
  | _, .nan => .nan
  | x, y =>
    if x.eq y then y
    else match x with
      | .finite s m =>
        if m = 0 then nextUp (y.lt x) 0
        else if s = y.lt x then nextUp s m
        else nextDown s m
      | .inf s => .finite s ((2 ^ 53 - 1) * 2 ^ 971)
      | .nan => .nan

/-- `std::fmax`: a NaN counts as missing (src/kernel/boot.cpp L77). -/
def Flo.fmax (x y : Flo) : Flo :=
  if x.isNan then y else if y.isNan then x else if x.lt y then y else x

/-- `std::fmin` (src/kernel/boot.cpp L78). -/
def Flo.fmin (x y : Flo) : Flo :=
  if x.isNan then y else if y.isNan then x else if y.lt x then y else x

/-- `std::fma`: the product and the sum, rounded once (src/kernel/boot.cpp L79). -/
def Flo.fma : Flo → Flo → Flo → Flo
  | .finite s m, .finite t n, .finite u k =>
    roundEven ((s != t) && u) (signed s m * signed t n + signed u k)
  | .finite _ _, .finite _ _, z => z
  | x, y, z => (x.mul y).add z

/-- The quotient `std::remquo` stores: the last `bits` bits of the magnitude of the quotient, rounded
to nearest, with the sign of the quotient. ISO C asks for three bits at least. -/
def remquoBits (bits : Nat) : Flo → Flo → Int
  | .finite s m, .finite t n =>
    if s != t then -(nearestEven (m / n) % 2 ^ bits) else nearestEven (m / n) % 2 ^ bits
  | _, _ => 0

/-! ### boot.cpp and floating_point_manipulation.cpp -/

/-- `binary64-least` (boot.cpp L451): `std::numeric_limits<double>::min()`. -/
def binary64Least : Flo := .finite false (1 / 2 ^ 1022)
/-- `binary64-greatest` (boot.cpp L452): `std::numeric_limits<double>::max()`. -/
def binary64Greatest : Flo := .finite false ((2 ^ 53 - 1) * 2 ^ 971)
/-- `binary64-epsilon` (boot.cpp L453). -/
def binary64Epsilon : Flo := .finite false (1 / 2 ^ 52)

/-- `binary64-normalized?` (boot.cpp L75). -/
def binary64Normalized : Flo → Bool
  | .finite _ m => decide (1 / 2 ^ 1022 ≤ m)
  | _ => false

/-- `binary64-denormalized?` (boot.cpp L76). -/
def binary64Denormalized : Flo → Bool
  | .finite _ m => decide (0 < m ∧ m < 1 / 2 ^ 1022)
  | _ => false

/-- `binary64-max` (boot.cpp L77). -/
def binary64Max (xs : List Flo) : Flo := xs.foldl Flo.fmax (.inf true)
/-- `binary64-min` (boot.cpp L78). -/
def binary64Min (xs : List Flo) : Flo := xs.foldl Flo.fmin (.inf false)

/-- `mpz_get_si`: the operand if it fits, else its low 63 bits with its sign
(include/meevax/kernel/large_integer.hpp L78). -/
def mpzGetSi (z : Int) : Int :=
  if -2 ^ 63 ≤ z ∧ z < 2 ^ 63 then z
  else if z < 0 then -1 - (-z - 1) % 2 ^ 63 else z % 2 ^ 63

/-- `static_cast<int>` of an integer: reduced modulo 2^32 (src/kernel/number/floating_point_manipulation.cpp L26). -/
def castInt (z : Int) : Int := (z + 2 ^ 31) % 2 ^ 32 - 2 ^ 31

/-- `ldexp` (floating_point_manipulation.cpp L21-L30) with an exact integer as its second operand. A
ratio is cast through a `double`, which is not modelled. -/
def ldexp (x : Flo) : Num → Option Flo
  | .small i => some (x.ldexp (castInt i))
  | .large z => some (x.ldexp (castInt (mpzGetSi z)))
  | .ratio _ => none

/-! ### srfi-144.ss -/

/-- `fl-least` (srfi-144.ss L152). -/
def flLeast : Flo := binary64Least
/-- `fl-greatest` (srfi-144.ss L150). -/
def flGreatest : Flo := binary64Greatest
/-- `fl-epsilon` (srfi-144.ss L154). -/
def flEpsilon : Flo := binary64Epsilon
/-- `fladjacent` (srfi-144.ss L167). -/
def fladjacent (x y : Flo) : Flo := x.nextafter y
/-- `flcopysign` (srfi-144.ss L169). -/
def flcopysign (x y : Flo) : Option Flo := x.copysign y
/-- `make-flonum` (srfi-144.ss L171). -/
def makeFlonum (x : Flo) (n : Num) : Option Flo := ldexp x n
/-- `flinteger-fraction` (srfi-144.ss L173-L175). -/
def flintegerFraction (x : Flo) : Flo × Flo := (x.modfWhole, x.modf)
/-- `flexponent` (srfi-144.ss L177). -/
def flexponent (x : Flo) : Flo := x.logb
/-- `flinteger-exponent` (srfi-144.ss L179). -/
def flintegerExponent (x : Flo) : Int := x.ilogb
/-- `flnormalized-fraction-exponent` (srfi-144.ss L181-L183). -/
def flnormalizedFractionExponent (junk : Int) (x : Flo) : Flo × Int := (x.frexp, x.frexpExponent junk)
/-- `flsign-bit` (srfi-144.ss L185-L186). -/
def flsignBit (x : Flo) : Option Int := x.signbit.map fun s => if s then 1 else 0
/-- `flnormalized?` (srfi-144.ss L224). -/
def flnormalized (x : Flo) : Bool := binary64Normalized x
/-- `fldenormalized?` (srfi-144.ss L226). -/
def fldenormalized (x : Flo) : Bool := binary64Denormalized x
/-- `flmax` (srfi-144.ss L228). -/
def flmax (xs : List Flo) : Flo := binary64Max xs
/-- `flmin` (srfi-144.ss L230). -/
def flmin (xs : List Flo) : Flo := binary64Min xs
/-- `fl+*` (srfi-144.ss L236). -/
def flFma (x y z : Flo) : Flo := x.fma y z
/-- `flabsdiff` (srfi-144.ss L244-L245). -/
def flabsdiff (x y : Flo) : Flo := (x.sub y).abs
/-- `flposdiff` (srfi-144.ss L247-L248). -/
def flposdiff (x y : Flo) : Flo := flmax [x.sub y, .finite false 0]
/-- `flsgn` (srfi-144.ss L250-L251). -/
def flsgn (x : Flo) : Option Flo := flcopysign (.finite false 1) x
/-- `flremquo` (srfi-144.ss L327-L330). -/
def flremquo (bits : Nat) (x y : Flo) : Flo × Int := (x.remainder y, remquoBits bits x y)
/-- `flhypot` (srfi-144.ss L279-L281); `sqrt` is the square root of a `double`. -/
def flhypot (sqrt : Flo → Flo) (x y : Flo) : Flo := sqrt ((x.mul x).add (y.mul y))
/-- `flcbrt` (srfi-144.ss L276-L277); `pow` is `std::pow` (power.cpp L62-L63), the exponent is the ratio 1/3. -/
def flcbrt (pow : Flo → Flo → Flo) (x : Flo) : Flo := pow x (castRatio ⟨1, 3⟩)

/-! ### Comparison -/

/-- `flunordered?` (library/srfi-144.ss L200-L202). -/
def flUnordered (x y : Real) : Bool := x.isNan || y.isNan

/-- `flinteger?` (srfi-144.ss L204-L206); `binary64?` holds of flonums. -/
def flInteger (x : Real) : Bool := x.isInexact && x.isInteger

end Meevax.Number
