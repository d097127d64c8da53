import Mathlib.Data.Rat.Floor
import Mathlib.Data.Int.Log
import Mathlib.Data.Int.Bitwise
import Mathlib.Data.Nat.Digits.Defs

/-
Model of the exact numbers: `small_integer` (small_integer.hpp L24-L25), `large_integer`
(large_integer.hpp, large_integer.cpp), `ratio` (ratio.hpp, ratio.cpp), their operators and the
procedures over them (number.cpp, number.hpp, number/bitwise.cpp, number/nearest_integer.cpp,
number/power.cpp, boot.cpp L186-L269).

Not modelled here: `float`, `double` and `complex` operands, and operands that are not numbers. A
`double` occurs only as the intermediate value of `floor` … `round`, `sqrt` and `expt`; `double`
operands are in `Model/Inexact`.

GMP is modelled by its documentation: `mpz_t` is an unbounded integer, `mpq_t` a pair of integers.
The C++ type `long` has 64 bits.
-/

namespace Meevax.Number

/-- How a call ends.
* `value`: it returns.
* `raised`: a C++ exception is thrown, which the evaluator turns into a Scheme condition.
* `undefined`: undefined behaviour, or the process is killed (GMP and the processor answer a
  division by zero with SIGFPE; meevax installs no signal handler)
(src/kernel/dynamic_environment.cpp L460-L493: the catch clauses). -/
inductive Outcome (α : Type) where
  | value (a : α)
  | raised
  | undefined
  deriving DecidableEq, Repr

/-- Sequencing (auxiliary to src/kernel/boot.cpp L186-L269). -/
def Outcome.bind {α β : Type} (o : Outcome α) (f : α → Outcome β) : Outcome β :=
  match o with
  | .value a => f a
  | .raised => .raised
  | .undefined => .undefined

/-- Sequencing, as above (auxiliary to src/kernel/boot.cpp L186-L269). -/
instance : Monad Outcome where
  pure := .value
  bind := Outcome.bind

/-- `mpq_t`: numerator and denominator (ratio.hpp L25). -/
structure Mpq where
  num : Int
  den : Int
  deriving DecidableEq, Repr

/-- An exact number object: an immediate 32-bit integer, a heap `large_integer`, a heap `ratio`
(number.hpp L583-L597). -/
inductive Num where
  | small (i : Int)
  | large (z : Int)
  | ratio (q : Mpq)
  deriving DecidableEq, Repr

/-! ### Fixed-size integers -/

/-- `i` is a value of `small_integer`, i.e. `std::int32_t` (small_integer.hpp L24). -/
def Fits32 (i : Int) : Prop := -2 ^ 31 ≤ i ∧ i ≤ 2 ^ 31 - 1

/-- The range is decidable (include/meevax/kernel/small_integer.hpp L24). -/
instance (i : Int) : Decidable (Fits32 i) := inferInstanceAs (Decidable (_ ∧ _))

/-- `i` is a value of `widen_integer`, i.e. `std::int64_t` (small_integer.hpp L25). -/
def Fits64 (i : Int) : Prop := -2 ^ 63 ≤ i ∧ i ≤ 2 ^ 63 - 1

/-- The range is decidable (include/meevax/kernel/small_integer.hpp L25). -/
instance (i : Int) : Decidable (Fits64 i) := inferInstanceAs (Decidable (_ ∧ _))

/-- The result of a signed 64-bit operation: overflow is undefined behaviour
(the operators on `widen_integer`, src/kernel/number.cpp L301-L358). -/
def widen (i : Int) : Outcome Int := if Fits64 i then .value i else .undefined

/-- `static_cast<small_integer>` of an integer: the value modulo `2 ^ 32` (include/meevax/kernel/number.hpp L470). -/
def narrow (i : Int) : Int := (i + 2 ^ 31) % 2 ^ 32 - 2 ^ 31

/-- `canonicalize` of a `widen_integer` (number.hpp L465-L475). -/
def canonicalizeInteger (i : Int) : Num := if Fits32 i then .small i else .large i

/-! ### GMP rationals -/

/-- `mpq_canonicalize` (used in ratio.cpp L31, L38, L58, L78): cancels the common factor and makes
the denominator positive. A zero denominator kills the process. -/
def Mpq.canonicalize (q : Mpq) : Outcome Mpq :=
  if q.den = 0 then .undefined
  else
    let g : Int := Int.gcd q.num q.den
    if q.den < 0 then .value ⟨-q.num / g, -q.den / g⟩
    else .value ⟨q.num / g, q.den / g⟩

/-- `ratio(widen_integer)` and `ratio(large_integer const&)` (ratio.cpp L41-L51). -/
def Mpq.ofInteger (n : Int) : Mpq := ⟨n, 1⟩

/-- `mpq_add` (src/kernel/number.cpp L44, L87, L130, L142, L154-L165). -/
def Mpq.add (a b : Mpq) : Outcome Mpq :=
  Mpq.canonicalize ⟨a.num * b.den + b.num * a.den, a.den * b.den⟩

/-- `mpq_sub` (src/kernel/number.cpp L45, L88, L131, L143). -/
def Mpq.sub (a b : Mpq) : Outcome Mpq :=
  Mpq.canonicalize ⟨a.num * b.den - b.num * a.den, a.den * b.den⟩

/-- `mpq_mul` (src/kernel/number.cpp L46, L89, L132, L144). -/
def Mpq.mul (a b : Mpq) : Outcome Mpq :=
  Mpq.canonicalize ⟨a.num * b.num, a.den * b.den⟩

/-- `mpq_div`: a zero divisor kills the process (src/kernel/number.cpp L47, L90, L133, L145). -/
def Mpq.div (a b : Mpq) : Outcome Mpq :=
  Mpq.canonicalize ⟨a.num * b.den, a.den * b.num⟩

/-- The sign `mpq_cmp`, `mpq_cmp_si` and `mpq_cmp_z` return (src/kernel/number.cpp L49-L54, L92-L97, L135-L140). -/
def Mpq.cmp (a b : Mpq) : Int := Int.sign (a.num * b.den - b.num * a.den)

/-- The sign `mpz_cmp` and `mpz_cmp_si` return (src/kernel/number.cpp L37-L42, L68-L73, L80-L85). -/
def mpzCmp (a b : Int) : Int := Int.sign (a - b)

/-- `canonicalize` of a `ratio` (number.hpp L454-L464). -/
def canonicalizeRatio (q : Mpq) : Num := if q.den = 1 then .large q.num else .ratio q

/-- `canonicalize(f(…))` where `f` returns a `ratio` by value; the copy and move constructors
(ratio.cpp L27-L39) canonicalize again, which does not change a canonical value. -/
def returnRatio (o : Outcome Mpq) : Outcome Num := do
  let q ← o
  pure (canonicalizeRatio q)

/-! ### The binary operators -/

/-- `operator +(object const&, object const&)` (number.cpp L301-L305), dispatched by `apply_to`
(number.hpp L517-L540) to `std::plus` on the operand kinds: L33, L44, L63, L75, L87, L130, L142,
L154. -/
def add : Num → Num → Outcome Num
  | .small a, .small b => do pure (canonicalizeInteger (← widen (a + b)))
  | .small a, .large b => .value (.large (a + b))
  | .small a, .ratio b => returnRatio (Mpq.add (Mpq.ofInteger a) b)
  | .large a, .small b => .value (.large (a + b))
  | .large a, .large b => .value (.large (a + b))
  | .large a, .ratio b => returnRatio (Mpq.add (Mpq.ofInteger a) b)
  | .ratio a, .small b => returnRatio (Mpq.add a (Mpq.ofInteger b))
  | .ratio a, .large b => returnRatio (Mpq.add a (Mpq.ofInteger b))
  | .ratio a, .ratio b => returnRatio (Mpq.add a b)

/-- `operator -(object const&, object const&)` (number.cpp L307-L311; L34, L45, L64, L76, L88,
L131, L143, L155). -/
def sub : Num → Num → Outcome Num
  | .small a, .small b => do pure (canonicalizeInteger (← widen (a - b)))
  | .small a, .large b => .value (.large (a - b))
  | .small a, .ratio b => returnRatio (Mpq.sub (Mpq.ofInteger a) b)
  | .large a, .small b => .value (.large (a - b))
  | .large a, .large b => .value (.large (a - b))
  | .large a, .ratio b => returnRatio (Mpq.sub (Mpq.ofInteger a) b)
  | .ratio a, .small b => returnRatio (Mpq.sub a (Mpq.ofInteger b))
  | .ratio a, .large b => returnRatio (Mpq.sub a (Mpq.ofInteger b))
  | .ratio a, .ratio b => returnRatio (Mpq.sub a b)

/-- `operator *(object const&, object const&)` (number.cpp L313-L317; L32, L46, L65, L77, L89,
L132, L144, L156). -/
def mul : Num → Num → Outcome Num
  | .small a, .small b => do pure (canonicalizeInteger (← widen (a * b)))
  | .small a, .large b => .value (.large (a * b))
  | .small a, .ratio b => returnRatio (Mpq.mul (Mpq.ofInteger a) b)
  | .large a, .small b => .value (.large (a * b))
  | .large a, .large b => .value (.large (a * b))
  | .large a, .ratio b => returnRatio (Mpq.mul (Mpq.ofInteger a) b)
  | .ratio a, .small b => returnRatio (Mpq.mul a (Mpq.ofInteger b))
  | .ratio a, .large b => returnRatio (Mpq.mul a (Mpq.ofInteger b))
  | .ratio a, .ratio b => returnRatio (Mpq.mul a b)

/-- `ratio(large_integer const&, large_integer const&)` (ratio.cpp L53-L59). -/
def Mpq.make (n d : Int) : Outcome Mpq := Mpq.canonicalize ⟨n, d⟩

/-- `operator /(object const&, object const&)` (number.cpp L319-L338; L35, L47, L66, L78, L90,
L133, L145, L157). Two fixnums give `make<ratio>`, an `object`, which `canonicalize` (number.hpp
L439-L443) leaves alone: the result is a `ratio` even when the denominator is 1. -/
def div : Num → Num → Outcome Num
  | .small a, .small b => do pure (.ratio (← Mpq.make a b))
  | .small a, .large b => returnRatio (Mpq.make a b)
  | .small a, .ratio b => returnRatio (Mpq.div (Mpq.ofInteger a) b)
  | .large a, .small b => returnRatio (Mpq.make a b)
  | .large a, .large b => returnRatio (Mpq.make a b)
  | .large a, .ratio b => returnRatio (Mpq.div (Mpq.ofInteger a) b)
  | .ratio a, .small b => returnRatio (Mpq.div a (Mpq.ofInteger b))
  | .ratio a, .large b => returnRatio (Mpq.div a (Mpq.ofInteger b))
  | .ratio a, .ratio b => returnRatio (Mpq.div a b)

/-- `%` of two `widen_integer`s: the remainder of truncating division; a zero divisor, and the
overflowing quotient of `INT64_MIN / -1`, are undefined (src/kernel/number.cpp L353). -/
def widenRem (a b : Int) : Outcome Int :=
  if b = 0 then .undefined
  else if Fits64 (Int.tdiv a b) then .value (Int.tmod a b) else .undefined

/-- `mpz_tdiv_r` (number.cpp L79): a zero divisor kills the process. -/
def mpzTdivR (a b : Int) : Outcome Int := if b = 0 then .undefined else .value (Int.tmod a b)

/-- `operator %(object const&, object const&)` (number.cpp L340-L358; L36, L48, L67, L79, L91,
L134, L146, L158). -/
def rem : Num → Num → Outcome Num
  | .small a, .small b => do pure (canonicalizeInteger (← widenRem a b))
  | .small a, .large b => do pure (.large (← mpzTdivR a b))
  | .large a, .small b => do pure (.large (← mpzTdivR a b))
  | .large a, .large b => do pure (.large (← mpzTdivR a b))
  | .small _, .ratio _ => .raised
  | .large _, .ratio _ => .raised
  | .ratio _, .small _ => .raised
  | .ratio _, .large _ => .raised
  | .ratio _, .ratio _ => .raised

/-! ### Comparison -/

/-- `equals` (number.cpp L499-L502): `test<complex_numbers>(inexact_equals, …)`, which on exact
operands is `==` (number.hpp L314-L337; number.cpp L37, L49, L68, L80, L92, L135, L147, L159). -/
def equals : Num → Num → Bool
  | .small a, .small b => a == b
  | .small a, .large b => 0 == mpzCmp b a
  | .small a, .ratio b => 0 == Mpq.cmp b (Mpq.ofInteger a)
  | .large a, .small b => mpzCmp a b == 0
  | .large a, .large b => mpzCmp a b == 0
  | .large a, .ratio b => 0 == Mpq.cmp b (Mpq.ofInteger a)
  | .ratio a, .small b => Mpq.cmp a (Mpq.ofInteger b) == 0
  | .ratio a, .large b => Mpq.cmp a (Mpq.ofInteger b) == 0
  | .ratio a, .ratio b => Mpq.cmp a b == 0

/-- `less_than` (number.cpp L514-L517): `<` (L39, L51, L70, L82, L94, L137, L149, L161). -/
def lessThan : Num → Num → Bool
  | .small a, .small b => decide (a < b)
  | .small a, .large b => decide (0 < mpzCmp b a)
  | .small a, .ratio b => decide (0 < Mpq.cmp b (Mpq.ofInteger a))
  | .large a, .small b => decide (mpzCmp a b < 0)
  | .large a, .large b => decide (mpzCmp a b < 0)
  | .large a, .ratio b => decide (0 < Mpq.cmp b (Mpq.ofInteger a))
  | .ratio a, .small b => decide (Mpq.cmp a (Mpq.ofInteger b) < 0)
  | .ratio a, .large b => decide (Mpq.cmp a (Mpq.ofInteger b) < 0)
  | .ratio a, .ratio b => decide (Mpq.cmp a b < 0)

/-- `greater_than` (number.cpp L524-L527): `>` (L41, L53, L72, L84, L96, L139, L151, L163). -/
def greaterThan : Num → Num → Bool
  | .small a, .small b => decide (a > b)
  | .small a, .large b => decide (0 > mpzCmp b a)
  | .small a, .ratio b => decide (0 > Mpq.cmp b (Mpq.ofInteger a))
  | .large a, .small b => decide (mpzCmp a b > 0)
  | .large a, .large b => decide (mpzCmp a b > 0)
  | .large a, .ratio b => decide (0 > Mpq.cmp b (Mpq.ofInteger a))
  | .ratio a, .small b => decide (Mpq.cmp a (Mpq.ofInteger b) > 0)
  | .ratio a, .large b => decide (Mpq.cmp a (Mpq.ofInteger b) > 0)
  | .ratio a, .ratio b => decide (Mpq.cmp a b > 0)

/-- `not_equals` (number.cpp L509-L512). -/
def notEquals (x y : Num) : Bool := !equals x y

/-- `less_than_or_equals` (number.cpp L519-L522). -/
def lessThanOrEquals (x y : Num) : Bool := !greaterThan x y

/-- `greater_than_or_equals` (number.cpp L529-L532). -/
def greaterThanOrEquals (x y : Num) : Bool := !lessThan x y

/-- `std::ranges::adjacent_find(xs, p) == std::ranges::end(xs)` (boot.cpp L196-L200): no two
neighbours satisfy `p`. -/
def noAdjacent (p : Num → Num → Bool) : List Num → Bool
  | [] => true
  | [_] => true
  | x :: y :: rest => !p x y && noAdjacent p (y :: rest)

/-- `=` (boot.cpp L196). -/
def numEq (xs : List Num) : Bool := noAdjacent notEquals xs
/-- `<` (boot.cpp L197). -/
def numLt (xs : List Num) : Bool := noAdjacent greaterThanOrEquals xs
/-- `<=` (boot.cpp L198). -/
def numLe (xs : List Num) : Bool := noAdjacent greaterThan xs
/-- `>` (boot.cpp L199). -/
def numGt (xs : List Num) : Bool := noAdjacent lessThanOrEquals xs
/-- `>=` (boot.cpp L200). -/
def numGe (xs : List Num) : Bool := noAdjacent lessThan xs

/-- The loop of `std::ranges::max_element`: the candidate is replaced when it is less than the next
element (src/kernel/boot.cpp L206). -/
def maxLoop (best : Num) : List Num → Num
  | [] => best
  | y :: ys => maxLoop (if lessThan best y then y else best) ys

/-- The loop of `std::ranges::min_element` (src/kernel/boot.cpp L207). -/
def minLoop (best : Num) : List Num → Num
  | [] => best
  | y :: ys => minLoop (if lessThan y best then y else best) ys

/-- `max` (boot.cpp L206); no argument gives the unspecified value, here `none`. No exact number is
inexact, so `any_of(is_inexact)` is false. -/
def max : List Num → Option Num
  | [] => none
  | x :: xs => some (maxLoop x xs)

/-- `min` (boot.cpp L207). -/
def min : List Num → Option Num
  | [] => none
  | x :: xs => some (minLoop x xs)

/-- `is_zero` (number.cpp L728-L731); `e0` is the fixnum 0 (large_integer.cpp L25). -/
def isZero (x : Num) : Bool := equals x (.small 0)
/-- `is_positive` (number.cpp L733-L736). -/
def isPositive (x : Num) : Bool := lessThan (.small 0) x
/-- `is_negative` (number.cpp L738-L741). -/
def isNegative (x : Num) : Bool := lessThan x (.small 0)

/-! ### Variadic arithmetic -/

/-- `fold_left(xs, init, f)` (boot.cpp L208-L217). -/
def foldLeft (f : Num → Num → Outcome Num) (init : Num) : List Num → Outcome Num
  | [] => .value init
  | x :: xs => do foldLeft f (← f init x) xs

/-- `+` (boot.cpp L208). -/
def plus (xs : List Num) : Outcome Num := foldLeft add (.small 0) xs
/-- `*` (boot.cpp L209). -/
def times (xs : List Num) : Outcome Num := foldLeft mul (.small 1) xs
/-- `-` (boot.cpp L210): `cdr(xs)` of no arguments raises. -/
def minus : List Num → Outcome Num
  | [] => .raised
  | [x] => sub (.small 0) x
  | x :: y :: rest => foldLeft sub x (y :: rest)
/-- `/` (boot.cpp L211). -/
def divide : List Num → Outcome Num
  | [] => .raised
  | [x] => div (.small 1) x
  | x :: y :: rest => foldLeft div x (y :: rest)

/-- `abs` (number.cpp L753-L782). -/
def abs : Num → Outcome Num
  | .small a => do pure (canonicalizeInteger (← widen |a|))
  | .large a => .value (.large |a|)
  | .ratio q =>
    if Mpq.cmp q (Mpq.ofInteger 0) < 0 then returnRatio (Mpq.sub (Mpq.ofInteger 0) q)
    else .value (canonicalizeRatio q)

/-- `numerator` (number.cpp L865-L879). -/
def numerator : Num → Num
  | .ratio q => .large q.num
  | x => x

/-- `denominator` (number.cpp L881-L899). -/
def denominator : Num → Num
  | .ratio q => .large q.den
  | _ => .small 1

/-- `exact-integer?` (number.cpp L668-L677). -/
def isExactInteger : Num → Bool
  | .ratio _ => false
  | _ => true

/-- `integer?` (number.cpp L621-L644). -/
def isInteger : Num → Bool
  | .ratio q => q.den == 1
  | _ => true

/-! ### Rounding to an integer: through a double -/

/-- A finite binary64 value, as a rational (src/kernel/number/nearest_integer.cpp L32). -/
abbrev Double := ℚ

/-- The spacing of the binary64 values with the magnitude of `x`: 53 significant bits, and never
finer than the least subnormal (of the `double` at src/kernel/number/nearest_integer.cpp L32). -/
def ulp (x : ℚ) : ℚ := 2 ^ (Max.max (Int.log 2 |x| - 52) (-1074))

/-- The rational an `mpq_t` stands for (include/meevax/kernel/ratio.hpp L52). -/
def Mpq.val (q : Mpq) : ℚ := q.num / q.den

/-- `mpq_get_d` (ratio.hpp L52): "truncating if necessary (i.e. rounding towards zero)". `none` is
infinity, given for values too big for a double. -/
def mpqGetD (q : Mpq) : Option Double :=
  let x := q.val
  if x = 0 then some 0
  else if 2 ^ 1024 ≤ |x| then none
  else if x < 0 then some (-(ulp x * ⌊|x| / ulp x⌋))
  else some (ulp x * ⌊|x| / ulp x⌋)

/-- `std::floor` (src/kernel/number/nearest_integer.cpp L21-L46). -/
def stdFloor (x : Double) : Int := ⌊x⌋
/-- `std::ceil` (src/kernel/number/nearest_integer.cpp L21-L46). -/
def stdCeil (x : Double) : Int := ⌈x⌉
/-- `std::trunc` (src/kernel/number/nearest_integer.cpp L21-L46). -/
def stdTrunc (x : Double) : Int := if x < 0 then -⌊|x|⌋ else ⌊|x|⌋
/-- `std::round`: halfway cases away from zero (src/kernel/number/nearest_integer.cpp L21-L46). -/
def stdRound (x : Double) : Int := if x < 0 then -⌊|x| + 1 / 2⌋ else ⌊|x| + 1 / 2⌋

/-- `floor`, `ceiling`, `truncate`, `round` (nearest_integer.cpp L21-L46): integers are returned as
they are, a ratio becomes a double and then a `large_integer`; `mpz_init_set_d` (large_integer.hpp
L49) of an infinity kills the process. -/
def nearest (f : Double → Int) : Num → Outcome Num
  | .small a => .value (canonicalizeInteger a)
  | .large a => .value (.large a)
  | .ratio q =>
    match mpqGetD q with
    | some x => .value (.large (f x))
    | none => .undefined

/-- nearest_integer.cpp L48. -/
def floor : Num → Outcome Num := nearest stdFloor
/-- nearest_integer.cpp L49. -/
def ceiling : Num → Outcome Num := nearest stdCeil
/-- nearest_integer.cpp L50. -/
def truncate : Num → Outcome Num := nearest stdTrunc
/-- nearest_integer.cpp L51. -/
def round : Num → Outcome Num := nearest stdRound

/-! ### Integer division -/

/-- `quotient` (number.cpp L784-L787). -/
def quotient (x y : Num) : Outcome Num := do truncate (← div x y)

/-- `remainder` (number.cpp L789-L792). -/
def remainder (x y : Num) : Outcome Num := rem x y

/-- `modulo` (number.cpp L794-L797). -/
def modulo (x y : Num) : Outcome Num := do rem (← add (← rem x y) y) y

/-- `is_even` (number.cpp L748-L751). -/
def isEven (x : Num) : Outcome Bool := do pure (isZero (← remainder x (.small 2)))
/-- `is_odd` (number.cpp L743-L746). -/
def isOdd (x : Num) : Outcome Bool := do pure (!(← isEven x))

/-- `gcd` of two numbers (number.cpp L799-L802), cut off after `fuel` calls (`undefined`: the call
does not return). -/
def gcdFuel : Nat → Num → Num → Outcome Num
  | 0, _, _ => .undefined
  | fuel + 1, x, y => if isZero y then abs x else do gcdFuel fuel y (← remainder x y)

/-- The absolute value of the integer an exact integer object holds, the measure of the recursion in
`gcd` (auxiliary to src/kernel/number.cpp L799-L802). -/
def magnitude : Num → Nat
  | .small a => a.natAbs
  | .large a => a.natAbs
  | .ratio q => q.num.natAbs

/-- `gcd` of two numbers (number.cpp L799-L802). The second argument shrinks in every call, so
`magnitude y + 1` calls suffice. -/
def gcd2 (x y : Num) : Outcome Num := gcdFuel (magnitude y + 1) x y

/-- `lcm` of two numbers (number.cpp L804-L807). -/
def lcm2 (x y : Num) : Outcome Num := do
  let product ← mul x y
  let divisor ← gcd2 x y
  abs (← quotient product divisor)

/-- `gcd` (boot.cpp L216). -/
def gcd : List Num → Outcome Num
  | [] => .value (.small 0)
  | [x] => .value x
  | x :: xs => foldLeft gcd2 x xs

/-- `lcm` (boot.cpp L217). -/
def lcm : List Num → Outcome Num
  | [] => .value (.small 1)
  | [x] => .value x
  | x :: xs => foldLeft lcm2 x xs

/-! ### Bits -/

/-- An operation on the bits of `std::int64_t` (bitwise.cpp L34, L71). -/
def onWord (f : BitVec 64 → BitVec 64 → BitVec 64) (a b : Int) : Int :=
  (f (BitVec.ofInt 64 a) (BitVec.ofInt 64 b)).toInt

/-- `bitwise_not` (bitwise.cpp L21-L38); `mpz_com` is the one's complement. -/
def bitwiseNot : Num → Outcome Num
  | .small a => .value (canonicalizeInteger (~~~ BitVec.ofInt 64 a).toInt)
  | .large a => .value (.large (Int.lnot a))
  | .ratio _ => .raised

/-- `DEFINE_BITWISE2` (bitwise.cpp L40-L76). -/
def bitwise (word : BitVec 64 → BitVec 64 → BitVec 64) (mpz : Int → Int → Int) :
    Num → Num → Outcome Num
  | .small a, .small b => .value (canonicalizeInteger (onWord word a b))
  | .small a, .large b => .value (.large (mpz a b))
  | .large a, .small b => .value (.large (mpz a b))
  | .large a, .large b => .value (.large (mpz a b))
  | .ratio _, _ => .raised
  | _, .ratio _ => .raised

/-- bitwise.cpp L78; `mpz_and` acts on two's complement. -/
def and2 : Num → Num → Outcome Num := bitwise (· &&& ·) Int.land
/-- bitwise.cpp L79. -/
def ior2 : Num → Num → Outcome Num := bitwise (· ||| ·) Int.lor
/-- bitwise.cpp L80. -/
def xor2 : Num → Num → Outcome Num := bitwise (· ^^^ ·) Int.xor

/-- `bitwise-and` (boot.cpp L261). -/
def bitwiseAnd (xs : List Num) : Outcome Num := foldLeft and2 (.small (-1)) xs
/-- `bitwise-ior` (boot.cpp L262). -/
def bitwiseIor (xs : List Num) : Outcome Num := foldLeft ior2 (.small 0) xs
/-- `bitwise-xor` (boot.cpp L263). -/
def bitwiseXor (xs : List Num) : Outcome Num := foldLeft xor2 (.small 0) xs

/-- `bit_shift` (bitwise.cpp L82-L132); `c` is a `small_integer`. `-c` overflows for the least
`small_integer`; `x >> n` is undefined for `n ≥ 64` ([expr.shift]); `x << n` is the product modulo
`2 ^ 64` in C++20, here computed as such. `mpz_fdiv_q_2exp` rounds towards minus infinity. -/
def bitShift (x : Num) (c : Int) : Outcome Num :=
  match x with
  | .large a =>
    if c < 0 then
      if -c ≤ 2 ^ 31 - 1 then .value (.large (a / 2 ^ (-c).toNat)) else .undefined
    else if c = 0 then .value (.large a)
    else .value (.large (a * 2 ^ c.toNat))
  | .small a =>
    if c < 0 then
      if -c < 64 then .value (canonicalizeInteger (a / 2 ^ (-c).toNat)) else .undefined
    else if c = 0 then .value (canonicalizeInteger a)
    else if 64 ≤ c ∨ a < (-2 ^ 63) / 2 ^ c.toNat ∨ (2 ^ 63 - 1) / 2 ^ c.toNat < a then
      .value (.large (a * 2 ^ c.toNat))
    else .value (canonicalizeInteger (BitVec.ofInt 64 a <<< c.toNat).toInt)
  | .ratio _ => .raised

/-- `exact_integer_cast<small_integer>` (number.hpp L340-L358). `mpz_get_si` keeps the low 63 bits
of the magnitude and the sign, and the conversion to 32 bits the low 32 bits of that, which together
is the value modulo `2 ^ 32`. A ratio goes through a double, whose conversion to an `int` is
undefined out of range. -/
def castSmall : Num → Outcome Int
  | .small a => .value a
  | .large a => .value (narrow a)
  | .ratio q =>
    match mpqGetD q with
    | some x => if Fits32 (stdTrunc x) then .value (stdTrunc x) else .undefined
    | none => .undefined

/-- `bit-shift` (boot.cpp L264), exported by (srfi 151) as `arithmetic-shift` (srfi-151.ss L63). -/
def arithmeticShift (x k : Num) : Outcome Num := do bitShift x (← castSmall k)

/-- The number of ones in the binary notation of `n`: `std::popcount`, `mpz_popcount`
(src/kernel/number/bitwise.cpp L144, L148, L153). -/
def popcount (n : Nat) : Nat := (Nat.digits 2 n).sum

/-- `bit_count` (bitwise.cpp L134-L158). -/
def bitCount : Num → Outcome Num
  | .large a =>
    if a < 0 then .value (.small (narrow (popcount (Int.lnot a).toNat)))
    else .value (.small (narrow (popcount a.toNat)))
  | .small a =>
    let word := BitVec.ofInt 64 a
    .value (.small (narrow (popcount (if a < 0 then ~~~ word else word).toNat)))
  | .ratio _ => .raised

/-- `mpz_sizeinbase(i, 2)`: the number of binary digits of a positive value, and 1 for zero
(src/kernel/number/bitwise.cpp L170, L178). -/
def mpzSizeinbase2 (n : Nat) : Nat := if n = 0 then 1 else Nat.log 2 n + 1

/-- `64 - std::countl_zero(w)`: the number of binary digits, 0 for zero (src/kernel/number/bitwise.cpp L185, L193). -/
def width64 (w : BitVec 64) : Nat := if w.toNat = 0 then 0 else Nat.log 2 w.toNat + 1

/-- `bit_width` (bitwise.cpp L160-L198), exported by (srfi 151) as `integer-length`
(srfi-151.ss L65). -/
def bitWidth : Num → Outcome Num
  | .large a =>
    if a < 0 then .value (canonicalizeInteger (mpzSizeinbase2 (Int.lnot a).toNat))
    else if a = 0 then .value (canonicalizeInteger 0)
    else .value (canonicalizeInteger (mpzSizeinbase2 a.toNat))
  | .small a =>
    if a < 0 then .value (canonicalizeInteger (width64 (~~~ BitVec.ofInt 64 a)))
    else if a = 0 then .value (canonicalizeInteger a)
    else .value (canonicalizeInteger (width64 (BitVec.ofInt 64 a)))
  | .ratio _ => .raised

/-! ### Roots and powers -/

/-- The C library functions used on doubles. `none` is an infinity or a NaN
(src/kernel/number/power.cpp L67, L92, L107). -/
structure Libm where
  /-- `std::sqrt`. -/
  sqrt : Double → Option Double
  /-- `std::pow`. -/
  pow : Double → Double → Option Double

/-- `large_integer::sqrt` (large_integer.cpp L91-L96): `mpz_rootrem` by 2 kills the process on a
negative number. -/
def mpzRootrem (n : Int) : Outcome (Int × Int) :=
  if n < 0 then .undefined
  else .value (Nat.sqrt n.toNat, n - Nat.sqrt n.toNat * Nat.sqrt n.toNat)

/-- `exact-integer-square-root` (boot.cpp L239), the two values of `exact-integer-sqrt`
(r7rs.ss L164-L167). `x.as<large_integer>()` of a ratio raises. -/
def exactIntegerSqrt : Num → Outcome (Num × Num)
  | .small a => do
    let (s, r) ← mpzRootrem a
    pure (.large s, .large r)
  | .large a => do
    let (s, r) ← mpzRootrem a
    pure (.large s, .large r)
  | .ratio _ => .raised

/-- What `sqrt` returns: an exact number, an inexact real, or either of them times the imaginary
unit (src/kernel/number/power.cpp L86-L115). -/
inductive Root where
  | exact (x : Num)
  | inexact (x : Option Double)
  | imaginary (r : Root)

/-- `mpz_get_d`, which truncates like `mpq_get_d` (include/meevax/kernel/large_integer.hpp L74). -/
def mpzGetD (z : Int) : Option Double := mpqGetD (Mpq.ofInteger z)

/-- The inner `sqrt` of a fixnum (power.cpp L90-L102): the argument is at most `2 ^ 31`; `i * i` is
an `int` product. -/
def sqrtSmall (m : Libm) (x : Int) : Outcome Root :=
  match m.sqrt x with
  | none => .undefined
  | some s =>
    if Fits32 (stdTrunc s) ∧ Fits32 (stdTrunc s * stdTrunc s) then
      if stdTrunc s * stdTrunc s = x then .value (.exact (.small (stdTrunc s)))
      else .value (.inexact (some s))
    else .undefined

/-- The inner `sqrt` of a `large_integer` (power.cpp L103-L108). -/
def sqrtLarge (m : Libm) (x : Int) : Outcome Root := do
  let (s, r) ← mpzRootrem x
  if r = 0 then pure (.exact (.large s))
  else
    match (mpzGetD x).bind m.sqrt with
    | some d => pure (.exact (.large (stdTrunc d)))
    | none => .undefined

/-- The inner `sqrt` of a ratio (power.cpp L109-L112). -/
def sqrtRatio (m : Libm) (x : Mpq) : Outcome Root := .value (.inexact ((mpqGetD x).bind m.sqrt))

/-- `sqrt` (power.cpp L75-L120). -/
def sqrt (m : Libm) : Num → Outcome Root
  | .small a =>
    if a < 0 then do pure (.imaginary (← sqrtSmall m (0 - a))) else sqrtSmall m a
  | .large a =>
    if a < 0 then do pure (.imaginary (← sqrtLarge m (0 - a))) else sqrtLarge m a
  | .ratio q =>
    if Mpq.cmp q (Mpq.ofInteger 0) < 0 then do
      pure (.imaginary (← sqrtRatio m (← Mpq.sub (Mpq.ofInteger 0) q)))
    else sqrtRatio m q

/-- What `expt` of exact numbers returns (src/kernel/number/power.cpp L46-L70). -/
inductive Power where
  | exact (x : Num)
  | inexact (x : Option Double)

/-- `expt` (boot.cpp L240) is `pow` (power.cpp L21-L73): two fixnums go through `std::pow`, whose
result is converted to an integer; `static_cast<unsigned long>` of a `large_integer` is
`mpz_get_ui`, the low 64 bits of the magnitude; all other combinations give a double. -/
def expt (m : Libm) : Num → Num → Outcome Power
  | .small a, .small b =>
    match m.pow a b with
    | none => .undefined
    | some r =>
      if -2 ^ 31 ≤ r ∧ r ≤ 2 ^ 31 - 1 then .value (.exact (.small (stdTrunc r)))
      else .value (.exact (.large (stdTrunc r)))
  | .large a, .large b => .value (.exact (.large (a ^ (b.natAbs % 2 ^ 64))))
  | .small a, .large b => .value (.inexact ((mpzGetD b).bind (m.pow a)))
  | .large a, .small b => .value (.inexact ((mpzGetD a).bind (m.pow · b)))
  | .ratio a, .small b => .value (.inexact ((mpqGetD a).bind (m.pow · b)))
  | .ratio a, .large b =>
    .value (.inexact ((mpqGetD a).bind fun x => (mpzGetD b).bind (m.pow x)))
  | .small a, .ratio b => .value (.inexact ((mpqGetD b).bind (m.pow a)))
  | .large a, .ratio b =>
    .value (.inexact ((mpzGetD a).bind fun x => (mpqGetD b).bind (m.pow x)))
  | .ratio a, .ratio b =>
    .value (.inexact ((mpqGetD a).bind fun x => (mpqGetD b).bind (m.pow x)))

end Meevax.Number
