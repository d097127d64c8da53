import Verif.Model.Homogeneous

/-
Model of the numbers of single precision: the `float` objects a literal with the exponent marker `f`
and the f32vectors of SRFI 4 give (homogeneous_vector.hpp, boot.cpp L65, L403-L418), and the
`float` operands of the operators and comparisons of number.cpp L99-L109, L166-L176, L197-L219,
L301-L358, L499-L532.

A `float` is a binary32 datum and its arithmetic is that of IEEE 754, rounding to nearest, ties to
even. The standard leaves the conversion of a `double` beyond the range of `float` undefined; here
it is that of IEEE 754, an infinity. Not modelled: complex operands, the payload of a NaN.
-/

namespace Meevax.Single
open Meevax.Number Meevax.Seq Meevax.Homogeneous

/-- The spacing of the binary32 values with the magnitude of `x`: 24 significant bits, and never
finer than the least subnormal (of the `float` at include/meevax/kernel/homogeneous_vector.hpp L119). -/
def ulp (x : ℚ) : ℚ := 2 ^ (Max.max (Int.log 2 |x| - 23) (-149))

/-- Rounding to binary32, to nearest, ties to even. `zero` is the sign of an exact zero. The result
is a datum of binary32, written like one of binary64
(the arithmetic of src/kernel/number.cpp L99-L102, L197-L200). -/
def roundEven (zero : Bool) (x : ℚ) : Flo :=
  if x = 0 then .finite zero 0
  else
    let n := ⌊|x| / ulp x⌋
    let r := |x| / ulp x - n
    let m := if r < 1 / 2 ∨ (r = 1 / 2 ∧ n % 2 = 0) then n else n + 1
    if 2 ^ 128 ≤ ulp x * m then .inf (decide (x < 0)) else .finite (decide (x < 0)) (ulp x * m)

/-! ### Conversions -/

/-- `static_cast<float>` of a `double` (homogeneous_vector.hpp L63; the return statements of
large_integer.hpp L74 and ratio.hpp L53). -/
def ofDouble : Flo → Flo
  | .finite s m => roundEven s (signed s m)
  | .inf s => .inf s
  | .nan => .nan

/-- `static_cast<float>` of a fixnum (homogeneous_vector.hpp L63), and the conversion of a
`widen_integer` beside a `float` operand. -/
def ofFixnum (i : Int) : Flo := roundEven false i

/-- `static_cast<float>` of a `large_integer` (large_integer.hpp L69-L75): `mpz_get_d`, and the
conversion of its result. -/
def ofLarge (z : Int) : Flo := ofDouble (castLarge z)

/-- `static_cast<float>` of a `ratio` (ratio.hpp L50-L54): `mpq_get_d`, and the conversion of its
result. -/
def ofRatio (q : Mpq) : Flo := ofDouble (castRatio q)

/-- `static_cast<float>` of an exact number (src/kernel/number.cpp L99-L102, L166-L169). -/
def ofNum : Num → Flo
  | .small i => ofFixnum i
  | .large z => ofLarge z
  | .ratio q => ofRatio q

/-- A real number object: exact or a `double` (`Real`), or a `float` (number.hpp L591). -/
inductive Wide where
  | real (x : Real)
  | single (d : Flo)
  deriving DecidableEq

/-- `binary32?` (boot.cpp L65). -/
def isBinary32 : Wide → Bool
  | .single _ => true
  | .real _ => false

/-! ### f32vectors -/

/-- `homogeneous_vector<float>::input_cast` (homogeneous_vector.hpp L57-L70). -/
def inputF32 : Wide → Outcome Flo
  | .real (.exact (.small i)) => .value (ofFixnum i)
  | .real (.exact (.large z)) => .value (ofLarge z)
  | .single d => .value d
  | .real (.flo d) => .value (ofDouble d)
  | .real (.exact (.ratio _)) => .raised

/-- `homogeneous_vector<double>::input_cast` (homogeneous_vector.hpp L57-L70), with `float` operands. -/
def inputF64 : Wide → Outcome Flo
  | .real x => Homogeneous.inputF64 x
  | .single d => .value d

/-- `homogeneous_vector<T>::input_cast` (homogeneous_vector.hpp L57-L70) for an integer type, with
`float` operands. -/
def inputInt (signed : Bool) (bits : Nat) : Wide → Outcome Int
  | .real x => Homogeneous.inputInt signed bits x
  | .single d => castDouble signed bits d

/-- The constructor from a list (homogeneous_vector.hpp L38-L49). -/
def inputAll : List Wide → Outcome (List Flo)
  | [] => .value []
  | x :: xs => do
    let y ← inputF32 x
    let ys ← inputAll xs
    .value (y :: ys)

/-- `f32vector` (boot.cpp L406) and `list->f32vector` (boot.cpp L414). -/
def ofList (σ : Store Flo) (xs : List Wide) : Outcome (Nat × Store Flo) := do
  let ys ← inputAll xs
  .value (allocate σ ys)

/-- `make-f32vector` (boot.cpp L405). -/
def make (σ : Store Flo) (k : Num) (fill : Option Wide) : Outcome (Nat × Store Flo) := do
  let x ← match fill with
    | none => .value (.finite false 0)
    | some x => inputF32 x
  let k ← sizeCast k
  .value (allocate σ (List.replicate k x))

/-- `f32vector-ref` (boot.cpp L408): a `float` object (homogeneous_vector.hpp L72-L75). -/
def ref (σ : Store Flo) (a : Nat) (k : Num) : Outcome Wide := do
  let x ← vectorRef σ a k
  .value (.single x)

/-- `f32vector-set!` (boot.cpp L409). -/
def set (σ : Store Flo) (a : Nat) (k : Num) (x : Wide) : Outcome (Store Flo) := do
  let y ← inputF32 x
  vectorSet σ a k y

/-- `f32vector->list` (boot.cpp L413). -/
def toList (σ : Store Flo) (a : Nat) (range : List Num) : Outcome (List Wide) := do
  let ys ← u8vectorToList σ a range
  .value (ys.map .single)

/-! ### Arithmetic -/

/-- `x + y` of two `float`s (src/kernel/number.cpp L99, L301-L305). -/
def add : Flo → Flo → Flo
  | .finite s m, .finite t n => roundEven (s && t) (signed s m + signed t n)
  | x, y => x.add y

/-- `x - y` of two `float`s (src/kernel/number.cpp L100, L307-L311). -/
def sub (x y : Flo) : Flo := add x y.neg

/-- `x * y` of two `float`s (src/kernel/number.cpp L101, L313-L317). -/
def mul : Flo → Flo → Flo
  | .finite s m, .finite t n => roundEven (s != t) (signed s m * signed t n)
  | x, y => x.mul y

/-- `x / y` of two `float`s (src/kernel/number.cpp L102, L319-L338). -/
def div : Flo → Flo → Flo
  | .finite s m, .finite t n =>
    if n = 0 then Flo.div (.finite s m) (.finite t n)
    else roundEven (s != t) (signed s m / signed t n)
  | x, y => x.div y

/-- `apply_to<complex_numbers>` (number.hpp L517-L538) with an operator on each of the types: beside
a `float` an exact number becomes a `float` (number.cpp L99-L102, L166-L169, L197-L200, L209-L212),
beside a `double` a `float` becomes a `double`. -/
def lift (f : Real → Real → Outcome Real) (g h : Flo → Flo → Flo) : Wide → Wide → Outcome Wide
  | .real x, .real y => do pure (.real (← f x y))
  | .single x, .single y => .value (.single (g x y))
  | .single x, .real (.flo y) => .value (.real (.flo (h x y)))
  | .real (.flo x), .single y => .value (.real (.flo (h x y)))
  | .single x, .real (.exact y) => .value (.single (g x (ofNum y)))
  | .real (.exact x), .single y => .value (.single (g (ofNum x) y))

/-- `+` of two numbers (number.cpp L301-L305). -/
def Wide.add : Wide → Wide → Outcome Wide := lift Real.add Single.add Flo.add
/-- `-` of two numbers (number.cpp L307-L311). -/
def Wide.sub : Wide → Wide → Outcome Wide := lift Real.sub Single.sub Flo.sub
/-- `*` of two numbers (number.cpp L313-L317). -/
def Wide.mul : Wide → Wide → Outcome Wide := lift Real.mul Single.mul Flo.mul
/-- `/` of two numbers (number.cpp L319-L338). -/
def Wide.div : Wide → Wide → Outcome Wide := lift Real.div Single.div Flo.div

/-- `%` (number.cpp L340-L358). `std::fmod` of two `float`s is a `float`; of a `float` and a `double` or
an integer, which counts as a `double`, it is a `double`. Beside the other exact numbers it is
`std::remainder` of two `float`s (L103, L170, L201, L213). -/
def Wide.rem : Wide → Wide → Outcome Wide
  | .real x, .real y => do pure (.real (← x.rem y))
  | .single x, .single y => .value (.single (x.fmod y))
  | .single x, .real (.flo y) => .value (.real (.flo (x.fmod y)))
  | .real (.flo x), .single y => .value (.real (.flo (x.fmod y)))
  | .single x, .real (.exact (.small b)) => .value (.real (.flo (x.fmod (castFixnum b))))
  | .single x, .real (.exact (.large b)) => .value (.single (x.remainder (ofLarge b)))
  | .single x, .real (.exact (.ratio b)) => .value (.single (x.remainder (ofRatio b)))
  | .real (.exact (.small a)), .single y => .value (.real (.flo ((castFixnum a).fmod y)))
  | .real (.exact (.large a)), .single y => .value (.single ((ofLarge a).remainder y))
  | .real (.exact (.ratio a)), .single y => .value (.single ((ofRatio a).remainder y))

/-- `remainder` (number.cpp L789-L792). -/
def Wide.remainder (x y : Wide) : Outcome Wide := x.rem y

/-- `modulo` (number.cpp L794-L797). -/
def Wide.modulo (x y : Wide) : Outcome Wide := do Wide.rem (← Wide.add (← x.rem y) y) y

/-- `floor`, `ceiling`, `truncate`, `round` (src/kernel/number/nearest_integer.cpp L21-L46): the functions of
the C library on a `float` give a `float`. -/
def Wide.nearest (f : Number.Double → Int) : Wide → Outcome Wide
  | .real x => do pure (.real (← x.nearest f))
  | .single d => .value (.single (d.nearest f))

/-- nearest_integer.cpp L48. -/
def Wide.floor : Wide → Outcome Wide := Wide.nearest Number.stdFloor
/-- nearest_integer.cpp L49. -/
def Wide.ceiling : Wide → Outcome Wide := Wide.nearest Number.stdCeil
/-- nearest_integer.cpp L50. -/
def Wide.truncate : Wide → Outcome Wide := Wide.nearest Number.stdTrunc
/-- nearest_integer.cpp L51. -/
def Wide.round : Wide → Outcome Wide := Wide.nearest Number.stdRound

/-- `quotient` (number.cpp L784-L787). -/
def Wide.quotient (x y : Wide) : Outcome Wide := do Wide.truncate (← x.div y)

/-- `abs` (number.cpp L753-L782). -/
def Wide.abs : Wide → Outcome Wide
  | .real x => do pure (.real (← x.abs))
  | .single d => .value (.single d.abs)

/-! ### Comparison -/

/-- `inexact_equals` of two `float`s (number.hpp L315-L332): the tolerance is
`std::numeric_limits<float>::epsilon()`. -/
def inexactEquals (x y : Flo) : Bool :=
  if x.isNan && y.isNan then true
  else if x.isInf || y.isInf then x.eq y
  else (sub x y).abs.le (.finite false (1 / 2 ^ 23))

/-- `equals` (number.cpp L499-L502; `==` of number.cpp L104, L171, L202, L214, and of the language
for a `widen_integer` and a `float`). With a `double` the difference is a `double`. -/
def Wide.equals : Wide → Wide → Outcome Bool
  | .real x, .real y => x.equals y
  | .single x, .single y => .value (Single.inexactEquals x y)
  | .single x, .real (.flo y) => .value (Number.inexactEquals x y)
  | .real (.flo x), .single y => .value (Number.inexactEquals x y)
  | .real (.exact (.small a)), .single y => .value ((ofFixnum a).eq y)
  | .real (.exact (.large a)), .single y => do pure (decide ((← mpzCmpD a y) = 0))
  | .real (.exact (.ratio a)), .single y => .value (Single.inexactEquals (ofRatio a) y)
  | .single x, .real (.exact (.small b)) => .value (x.eq (ofFixnum b))
  | .single x, .real (.exact (.large b)) => do pure (decide (0 = (← mpzCmpD b x)))
  | .single x, .real (.exact (.ratio b)) => .value (Single.inexactEquals x (ofRatio b))

/-- `less_than` (number.cpp L514-L517; `<` of L106, L173, L204, L216). -/
def Wide.lessThan : Wide → Wide → Outcome Bool
  | .real x, .real y => x.lessThan y
  | .single x, .single y => .value (x.lt y)
  | .single x, .real (.flo y) => .value (x.lt y)
  | .real (.flo x), .single y => .value (x.lt y)
  | .real (.exact (.small a)), .single y => .value ((ofFixnum a).lt y)
  | .real (.exact (.large a)), .single y => do pure (decide ((← mpzCmpD a y) < 0))
  | .real (.exact (.ratio a)), .single y => .value ((ofRatio a).lt y)
  | .single x, .real (.exact (.small b)) => .value (x.lt (ofFixnum b))
  | .single x, .real (.exact (.large b)) => do pure (decide (0 < (← mpzCmpD b x)))
  | .single x, .real (.exact (.ratio b)) => .value (x.lt (ofRatio b))

/-- `greater_than` (number.cpp L524-L527; `>` of L108, L175, L206, L218). -/
def Wide.greaterThan : Wide → Wide → Outcome Bool
  | .real x, .real y => x.greaterThan y
  | .single x, .single y => .value (y.lt x)
  | .single x, .real (.flo y) => .value (y.lt x)
  | .real (.flo x), .single y => .value (y.lt x)
  | .real (.exact (.small a)), .single y => .value (y.lt (ofFixnum a))
  | .real (.exact (.large a)), .single y => do pure (decide ((← mpzCmpD a y) > 0))
  | .real (.exact (.ratio a)), .single y => .value (y.lt (ofRatio a))
  | .single x, .real (.exact (.small b)) => .value ((ofFixnum b).lt x)
  | .single x, .real (.exact (.large b)) => do pure (decide (0 > (← mpzCmpD b x)))
  | .single x, .real (.exact (.ratio b)) => .value ((ofRatio b).lt x)

/-- `inexact` (number.cpp L556-L572): always a `double`. -/
def Wide.inexact : Wide → Wide
  | .real x => .real x.inexact
  | .single d => .real (.flo d)

/-- `exact` (number.cpp L534-L554; `ratio(double)`, ratio.cpp L62-L66). -/
def Wide.toExact : Wide → Outcome Wide
  | .real x => do pure (.real (← x.toExact))
  | .single d => do pure (.real (.exact (← exactFlo d)))

/-! ### Predicates -/

/-- `is_zero` (number.cpp L728-L731). -/
def Wide.isZero (x : Wide) : Outcome Bool := x.equals (.real (.exact (.small 0)))
/-- `is_positive` (number.cpp L733-L736). -/
def Wide.isPositive (x : Wide) : Outcome Bool := Wide.lessThan (.real (.exact (.small 0))) x
/-- `is_negative` (number.cpp L738-L741). -/
def Wide.isNegative (x : Wide) : Outcome Bool := x.lessThan (.real (.exact (.small 0)))

/-- `is_even` (number.cpp L748-L751). -/
def Wide.isEven (x : Wide) : Outcome Bool := do Wide.isZero (← x.remainder (.real (.exact (.small 2))))
/-- `is_odd` (number.cpp L743-L746). -/
def Wide.isOdd (x : Wide) : Outcome Bool := do pure (!(← x.isEven))

/-- `is_exact` (number.cpp L646-L661). -/
def Wide.isExact : Wide → Bool
  | .real x => x.isExact
  | .single _ => false
/-- `is_rational` (number.cpp L601-L619). -/
def Wide.isRational : Wide → Bool
  | .real x => x.isRational
  | .single d => !d.isNan && !d.isInf
/-- `is_integer` (number.cpp L621-L644). -/
def Wide.isInteger : Wide → Bool
  | .real x => x.isInteger
  | .single d => d.eq (d.nearest Number.stdTrunc)
/-- `is_infinite` (number.cpp L684-L704). -/
def Wide.isInfinite : Wide → Bool
  | .real x => x.isInfinite
  | .single d => d.isInf
/-- `is_nan` (number.cpp L706-L726). -/
def Wide.isNan : Wide → Bool
  | .real x => x.isNan
  | .single d => d.isNan

/-- `numerator` (number.cpp L865-L879). -/
def Wide.numerator : Wide → Outcome Wide
  | .real x => do pure (.real (← x.numerator))
  | .single d => do pure (.real (Number.Real.inexact (.exact (Number.numerator (← exactFlo d)))))

/-- `denominator` (number.cpp L881-L899). -/
def Wide.denominator : Wide → Outcome Wide
  | .real x => do pure (.real (← x.denominator))
  | .single d =>
    if (Wide.single d).isInteger then .value (.real (.flo (.finite false 1)))
    else do pure (.real (Number.Real.inexact (.exact (Number.denominator (← exactFlo d)))))

end Meevax.Single
