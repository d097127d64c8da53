import Verif.Model.Number

/-
library/srfi-141.ss on exact arguments, where `exact?` holds of both and `inexact->exact` is the
identity. The two values of `floor/` and its like are a pair.
-/

namespace Meevax.Number

/-- `floor-quotient` (srfi-141.ss L23-L24). -/
def floorQuotient (x y : Num) : Outcome Num := do floor (← divide [x, y])

/-- `floor-remainder` (srfi-141.ss L26). -/
def floorRemainder (x y : Num) : Outcome Num := modulo x y

/-- `ceiling-quotient` (srfi-141.ss L32-L37). -/
def ceilingQuotient (n d : Num) : Outcome Num := do ceiling (← divide [n, d])

/-- `ceiling-remainder` (srfi-141.ss L39-L40). -/
def ceilingRemainder (n d : Num) : Outcome Num := do
  minus [n, ← times [d, ← ceilingQuotient n d]]

/-- `truncate-quotient` (srfi-141.ss L46). -/
def truncateQuotient (x y : Num) : Outcome Num := quotient x y

/-- `truncate-remainder` (srfi-141.ss L48). -/
def truncateRemainder (x y : Num) : Outcome Num := remainder x y

/-- `round-quotient` (srfi-141.ss L54-L59). -/
def roundQuotient (n d : Num) : Outcome Num := do round (← divide [n, d])

/-- `round-remainder` (srfi-141.ss L61-L62). -/
def roundRemainder (n d : Num) : Outcome Num := do
  minus [n, ← times [d, ← roundQuotient n d]]

/-- `euclidean-quotient` (srfi-141.ss L68-L71). -/
def euclideanQuotient (n d : Num) : Outcome Num :=
  if numLt [.small 0, d] then floorQuotient n d else ceilingQuotient n d

/-- `euclidean-remainder` (srfi-141.ss L73-L74). -/
def euclideanRemainder (n d : Num) : Outcome Num := do
  minus [n, ← times [d, ← euclideanQuotient n d]]

/-- `balanced-remainder` (srfi-141.ss L80-L87). -/
def balancedRemainder (n d : Num) : Outcome Num := do
  let r ← euclideanRemainder n d
  let half ← abs (← divide [d, .small 2])
  if numLt [r, ← minus [half]] then plus [r, ← abs d]
  else if numLe [half, r] then minus [r, ← abs d]
  else pure r

/-- `balanced-quotient` (srfi-141.ss L89-L90). -/
def balancedQuotient (n d : Num) : Outcome Num := do
  quotient (← minus [n, ← balancedRemainder n d]) d

/-- `(values q r)` of two expressions (library/srfi-141.ss L28-L30). -/
def twoValues (q r : Outcome Num) : Outcome (Num × Num) := do pure (← q, ← r)

/-- `floor/` (srfi-141.ss L28-L30). -/
def floorDivide (x y : Num) := twoValues (floorQuotient x y) (floorRemainder x y)
/-- `ceiling/` (srfi-141.ss L42-L44). -/
def ceilingDivide (x y : Num) := twoValues (ceilingQuotient x y) (ceilingRemainder x y)
/-- `truncate/` (srfi-141.ss L50-L52). -/
def truncateDivide (x y : Num) := twoValues (truncateQuotient x y) (truncateRemainder x y)
/-- `round/` (srfi-141.ss L64-L66). -/
def roundDivide (x y : Num) := twoValues (roundQuotient x y) (roundRemainder x y)
/-- `euclidean/` (srfi-141.ss L76-L78). -/
def euclideanDivide (x y : Num) := twoValues (euclideanQuotient x y) (euclideanRemainder x y)
/-- `balanced/` (srfi-141.ss L92-L94). -/
def balancedDivide (x y : Num) := twoValues (balancedQuotient x y) (balancedRemainder x y)

/-! ### library/srfi-143.ss -/

/-- `fx-width` (srfi-143.ss L64), `integer32-width` (boot.cpp L587). -/
def fxWidth : Num := .small 32

/-- The exact result of `expt`; an inexact one would go on as a flonum, which is not modelled
(auxiliary to library/srfi-141.ss). -/
def Power.toExact : Power → Outcome Num
  | .exact x => .value x
  | .inexact _ => .undefined

/-- `(balanced/ s (expt 2 fx-width))` with the values exchanged (srfi-143.ss L114-L127). -/
def carry (m : Libm) (s : Num) : Outcome (Num × Num) := do
  let p ← (← expt m (.small 2) fxWidth).toExact
  let (q, r) ← balancedDivide s p
  pure (r, q)

/-- `fx+/carry` (srfi-143.ss L114-L117). -/
def fxAddCarry (m : Libm) (i j k : Num) : Outcome (Num × Num) := do carry m (← plus [i, j, k])

/-- The subtraction with carry (srfi-143.ss L119-L122). -/
def fxSubCarry (m : Libm) (i j k : Num) : Outcome (Num × Num) := do carry m (← minus [i, j, k])

/-- `fx*/carry` (srfi-143.ss L124-L127). -/
def fxMulCarry (m : Libm) (i j k : Num) : Outcome (Num × Num) := do
  carry m (← plus [← times [i, j], k])

/-- `fxarithmetic-shift-left` (srfi-143.ss L135). -/
def fxShiftLeft (x k : Num) : Outcome Num := arithmeticShift x k

/-- `fxarithmetic-shift-right` (srfi-143.ss L136). -/
def fxShiftRight (x k : Num) : Outcome Num := arithmeticShift x k

end Meevax.Number
