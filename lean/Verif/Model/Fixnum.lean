import Verif.Model.Bits

/-
library/srfi-143.ss: every procedure but those with a carry (Model/Division.lean) is another name
for a general one. The procedures of (srfi 143) take fixed numbers of arguments, and are modelled
with those.
-/

namespace Meevax.Number

/-- `fixnum?` (srfi-143.ss L70) is `integer32?` (boot.cpp L136): the representation is asked, not
the value. -/
def isFixnum : Num → Bool
  | .small _ => true
  | _ => false

/-- `fx-greatest` (srfi-143.ss L66), `integer32-max` (boot.cpp L589). -/
def fxGreatest : Num := .small (2 ^ 31 - 1)

/-- `fx-least` (srfi-143.ss L68), `integer32-min` (boot.cpp L588). -/
def fxLeast : Num := .small (-2 ^ 31)

/-- `fx+` (srfi-143.ss L96). -/
def fxPlus (i j : Num) : Outcome Num := plus [i, j]

/-- `fx-` (srfi-143.ss L98). -/
def fxMinus (i j : Num) : Outcome Num := minus [i, j]

/-- `fxneg` (srfi-143.ss L100). -/
def fxNeg (i : Num) : Outcome Num := minus [i]

/-- `fx*` (srfi-143.ss L102). -/
def fxTimes (i j : Num) : Outcome Num := times [i, j]

/-- `fxquotient` (srfi-143.ss L104). -/
def fxQuotient (i j : Num) : Outcome Num := quotient i j

/-- `fxremainder` (srfi-143.ss L106). -/
def fxRemainder (i j : Num) : Outcome Num := remainder i j

/-- `fxabs` (srfi-143.ss L108). -/
def fxAbs (i : Num) : Outcome Num := abs i

/-- `fxsquare` (srfi-143.ss L110); `square` is r7rs.ss L161-L162. -/
def fxSquare (i : Num) : Outcome Num := times [i, i]

/-- `fxsqrt` (srfi-143.ss L112). -/
def fxSqrt (m : Libm) (i : Num) : Outcome Root := sqrt m i

/-- `fxmax` (srfi-143.ss L92). -/
def fxMax (i j : Num) : Option Num := max [i, j]

/-- `fxmin` (srfi-143.ss L94). -/
def fxMin (i j : Num) : Option Num := min [i, j]

/-- `fxnot` (srfi-143.ss L129). -/
def fxNot (i : Num) : Outcome Num := bitwiseNot i

/-- `fxand` (srfi-143.ss L130). -/
def fxAnd (i j : Num) : Outcome Num := bitwiseAnd [i, j]

/-- `fxior` (srfi-143.ss L131). -/
def fxIor (i j : Num) : Outcome Num := bitwiseIor [i, j]

/-- `fxxor` (srfi-143.ss L132). -/
def fxXor (i j : Num) : Outcome Num := bitwiseXor [i, j]

/-- `fxarithmetic-shift` (srfi-143.ss L134). -/
def fxShift (i shift : Num) : Outcome Num := arithmeticShift i shift

/-- `fxbit-count` (srfi-143.ss L138). -/
def fxBitCount (i : Num) : Outcome Num := bitCount i

/-- `fxlength` (srfi-143.ss L140). -/
def fxLength (i : Num) : Outcome Num := bitWidth i

/-- `fxif` (srfi-143.ss L142). -/
def fxIf (m i j : Num) : Outcome Num := bitwiseIf m i j

/-- `fxcopy-bit` (srfi-143.ss L146). -/
def fxCopyBit (index i : Num) (b : Bool) : Outcome Num := copyBit index i b

/-- `fxfirst-set-bit` (srfi-143.ss L148). -/
def fxFirstSetBit (i : Num) : Outcome Num := firstSetBit i

/-- `fxbit-field` (srfi-143.ss L150). -/
def fxBitField (i start finish : Num) : Outcome Num := bitField i start finish

/-- `fxbit-field-rotate` (srfi-143.ss L151). -/
def fxBitFieldRotate (i count start finish : Num) : Outcome Num := bitFieldRotate i count start finish

/-- `fxbit-field-reverse` (srfi-143.ss L152). -/
def fxBitFieldReverse (i start finish : Num) : Outcome Num := bitFieldReverse i start finish

end Meevax.Number
