import Verif.Model.Inexact

/-
Model of the constants of (srfi 144) (library/srfi-144.ss L72-L148), with the objects `e`, `pi` and `phi`
(src/kernel/boot.cpp L719-L722), on the arithmetic of Model/Inexact.

Not modelled: the constants that are whatever a function of the C library gives, that is
`fl-e-euler`, `fl-gamma-2/3`; `fl-euler`; and the literal `fl-gamma-1/3`. `fl-sin-1`, `fl-cos-1` and
`fl-gamma-1/2` are in Model/Elementary.
-/

namespace Meevax.Constants

open Meevax.Number (Flo Num Outcome Mpq Fits32 stdTrunc roundEven castFixnum)

/-- What the platform gives: the constants of the header `numbers` (src/kernel/boot.cpp L719-L722), and the
functions `std::sqrt` (src/kernel/number/power.cpp L92-L112), `std::log`
(src/kernel/number/exponential.cpp L24) and `std::pow` (src/kernel/number/power.cpp L67) of `double`s. -/
structure Platform where
  e : Flo
  pi : Flo
  phi : Flo
  sqrt : Flo → Flo
  log : Flo → Flo
  pow : Flo → Flo → Flo

/-- A fixnum object (include/meevax/memory/nan_boxing_pointer.hpp L55). -/
def int (i : Int) : Number.Real := .exact (.small i)

/-- A literal with digits after the point, `digits` divided by `10 ^ places`: the nearest `double`
(src/kernel/number.cpp L411-L466, see C77). -/
def literal (digits places : Nat) : Outcome Number.Real :=
  .value (.flo (roundEven false (digits / 10 ^ places)))

/-- `sqrt` (src/kernel/number/power.cpp L75-L120) of a fixnum (L90-L102) or a `double` (L109-L112) that is
not negative. Simplified: other arguments are left out. -/
def sqrt (p : Platform) : Number.Real → Outcome Number.Real
  | .exact (.small i) =>
    match p.sqrt (castFixnum i) with
    | .finite s m =>
      let t := stdTrunc (Number.signed s m)
      if Fits32 t ∧ Fits32 (t * t) then
        if t * t = i then .value (.exact (.small t)) else .value (.flo (.finite s m))
      else .undefined
    | _ => .undefined
  | .flo d => .value (.flo (p.sqrt d))
  | _ => .undefined

/-- `log` of one argument that is positive (src/kernel/boot.cpp L225, src/kernel/number/exponential.cpp
L24). -/
def log (p : Platform) : Number.Real → Outcome Number.Real
  | .exact x => .value (.flo (p.log x.cast))
  | .flo d => .value (.flo (p.log d))

/-- `log` of two arguments (src/kernel/boot.cpp L225). -/
def logBase (p : Platform) (x b : Number.Real) : Outcome Number.Real := do
  Number.Real.div (← log p x) (← log p b)

/-- `expt` (src/kernel/boot.cpp L240, src/kernel/number/power.cpp L21-L73) where an argument is inexact or
the exponent is a ratio (L65-L69). Simplified: two exact integers are left out. -/
def expt (p : Platform) : Number.Real → Number.Real → Outcome Number.Real
  | .flo x, .flo y => .value (.flo (p.pow x y))
  | .flo x, .exact y => .value (.flo (p.pow x y.cast))
  | .exact x, .flo y => .value (.flo (p.pow x.cast y))
  | .exact x, .exact (.ratio q) => .value (.flo (p.pow x.cast (Num.ratio q).cast))
  | _, _ => .undefined

/-- `fl-e` (library/srfi-144.ss L72). -/
def flE (p : Platform) : Outcome Number.Real := .value (.flo p.e)
/-- `fl-1/e` (library/srfi-144.ss L74). -/
def flInvE (p : Platform) : Outcome Number.Real := (int 1).div (.flo p.e)
/-- `fl-e-2` (library/srfi-144.ss L76). -/
def flE2 : Outcome Number.Real := literal 738905609893065 14
/-- `fl-e-pi/4` (library/srfi-144.ss L78). -/
def flEPi4 (p : Platform) : Outcome Number.Real := do expt p (.flo p.e) (← Number.Real.div (.flo p.pi) (int 4))
/-- `fl-log2-e` (library/srfi-144.ss L80). -/
def flLog2E (p : Platform) : Outcome Number.Real := logBase p (.flo p.e) (int 2)
/-- `fl-log10-e` (library/srfi-144.ss L82). -/
def flLog10E : Outcome Number.Real := literal 4342944819032518 16
/-- `fl-log-2` (library/srfi-144.ss L84). -/
def flLog2 (p : Platform) : Outcome Number.Real := log p (int 2)
/-- `fl-1/log-2` (library/srfi-144.ss L86). -/
def flInvLog2 (p : Platform) : Outcome Number.Real := do (int 1).div (← log p (int 2))
/-- `fl-log-3` (library/srfi-144.ss L88). -/
def flLog3 (p : Platform) : Outcome Number.Real := log p (int 3)
/-- `fl-log-pi` (library/srfi-144.ss L90). -/
def flLogPi (p : Platform) : Outcome Number.Real := log p (.flo p.pi)
/-- `fl-log-10` (library/srfi-144.ss L92). -/
def flLog10 (p : Platform) : Outcome Number.Real := log p (int 10)
/-- `fl-1/log-10` (library/srfi-144.ss L94). -/
def flInvLog10 : Outcome Number.Real := literal 4342944819032518 16
/-- `fl-pi` (library/srfi-144.ss L96). -/
def flPi (p : Platform) : Outcome Number.Real := .value (.flo p.pi)
/-- `fl-1/pi` (library/srfi-144.ss L98). -/
def flInvPi (p : Platform) : Outcome Number.Real := (int 1).div (.flo p.pi)
/-- `fl-2pi` (library/srfi-144.ss L100). -/
def fl2Pi (p : Platform) : Outcome Number.Real := (int 2).mul (.flo p.pi)
/-- `fl-pi/2` (library/srfi-144.ss L102). -/
def flPi2 (p : Platform) : Outcome Number.Real := Number.Real.div (.flo p.pi) (int 2)
/-- `fl-pi/4` (library/srfi-144.ss L104). -/
def flPi4 (p : Platform) : Outcome Number.Real := Number.Real.div (.flo p.pi) (int 4)
/-- `fl-pi-squared` (library/srfi-144.ss L106). -/
def flPiSquared (p : Platform) : Outcome Number.Real := expt p (.flo p.pi) (int 2)
/-- `fl-degree` (library/srfi-144.ss L108). -/
def flDegree (p : Platform) : Outcome Number.Real := Number.Real.div (.flo p.pi) (int 180)
/-- `fl-2/pi` (library/srfi-144.ss L110). -/
def fl2OverPi (p : Platform) : Outcome Number.Real := (int 2).div (.flo p.pi)
/-- `fl-2/sqrt-pi` (library/srfi-144.ss L112). -/
def fl2OverSqrtPi (p : Platform) : Outcome Number.Real := do (int 2).div (← sqrt p (.flo p.pi))
/-- `fl-sqrt-2` (library/srfi-144.ss L114). -/
def flSqrt2 (p : Platform) : Outcome Number.Real := sqrt p (int 2)
/-- `fl-sqrt-3` (library/srfi-144.ss L116). -/
def flSqrt3 (p : Platform) : Outcome Number.Real := sqrt p (int 3)
/-- `fl-sqrt-5` (library/srfi-144.ss L118). -/
def flSqrt5 (p : Platform) : Outcome Number.Real := sqrt p (int 5)
/-- `fl-sqrt-10` (library/srfi-144.ss L120). -/
def flSqrt10 (p : Platform) : Outcome Number.Real := sqrt p (int 10)
/-- `fl-1/sqrt-2` (library/srfi-144.ss L122). -/
def flInvSqrt2 (p : Platform) : Outcome Number.Real := do (int 1).div (← sqrt p (int 2))
/-- `fl-cbrt-2` (library/srfi-144.ss L124). -/
def flCbrt2 (p : Platform) : Outcome Number.Real := do expt p (int 2) (← (int 1).div (int 3))
/-- `fl-cbrt-3` (library/srfi-144.ss L126). -/
def flCbrt3 (p : Platform) : Outcome Number.Real := do expt p (int 3) (← (int 1).div (int 3))
/-- `fl-4thrt-2` (library/srfi-144.ss L128). -/
def fl4thrt2 (p : Platform) : Outcome Number.Real := do expt p (int 2) (← (int 1).div (int 4))
/-- `fl-phi` (library/srfi-144.ss L130). -/
def flPhi (p : Platform) : Outcome Number.Real := .value (.flo p.phi)
/-- `fl-log-phi` (library/srfi-144.ss L132). -/
def flLogPhi (p : Platform) : Outcome Number.Real := log p (.flo p.phi)
/-- `fl-1/log-phi` (library/srfi-144.ss L134). -/
def flInvLogPhi : Outcome Number.Real := literal 207808692123502753 17

end Meevax.Constants
