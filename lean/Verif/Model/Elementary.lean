import Verif.Model.Single

/-
Model of the elementary functions on real numbers: the functions that the macros `DEFINE_COMPLEX1`,
`DEFINE_REAL1` and `DEFINE_REAL2` (include/meevax/kernel/number.hpp L599-L641) define from functions of the
C library, the procedures `log` and `atan` (src/kernel/boot.cpp L225, L231), and the procedures of (srfi 144)
that are built on them (library/srfi-144.ss L265-L344).

The functions of the C library are parameters. Not modelled: complex arguments whose parts are not real numbers, complex
bases of logarithms.
-/

namespace Meevax.Elementary

open Meevax.Number (Flo Num Outcome)
open Meevax.Single (Wide)

/-- `static_cast<double>` of a real number of any representation (the operand in
include/meevax/kernel/number.hpp L613, L625, L636-L637; ratio.hpp L50-L54, large_integer.hpp L69-L84). -/
def toDouble : Wide → Flo
  | .real (.exact n) => n.cast
  | .real (.flo d) => d
  | .single d => d

/-- `DEFINE_COMPLEX1` on a real number, and `DEFINE_REAL1` (include/meevax/kernel/number.hpp L599-L629), for
the function `f` of the C library. -/
def real1 (f : Flo → Flo) (x : Wide) : Outcome Wide := .value (.real (.flo (f (toDouble x))))

/-- `DEFINE_REAL2` (include/meevax/kernel/number.hpp L631-L641), for the function `f` of the C library. -/
def real2 (f : Flo → Flo → Flo) (x y : Wide) : Outcome Wide :=
  .value (.real (.flo (f (toDouble x) (toDouble y))))

/-- A number object: a real one, or a heap `complex` (include/meevax/kernel/complex.hpp L24-L37). -/
inductive CWide where
  | real (x : Wide)
  | rect (re im : Wide)

/-- `canonicalize` of a `complex` (include/meevax/kernel/number.hpp L444-L453). -/
def canonicalize (x y : Wide) : Outcome CWide := do
  if ← Wide.equals y (.real (.exact (.small 0))) then pure (.real x) else pure (.rect x y)

/-- `DEFINE_COMPLEX1` (include/meevax/kernel/number.hpp L599-L618): `f` is the function of the C library for
real numbers and `F` the one for `std::complex<double>`, whose parts are converted by `inexact`
(src/kernel/complex.cpp L70-L90). -/
def complex1 (f : Flo → Flo) (F : Flo × Flo → Flo × Flo) : CWide → Outcome CWide
  | .real x => do pure (.real (← real1 f x))
  | .rect x y =>
    let z := F (toDouble x.inexact, toDouble y.inexact)
    canonicalize (.real (.flo z.1)) (.real (.flo z.2))

/-- The procedure `log` (src/kernel/boot.cpp L225); `f` is `std::log`
(src/kernel/number/exponential.cpp L24). -/
def log (f : Flo → Flo) : List Wide → Outcome Wide
  | [x] => real1 f x
  | [x, b] => do Wide.div (← real1 f x) (← real1 f b)
  | _ => .raised

/-- The procedure `atan` (src/kernel/boot.cpp L231); `f` is `std::atan` and `g` is `std::atan2`
(src/kernel/number/trigonometric.cpp L27-L29). -/
def atan (f : Flo → Flo) (g : Flo → Flo → Flo) : List Wide → Outcome Wide
  | [x] => real1 f x
  | [y, x] => real2 g y x
  | _ => .raised

/-- The real and the imaginary part that `make-polar` (src/kernel/boot.cpp L242), and a literal with `@`
(src/kernel/complex.cpp L37-L44), give the complex number; `c` is `std::cos` and `s` is `std::sin`
(src/kernel/number/trigonometric.cpp L21-L22). -/
def makePolar (c s : Flo → Flo) (radius angle : Wide) : Outcome (Wide × Wide) := do
  let x ← Wide.mul radius (← real1 c angle)
  let y ← Wide.mul radius (← real1 s angle)
  pure (x, y)

/-- `fllog2` (library/srfi-144.ss L289-L290). -/
def fllog2 (f : Flo → Flo) (x : Wide) : Outcome Wide := log f [x, .real (.exact (.small 2))]
/-- `fllog10` (library/srfi-144.ss L292-L293). -/
def fllog10 (f : Flo → Flo) (x : Wide) : Outcome Wide := log f [x, .real (.exact (.small 10))]
/-- The procedure that `make-fllog-base` returns (library/srfi-144.ss L295-L297). -/
def fllogBase (f : Flo → Flo) (b x : Wide) : Outcome Wide := log f [x, b]

/-- `flloggamma` (library/srfi-144.ss L334-L336); `lg` is `std::lgamma` and `tg` is `std::tgamma`
(src/kernel/number/error_and_gamma.cpp L24-L25). -/
def flloggamma (lg tg : Flo → Flo) (x : Wide) : Outcome (Wide × Wide) := do
  let l ← real1 lg x
  let g ← real1 tg x
  let p ← g.isPositive
  pure (l, .real (.flo (.finite (!p) 1)))

/-- `fl-sin-1` (library/srfi-144.ss L140); `s` is `std::sin`. -/
def flSin1 (s : Flo → Flo) : Outcome Wide := real1 s (.real (.exact (.small 1)))
/-- `fl-cos-1` (library/srfi-144.ss L142); `c` is `std::cos`. -/
def flCos1 (c : Flo → Flo) : Outcome Wide := real1 c (.real (.exact (.small 1)))
/-- `fl-gamma-1/2` (library/srfi-144.ss L144); `tg` is `std::tgamma`. -/
def flGamma12 (tg : Flo → Flo) : Outcome Wide := do
  real1 tg (← Wide.div (.real (.exact (.small 1))) (.real (.exact (.small 2))))

end Meevax.Elementary
