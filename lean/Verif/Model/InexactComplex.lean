import Verif.Model.Elementary

/-
Model of the operators on complex numbers with parts of any representation (src/kernel/number.cpp L56-L61,
L190-L299, L301-L338, L499-L502), of `sqrt` of flonums (src/kernel/number/power.cpp L75-L120) and of `magnitude`
(src/kernel/number.cpp L843-L858).

Not modelled: parts that are not real numbers.
-/

namespace Meevax.Elementary

open Meevax.Number (Flo Num Outcome)
open Meevax.Single (Wide)

/-- An operand of the operators on `complex`: a real number gets the imaginary part `e0`
(src/kernel/number.cpp L56-L61, L251-L292). -/
def CWide.parts : CWide → Wide × Wide
  | .real x => (x, .real (.exact (.small 0)))
  | .rect x y => (x, y)

/-- `+` (src/kernel/number.cpp L301-L305); complex operands: L294. -/
def CWide.add : CWide → CWide → Outcome CWide
  | .real x, .real y => do pure (.real (← x.add y))
  | z, w => do
    let x ← Wide.add z.parts.1 w.parts.1
    let y ← Wide.add z.parts.2 w.parts.2
    canonicalize x y

/-- `-` (src/kernel/number.cpp L307-L311); complex operands: L295. -/
def CWide.sub : CWide → CWide → Outcome CWide
  | .real x, .real y => do pure (.real (← x.sub y))
  | z, w => do
    let x ← Wide.sub z.parts.1 w.parts.1
    let y ← Wide.sub z.parts.2 w.parts.2
    canonicalize x y

/-- `*` (src/kernel/number.cpp L313-L317); complex operands: L296. -/
def CWide.mul : CWide → CWide → Outcome CWide
  | .real x, .real y => do pure (.real (← x.mul y))
  | z, w => do
    let x ← Wide.sub (← Wide.mul z.parts.1 w.parts.1) (← Wide.mul z.parts.2 w.parts.2)
    let y ← Wide.add (← Wide.mul z.parts.2 w.parts.1) (← Wide.mul z.parts.1 w.parts.2)
    canonicalize x y

/-- `/` (src/kernel/number.cpp L319-L338); complex operands: L297. -/
def CWide.div : CWide → CWide → Outcome CWide
  | .real x, .real y => do pure (.real (← x.div y))
  | z, w => do
    let x ← Wide.add (← Wide.mul z.parts.1 w.parts.1) (← Wide.mul z.parts.2 w.parts.2)
    let y ← Wide.sub (← Wide.mul z.parts.2 w.parts.1) (← Wide.mul z.parts.1 w.parts.2)
    let d ← Wide.add (← Wide.mul w.parts.1 w.parts.1) (← Wide.mul w.parts.2 w.parts.2)
    canonicalize (← Wide.div x d) (← Wide.div y d)

/-- `=` (src/kernel/number.cpp L499-L502); complex operands: L298. The imaginary parts are compared if the real
parts are equal. -/
def CWide.equals : CWide → CWide → Outcome Bool
  | .real x, .real y => x.equals y
  | z, w => do
    if ← Wide.equals z.parts.1 w.parts.1 then Wide.equals z.parts.2 w.parts.2 else pure false

/-- `sqrt` of a `double` (src/kernel/number/power.cpp L109-L115); `root` is `std::sqrt`. The object `make<complex>`
gives is kept as it is. -/
def sqrtFlo (root : Flo → Flo) (x : Flo) : CWide :=
  if x.lt (Number.castFixnum 0) then
    .rect (.real (.exact (.small 0))) (.real (.flo (root ((Number.castFixnum 0).sub x))))
  else .real (.real (.flo (root x)))

/-- `magnitude` (boot.cpp L245, number.cpp L843-L858). Simplified: exact and single precision parts are left out;
for exact ones see Model/Complex.lean. -/
def CWide.magnitude (root : Flo → Flo) : CWide → Outcome CWide
  | .real x => .value (.real x)
  | .rect x y => do
    match ← Wide.add (← Wide.mul x x) (← Wide.mul y y) with
    | .real (.flo d) => .value (sqrtFlo root d)
    | _ => .undefined

end Meevax.Elementary
