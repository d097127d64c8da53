import Verif.Model.InexactText
import Verif.Model.Single

/-
Model of the text of numbers of single precision: what `make_real` makes of a literal with the
exponent marker `f` or `F` (src/kernel/number.cpp L457-L458), and what `write` prints for a `float`
(include/meevax/memory/nan_boxing_pointer.hpp L240-L255).

`std::stof` is `strtof` of the C library, correctly rounded as in glibc, with `std::out_of_range` when
it reports `ERANGE`. The output of a `float` on a stream, `printf`'s `%g` conversion, is a parameter.
So is `std::to_chars` for `float`, which `number->string` uses. Not modelled: the sign `printf` gives a NaN,
`number->string` in other radices.
-/

namespace Meevax.Text
open Meevax.Number (Flo signed)

/-- `literal.substr().replace(result.position(1), 1, "e")` (number.cpp L458): the exponent marker, the
first capture group of the regular expression of L422, becomes an `e`. -/
def replaceMarker : List Byte → List Byte
  | [] => []
  | c :: bs => if c ∈ ([68, 69, 70, 100, 101, 102] : List Byte) then 101 :: bs else c :: replaceMarker bs

/-- What `std::stof` gives (src/kernel/number.cpp L458). -/
inductive SingleLiteral where
  | single (d : Flo)
  | outOfRange
  | invalid
  deriving DecidableEq

/-- `std::stof` (libstdc++'s `__stoa`) of the literal (number.cpp L458). The subject sequence of
`strtof` is that of `strtod`; `erange` says for which magnitudes it reports underflow. -/
def stof (erange : ℚ → Bool) (bs : List Byte) : SingleLiteral :=
  match strtod bs with
  | none => .invalid
  | some (neg, x) =>
    match Single.roundEven neg (signed neg x) with
    | .finite s m => if erange x then .outOfRange else .single (.finite s m)
    | _ => .outOfRange

/-- The value of a literal with the exponent marker `f` or `F` (number.cpp L457-L458). -/
def singleLiteral (erange : ℚ → Bool) (bs : List Byte) : SingleLiteral := stof erange (replaceMarker bs)

/-- `nan_boxing_pointer::write` of a `float` (nan_boxing_pointer.hpp L240-L255), without the colours of
an interactive session: `operator <<`, which is `printf`'s `%g` with six digits. -/
def writeSingle (printf : Flo → List Byte) : Flo → List Byte
  | .nan => ascii "nan"
  | .inf neg => (if neg then [45] else []) ++ ascii "inf"
  | d => printf d

/-- `number->string` of a `float` in radix 10 (number.cpp L914-L922): `std::to_chars` for `float`. -/
def singleToString (toChars : Flo → List Byte) (d : Flo) : List Byte := toChars d

end Meevax.Text
