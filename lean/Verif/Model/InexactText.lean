import Verif.Model.NumberSyntax
import Verif.Model.Inexact

/-
Model of the text of inexact reals: what `make_real` makes of a literal that is neither an exact
integer nor a ratio (src/kernel/number.cpp L411-L466), what `write` prints for a `double`
(include/meevax/memory/nan_boxing_pointer.hpp L272-L285), and what `number->string` gives in radix 10
(src/kernel/number.cpp L905-L922).

`std::stod` is `strtod` of the C library, correctly rounded as in glibc, with `std::out_of_range` when
it reports `ERANGE`. `std::to_chars` is a parameter. Not modelled: literals with an exponent marker `f`
or `F`, which `std::stof` makes `float` objects of.
-/

namespace Meevax.Text

open Meevax.Number (Flo roundEven signed)

/-- The number that decimal digits stand for (src/kernel/number.cpp L455, L463). -/
def natOf (ds : List Byte) : Nat := ds.foldl (fun n b => 10 * n + (b.toNat - 48)) 0

/-- The optional sign of `strtod`'s subject sequence: whether it is a minus sign, and the rest
(src/kernel/number.cpp L455, L463). -/
def takeSign : List Byte → Bool × List Byte
  | [] => (false, [])
  | c :: bs => if c = 45 then (true, bs) else if c = 43 then (false, bs) else (false, c :: bs)

/-- The optional exponent part of `strtod`'s subject sequence: `e` or `E`, a sign and at least one
digit. Anything else ends the sequence (src/kernel/number.cpp L455, L463). -/
def strtodExponent : List Byte → Int
  | [] => 0
  | c :: bs =>
    if c = 101 ∨ c = 69 then
      let (neg, ds) := takeSign bs
      let e := natOf (ds.takeWhile isDigitByte)
      if neg then -e else e
    else 0

/-- The digits after a decimal point, and what follows (src/kernel/number.cpp L455, L463). -/
def takeFraction : List Byte → List Byte × List Byte
  | [] => ([], [])
  | c :: bs => if c = 46 then bs.span isDigitByte else ([], c :: bs)

/-- `strtod`'s subject sequence, the longest prefix that has the form of a number: its sign and its
magnitude, or nothing. Simplified: without leading white space, hexadecimal numbers, `inf` and `nan`,
none of which the regular expression of number.cpp L422 lets through. -/
def strtod (bs : List Byte) : Option (Bool × ℚ) :=
  let (neg, bs) := takeSign bs
  let whole := bs.takeWhile isDigitByte
  let (fraction, rest) := takeFraction (bs.dropWhile isDigitByte)
  if whole = [] ∧ fraction = [] then none
  else some (neg, natOf (whole ++ fraction) * (10 : ℚ) ^ (strtodExponent rest - fraction.length))

/-- What the value of an inexact literal may be (src/kernel/number.cpp L422-L466). -/
inductive LiteralValue where
  /-- A `double`. -/
  | double (d : Flo)
  /-- A `float`; not modelled. -/
  | single
  /-- `std::out_of_range`, which no one catches before `with-exception-handler` or the end of the
  program. -/
  | outOfRange
  /-- `std::invalid_argument`. -/
  | invalid
  deriving DecidableEq

/-- `std::stod` (libstdc++'s `__stoa`). `erange` says for which magnitudes `strtod` sets `errno` to
`ERANGE` because of underflow, which C leaves to the implementation (ISO C 7.24.1.3). -/
def stod (erange : ℚ → Bool) (bs : List Byte) : LiteralValue :=
  match strtod bs with
  | none => .invalid
  | some (neg, x) =>
    match roundEven neg (signed neg x) with
    | .finite s m => if erange x then .outOfRange else .double (.finite s m)
    | _ => .outOfRange

/-- The first capture group of the regular expression of number.cpp L422, the exponent marker. -/
def exponentMarker (bs : List Byte) : Option Byte :=
  bs.find? fun b => b ∈ ([68, 69, 70, 100, 101, 102] : List Byte)

/-- The value of a literal that is a constant or matches the regular expression (number.cpp
L413-L466). -/
def literalValue (erange : ℚ → Bool) (bs : List Byte) : LiteralValue :=
  if bs = ascii "+inf.0" then .double (.inf false)
  else if bs = ascii "-inf.0" then .double (.inf true)
  else if bs = ascii "+nan.0" ∨ bs = ascii "-nan.0" then .double .nan
  else
    match exponentMarker bs with
    | some m => if m = 70 ∨ m = 102 then .single else stod erange bs
    | none => stod erange bs

/-- A real number that a literal may be read as (src/kernel/number.cpp L411-L466). -/
inductive RealValue where
  | exact (n : Num)
  | inexact (v : LiteralValue)
  | notANumber
  deriving DecidableEq

/-- `make_number` in radix 10 (number.cpp L485-L495), with the values of the inexact literals. -/
def realValue (erange : ℚ → Bool) (bs : List Byte) : RealValue :=
  match makeNumber bs 10 with
  | .number (.inexact l) => .inexact (literalValue erange l)
  | .number n => .exact n
  | _ => .notANumber

/-- `nan_boxing_pointer::write` of a `double` (nan_boxing_pointer.hpp L272-L285), without the colours
of an interactive session. `toChars` is `std::to_chars` with `std::chars_format::general`. -/
def writeFlo (toChars : Flo → List Byte) : Flo → List Byte
  | .nan => ascii "+nan.0"
  | .inf neg => (if neg then [45] else [43]) ++ ascii "inf.0"
  | d => toChars d

/-- `number->string` of a `double` in radix 10 (number.cpp L914-L922). -/
def floToString (toChars : Flo → List Byte) (d : Flo) : List Byte := toChars d

end Meevax.Text
