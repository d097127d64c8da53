import Verif.Model.Utf8

/-
Model of number literals: `make_number` and what it calls (src/kernel/number.cpp L360-L495,
src/kernel/large_integer.cpp L54-L61, src/kernel/ratio.cpp L68-L79, src/kernel/complex.cpp
L26-L50). A literal is a byte string.
-/

namespace Meevax.Text

/-- The value of a digit character: `0-9`, `a-z`, `A-Z`, as `std::from_chars` and GMP (for bases up
to 36) read them (src/kernel/number.cpp L364; src/kernel/large_integer.cpp L56). -/
def digitValue (b : Byte) : Option Nat :=
  let n := b.toNat
  if 48 ≤ n ∧ n ≤ 57 then some (n - 48)
  else if 97 ≤ n ∧ n ≤ 122 then some (n - 87)
  else if 65 ≤ n ∧ n ≤ 90 then some (n - 55)
  else none

/-- A digit of the given radix (src/kernel/number.cpp L364). -/
def digitIn (radix : Nat) (b : Byte) : Option Nat :=
  match digitValue b with
  | some d => if d < radix then some d else none
  | none => none

/-- The digits at the front of `bs`, accumulated onto `acc`, and what follows (src/kernel/number.cpp L364). -/
def digits (radix : Nat) (acc : Nat) : List Byte → Nat × List Byte
  | [] => (acc, [])
  | b :: bs =>
    match digitIn radix b with
    | some d => digits radix (acc * radix + d) bs
    | none => (acc, b :: bs)

/-- Splits off one leading minus sign (src/kernel/number.cpp L364). -/
def minus : List Byte → Bool × List Byte
  | [] => (false, [])
  | b :: bs => if b = 45 then (true, bs) else (false, b :: bs)

/-- Drops one leading plus sign (src/kernel/large_integer.cpp L54-L61). -/
def dropPlus : List Byte → List Byte
  | [] => []
  | b :: bs => if b = 43 then bs else b :: bs

/-- What `std::from_chars` on a 64-bit integer reports (src/kernel/number.cpp L364-L380). -/
inductive FromChars where
  | ok (value : Int) (rest : List Byte)
  | outOfRange
  | invalid
  deriving Repr, DecidableEq

/-- `std::from_chars(first, last, value, radix)`: an optional minus sign and at least one digit
(src/kernel/number.cpp L364). -/
def fromChars (bs : List Byte) (radix : Nat) : FromChars :=
  let (negative, ds) := minus bs
  match ds with
  | [] => .invalid
  | d :: _ =>
    match digitIn radix d with
    | none => .invalid
    | some _ =>
      let (n, rest) := digits radix 0 ds
      let v : Int := if negative then -n else n
      if -2 ^ 63 ≤ v ∧ v < 2 ^ 63 then .ok v rest else .outOfRange

/-- White space as `isspace` has it (src/kernel/large_integer.cpp L56). -/
def isSpaceByte (b : Byte) : Bool := b = 32 || (9 ≤ b && b ≤ 13)

/-- `mpz_set_str` (GMP): white space is skipped, one minus sign, digits of the base; `none` when the
string is not a number. No plus sign (src/kernel/large_integer.cpp L56). -/
def mpzSetStr (bs : List Byte) (radix : Nat) : Option Int :=
  let bs := bs.dropWhile isSpaceByte
  let (negative, ds) := minus bs
  match ds with
  | [] => none
  | d :: _ =>
    match digitIn radix d with
    | none => none
    | some _ =>
      match digits radix 0 (ds.filter fun b => !isSpaceByte b) with
      | (n, []) => some (if negative then -n else n)
      | _ => none

/-- A number as the reader makes it. `inexact` stands for the value `std::stod` gives to the literal (or
the `std::out_of_range` that it throws); `rectangular` is a `complex` object (complex.hpp) with its two
parts, `polar` the complex number that `complex(token, radix)` computes from a magnitude and an angle by
the cosine and sine of the C library (complex.cpp L37-L44). -/
inductive Num where
  | int (n : Int)
  | ratio (numerator : Int) (denominator : Nat)
  | inexact (literal : List Byte)
  | rectangular (re im : Num)
  | polar (magnitude angle : Num)
  deriving Repr, DecidableEq

/-- `make_integer` (number.cpp L360-L391); `none` is a thrown `std::invalid_argument`. A value out of
the 32-bit range, or out of the 64-bit range, is read again by `large_integer(literal, radix)`
(large_integer.cpp L54-L61). -/
def makeInteger (bs : List Byte) (radix : Nat) : Option Int :=
  let large := mpzSetStr (dropPlus bs) radix
  match fromChars bs radix with
  | .ok v rest =>
    if rest ≠ [] then none
    else if -2 ^ 31 ≤ v ∧ v < 2 ^ 31 then some v
    else large
  | .outOfRange => large
  | .invalid => none

/-- The outcome of reading a literal: a number, not a number (`std::invalid_argument`), or GMP's
division-by-zero signal (src/kernel/number.cpp L360-L495). -/
inductive Parsed where
  | number (n : Num)
  | invalid
  | crash
  deriving Repr, DecidableEq

/-- `ratio(token, radix)` (ratio.cpp L68-L79): `mpq_set_str`, then `mpq_canonicalize`, which raises a
division by zero if the denominator is zero. GMP's `mpq_set_str` reads the numerator up to the first
slash, the denominator after it; without a slash the denominator is 1. -/
def makeRatio (bs : List Byte) (radix : Nat) : Parsed :=
  match bs.span (· ≠ 47) with
  | (n, []) =>
    match mpzSetStr n radix with
    | some n => .number (.ratio n 1)
    | none => .invalid
  | (n, _ :: d) =>
    match mpzSetStr n radix, mpzSetStr d radix with
    | some n, some d =>
      if d = 0 then .crash
      else
        let g := Nat.gcd n.natAbs d.natAbs
        .number (.ratio (d.sign * n / g) (d.natAbs / g))
    | _, _ => .invalid

/-- A decimal digit (src/kernel/number.cpp L422). -/
def isDigitByte (b : Byte) : Bool := 48 ≤ b && b ≤ 57

/-- Drops one leading sign (`[+-]?`) (src/kernel/number.cpp L422). -/
def dropSign : List Byte → List Byte
  | [] => []
  | c :: ds => if c = 43 ∨ c = 45 then ds else c :: ds

/-- The regular expression `(?:([DEFdef])[+-]?\d+)?` (number.cpp L422), matched to the end. -/
def exponentPart : List Byte → Bool
  | [] => true
  | b :: bs =>
    if b ∈ [68, 69, 70, 100, 101, 102] then
      let ds := dropSign bs
      !ds.isEmpty && ds.all isDigitByte
    else false

/-- The regular expression `(?:\d+\.?|\d*\.\d+)(?:([DEFdef])[+-]?\d+)?` (number.cpp L422). -/
def isUnsignedDecimal (bs : List Byte) : Bool :=
  match bs.span isDigitByte with
  | (whole, []) => !whole.isEmpty
  | (whole, c :: rest) =>
    if c = 46 then
      match rest.span isDigitByte with
      | (fraction, rest) => (!whole.isEmpty || !fraction.isEmpty) && exponentPart rest
    else !whole.isEmpty && exponentPart (c :: rest)

/-- The regular expression `[+-]?(?:\d+\.?|\d*\.\d+)(?:([DEFdef])[+-]?\d+)?` (number.cpp L422). -/
def isDecimal (bs : List Byte) : Bool := isUnsignedDecimal (dropSign bs)

/-- The bytes of an ASCII string (auxiliary to src/kernel/number.cpp L413-L420). -/
def ascii (s : String) : List Byte := s.toList.map fun c => .ofNat c.toNat

/-- The named constants of `make_real` (number.cpp L413-L420). -/
def constants : List (List Byte) :=
  [ascii "+inf.0", ascii "-inf.0", ascii "+nan.0", ascii "-nan.0"]

/-- `make_real` (number.cpp L405-L471), with `make_rational` (L393-L403). -/
def makeReal (bs : List Byte) (radix : Nat) : Parsed :=
  match makeInteger bs radix with
  | some n => .number (.int n)
  | none =>
    match makeRatio bs radix with
    | .number n => .number n
    | .crash => .crash
    | .invalid => if bs ∈ constants ∨ isDecimal bs then .number (.inexact bs) else .invalid

/-- Two numbers read one after the other; the first that is not a number decides (src/kernel/complex.cpp L32-L43). -/
def Parsed.pair (make : Num → Num → Num) : Parsed → Parsed → Parsed
  | .crash, _ => .crash
  | .invalid, _ => .invalid
  | .number _, .crash => .crash
  | .number _, .invalid => .invalid
  | .number x, .number y => .number (make x y)

/-- A sign (src/kernel/complex.cpp L28). -/
def isSignByte (c : Byte) : Bool := c = 43 || c = 45

/-- `complex(token, radix)` (complex.cpp L26-L50). The regular expression `([+-]?.*)([+-].*)i` is
greedy, so the second group starts at the last sign. Simplified: the regular expression's dot matches
every byte. -/
def makeComplex (bs : List Byte) (radix : Nat) : Parsed :=
  match bs.reverse with
  | c :: body =>
    if c = 105 then
      match body.span (fun c => !isSignByte c) with
      | (after, s :: before) =>
        let real := before.reverse
        let imag := s :: after.reverse
        .pair .rectangular (makeReal (if real = [] then [48] else real) radix)
          (makeReal (if imag.length = 1 then imag ++ [49] else imag) radix)
      | (_, []) => polar
    else polar
  | [] => polar
where
  /-- The regular expression `([+-]?.*)@([+-]?.*)`: the last at sign separates the groups. -/
  polar : Parsed :=
    match bs.reverse.span (· ≠ 64) with
    | (after, _ :: before) => .pair .polar (makeReal before.reverse radix) (makeReal after.reverse radix)
    | (_, []) => .invalid

/-- `make_number` (number.cpp L485-L495), with `make_complex` (L473-L483). -/
def makeNumber (bs : List Byte) (radix : Nat) : Parsed :=
  match makeReal bs radix with
  | .number n => .number n
  | .crash => .crash
  | .invalid => makeComplex bs radix

end Meevax.Text
