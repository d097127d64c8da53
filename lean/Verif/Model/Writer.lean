import Verif.Model.Reader

/-
Model of `write`: `operator<<` of characters (src/kernel/character.cpp L61-L80), strings
(src/kernel/string.cpp L55-L90), symbols (src/kernel/symbol.cpp L31-L45), pairs (src/kernel/pair.cpp
L71-L111, for lists that are not circular), vectors (src/kernel/vector.cpp L29-L41), bytevectors
(include/meevax/kernel/homogeneous_vector.hpp L77-L93) and immediates
(include/meevax/memory/nan_boxing_pointer.hpp L240-L290), to a port that is not a colour terminal
(`colorable`, src/iostream/escape_sequence.cpp L33-L47, is false for string and file ports).
-/

namespace Meevax.Text

/-- The digits of `n` in `radix`, most significant first: `std::to_chars`, `std::ostream << int` and
`mpz_get_str` for positive bases (lower-case letters)
(src/kernel/number.cpp L932-L937; src/kernel/large_integer.cpp L102). -/
def natDigits (radix : Nat) (n : Nat) : List Byte :=
  if _h : radix < 2 then []
  else if n < radix then [digitChar n]
  else natDigits radix (n / radix) ++ [digitChar (n % radix)]
termination_by n
decreasing_by
  exact Nat.div_lt_self (by omega) (by omega)
where
  /-- The character of a digit. -/
  digitChar (d : Nat) : Byte := if d < 10 then .ofNat (48 + d) else .ofNat (87 + d)

/-- An integer with its sign (src/kernel/number.cpp L932-L937; src/kernel/large_integer.cpp L102). -/
def intDigits (radix : Nat) (n : Int) : List Byte :=
  if n < 0 then 45 :: natDigits radix n.natAbs else natDigits radix n.natAbs

/-- `std::isprint` in the "C" locale; `high` is what the C library answers above 255, where the
standard leaves the call undefined (src/kernel/string.cpp L59). -/
def isPrint (high : Nat → Bool) (c : Nat) : Bool :=
  if c ≤ 255 then 0x20 ≤ c && c ≤ 0x7E else high c

/-- Upper-case hexadecimal digits (`std::hex`, `std::uppercase`, string.cpp L79). -/
def upperHex (n : Nat) : List Byte :=
  (natDigits 16 n).map fun b => if 97 ≤ b ∧ b ≤ 122 then b - 32 else b

/-- One character inside a written string (string.cpp L57-L81). -/
def putChar (high : Nat → Bool) (c : Nat) : List Byte :=
  if isPrint high c then
    if c = 7 then ascii "\\a"
    else if c = 8 then ascii "\\b"
    else if c = 9 then ascii "\\t"
    else if c = 10 then ascii "\\n"
    else if c = 13 then ascii "\\r"
    else if c = 34 then ascii "\\\""
    else if c = 92 then ascii "\\\\"
    else if c = 124 then ascii "\\|"
    else [.ofNat c]
  else ascii "\\x" ++ upperHex c ++ ascii ";"

/-- A written string (string.cpp L55-L90). -/
def writeString (high : Nat → Bool) (cs : List Nat) : List Byte :=
  [34] ++ cs.flatMap (putChar high) ++ [34]

/-- A written character (character.cpp L61-L80). -/
def writeChar (c : Nat) : List Byte :=
  ascii "#\\" ++
    if c = 0x00 then ascii "null"
    else if c = 0x07 then ascii "alarm"
    else if c = 0x08 then ascii "backspace"
    else if c = 0x09 then ascii "tab"
    else if c = 0x0A then ascii "newline"
    else if c = 0x0D then ascii "return"
    else if c = 0x1B then ascii "escape"
    else if c = 0x20 then ascii "space"
    else if c = 0x7F then ascii "delete"
    else utf8 c

/-- A written symbol (symbol.cpp L31-L45): `||` for the empty name, `#"…"` if a byte of the name is
special, else the name itself. `is_special_character` is applied to (signed) `char`s; the byte 0xFF,
which is the end-of-file value then, does not occur in UTF-8. `none`: `string(name)` throws because
the name is not UTF-8. -/
def writeSymbol (high : Nat → Bool) (name : List Byte) : Option (List Byte) :=
  if name = [] then some (ascii "||")
  else if name.any (fun b => isSpecial b.toNat || b = 0xFF) then do
    let cs ← stringOf name
    some ([35] ++ writeString high cs)
  else some name

/-- `number::equals(z.imag(), e0)` (complex.cpp L93) on exact numbers. -/
def isExactZero : Num → Bool
  | .int n => n = 0
  | .ratio n _ => n = 0
  | _ => false

/-- `explicitly_signed` (complex.cpp L99-L111). -/
def explicitlySigned (s : List Byte) : List Byte :=
  match s with
  | [] => [43]
  | c :: _ => if c = 43 ∨ c = 45 then s else 43 :: s

/-- A written number. Exact integers: `std::ostream << int` after `std::dec` or `mpz_get_str`
(nan_boxing_pointer.hpp L247-L250, large_integer.cpp L100-L103). Ratios: `mpq_get_str`
(ratio.cpp L96-L106). Complex numbers: the real part, the imaginary part with a sign in front, and an
`i` (complex.cpp L91-L115), without the colours of a terminal. Inexact numbers are not modelled
(`none`). -/
def writeNum : Num → Option (List Byte)
  | .int n => some (intDigits 10 n)
  | .ratio n d => some (intDigits 10 n ++ (if d = 1 then [] else [47] ++ natDigits 10 d))
  | .rectangular x y =>
    if isExactZero y then writeNum x
    else do
      let s ← writeNum x
      let t ← writeNum y
      some (s ++ explicitlySigned t ++ [105])
  | _ => none

/-- `number->string` (number.cpp L901-L946, boot.cpp L267). Fixnums go through a zeroed buffer of 33
characters that is then read as a C string: when 33 characters are written there is no terminating
NUL and the behaviour is undefined (`none`). Inexact numbers are not modelled (`none`). -/
def numberToString (x : Num) (radix : Nat) : Option (List Byte) :=
  match x with
  | .int n =>
    if -2 ^ 31 ≤ n ∧ n < 2 ^ 31 ∧ 33 ≤ (intDigits radix n).length then none
    else some (intDigits radix n)
  | .ratio _ _ => some (ascii "TODO")
  | .rectangular _ _ => some (ascii "TODO")
  | _ => none

mutual

/-- `operator<<` on an object (collector.cpp L103-L111). -/
def write (high : Nat → Bool) : Datum → Option (List Byte)
  | .null => some (ascii "()")
  | .bool b => some (if b then ascii "#t" else ascii "#f")
  | .num n => writeNum n
  | .char c => some (writeChar c)
  | .string cs => some (writeString high cs)
  | .symbol name => writeSymbol high name
  | .cons a d => do
    let s ← write high a
    let t ← writeTail high d
    some ([40] ++ s ++ t)
  | .vector xs => do
    let s ← writeElements high xs
    some (ascii "#(" ++ s ++ [41])
  | .u8vector bs => some (ascii "#u8(" ++ writeBytes bs ++ [41])
  | .eof => none

/-- The loop over the rest of a list (pair.cpp L97-L110). -/
def writeTail (high : Nat → Bool) : Datum → Option (List Byte)
  | .null => some [41]
  | .cons a d => do
    let s ← write high a
    let t ← writeTail high d
    some ([32] ++ s ++ t)
  | d => do
    let s ← write high d
    some (ascii " . " ++ s ++ [41])

/-- The elements of a vector, separated by spaces (vector.cpp L33-L38). -/
def writeElements (high : Nat → Bool) : List Datum → Option (List Byte)
  | [] => some []
  | [x] => write high x
  | x :: xs => do
    let s ← write high x
    let t ← writeElements high xs
    some (s ++ [32] ++ t)

/-- The elements of a u8vector, separated by spaces (homogeneous_vector.hpp L84-L90). -/
def writeBytes : List Byte → List Byte
  | [] => []
  | [b] => natDigits 10 b.toNat
  | b :: bs => natDigits 10 b.toNat ++ [32] ++ writeBytes bs

end

end Meevax.Text
