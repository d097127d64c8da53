import Verif.Spec.Inexact
import Mathlib.Data.Nat.Digits.Defs

/-
What the text of an inexact number stands for: the decimal numbers of R7RS 7.1.1, and what ISO C++
says of `std::to_chars` with `std::chars_format::general`.
-/

namespace Meevax.Text

open Meevax.Number (Flo Rep)

/-- The character of a decimal digit. -/
def digitByte (d : Fin 10) : UInt8 := .ofNat (48 + d.val)

/-- The number that digits stand for, the most significant first. -/
def digitsValue (ds : List (Fin 10)) : ℕ := Nat.ofDigits 10 (ds.reverse.map Fin.val)

/-- A sign: none, plus, or minus. -/
inductive Sign where
  | none
  | plus
  | minus
  deriving DecidableEq

def Sign.text : Sign → List UInt8
  | .none => []
  | .plus => [43]
  | .minus => [45]

/-- The value with the sign. -/
def Sign.apply (s : Sign) (x : ℚ) : ℚ := if s = .minus then -x else x

/-- An exponent part: its marker, its sign and its digits. -/
structure Exponent where
  marker : UInt8
  sign : Sign
  digits : List (Fin 10)

def Exponent.value (e : Exponent) : ℤ :=
  if e.sign = .minus then -(digitsValue e.digits : ℤ) else digitsValue e.digits

/-- A decimal number as it is written: sign, digits, perhaps a point and more digits, perhaps an
exponent part. -/
structure Decimal where
  sign : Sign
  whole : List (Fin 10)
  /-- The digits after the point, if there is a point. -/
  fraction : Option (List (Fin 10))
  exponent : Option Exponent

namespace Decimal

def fractionDigits (t : Decimal) : List (Fin 10) := t.fraction.getD []

/-- The characters. -/
def text (t : Decimal) : List UInt8 :=
  t.sign.text ++ (t.whole.map digitByte ++ ((match t.fraction with
    | none => []
    | some f => 46 :: f.map digitByte) ++ match t.exponent with
    | none => []
    | some e => e.marker :: (e.sign.text ++ e.digits.map digitByte)))

/-- There is a digit before or after the point, and an exponent part has one of the markers and a
digit. -/
structure Proper (t : Decimal) (markers : List UInt8) : Prop where
  digits : t.whole ++ t.fractionDigits ≠ []
  exponent : ∀ e, t.exponent = some e → e.marker ∈ markers ∧ e.digits ≠ []

/-- A point or an exponent part makes the number inexact. -/
def Inexact (t : Decimal) : Prop := t.fraction.isSome ∨ t.exponent.isSome

/-- The value without sign and exponent part. -/
def significand (t : Decimal) : ℚ :=
  digitsValue t.whole + digitsValue t.fractionDigits / 10 ^ t.fractionDigits.length

/-- The value without the sign. -/
def magnitude (t : Decimal) : ℚ :=
  t.significand * 10 ^ (match t.exponent with
    | none => 0
    | some e => e.value)

/-- The value. -/
def value (t : Decimal) : ℚ := t.sign.apply t.magnitude

end Decimal

/-- The value of the digits with the point after the first of them, times a power of ten. -/
def scientific (ds : List (Fin 10)) (x : ℤ) : ℚ := digitsValue ds * 10 ^ (x - (ds.length - 1 : ℤ))

/-- The digits of an exponent: at least two, and no zero before more than two. -/
def ExponentDigits (n : ℕ) (es : List (Fin 10)) : Prop :=
  digitsValue es = n ∧ 2 ≤ es.length ∧ (2 < es.length → es.head? ≠ some 0)

/-- The style of `printf`'s `%g` conversion (ISO C 7.23.6.1) for digits and the power of ten of the
first of them: fixed notation when the power is at least -4 and less than 6, else scientific
notation. -/
def General (sign : Sign) (ds : List (Fin 10)) (x : ℤ) (t : Decimal) : Prop :=
  t.sign = sign ∧
  if -4 ≤ x ∧ x < 6 then
    t.exponent = none ∧
    if x < 0 then t.whole = [0] ∧ t.fraction = some (List.replicate (-x - 1).toNat 0 ++ ds)
    else if (ds.length : ℤ) ≤ x + 1 then
      t.whole = ds ++ List.replicate (x + 1 - ds.length).toNat 0 ∧ t.fraction = none
    else t.whole = ds.take (x + 1).toNat ∧ t.fraction = some (ds.drop (x + 1).toNat)
  else
    t.whole = ds.take 1 ∧ t.fraction = (if ds.length = 1 then none else some (ds.drop 1)) ∧
    ∃ es, ExponentDigits x.natAbs es ∧ t.exponent = some ⟨101, if x < 0 then .minus else .plus, es⟩

/-- The digits and the power of ten identify the magnitude `m` among those of binary64. -/
def Recovers (ds : List (Fin 10)) (x : ℤ) (m : ℚ) : Prop :=
  (Flo.finite false m).Rounds (scientific ds x)

/-- What ISO C++ says of `std::to_chars` for `double` in the general format and without a precision
([charconv.to.chars]): the style of `%g`, and as few digits as identify the value. It also says which
of several equally long texts is chosen; nothing depends on that here. -/
structure ToChars (tc : Flo → List UInt8) : Prop where
  finite : ∀ s m, Rep m → ∃ ds x t, ds ≠ [] ∧ (m = 0 → x = 0) ∧ Recovers ds x m ∧
    (∀ ds' x', ds' ≠ [] → (m = 0 → x' = 0) → Recovers ds' x' m → ds.length ≤ ds'.length) ∧
    General (if s then .minus else .none) ds x t ∧ tc (.finite s m) = t.text
  infinite : ∀ s, tc (.inf s) = (if s then [45] else []) ++ [105, 110, 102]

end Meevax.Text
